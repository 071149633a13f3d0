import Verif.Lemmas.EndsExec
import Verif.Lemmas.PipePhases

/-!
# `await pipeline` and `async with pipeline` come to an end
-/

namespace Shellous

theorem harvestResults_ends_from {F : Sched → Prop} {J : W → Prop} (hF : Good F) (hJ : Stable J) {ids : List Nat} {timed ct : Bool}
    {w : W} {σ : Sched} (h1 : Terms (asyncWait ids timed true) w σ fun _ w' _ => J w') (h2 : WaitOk F J ids ct) (hσ : F σ) :
    Terms (harvestResults ids timed ct) w σ fun _ w' _ => J w' := by
  unfold harvestResults
  refine Terms.bind (Q := fun _ w' _ => J w') ?_ ?_ fun _ _ _ h => h
  · refine Terms.catch_ (Q := fun _ w' _ => J w') ?_ ?_ fun _ _ _ h => h
    · exact (harvestWait_ends_from hF hJ h1 h2 hσ).bind (fun _ _ _ h => .pure h) fun _ _ _ h => h
    · intro k e w' h
      exact (Keeps.ite (fun _ => .pure) fun _ => .raise) w' _ h (hF.shift σ k hσ)
  · intro k c w' h
    refine Terms.getThen ?_
    split
    · exact .pure h
    · exact .raise h

/-- The tasks of the commands. -/
def Crew (ids : List Nat) (w : W) : Prop :=
  w.mine = ids ∧ ∀ i, i ∈ ids → ∃ t, w.tasks[i]? = some t ∧ t.kind = .io

theorem Crew.ext {ids : List Nat} {w w' : W} (h : Crew ids w) (hx : Ext w w') : Crew ids w' := by
  refine ⟨hx.mine.trans h.1, fun i hi => ?_⟩
  obtain ⟨t, ht, hk⟩ := h.2 i hi
  obtain ⟨t', ht', x⟩ := hx.task i t ht
  exact ⟨t', ht', x.kind.trans hk⟩

theorem stable_crew (ids : List Nat) : Stable (Crew ids) where
  env fwd w e h := h.ext (env_ext fwd w e)
  throw w h := h.ext (throwCancel_ext w)
  log _ _ _ h := h
  cancelTask w i h := h.ext (cancelTask_ext w i)

/-- The tasks of the commands, all of them asked to cancel (or done). -/
def Dismissed (ids : List Nat) (w : W) : Prop :=
  Crew ids w ∧ ∀ i, i ∈ ids → ∃ t, w.tasks[i]? = some t ∧ (0 < t.cancels ∨ t.out.isSome = true)

theorem Dismissed.ext {ids : List Nat} {w w' : W} (h : Dismissed ids w) (hx : Ext w w') : Dismissed ids w' := by
  refine ⟨h.1.ext hx, fun i hi => ?_⟩
  obtain ⟨t, ht, hk⟩ := h.2 i hi
  obtain ⟨t', ht', x⟩ := hx.task i t ht
  refine ⟨t', ht', hk.imp (fun h => Nat.lt_of_lt_of_le h x.cancels) fun h => ?_⟩
  rw [x.out h]; exact h

theorem stable_dismissed (ids : List Nat) : Stable (Dismissed ids) where
  env fwd w e h := h.ext (env_ext fwd w e)
  throw w h := h.ext (throwCancel_ext w)
  log _ _ _ h := h
  cancelTask w i h := h.ext (cancelTask_ext w i)

theorem Crew.dismiss {ids : List Nat} {w : W} (h : Crew ids w) : Dismissed ids (w.cancelAll ids) := by
  refine ⟨h.ext (cancelAll_ext ids w), fun i hi => ?_⟩
  obtain ⟨t, ht, _⟩ := h.2 i hi
  obtain ⟨t', ht', x⟩ := (cancelAll_ext ids w).task i t ht
  refine ⟨t', ht', ?_⟩
  have hl : i < w.tasks.length := by
    rcases Nat.lt_or_ge i w.tasks.length with h | h
    · exact h
    · rw [List.getElem?_eq_none h] at ht; cases ht
  cases ho : t.out with
  | some o => exact .inr (by rw [x.out (by simp [ho])]; simp [ho])
  | none =>
    have hd : w.isDone i = false := by simp [W.isDone, ht, ho]
    obtain ⟨a, b, ha, hb, hc⟩ := cancelAll_asked hi hl hd
    rw [ht'] at hb
    cases hb
    exact .inl (by omega)

theorem crew_due {F : Sched → Prop} (hx : ∀ σ, F σ → σ.Finishes) (ids : List Nat) : Due F (Crew ids) ids := by
  intro i hi w σ hw hσ
  refine evt (J := Crew ids) (fun w e h => (stable_crew ids).env none w e h) (fun w e h => isDone_env w e h) (hx σ hσ i) ?_
    ⟨0, fun m _ => evolve_keeps (fun w e h => (stable_crew ids).env none w e h) (Nat.zero_le m) hw⟩
  rintro w e hu ⟨r, rfl⟩
  obtain ⟨t, ht, hk⟩ := hu.2 i hi
  refine taskDone_done ht r ?_
  unfold W.mayEnd
  rw [hk]

theorem dismissed_due {F : Sched → Prop} (hx : ∀ σ, F σ → σ.Yields) (ids : List Nat) : Due F (Dismissed ids) ids := by
  intro i hi w σ hw hσ
  refine evt (J := Dismissed ids) (fun w e h => (stable_dismissed ids).env none w e h) (fun w e h => isDone_env w e h) (hx σ hσ i) ?_
    ⟨0, fun m _ => evolve_keeps (fun w e h => (stable_dismissed ids).env none w e h) (Nat.zero_le m) hw⟩
  rintro w e hu rfl
  obtain ⟨t, ht, hk⟩ := hu.1.2 i hi
  obtain ⟨t', ht', hc⟩ := hu.2 i hi
  rw [ht] at ht'; cases ht'
  simp only [W.env, ht, hk]
  cases ho : t.out with
  | some o =>
    simp only [Option.isNone_some, Bool.false_and, Bool.false_eq_true, if_false]
    simp [W.isDone, ht, ho]
  | none =>
    have : 0 < t.cancels := by simpa [ho] using hc
    simp [this, W.isDone, W.setOut, List.getElem?_modify, ht]

/-- The wait for the commands ends if its first wait does. -/
theorem pipeWait_ends {F : Sched → Prop} {J : W → Prop} (hF : Good F) (hJ : Stable J) {kill : Bool} {w : W} {σ : Sched}
    (h1 : Terms (asyncWait w.mine false true) (if kill then w.cancelAll w.mine else w) σ fun _ w' _ => J w')
    (h2 : WaitOk F J w.mine true) (hσ : F σ) : Terms (pipeWait kill) w σ fun _ _ _ => True := by
  unfold pipeWait
  refine Terms.getThen ?_
  refine Terms.bind (Q := fun o w' σ' => o = .ok () ∧ w' = (if kill then w.cancelAll w.mine else w) ∧ σ' = σ) ?_ ?_ ?_
  · cases kill with
    | true => exact .upd ⟨rfl, rfl, rfl⟩
    | false => exact .pure ⟨rfl, rfl, rfl⟩
  · rintro k _ w' ⟨_, rfl, hs⟩
    rw [hs]
    refine (harvestResults_ends_from hF hJ h1 h2 hσ).bind (fun k p w' _ => ?_) fun _ _ _ _ => trivial
    obtain ⟨c, l⟩ := p
    refine Terms.bind (Q := fun _ _ _ => True) (.when (fun _ => .upd trivial) fun _ => trivial) (fun _ _ _ _ => ?_) fun _ _ _ h => h
    exact Terms.updThen (.pure trivial)
  · rintro k e w' ⟨h, _⟩; cases h

/-- After the commands have been asked to cancel, the wait for them ends if they obey. -/
theorem pipeKill_ends {F : Sched → Prop} (hF : Good F) (hx : ∀ σ, F σ → σ.Yields) {w : W} {σ : Sched} (hw : Crew w.mine w)
    (hσ : F σ) : Terms (pipeWait true) w σ fun _ _ _ => True :=
  pipeWait_ends hF (stable_dismissed w.mine)
    (asyncWait_ends hF (stable_dismissed w.mine) (ids := w.mine) (.inr (dismissed_due hx _)) (fun _ h => h) _ σ hw.dismiss hσ)
    (.inr (dismissed_due hx _)) hσ

/-- Leaving the `async with`. -/
theorem pipeAexit_ends {w : W} {σ : Sched} {ex : Option Exc}
    (h : Terms (pipeWait ex.isSome) (match ex with | some .cancelled => { w with cancelled := true } | _ => w) σ fun _ _ _ => True) :
    Terms (pipeAexit ex) w σ fun _ _ _ => True := by
  unfold pipeAexit
  refine Terms.catch_ (Q := fun _ _ _ => True) ?_ ?_ fun _ _ _ h => h
  · refine Terms.bind (Q := fun _ _ _ => True) ?_ (fun _ _ _ _ => .pure trivial) fun _ _ _ h => h
    cases ex with
    | none =>
      unfold pipeFinish
      exact h.bind (fun _ _ _ _ => .pure trivial) fun _ _ _ h => h
    | some e =>
      unfold pipeFinish
      refine Terms.bind (Q := fun o w' σ' => o = .ok () ∧ w' = (if e = .cancelled then { w with cancelled := true } else w) ∧ σ' = σ)
        ?_ ?_ ?_
      · by_cases he : e = .cancelled
        · subst he; exact .upd ⟨rfl, rfl, rfl⟩
        · simp only [he, decide_false, if_false]; exact .pure ⟨rfl, rfl, rfl⟩
      · rintro k _ w' ⟨_, rfl, hs⟩
        rw [hs]
        have h' : Terms (pipeWait true) (if e = .cancelled then { w with cancelled := true } else w) σ fun _ _ _ => True := by
          split
          · subst_vars; exact h
          · rename_i he
            cases e <;> first | exact h | exact absurd rfl he
        exact h'.bind (fun _ _ _ _ => Terms.getThen (.pure trivial)) fun _ _ _ h => h
      · rintro k x w' ⟨h, _⟩; cases h
  · intro k e w' _
    split
    · exact Terms.updThen (.pure trivial)
    · exact .raise trivial

/-- The exception a statement ended with. -/
def Out.exc? {α : Type} : Out α → Option Exc
  | .exc e => some e
  | _ => none

/-- Entering, the body, leaving: if each of them ends, so does the statement. -/
theorem withPipe_ends {cfg : PRCfg} {capt : Bool} {body : Coro Unit} {w : W} {σ : Sched}
    (h : Terms (pipeAenter cfg capt) w σ fun o w1 σ1 => o = .ok () → Terms body (w1.log .bodyStart) σ1 fun o w2 σ2 =>
      Terms (pipeAexit o.exc?) (w2.log (.bodyEnd o.exc?)) σ2 fun _ _ _ => True) :
    Terms (withPipe cfg capt body) w σ fun _ _ _ => True := by
  unfold withPipe
  refine h.bind (fun k _ w1 h1 => ?_) fun _ _ _ _ => trivial
  refine Terms.updThen ?_
  refine Terms.bind (Q := fun o w2 σ2 => ∃ r, o = .ok r ∧
    Terms (pipeAexit r) (w2.log (.bodyEnd r)) σ2 fun _ _ _ => True) ?_ ?_ fun _ _ _ _ => trivial
  · obtain ⟨k2, r, w2, g1, g2, g3⟩ := h1 rfl
    cases r with
    | blocked => exact absurd rfl g1
    | ok u => exact ⟨k2, .ok none, w2, by simp, fun l => by rw [attempt, g2], none, rfl, g3⟩
    | exc e => exact ⟨k2, .ok (some e), w2, by simp, fun l => by rw [attempt, g2], some e, rfl, g3⟩
  · rintro k2 r w2 ⟨r', hr, h3⟩
    cases hr
    refine Terms.updThen ?_
    refine h3.bind (fun k3 p w3 _ => ?_) fun _ _ _ _ => trivial
    obtain ⟨s, l⟩ := p
    cases r with
    | none => exact .pure trivial
    | some e =>
      dsimp only
      split
      · exact .pure trivial
      · exact .raise trivial

/-- If the setup fails, entering ends at once. -/
theorem pipeAenter_setup {how : PHow} {cfg : PRCfg} {w : W} (hf : w.Fresh) {e : Exc} (hs : cfg.setupErr = some e) {σ : Sched}
    {Q : Out Unit → W → Sched → Prop} (hq : ∀ w', Q (.exc .valueError) w' σ) :
    Terms (pipeAenter cfg (decide (how = .block))) w σ Q := by
  have := pipeAenter_phase how cfg w hf []
  cases this with
  | setup e' _ h => exact .now (fun l => h l) (by simp) (hq _)
  | launching w1 h => rw [hs] at h; cases h
  | ok w1 rest h => rw [hs] at h; cases h
  | interrupted w1 rest h => rw [hs] at h; cases h

theorem pipeAenter_await {cfg : PRCfg} {w : W} (hf : w.Fresh) (hs : cfg.setupErr = none) (evs : List Ev) :
    pipeAenter cfg false w evs = (.ok (), w.piped .await cfg, evs) := by
  have : pipeStartRun cfg false w evs = (.ok (), w.piped .await cfg, evs) := by
    unfold pipeStartRun
    rw [bind_ok (a := ()) (w' := w) (evs' := evs) (by rw [hs]; rfl)]
    simp only [Bool.false_eq_true, if_false]
    rw [addTasks_eq]
    simp [W.piped, hf.tasks, hf.mine, readyFutures, commands]
  exact catch_ok this

theorem pipeStartRun_block {cfg : PRCfg} {w : W} (hf : w.Fresh) (hs : cfg.setupErr = none) (evs : List Ev) :
    pipeStartRun cfg true w evs =
      waitLoop none (fun w => w.isDone 0 && w.isDone 1) false false (w.piped .block cfg) evs := by
  unfold pipeStartRun
  rw [bind_ok (a := ()) (w' := w) (evs' := evs) (by rw [hs]; rfl)]
  simp only [if_true]
  exact setupCapturing_eq cfg w hf evs

theorem piped_crew (how : PHow) (cfg : PRCfg) (w : W) : Crew (commands how cfg) (w.piped how cfg) := by
  refine ⟨rfl, fun i hi => ?_⟩
  cases how with
  | await =>
    simp only [commands, List.mem_range'_1] at hi
    refine ⟨{ kind := .io }, ?_, rfl⟩
    show ([] ++ List.replicate cfg.n _)[i]? = _
    rw [List.nil_append, List.getElem?_replicate, if_pos (by omega)]
  | block =>
    simp only [commands, List.mem_range'_1] at hi
    refine ⟨{ kind := .io }, ?_, rfl⟩
    show ([_, _] ++ List.replicate cfg.n _)[i]? = _
    rw [List.getElem?_append_right (by simpa using hi.1), List.getElem?_replicate, if_pos (by simp; omega)]

/-- The rest of `await pipeline` does not wait. -/
theorem runPipeline_ends {cfg : PRCfg} {w : W} {σ : Sched}
    (h : Terms (withPipe cfg false (Coro.pure ())) w σ fun _ _ _ => True) : PEndsOn .await cfg w σ := by
  have h2 : Terms (runPipeline cfg) w σ fun _ _ _ => True := by
    unfold runPipeline
    refine h.bind (fun k res w' _ => ?_) fun _ _ _ _ => trivial
    refine Terms.bind (Q := fun _ _ _ => True) ?_ (fun _ r w'' _ => ?_) fun _ _ _ _ => trivial
    · unfold pipeRunResult
      refine Terms.getThen ?_
      split
      · exact .raise trivial
      · split
        · exact .pure trivial
        · exact .raise trivial
    · split
      · exact .pure trivial
      · split
        · exact .pure trivial
        · exact .raise trivial
  obtain ⟨n, hn⟩ := h2.upto
  refine ⟨n, ?_⟩
  unfold pipeExecute
  dsimp only
  rcases h : runPipeline cfg w (σ.upto n) with ⟨o, w', r⟩
  rw [h] at hn
  cases o with
  | blocked => exact absurd rfl hn
  | ok a => simp
  | exc e => simp

theorem pipeBlock_ends {cfg : PRCfg} {w : W} {σ : Sched}
    (h : Terms (withPipe cfg true userBody) w σ fun _ _ _ => True) : PEndsOn .block cfg w σ := by
  obtain ⟨n, hn⟩ := h.upto
  refine ⟨n, ?_⟩
  unfold pipeExecute pipeBlock
  dsimp only
  rcases h : withPipe cfg true userBody w (σ.upto n) with ⟨o, w', r⟩
  rw [h] at hn
  cases o with
  | blocked => exact absurd rfl hn
  | ok a => simp
  | exc e => simp

/-- The world in which `await pipeline` waits for its commands. -/
def W.waiting (cfg : PRCfg) (w : W) : W := ((w.piped .await cfg).log .bodyStart).log (.bodyEnd none)

/-- `await pipeline` ends if the wait for its commands ends. -/
theorem pipeAwait_ends {F : Sched → Prop} (hF : Good F) {cfg : PRCfg} {w : W} (hf : w.Fresh) {σ : Sched} (hσ : F σ)
    (h2 : WaitOk F (Crew (commands .await cfg)) (commands .await cfg) true)
    (h1 : cfg.setupErr = none → Terms (asyncWait (commands .await cfg) false true) (w.waiting cfg) σ fun _ w' _ =>
      Crew (commands .await cfg) w') : PEndsOn .await cfg w σ := by
  refine runPipeline_ends (withPipe_ends ?_)
  cases hs : cfg.setupErr with
  | some e => exact pipeAenter_setup (how := .await) hf hs fun w' h => by cases h
  | none =>
    refine .now (fun l => pipeAenter_await hf hs l) (by simp) fun _ => .pure ?_
    exact pipeAexit_ends (ex := none) (pipeWait_ends hF (stable_crew _) (kill := false) (h1 hs) h2 hσ)

/-- What `await pipeline` is like while it waits for its commands. -/
theorem pipeAwait_waits {cfg : PRCfg} {w : W} (hf : w.Fresh) (hs : cfg.setupErr = none) {evs : List Ev} {w' : W}
    (h : asyncWait (commands .await cfg) false true (w.waiting cfg) evs = (.blocked, w', [])) :
    pipeExecute .await cfg w evs = (.blocked, w') := by
  have h1 : harvestResults (commands .await cfg) false true (w.waiting cfg) evs = (.blocked, w', []) := by
    have h0 : harvestWait (commands .await cfg) false true false (w.waiting cfg) evs = (.blocked, w', []) := by
      simp only [harvestWait, Bind.bind, Coro.bind, Coro.catch_, h]
    simp only [harvestResults, Bind.bind, Coro.bind, Coro.catch_, h0]
  have h2 : pipeWait false (w.waiting cfg) evs = (.blocked, w', []) := by
    rw [pipeWait_eq]
    simp only [Bool.false_eq_true, if_false]
    rw [show (w.waiting cfg).mine = commands .await cfg from rfl, h1]
  have h3 : pipeAexit none (w.waiting cfg) evs = (.blocked, w', []) := by
    simp only [pipeAexit, pipeFinish, Bind.bind, Coro.bind, Coro.catch_, h2]
  have h4 : withPipe cfg false (Coro.pure ()) w evs = (.blocked, w', []) := by
    unfold withPipe
    rw [bind_ok (pipeAenter_await hf hs evs)]
    have h3' : pipeAexit none (((w.piped .await cfg).log .bodyStart).log (.bodyEnd none)) evs = (.blocked, w', []) := h3
    simp only [Bind.bind, Coro.bind, Coro.upd, attempt, Coro.pure, h3']
  unfold pipeExecute runPipeline
  rw [bind_blocked h4]

/-- What `async with pipeline` is like while it waits for the launches. -/
theorem pipeBlock_waits {cfg : PRCfg} {w : W} (hf : w.Fresh) (hs : cfg.setupErr = none) {evs : List Ev} {w' : W}
    (h : waitLoop none (fun w => w.isDone 0 && w.isDone 1) false false (w.piped .block cfg) evs = (.blocked, w', [])) :
    pipeExecute .block cfg w evs = (.blocked, w') := by
  have h1 : pipeAenter cfg true w evs = (.blocked, w', []) :=
    catch_blocked ((pipeStartRun_block hf hs evs).trans h)
  have h2 : withPipe cfg true userBody w evs = (.blocked, w', []) := by
    unfold withPipe
    rw [bind_blocked h1]
  unfold pipeExecute pipeBlock
  simp only [h2]

/-- `async with pipeline` ends if entering it does. -/
theorem pipeBlock_ends_from {F : Sched → Prop} (hF : Good F) (hl : ∀ σ, F σ → σ.Leaves) {cfg : PRCfg} {w : W} (hf : w.Fresh) {σ : Sched} (hσ : F σ)
    (hwait : cfg.setupErr = none → ∃ m r w', (∀ l, waitLoop none (fun w => w.isDone 0 && w.isDone 1) false false (w.piped .block cfg)
        (σ.upto (m + 1) ++ l) = (r, w', l)) ∧
        ((r = .ok () ∧ w' = evolve none (w.piped .block cfg) σ m ∧ w'.mustCancel = false) ∨
          (r = .exc .cancelled ∧ w' = (evolve none (w.piped .block cfg) σ m).throwCancel)))
    (hkill : ∀ w' σ', Crew w'.mine w' → F σ' → Terms (pipeWait true) w' σ' fun _ _ _ => True)
    (hleave : ∀ w' σ', Crew w'.mine w' → F σ' → (∃ n, σ n = .bodyDone none) → Terms (pipeWait false) w' σ' fun _ _ _ => True) :
    PEndsOn .block cfg w σ := by
  refine pipeBlock_ends (withPipe_ends ?_)
  cases hs : cfg.setupErr with
  | some e => exact pipeAenter_setup (how := .block) hf hs fun w' h => by cases h
  | none =>
    obtain ⟨m, r, w1, h1, h2⟩ := hwait hs
    have hc : Crew (commands .block cfg) (evolve none (w.piped .block cfg) σ m) :=
      evolve_keeps (fun w e h => (stable_crew _).env none w e h) (Nat.zero_le m) (piped_crew .block cfg w)
    rcases h2 with ⟨rfl, rfl, _⟩ | ⟨rfl, rfl⟩
    · refine ⟨m + 1, .ok (), _, by simp, fun l => catch_ok ((pipeStartRun_block hf hs _).trans (h1 l)), fun _ => ?_⟩
      have hσ1 := hF.shift σ (m + 1) hσ
      obtain ⟨k2, o, w2, g1, g2, hx, n, x, hn, hox⟩ := userBody_ends0
        (w := (evolve none (w.piped .block cfg) σ m).log .bodyStart) (hl _ hσ1)
      refine ⟨k2, o, w2, g1, g2, pipeAexit_ends ?_⟩
      have hc2 : Crew (commands .block cfg) w2 := Crew.ext (w := (evolve none (w.piped .block cfg) σ m).log .bodyStart) hc hx
      have hσ2 := hF.shift _ k2 hσ1
      have hc' : Crew w2.mine w2 := by rw [hc2.1]; exact hc2
      cases o with
      | blocked => exact absurd rfl g1
      | ok u =>
        refine hleave (w2.log (.bodyEnd none)) _ hc' hσ2 ⟨m + 1 + n, ?_⟩
        rw [← hox rfl, ← hn]; rfl
      | exc e =>
        simp only [Out.exc?, Option.isSome_some]
        split
        · exact hkill _ _ hc' hσ2
        · exact hkill _ _ hc' hσ2
    · have hstart : Terms (pipeStartRun cfg true) w σ fun o w' σ' => o = .exc .cancelled ∧ Crew w'.mine w' ∧ F σ' := by
        refine ⟨m + 1, .exc .cancelled, _, by simp, fun l => (pipeStartRun_block hf hs _).trans (h1 l), rfl, ?_, hF.shift σ _ hσ⟩
        have := hc.ext (throwCancel_ext _)
        rw [this.1]; exact this
      unfold pipeAenter
      refine hstart.catch_ (fun k e w' h => ?_) fun _ _ _ h => (by cases h.1)
      obtain ⟨he, hc', hσ'⟩ := h
      cases he
      refine Terms.bind (Q := fun o w'' σ'' => Crew w''.mine w'' ∧ F σ'') (.upd ⟨hc', hσ'⟩) (fun _ _ w'' h => ?_) fun _ _ _ _ => by simp
      exact (hkill w'' _ h.1 h.2).bind (fun _ _ _ _ => .raise (by simp)) fun _ _ _ _ => by simp

end Shellous
