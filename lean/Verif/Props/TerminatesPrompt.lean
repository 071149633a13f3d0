import Verif.Props.TerminatesPipe
import Verif.Spec.Sessions

/-!
# C94: prompt sessions come to an end
-/

namespace Shellous.Props

open Shellous

theorem ext_cli (w : W) : Ext w { w with cli := some none } :=
  have h := Ext.refl w
  ⟨h.len, h.task, h.cancels, h.mine, h.cancelled, h.timer, h.timedOut, h.timedOutBy, h.proc, h.attached, h.trace⟩

/-- The body of a session ends if the user's block does. -/
theorem promptBody_ends {p : PromptCfg} {w : W} {σ : Sched} (hl : σ.Leaves) :
    Terms (promptBody p) w σ fun o w' _ => Ext w w' ∧ (o = .ok () → ∃ n, σ n = .bodyDone none) := by
  unfold promptBody
  refine Terms.bind (Q := fun o w' σ' => w' = w ∧ σ' = σ) (Terms.raiseOpt (fun _ => ⟨rfl, rfl⟩) fun _ _ => ⟨rfl, rfl⟩) (fun k _ w1 h => ?_) fun k e w1 h => ?_
  · obtain ⟨rfl, h⟩ := h
    rw [h]
    refine Terms.updThen ?_
    refine Terms.bind (userBody_ends0 hl) (fun k2 _ w2 h2 => ?_) fun k2 e w2 h2 => ?_
    · obtain ⟨hx, n, x, hn, hox⟩ := h2
      have hx' : Ext w1 w2 := (ext_cli w1).trans hx
      refine Terms.raiseOpt (fun _ => ⟨hx', fun _ => ⟨n, ?_⟩⟩) fun x _ => ⟨hx', by simp⟩
      rw [hn, hox rfl]
    · exact ⟨(ext_cli w1).trans h2.1, by simp⟩
  · obtain ⟨rfl, -⟩ := h
    exact ⟨Ext.refl _, by simp⟩

/-- `cli._finish_()` does not wait. -/
theorem finishCli_now {res : Coro Result} {w : W} {σ : Sched} (h : Terms res w σ fun _ _ _ => True) :
    Terms (finishCli res) w σ fun _ _ _ => True := by
  unfold finishCli
  refine Terms.getThen (Terms.when (fun _ => ?_) fun _ => trivial)
  exact h.bind (fun _ _ _ _ => .upd trivial) fun _ _ _ _ => trivial

section
variable {F : Sched → Prop} (hF : Good F) (hL : ∀ σ, F σ → σ.Launches) {cfg : RCfg} (hm : WaitMode F cfg.cancelTimed)
include hF hL hm

theorem session_ends {p : PromptCfg} {w : W} {σ : Sched} (hf : w.Fresh) (hσ : F σ) (hlv : ∀ σ, F σ → σ.Leaves)
    (hwait : ∀ w σ', Up w → F σ' → (∃ σ0, F σ0 ∧ ∃ n, σ0 n = .bodyDone none) → WaitEnds cfg (w.log (.bodyEnd none)) σ') : SessionEnds cfg p w σ := by
  have h1 : Terms (withRun cfg (promptBody p)) w σ fun _ _ _ => True := by
    refine withRun_ends hF hL hm hf hσ fun w1 k hl hσ1 _ _ => ?_
    refine (promptBody_ends (hlv _ hσ1)).mono fun k2 o w2 h => ?_
    have hu : Up w2 := Up.of (w := w1.log .bodyStart) hl.up h.1.toRExt fun i hi => by rwa [h.1.mine] at hi
    exact ⟨hu, fun ho => hwait w2 _ hu (hF.shift _ k2 hσ1) ⟨_, hσ1, h.2 ho⟩⟩
  obtain ⟨n, hn⟩ := (Terms.finally_ (R := fun _ _ _ => True) h1 fun k r w' _ =>
    (finishCli_now (runResult_now cfg false w' _ fun _ => trivial)).mono fun _ o _ _ => by cases o <;> trivial).upto
  exact ⟨n, hn⟩

end

/-- **C94** A prompt session ends if the user's block ends, the child exits and its streams come to their ends: on every schedule, with
any number of cancellations, timeouts, signals and failures, and whether or not `Prompt()` or `cli.close()` raises. -/
theorem C94_session (cfg : RCfg) (p : PromptCfg) (w : W) (hf : w.Fresh) (σ : Sched) (hr : σ.Runs) (hl : σ.Launches) (hx : σ.Exits)
    (hd : σ.Finishes) (hb : σ.Leaves) : SessionEnds cfg p w σ :=
  session_ends healthyBlock_good (fun _ h => h.launches) (.inr fun _ h => ⟨h.exits, h.finishes⟩) hf
    (⟨⟨hr, hl, hx, hd⟩, hb⟩ : HealthyBlock σ) (fun _ h => h.leaves) fun w2 _ hu hσ' _ =>
      wait_fair healthyBlock_good (fun _ h => ⟨h.exits, h.finishes⟩) (show Up (w2.log (.bodyEnd none)) from hu) hσ'

/-- **C94** When the user's block is left by an exception (a `TimeoutError` of `expect`, say, or a cancellation), the session ends
whatever the child and its streams do. -/
theorem C94_session_failed (cfg : RCfg) (p : PromptCfg) (w : W) (hf : w.Fresh) (σ : Sched) (hb : σ.Leaves)
    (he : ∀ n x, σ n = .bodyDone x → x ≠ none) (ht : cfg.cancelTimed = true) (hr : σ.Runs) (hl : σ.Launches) (hk : σ.Ticks) :
    SessionEnds cfg p w σ :=
  session_ends clockFail_good (fun _ h => h.launches) (.inl ⟨ht, fun _ h => h.ticks⟩) hf
    (⟨⟨hr, hl, hk⟩, hb, he⟩ : ClockFail σ) (fun _ h => h.leaves) fun _ _ _ _ h => by
      obtain ⟨σ0, h0, n, hn⟩ := h
      exact absurd rfl (h0.fails n none hn)

/-! ## Pipelines -/

theorem pipeRunResult_now {cfg : PRCfg} {res : Option (List TOut)} {check : Bool} {w : W} {σ : Sched} :
    Terms (pipeRunResult cfg res check) w σ fun _ _ _ => True := by
  unfold pipeRunResult
  refine Terms.getThen ?_
  split
  · exact .raise trivial
  · split
    · exact .pure trivial
    · exact .raise trivial

theorem withPipePrompt_ends {cfg : PRCfg} {p : PromptCfg} {w : W} {σ : Sched}
    (h : Terms (pipeAenter cfg true) w σ fun o w1 σ1 => o = .ok () → Terms (promptBody p) (w1.log .bodyStart) σ1 fun o w2 σ2 =>
      Terms (pipeAexit o.exc?) (w2.log (.bodyEnd o.exc?)) σ2 fun _ _ _ => True) : PSessionEnds cfg p w σ := by
  have : Terms (withPipePrompt cfg p) w σ fun _ _ _ => True := by
    unfold withPipePrompt
    refine h.bind (fun k _ w1 h1 => ?_) fun _ _ _ _ => trivial
    refine Terms.updThen ?_
    refine Terms.bind (Q := fun o w2 σ2 => ∃ r, o = .ok r ∧
      Terms (pipeAexit r) (w2.log (.bodyEnd r)) σ2 fun _ _ _ => True) ?_ ?_ fun _ _ _ _ => trivial
    · obtain ⟨k2, r, w2, g1, g2, g3⟩ := h1 rfl
      cases r with
      | blocked => exact absurd rfl g1
      | ok u => exact ⟨k2, .ok none, w2, by simp, fun l => by rw [attempt, g2], none, rfl, g3⟩
      | exc e => exact ⟨k2, .ok (some e), w2, by simp, fun l => by rw [attempt, g2], some e, rfl, g3⟩
    · rintro k2 r w2 ⟨r', hr, h3⟩
      cases hr
      refine Terms.updThen ?_
      have h4 : Terms (attemptValue (pipeAexit r)) (w2.log (.bodyEnd r)) ((σ.shift k).shift k2) fun _ _ _ => True := by
        obtain ⟨k3, o, w3, g1, g2, -⟩ := h3
        cases o with
        | blocked => exact absurd rfl g1
        | ok u => exact ⟨k3, .ok (.inr u), w3, by simp, fun l => by rw [attemptValue, g2], trivial⟩
        | exc e => exact ⟨k3, .ok (.inl e), w3, by simp, fun l => by rw [attemptValue, g2], trivial⟩
      refine h4.bind (fun k3 x w3 _ => ?_) fun _ _ _ _ => trivial
      cases x with
      | inl e => exact (finishCli_now pipeRunResult_now).bind (fun _ _ _ _ => .raise trivial) fun _ _ _ _ => trivial
      | inr x =>
        obtain ⟨s, l⟩ := x
        refine (finishCli_now pipeRunResult_now).bind (fun _ _ _ _ => ?_) fun _ _ _ _ => trivial
        cases r with
        | none => exact .pure trivial
        | some e =>
          dsimp only
          split
          · exact .pure trivial
          · exact .raise trivial
  obtain ⟨n, hn⟩ := this.upto
  exact ⟨n, hn⟩

theorem pSession_ends_from {F : Sched → Prop} (hF : Good F) (hl : ∀ σ, F σ → σ.Leaves) {cfg : PRCfg} {p : PromptCfg} {w : W} (hf : w.Fresh) {σ : Sched} (hσ : F σ)
    (hwait : cfg.setupErr = none → ∃ m r w', (∀ l, waitLoop none (fun w => w.isDone 0 && w.isDone 1) false false (w.piped .block cfg)
        (σ.upto (m + 1) ++ l) = (r, w', l)) ∧
        ((r = .ok () ∧ w' = evolve none (w.piped .block cfg) σ m ∧ w'.mustCancel = false) ∨
          (r = .exc .cancelled ∧ w' = (evolve none (w.piped .block cfg) σ m).throwCancel)))
    (hkill : ∀ w' σ', Crew w'.mine w' → F σ' → Terms (pipeWait true) w' σ' fun _ _ _ => True)
    (hleave : ∀ w' σ', Crew w'.mine w' → F σ' → (∃ n, σ n = .bodyDone none) → Terms (pipeWait false) w' σ' fun _ _ _ => True) :
    PSessionEnds cfg p w σ := by
  refine withPipePrompt_ends ?_
  cases hs : cfg.setupErr with
  | some e => exact pipeAenter_setup (how := .block) hf hs fun w' h => by cases h
  | none =>
    obtain ⟨m, r, w1, h1, h2⟩ := hwait hs
    have hc : Crew (commands .block cfg) (evolve none (w.piped .block cfg) σ m) :=
      evolve_keeps (fun w e h => (stable_crew _).env none w e h) (Nat.zero_le m) (piped_crew .block cfg w)
    rcases h2 with ⟨rfl, rfl, _⟩ | ⟨rfl, rfl⟩
    · refine ⟨m + 1, .ok (), _, by simp, fun l => catch_ok ((pipeStartRun_block hf hs _).trans (h1 l)), fun _ => ?_⟩
      have hσ1 := hF.shift σ (m + 1) hσ
      obtain ⟨k2, o, w2, g1, g2, hx, hox⟩ := promptBody_ends (p := p)
        (w := (evolve none (w.piped .block cfg) σ m).log .bodyStart) (hl _ hσ1)
      refine ⟨k2, o, w2, g1, g2, pipeAexit_ends ?_⟩
      have hc2 : Crew (commands .block cfg) w2 := Crew.ext (w := (evolve none (w.piped .block cfg) σ m).log .bodyStart) hc hx
      have hσ2 := hF.shift _ k2 hσ1
      have hc' : Crew w2.mine w2 := by rw [hc2.1]; exact hc2
      cases o with
      | blocked => exact absurd rfl g1
      | ok u =>
        obtain ⟨n, hn⟩ := hox rfl
        exact hleave (w2.log (.bodyEnd none)) _ hc' hσ2 ⟨m + 1 + n, hn⟩
      | exc e =>
        simp only [Out.exc?, Option.isSome_some]
        split
        · exact hkill _ _ hc' hσ2
        · exact hkill _ _ hc' hσ2
    · have hstart : Terms (pipeStartRun cfg true) w σ fun o w' σ' => o = .exc .cancelled ∧ Crew w'.mine w' ∧ F σ' := by
        refine ⟨m + 1, .exc .cancelled, _, by simp, fun l => (pipeStartRun_block hf hs _).trans (h1 l), rfl, ?_, hF.shift σ _ hσ⟩
        have := hc.ext (throwCancel_ext _)
        rw [this.1]; exact this
      unfold pipeAenter
      refine hstart.catch_ (fun k e w' h => ?_) fun _ _ _ h => (by cases h.1)
      obtain ⟨he, hc', hσ'⟩ := h
      cases he
      refine Terms.bind (Q := fun o w'' σ'' => Crew w''.mine w'' ∧ F σ'') (.upd ⟨hc', hσ'⟩) (fun _ _ w'' h => ?_) fun _ _ _ _ => by simp
      exact (hkill w'' _ h.1 h.2).bind (fun _ _ _ _ => .raise (by simp)) fun _ _ _ _ => by simp

theorem pSession_waits {cfg : PRCfg} {p : PromptCfg} {w : W} (hf : w.Fresh) (hs : cfg.setupErr = none) {evs : List Ev} {w' : W}
    (h : waitLoop none (fun w => w.isDone 0 && w.isDone 1) false false (w.piped .block cfg) evs = (.blocked, w', [])) :
    withPipePrompt cfg p w evs = (.blocked, w', []) := by
  have h1 : pipeAenter cfg true w evs = (.blocked, w', []) := catch_blocked ((pipeStartRun_block hf hs evs).trans h)
  unfold withPipePrompt
  rw [bind_blocked h1]

/-- **C94** A prompt session of a pipeline ends if the first and the last command get launched (0 and 1 are the futures that tell so), the
run of every command ends, and the user's block ends. -/
theorem C94_pipe (cfg : PRCfg) (p : PromptCfg) (w : W) (hf : w.Fresh) (σ : Sched)
    (hl : ∃ n, (withPipePrompt cfg p w (σ.upto n)).2.1.isDone 0 = true ∧ (withPipePrompt cfg p w (σ.upto n)).2.1.isDone 1 = true)
    (hr : σ.Runs) (hd : σ.Finishes) (hb : σ.Leaves) : PSessionEnds cfg p w σ := by
  have hσ : PHealthyBlock σ := ⟨⟨hr, hd⟩, hb⟩
  have due : ∀ ids, Due PHealthyBlock (Crew ids) ids := crew_due fun _ h => h.finishes
  have hw : ∀ (kill : Bool) w' σ', Crew w'.mine w' → PHealthyBlock σ' → Terms (pipeWait kill) w' σ' fun _ _ _ => True := by
    intro kill w' σ' hc hσ'
    refine pipeWait_ends pHealthyBlock_good (stable_crew w'.mine) ?_ (.inr (due _)) hσ'
    refine asyncWait_ends pHealthyBlock_good (stable_crew _) (ids := w'.mine) (.inr (due _)) (fun _ h => h) _ σ' ?_ hσ'
    cases kill with
    | false => exact hc
    | true => exact hc.ext (cancelAll_ext _ _)
  refine pSession_ends_from pHealthyBlock_good (fun _ h => h.leaves) hf hσ (fun hs => ?_) (hw true) fun w' σ' hc hσ' _ => hw false w' σ' hc hσ'
  rcases waitLoop_dichotomy none (fun w => w.isDone 0 && w.isDone 1) (w.piped .block cfg) σ with ⟨m, r, w', _, h3, h4⟩ | ⟨h1, h2⟩
  · exact ⟨m, r, w', h3, h4.imp_right fun h => ⟨h.1, h.2.1⟩⟩
  · exfalso
    obtain ⟨n, ha, hb⟩ := hl
    rw [pSession_waits hf hs (h1 n)] at ha hb
    obtain ⟨m, hm, hres⟩ := hr n
    have d0 := evolve_keeps (J := fun w => w.isDone 0 = true) (fun w e h => isDone_env w e h) hm ha
    have d1 := evolve_keeps (J := fun w => w.isDone 1 = true) (fun w e h => isDone_env w e h) hm hb
    have := (h2 m hres).2
    simp [d0, d1] at this

/-- **C94** A prompt session of a pipeline that is cancelled ends, even if no command ends of its own accord: before all commands are
launched, or while the user's block runs, if the block lets some exception out. -/
theorem C94_pipe_cancelled (cfg : PRCfg) (p : PromptCfg) (w : W) (hf : w.Fresh) (σ : Sched) (hc : ∃ n, σ n = .cancel) (hr : σ.Runs)
    (hy : σ.Yields) (hb : σ.Leaves) (he : ∀ n x, σ n = .bodyDone x → x ≠ none) : PSessionEnds cfg p w σ := by
  have hσ : PYield σ := ⟨hr, hy, hb, he⟩
  refine pSession_ends_from pYield_good (fun _ h => h.leaves) hf hσ (fun hs => ?_)
    (fun w' σ' hc hσ' => pipeKill_ends pYield_good (fun _ h => h.yields) hc hσ')
    fun w' σ' hc hσ' hn => by obtain ⟨n, hn⟩ := hn; exact absurd rfl (he n none hn)
  rcases waitLoop_dichotomy none (fun w => w.isDone 0 && w.isDone 1) (w.piped .block cfg) σ with ⟨m, r, w', _, h3, h4⟩ | ⟨h1, h2⟩
  · exact ⟨m, r, w', h3, h4.imp_right fun h => ⟨h.1, h.2.1⟩⟩
  · exfalso
    obtain ⟨n, hn⟩ := hc
    obtain ⟨m, hm, hres⟩ := hr (n + 1)
    have : (evolve none (w.piped .block cfg) σ m).mustCancel = true := by
      refine evolve_keeps (J := fun w => w.mustCancel = true) mustCancel_stays hm ?_
      rw [evolve_succ, hn]; rfl
    rw [(h2 m hres).1] at this; cases this

/-! ## The hypotheses can be met -/

/-- `C94_session` applies to `busy`. -/
example : SessionEnds { ioTasks := 3 } {} {} busy :=
  C94_session _ _ _ fresh0 busy (mixed_often 0 (by omega) rfl) ⟨mixed_often 1 (by omega) rfl, fun n => (busy_finishes 0 n)⟩
    ⟨mixed_often 2 (by omega) ⟨3, rfl⟩, mixed_often 3 (by omega) (.inl rfl), mixed_often 4 (by omega) rfl⟩ busy_finishes
    (mixed_often 5 (by omega) ⟨none, rfl⟩)

/-- `C94_session_failed` applies to a child that never exits. -/
example : SessionEnds { ioTasks := 3 } {} {} (cycle deaf) := by
  refine C94_session_failed _ _ _ fresh0 _ (cycle_often 5 (by decide) ⟨_, rfl⟩) (fun n x hx => ?_) rfl (cycle_often 0 (by decide) rfl)
    ⟨cycle_often 1 (by decide) rfl, cycle_often 2 (by decide) ⟨none, rfl⟩⟩ (cycle_often 6 (by decide) rfl)
  have : ∀ i, i < deaf.length → deaf.getD i .resume ≠ .bodyDone none := by decide
  rintro rfl
  exact this _ (Nat.mod_lt _ (by decide)) hx

/-- `C94_pipe` applies to `busy`. -/
example : PSessionEnds { n := 3 } {} {} busy :=
  C94_pipe _ _ _ fresh0 busy ⟨40, by decide +kernel⟩ (mixed_often 0 (by omega) rfl) busy_finishes (mixed_often 5 (by omega) ⟨none, rfl⟩)

/-- `C94_pipe_cancelled` applies to commands that end only when they are asked to cancel. -/
example : PSessionEnds { n := 3 } {} {} (mixed [.resume, .cancel, .bodyDone (some .cancelled)] .taskDrop) := by
  refine C94_pipe_cancelled _ _ _ fresh0 _ ⟨1, rfl⟩ (mixed_often 0 (by omega) rfl) (fun i => mixed_each _ _ i)
    (mixed_often 2 (by omega) ⟨_, rfl⟩) ?_
  rintro n x hx rfl
  have hlt : n % 8 < 8 := Nat.mod_lt _ (by omega)
  simp only [mixed] at hx
  split at hx
  · cases hx
  · have : ∀ i, i < 8 → ([.resume, .cancel, .bodyDone (some .cancelled)] : List Ev).getD i .resume ≠ .bodyDone none := by decide
    exact this _ hlt hx

end Shellous.Props
