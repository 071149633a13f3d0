import Verif.Lemmas.EndsRun

/-!
# `await cmd` and `async with cmd` come to an end
-/

namespace Shellous

theorem Terms.with_wp {α : Type} {c : Coro α} {w : W} {σ : Sched} {Q : Out α → W → Sched → Prop} {R : Out α → W → Prop}
    (h : Terms c w σ Q) (hr : wp c R w) : Terms c w σ fun o w' σ' => Q o w' σ' ∧ R o w' := by
  obtain ⟨k, r, w', h1, h2, h3⟩ := h
  refine ⟨k, r, w', h1, h2, h3, ?_⟩
  have := hr (σ.upto k ++ [])
  rw [h2] at this
  exact this

theorem Terms.traced {α : Type} {c : Coro α} {w : W} {σ : Sched} {Q : Out α → W → Sched → Prop} (h : Terms c w σ Q) :
    Terms c w σ fun o w' σ' => Q o w' σ' ∧ ∃ k, σ' = σ.shift k ∧ ∀ l, c w (σ.upto k ++ l) = (o, w', l) := by
  obtain ⟨k, r, w', h1, h2, h3⟩ := h
  exact ⟨k, r, w', h1, h2, h3, k, rfl, h2⟩

theorem Terms.getThen {β : Type} {f : W → Coro β} {w : W} {σ : Sched} {R : Out β → W → Sched → Prop} (h : Terms (f w) w σ R) :
    Terms (Coro.get >>= f) w σ R := h

theorem Terms.updThen {β : Type} {g : W → W} {f : Unit → Coro β} {w : W} {σ : Sched} {R : Out β → W → Sched → Prop}
    (h : Terms (f ()) (g w) σ R) : Terms (Coro.upd g >>= f) w σ R := h

theorem Terms.createThen {β : Type} {k : TaskKind} {f : Nat → Coro β} {w : W} {σ : Sched} {R : Out β → W → Sched → Prop}
    (h : Terms (f w.tasks.length) { w with tasks := w.tasks ++ [{ kind := k }] } σ R) : Terms (Shellous.createTask k >>= f) w σ R := h

theorem Terms.raiseOpt {e : Option Exc} {w : W} {σ : Sched} {Q : Out Unit → W → Sched → Prop}
    (h : e = none → Q (.ok ()) w σ) (h' : ∀ x, e = some x → Q (.exc x) w σ) : Terms (raiseOpt e) w σ Q := by
  cases e with
  | none => exact .pure (h rfl)
  | some x => exact .raise (h' x rfl)

/-- The invariant of the wait for the background tasks. -/
def Held (ids : List Nat) (w : W) : Prop := Under ids w ∧ w.mine = ids

theorem stable_held (ids : List Nat) : Stable (Held ids) where
  env fwd w e h := ⟨(stable_under ids).env fwd w e h.1, (env_ext fwd w e).mine.trans h.2⟩
  throw w h := ⟨(stable_under ids).throw w h.1, h.2⟩
  log w o ho h := ⟨(stable_under ids).log w o ho h.1, h.2⟩
  cancelTask w i h := ⟨(stable_under ids).cancelTask w i h.1, h.2⟩

/-- The wait for the background tasks ends. -/
def TasksEnd (w : W) (σ : Sched) : Prop :=
  Terms (asyncWait w.mine false true) w σ fun _ w' _ => Held w.mine w'

/-- The polling of the child after the wait for the background tasks ends. -/
def PollEnds (w : W) (σ : Sched) : Prop :=
  ∀ k w', (k = 0 ∧ w' = w ∧ w.mine = [] ∨ ∀ l, harvest w.mine false true false w (σ.upto k ++ l) = (.ok (), w', l)) → Up w' →
    Terms waitPidPoll w' (σ.shift k) fun _ w'' _ => Up w''

/-- The waits at the end of a run end. -/
def WaitEnds (cfg : RCfg) (w : W) (σ : Sched) : Prop := TasksEnd w σ ∧ (cfg.bsdPty = true → PollEnds w σ)

section
variable {F : Sched → Prop} (hF : Good F) {cfg : RCfg} (hm : WaitMode F cfg.cancelTimed)
include hF hm

theorem waitRun_ends {w : W} {σ : Sched} (hw : Up w) (hσ : F σ) (hwait : WaitEnds cfg w σ) :
    Terms (waitRun cfg) w σ fun _ w' _ => Up w' := by
  unfold waitRun
  have ht : ∀ ids, WaitOk F (Held ids) ids true := fun ids =>
    (hm.waitOk ids (t := true) fun _ => rfl).elim .inl fun h => .inr fun i hi v σ hv hσ => h i hi v σ hv.1 hσ
  refine Terms.catch_ (Q := fun _ w' _ => Up w') ?_ ?_ fun _ _ _ h => h
  · refine Terms.getThen ?_
    refine Terms.bind (Q := fun o w' σ' => Up w' ∧ (o = .ok () → ∃ k, σ' = σ.shift k ∧ (k = 0 ∧ w' = w ∧ w.mine = [] ∨
      ∀ l, harvest w.mine false true false w (σ.upto k ++ l) = (.ok (), w', l)))) ?_ ?_ fun _ _ _ h => h.1
    · refine .when (fun _ => ?_) fun h => ⟨hw, fun _ => ⟨0, by rw [Sched.shift_zero], .inl ⟨rfl, rfl, by simpa using h⟩⟩⟩
      refine (harvest_ends_from hF (stable_held w.mine) hwait.1 (ht _) hσ).traced.mono ?_
      rintro _ o w' ⟨⟨h, h'⟩, k, hk, hrun⟩
      refine ⟨by rw [Up, h']; exact h, fun ho => ⟨k, hk, .inr (by rw [← ho]; exact hrun)⟩⟩
    · rintro k _ w' ⟨hu, h⟩
      obtain ⟨j, hj, h⟩ := h rfl
      refine .when (fun hb => ?_) fun _ => hu
      rw [hj]
      refine (hwait.2 hb j w' h hu).finally_ fun k' r w2 h2 => .upd ?_
      exact h2.of (stopTimer_ext w2) fun i hi => hi
  · intro k e w' hw'
    refine (Keeps.ite (fun _ => .bind hF (.upd fun w h => ?_) fun _ => kill_ends hF hm) fun _ =>
      .bind hF (.upd fun w h => ?_) fun _ => .bind hF (kill_ends hF hm) fun _ => .raise) w' _ hw' (hF.shift σ k hσ)
    · exact ⟨h.1, by simp⟩
    · exact ⟨h.1, by simp⟩

theorem finishTry_ends {w : W} {σ : Sched} {ex : Option Exc} (hw : Up w) (hσ : F σ) (hwait : ex = none → WaitEnds cfg w σ) :
    Terms (finishTry cfg ex) w σ fun _ w' _ => Up w' := by
  cases ex with
  | none =>
    unfold finishTry
    exact (waitRun_ends hF hm hw hσ (hwait rfl)).bind (fun _ _ _ h => .pure h) fun _ _ _ h => h
  | some e =>
    unfold finishTry
    refine (Keeps.bind hF (.when fun _ => .upd fun w h => ?_) fun _ => .bind hF (kill_ends hF hm) fun _ =>
      .getBind hF fun w σ hw _ => .pure hw) w σ hw hσ
    exact Up.of h (setCancelled_ext w) fun i hi => hi

theorem aexit_ends {w : W} {σ : Sched} {ex : Option Exc} (hw : Up w) (hσ : F σ) (hwait : ex = none → WaitEnds cfg w σ) :
    Terms (aexit cfg ex) w σ fun _ w' _ => Up w' := by
  have hfin : Terms (finish cfg ex) w σ fun _ w' _ => Up w' := by
    unfold finish
    refine (finishTry_ends hF hm hw hσ hwait).finally_ fun k r w' h => ?_
    exact (closeRun_ends hF hm w' _ h (hF.shift σ k hσ)).mono fun _ r' _ h => by cases r' <;> exact h
  unfold aexit
  refine Terms.bind (Q := fun _ w' _ => Up w') ?_ ?_ fun _ _ _ h => h
  · refine Terms.finally_ (Q := fun _ w' _ => Up w') ?_ ?_
    · refine hfin.catch_ (fun k e w' h => ?_) fun _ _ _ h => h
      exact (Keeps.ite (fun _ => .bind hF (.upd fun w h => Up.of h (setCancelled_ext w) fun i hi => hi) fun _ => .pure)
        fun _ => .raise) w' _ h (hF.shift σ k hσ)
    · intro k r w' h
      exact .upd h
  · intro k a w' h
    refine Terms.getThen ?_
    exact (Keeps.ite (J := Up) (fun _ => .raise) fun _ => .pure) w' _ h (hF.shift σ k hσ)

omit hm in
/-- The polling ends if the child exits. -/
theorem poll_fair (hx : ∀ σ, F σ → σ.Exits) {w : W} {σ : Sched} (hw : Up w) (hσ : F σ) : Terms waitPidPoll w σ fun _ w' _ => Up w' := by
  have hu : Up w.pollOnce := hw.of (pollOnce_quiet w).toExt.toRExt fun i hi => by rwa [(pollOnce_quiet w).mine] at hi
  refine Terms.updThen (Terms.getThen (.when (fun _ => ?_) fun _ => hu))
  refine wait_ends hF (J := Up) (fun w e h => h.of (env_ext none w e).toRExt fun i hi => ?_) (fun w h => ?_) (fun w σ hw hσ => ?_) _ σ hu hσ
  · rwa [(env_ext none w e).mine] at hi
  · exact h.of (throwCancel_ext w).toRExt fun i hi => hi
  · exact .inr (rc_due (hx σ hσ) hw.1)

omit hm in
/-- The waits at the end of a run end if all that is awaited ends. -/
theorem wait_fair (hx : ∀ σ, F σ → σ.Exits ∧ σ.Finishes) {w : W} {σ : Sched} (hw : Up w) (hσ : F σ) : WaitEnds cfg w σ :=
  ⟨asyncWait_ends hF (stable_held w.mine) (ids := w.mine)
    (.inr fun i hi v σ hv hσ => due_under hx w.mine i hi v σ hv.1 hσ) (fun _ h => h) w σ ⟨hw, rfl⟩ hσ,
    fun _ k _ _ hu => poll_fair hF (fun σ h => (hx σ h).1) hu (hF.shift σ k hσ)⟩

end

/-! ## Launching -/

/-- The launch is task 0. -/
def Spawn0 (w : W) : Prop := ∃ t, w.tasks[0]? = some t ∧ t.kind = .spawn

theorem stable_spawn0 : Stable Spawn0 := by
  have ext : ∀ {w w' : W}, Ext w w' → Spawn0 w → Spawn0 w' := by
    rintro w w' hx ⟨t, ht, hk⟩
    obtain ⟨t', ht', e⟩ := hx.task 0 t ht
    exact ⟨t', ht', e.kind.trans hk⟩
  exact
    { env := fun fwd w e h => ext (env_ext fwd w e) h
      throw := fun w h => h
      log := fun w o _ h => h
      cancelTask := fun w i h => ext (cancelTask_ext w i) h }

/-- The launch ends. -/
theorem spawn_due (fwd : Option Nat) {w : W} {σ : Sched} (hl : σ.Launches) (hw : Spawn0 w) :
    ∃ n, ∀ m, n ≤ m → (evolve fwd w σ m).isDone 0 = true := by
  have pk : ∀ (w : W) e, w.proc.isSome = true → (w.env fwd e).proc.isSome = true :=
    fun w e h => ((stable_under []).env fwd w e ⟨h, by simp⟩).1
  have h1 : ∃ n, ∀ m, n ≤ m → (Spawn0 (evolve fwd w σ m) ∧
      ((evolve fwd w σ m).proc.isSome = true ∨ (evolve fwd w σ m).isDone 0 = true)) := by
    refine evt (J := Spawn0) (p := fun w => Spawn0 w ∧ (w.proc.isSome = true ∨ w.isDone 0 = true))
      (fun w e h => stable_spawn0.env fwd w e h)
      (fun w e h => ⟨stable_spawn0.env fwd w e h.1, h.2.imp (pk w e) (isDone_env w e)⟩) hl.fork ?_
      ⟨0, fun m hm => evolve_keeps (fun w e h => stable_spawn0.env fwd w e h) hm hw⟩
    rintro w e hs rfl
    refine ⟨stable_spawn0.env fwd w _ hs, ?_⟩
    obtain ⟨t, ht, hk⟩ := hs
    by_cases hd : w.isDone 0 = true
    · exact .inr (isDone_env w _ hd)
    · left
      by_cases hp : w.proc.isSome = true
      · exact pk w _ hp
      · have hsp : w.spawning = true := by
          unfold W.spawning
          rw [List.any_eq_true]
          refine ⟨t, List.mem_of_getElem? ht, ?_⟩
          simp only [W.isDone, ht] at hd
          simp only [hk, decide_true, Bool.true_and]
          cases h : t.out <;> simp_all
        have hn : w.proc.isNone = true := by
          cases h : w.proc <;> simp_all
        simp [W.env, hsp, hn]
  refine evt (J := fun w => Spawn0 w ∧ (w.proc.isSome = true ∨ w.isDone 0 = true))
    (fun w e h => ⟨stable_spawn0.env fwd w e h.1, h.2.imp (pk w e) (isDone_env w e)⟩)
    (fun w e h => isDone_env w e h) hl.spawned ?_ h1
  rintro w e ⟨⟨t, ht, hk⟩, hp⟩ ⟨r, rfl⟩
  rcases hp with hp | hd
  · exact taskDone_done ht r (by simp [W.mayEnd, hk, hp])
  · exact isDone_env w _ hd

section
variable {F : Sched → Prop} (hF : Good F) (hL : ∀ σ, F σ → σ.Launches)
include hF hL

theorem uninterrupted_ends {w : W} {σ : Sched} (hw : w.tasks.length = 0) (hσ : F σ) :
    Terms uninterruptedSpawn w σ fun _ _ _ => True := by
  unfold uninterruptedSpawn
  refine Terms.createThen ?_
  rw [hw]
  have hs : Spawn0 { w with tasks := w.tasks ++ [{ kind := .spawn }] } := ⟨{ kind := .spawn }, by
    simp [List.length_eq_zero_iff.1 hw], rfl⟩
  have wt : ∀ fwd, Keeps F Spawn0 (wait (fun w => w.isDone 0) false fwd) := fun fwd =>
    wait_ends hF (stable_spawn0.env fwd) stable_spawn0.throw fun w σ hw hσ => .inr (spawn_due fwd (hL σ hσ) hw)
  have tr := taskResult_ends hF stable_spawn0 0
  refine Terms.mono ((Keeps.catch_ hF (.bind hF (wt none) fun _ => .bind hF tr fun _ => .pure) fun e =>
    .ite (fun _ => .getBind hF fun w σ hw hσ => ?_) fun _ => .raise) _ σ hs hσ) fun _ _ _ _ => trivial
  refine (Keeps.bind hF (.when fun _ => .bind hF ?_ fun _ => .pure) fun _ => .raise) w σ hw hσ
  unfold awaitTask
  refine .getBind hF fun w σ hw hσ => ?_
  refine (Keeps.bind hF (.when fun _ => wt _) fun _ => .getBind hF fun w σ hw hσ => ?_) w σ hw hσ
  exact (Keeps.bind hF (.when fun _ => .upd fun w (h : Spawn0 w) => (show Spawn0 (w.log .thrown) from h)) fun _ => tr) w σ hw hσ

theorem startTry_ends {cfg : RCfg} {w : W} {σ : Sched} (hw : w.tasks.length = 0) (hσ : F σ) :
    Terms (startTry cfg) w σ fun _ _ _ => True := by
  have sl : Keeps F (fun w => w.tasks.length = 0) sleep0 :=
    wait_ends hF (fun w e h => (env_tasks_length w e).trans h) (fun w h => h) fun _ _ _ _ => .inr ⟨0, fun _ _ => rfl⟩
  have ro : ∀ e, Keeps F (fun w => w.tasks.length = 0) (raiseOpt e) := by
    intro e; cases e
    · exact .pure
    · exact .raise
  have at' : ∀ n (w : W) σ, Terms (addTasks n) w σ fun _ _ _ => True := fun n w σ =>
    .now (fun l => addTasks_eq n w l) (by simp) trivial
  unfold startTry
  refine (ro cfg.setupErr w σ hw hσ).bind (fun k _ w hw => ?_) fun _ _ _ _ => trivial
  have hσ := hF.shift σ k hσ
  generalize σ.shift k = σ at *
  refine Terms.bind (Q := fun _ _ _ => True) (Terms.catch_ (Q := fun _ _ _ => True) ?_ (fun _ _ _ _ => .raise trivial)
    fun _ _ _ _ => trivial) ?_ fun _ _ _ _ => trivial
  · unfold spawnStage
    refine ((Keeps.when fun _ => .bind hF sl fun _ => .bind hF sl fun _ => ro _) w σ hw hσ).bind
      (fun k _ w hw => ?_) fun _ _ _ _ => trivial
    refine (sl w _ hw (hF.shift σ k hσ)).bind (fun k' _ w hw => ?_) fun _ _ _ _ => trivial
    refine (uninterrupted_ends hF hL hw (hF.shift _ k' (hF.shift σ k hσ))).bind (fun _ _ _ _ => at' _ _ _) fun _ _ _ _ => trivial
  · intro k _ w _
    refine (Terms.raiseOpt (Q := fun _ _ _ => True) (fun _ => trivial) fun _ _ => trivial).bind (fun _ _ w _ => ?_) fun _ _ _ _ => trivial
    refine (at' cfg.ioTasks w _).bind (fun _ _ w _ => ?_) fun _ _ _ _ => trivial
    exact Terms.raiseOpt (fun _ => trivial) fun _ _ => trivial

end

theorem SMid.up {w w' : W} (h : SMid w w') (ha : w'.attached = true) : Up w' := by
  obtain ⟨p, hp⟩ := h.good.attached ha
  refine ⟨by simp [hp], fun i hi => ?_⟩
  rw [h.mine, List.mem_range'_1] at hi
  have hl : i < w'.tasks.length := by omega
  have := h.others i _ (List.getElem?_eq_getElem hl) (by omega)
  exact ⟨_, List.getElem?_eq_getElem hl, by rw [this]; simp⟩

theorem Launched.up {cfg : RCfg} {w w' : W} (h : Launched cfg w w') : Up w' := by
  obtain ⟨p, hp⟩ := h.proc
  refine ⟨by simp [hp], fun i hi => ?_⟩
  rw [h.mine, List.mem_range'_1] at hi
  by_cases hc : i < 1 + (cfg.procsubs + cfg.ioTasks)
  · exact ⟨_, h.copy i (by rw [List.mem_range'_1]; omega), by simp⟩
  · have hb : cfg.bsdPty = false := by
      cases hb : cfg.bsdPty with
      | false => rfl
      | true => simp only [RCfg.waiters, hb, if_true] at hi; omega
    obtain ⟨t, ht, hk⟩ := h.last hb
    have : i = cfg.procsubs + cfg.ioTasks + 1 := by simp only [RCfg.waiters, hb, Bool.false_eq_true, if_false] at hi; omega
    subst this
    exact ⟨t, ht, by rw [hk]; simp⟩

/-! ## No cancellation is consumed by a launch that succeeds -/

def nCancels (evs : List Ev) : Nat := evs.countP fun e => decide (e = .cancel)

/-- Every cancellation that happens is counted. -/
def Counts {α : Type} (c : Coro α) : Prop :=
  ∀ w evs, w.cancels + nCancels evs ≤ (c w evs).2.1.cancels + nCancels (c w evs).2.2

section
variable {α β : Type}

theorem Counts.pure (a : α) : Counts (Coro.pure a) := fun _ _ => Nat.le_refl _
theorem Counts.raise (e : Exc) : Counts (Coro.raise (α := α) e) := fun _ _ => Nat.le_refl _
theorem Counts.get : Counts Coro.get := fun _ _ => Nat.le_refl _
theorem Counts.upd {f : W → W} (h : ∀ w, w.cancels ≤ (f w).cancels) : Counts (Coro.upd f) := fun w evs =>
  Nat.add_le_add_right (h w) _

theorem Counts.bind {c : Coro α} {f : α → Coro β} (hc : Counts c) (hf : ∀ a, Counts (f a)) : Counts (c >>= f) := by
  intro w evs
  have h1 := hc w evs
  rcases h : c w evs with ⟨o, w1, r⟩
  rw [h] at h1
  cases o with
  | ok a => rw [bind_ok h]; exact Nat.le_trans h1 (hf a w1 r)
  | exc e => rw [bind_exc h]; exact h1
  | blocked => rw [bind_blocked h]; exact h1

theorem Counts.catch_ {c : Coro α} {f : Exc → Coro α} (hc : Counts c) (hf : ∀ e, Counts (f e)) : Counts (Coro.catch_ c f) := by
  intro w evs
  have h1 := hc w evs
  rcases h : c w evs with ⟨o, w1, r⟩
  rw [h] at h1
  unfold Coro.catch_
  rw [h]
  cases o with
  | exc e => exact Nat.le_trans h1 (hf e w1 r)
  | ok a => exact h1
  | blocked => exact h1

theorem Counts.when {b : Bool} {c : Coro Unit} (hc : Counts c) : Counts (Coro.when b c) := by
  cases b
  · exact .pure _
  · exact hc

theorem env_count (fwd : Option Nat) (w : W) (e : Ev) : w.cancels + nCancels [e] ≤ (w.env fwd e).cancels := by
  have hx := (env_ext fwd w e).cancels
  by_cases h : e = .cancel
  · subst h
    simp only [nCancels, List.countP_singleton, decide_true, if_true, W.env]
    unfold W.cancelCaller
    repeat' split
    all_goals exact Nat.le_refl _
  · simp only [nCancels, List.countP_singleton, h, decide_false, Bool.false_eq_true, if_false]; exact hx

theorem nCancels_cons (e : Ev) (evs : List Ev) : nCancels (e :: evs) = nCancels [e] + nCancels evs := by
  simp [nCancels, List.countP_cons, Nat.add_comm]

theorem Counts.wait {ready : W → Bool} {timed : Bool} {fwd : Option Nat} : Counts (Shellous.wait ready timed fwd) := by
  intro w evs
  unfold Shellous.wait
  generalize false = ex
  induction evs generalizing w ex with
  | nil => rw [waitLoop_nil]; exact Nat.le_refl _
  | cons e evs ih =>
    by_cases h1 : e = .resume
    · subst h1
      rw [waitLoop_resume, nCancels_cons, show nCancels [Ev.resume] = 0 from rfl, Nat.zero_add]
      split
      · exact Nat.le_refl _
      · split
        · exact Nat.le_refl _
        · exact ih w ex
    · by_cases h2 : e = .timeout
      · subst h2
        rw [waitLoop_timeout, nCancels_cons, show nCancels [Ev.timeout] = 0 from rfl, Nat.zero_add]
        exact ih w _
      · rw [waitLoop_ev _ _ _ _ _ _ _ h1 h2, nCancels_cons]
        have := env_count fwd w e
        have := ih (w.env fwd e) ex
        omega

end

theorem taskResult_counts (i : Nat) : Counts (taskResult i) := by
  intro w evs
  unfold taskResult
  split <;> exact Nat.le_refl _

theorem raiseOpt_counts (e : Option Exc) : Counts (raiseOpt e) := by
  cases e
  · exact .pure _
  · exact .raise _

theorem startTry_counts (cfg : RCfg) : Counts (startTry cfg) := by
  have ct : ∀ k, Counts (createTask k) := fun k w evs => Nat.le_refl _
  have ad : ∀ n, Counts (addTasks n) := fun n w evs => by rw [addTasks_eq]; exact Nat.le_refl _
  have un : Counts uninterruptedSpawn := by
    unfold uninterruptedSpawn
    refine .bind (ct _) fun i => .catch_ (.bind .wait fun _ => .bind (taskResult_counts i) fun _ => .pure _) fun e => ?_
    split
    · refine .bind .get fun w => .bind (.when (.bind ?_ fun _ => .pure _)) fun _ => .raise _
      unfold awaitTask
      refine .bind .get fun w => .bind (.when .wait) fun _ => .bind .get fun w => .bind (.when (.upd fun w => Nat.le_refl _))
        fun _ => taskResult_counts i
    · exact .raise _
  unfold startTry
  refine .bind (raiseOpt_counts _) fun _ => .bind (.catch_ ?_ fun e => .raise _) fun _ => .bind (raiseOpt_counts _) fun _ =>
    .bind (ad _) fun _ => raiseOpt_counts _
  unfold spawnStage sleep0
  exact .bind (.when (.bind .wait fun _ => .bind .wait fun _ => raiseOpt_counts _)) fun _ => .bind .wait fun _ =>
    .bind un fun _ => ad _

/-- A cancellation is still to come. -/
def HasCancel (σ : Sched) : Prop := ∃ n, σ n = .cancel

theorem hasCancel_shift {σ : Sched} {k : Nat} (h : HasCancel σ) (hk : nCancels (σ.upto k) = 0) : HasCancel (σ.shift k) := by
  obtain ⟨n, hn⟩ := h
  by_cases hc : k ≤ n
  · exact ⟨n - k, by simp only [Sched.shift]; rw [show k + (n - k) = n by omega]; exact hn⟩
  · exfalso
    have hm : ∀ (k : Nat) (σ : Sched) (n : Nat), n < k → σ n ∈ σ.upto k := by
      intro k
      induction k with
      | zero => intro σ n h; omega
      | succ k ih =>
        intro σ n h
        cases n with
        | zero => exact List.mem_cons_self
        | succ n =>
          refine List.mem_cons_of_mem _ ?_
          have := ih (σ.shift 1) n (by omega)
          simp only [Sched.shift] at this
          rwa [Nat.add_comm] at this
    have := hm k σ n (by omega)
    unfold nCancels at hk
    rw [List.countP_eq_zero] at hk
    exact hk _ this (by simp [hn])

/-! ## The whole run -/

theorem runResult_now (cfg : RCfg) (check : Bool) (w : W) (σ : Sched) {Q : Out Result → W → Sched → Prop}
    (h : ∀ o, Q o w σ) : Terms (runResult cfg check) w σ Q := by
  refine .now (r := (runResult cfg check w []).1) (w' := w) (fun l => runResult_eq cfg check w l) ?_ (h _)
  have gen : ∀ x : Except Exc Result, ((match x with
      | .ok r => Coro.pure r
      | .error e => Coro.raise e : Coro Result) w []).1 ≠ .blocked := by
    intro x; cases x <;> simp [Coro.pure, Coro.raise]
  exact gen _

section
variable {F : Sched → Prop} (hF : Good F) (hL : ∀ σ, F σ → σ.Launches) {cfg : RCfg} (hm : WaitMode F cfg.cancelTimed)
include hF hL hm

theorem startRun_ends {w : W} {σ : Sched} (hb : w.Blank) (hσ : F σ) :
    Terms (startRun cfg) w σ fun o _ σ' => o = .ok () → HasCancel σ → HasCancel σ' := by
  have hw : w.tasks.length = 0 := by rw [hb.un.1]; rfl
  have h0 : Terms (startTry cfg) w σ fun o w' σ' => SPost cfg w o w' ∧ (o = .ok () → HasCancel σ → HasCancel σ') := by
    obtain ⟨k, r, w', h1, h2, _⟩ := startTry_ends hF hL (cfg := cfg) hw hσ
    have hs := (startTry_spec cfg w hb (σ.upto k ++ [])).1
    have hc := startTry_counts cfg w (σ.upto k ++ [])
    rw [h2] at hs hc
    dsimp only at hs hc
    refine ⟨k, r, w', h1, h2, hs, ?_⟩
    rintro rfl hh
    have := (hs.ok rfl).2.1
    refine hasCancel_shift hh ?_
    simp only [List.append_nil, show nCancels ([] : List Ev) = 0 from rfl] at hc
    omega
  unfold startRun
  refine Terms.bind (Q := fun o _ σ' => o = .ok () → HasCancel σ → HasCancel σ') (h0.catch_ ?_ fun _ a _ h => h.2) ?_
    fun _ _ _ _ h => by cases h
  · rintro k e w1 ⟨sp, _⟩
    have key : Terms (do
        Coro.when (e = .cancelled) (Coro.upd W.setCancelled)
        let w ← Coro.get
        Coro.when w.attached (kill cfg)
        Coro.raise (α := Unit) e) w1 (σ.shift k) fun o _ _ => o = .exc e ∨ ∃ e', o = .exc e' := by
      refine Terms.bind (Q := fun _ w' _ => w'.attached = true → Up w') (.when (fun _ => .upd fun ha => ?_) fun _ ha => sp.up ha)
        ?_ fun _ _ _ _ => .inr ⟨_, rfl⟩
      · exact (sp.up ha).of (setCancelled_ext w1) fun i hi => hi
      · intro k' _ w2 h2
        refine Terms.getThen ?_
        refine Terms.bind (Q := fun _ _ _ => True) (.when (fun ha => ?_) fun _ => trivial) (fun _ _ _ _ => .raise (.inl rfl))
          fun _ _ _ _ => .inr ⟨_, rfl⟩
        exact (kill_ends hF hm w2 _ (h2 ha) (hF.shift _ k' (hF.shift σ k hσ))).mono fun _ _ _ _ => trivial
    refine key.mono ?_
    rintro _ _ _ h rfl
    rcases h with h | ⟨_, h⟩ <;> cases h
  · intro k _ w1 h1
    refine (show Terms (Coro.when (!cfg.bsdPty) (addTask .waiter)) w1 (σ.shift k) (fun _ _ σ' => σ' = σ.shift k) from
      .when (fun _ => .now (r := .ok ()) (fun l => rfl) (by simp) rfl) fun _ => rfl).bind (fun k' _ w2 h2 => ?_) fun _ _ _ _ h => by cases h
    rw [h2]
    exact .when (fun _ => .upd fun _ hh => h1 rfl hh) fun _ _ hh => h1 rfl hh

theorem aenter_ends {w : W} {σ : Sched} (hf : w.Fresh) (hσ : F σ) :
    Terms (aenter cfg) w σ fun o w' σ' => o = .ok () → Launched cfg (w.log .auditStart) w' ∧ (HasCancel σ → HasCancel σ') := by
  have h1 : Terms (aenter cfg) w σ fun o _ σ' => o = .ok () → HasCancel σ → HasCancel σ' := by
    unfold aenter
    refine Terms.updThen ?_
    refine Terms.finally_ (Q := fun o _ σ' => o = .ok () → HasCancel σ → HasCancel σ') ?_ ?_
    · refine (startRun_ends hF hL hm hf.blank hσ).catch_ (fun k e w' _ => ?_) fun _ _ _ h => h
      exact Terms.updThen (.raise fun h => by cases h)
    · intro k r w' h
      refine Terms.getThen ?_
      refine .when (fun _ => ?_) fun _ => h
      refine (runResult_now cfg true w' _ (Q := fun _ _ σ' => σ' = σ.shift k) fun _ => rfl).bind ?_ fun _ _ _ _ h => by cases h
      intro k' a w2 h2
      refine .pure ?_
      dsimp only at h2 ⊢
      rw [h2]; exact h
  refine (h1.with_wp (aenter_spec cfg w hf)).mono ?_
  rintro k r w' ⟨h, ha⟩ rfl
  cases ha with
  | ok _ hl => exact ⟨hl, h rfl⟩

/-- A run with a body that ends. -/
theorem withRun_ends {body : Coro Unit} {w : W} {σ : Sched} (hf : w.Fresh) (hσ : F σ)
    (hbody : ∀ w1 k, Launched cfg (w.log .auditStart) w1 → F (σ.shift k) → (HasCancel σ → HasCancel (σ.shift k)) →
      (∀ l, aenter cfg w (σ.upto k ++ l) = (.ok (), w1, l)) →
      Terms body (w1.log .bodyStart) (σ.shift k) fun o w' σ'' =>
        Up w' ∧ (o = .ok () → WaitEnds cfg (w'.log (.bodyEnd none)) σ'')) :
    Terms (withRun cfg body) w σ fun _ _ _ => True := by
  unfold withRun
  refine (aenter_ends hF hL hm hf hσ).traced.bind (Q := fun o w' σ' =>
    (o = .ok () → Launched cfg (w.log .auditStart) w' ∧ (HasCancel σ → HasCancel σ')) ∧
      ∃ k, σ' = σ.shift k ∧ ∀ l, aenter cfg w (σ.upto k ++ l) = (o, w', l)) (fun k _ w1 h1 => ?_) fun _ _ _ _ => trivial
  obtain ⟨h1, k1, hk1, hrun⟩ := h1
  obtain ⟨hla, hc⟩ := h1 rfl
  have hσ1 := hF.shift σ k hσ
  rw [hk1] at hc hσ1 ⊢
  refine Terms.updThen ?_
  have hb := hbody w1 k1 hla hσ1 hc hrun
  clear hbody hc hrun hk1
  generalize σ.shift k1 = σ1 at *
  refine Terms.bind (Q := fun o w' σ' => ∃ r, o = .ok r ∧ Up w' ∧ (r = none → WaitEnds cfg (w'.log (.bodyEnd none)) σ')) ?_ ?_
    fun _ _ _ _ => trivial
  · obtain ⟨k2, r, w2, g1, g2, g3, g4⟩ := hb
    cases r with
    | blocked => exact absurd rfl g1
    | ok u => exact ⟨k2, .ok none, w2, by simp, fun l => by rw [attempt, g2], none, rfl, g3, fun _ => g4 rfl⟩
    | exc e => exact ⟨k2, .ok (some e), w2, by simp, fun l => by rw [attempt, g2], some e, rfl, g3, by simp⟩
  · rintro k2 r w2 ⟨r', hr, hu2, hw2⟩
    cases hr
    refine Terms.updThen ?_
    have hσ2 := hF.shift σ1 k2 hσ1
    refine (aexit_ends hF hm (w := w2.log (.bodyEnd r)) (show Up (w2.log (.bodyEnd r)) from hu2) hσ2 ?_).bind
      (fun k3 s w3 _ => ?_) fun _ _ _ _ => trivial
    · rintro rfl; exact hw2 rfl
    · cases r with
      | none => exact .pure trivial
      | some e =>
        dsimp only
        split
        · exact .pure trivial
        · exact .raise trivial

theorem execute_await_ends {f : Option Exc} {w : W} {σ : Sched} (hf : w.Fresh) (hσ : F σ)
    (hwait : ∀ w1 k, Launched cfg (w.log .auditStart) w1 → F (σ.shift k) → (HasCancel σ → HasCancel (σ.shift k)) →
      (∀ l, aenter cfg w (σ.upto k ++ l) = (.ok (), w1, l)) → f = none →
      WaitEnds cfg ((w1.log .bodyStart).log (.bodyEnd none)) (σ.shift k)) : EndsOn (.await f) cfg w σ := by
  have h1 : Terms (withRun cfg (raiseOpt f)) w σ fun _ _ _ => True := by
    refine withRun_ends hF hL hm hf hσ fun w1 k hl hσ1 hc hrun => ?_
    have hu : Up (w1.log .bodyStart) := hl.up
    exact Terms.raiseOpt (fun hn => ⟨hu, fun _ => hwait w1 k hl hσ1 hc hrun hn⟩) fun x _ => ⟨hu, by simp⟩
  have h2 : Terms (runCommand cfg f) w σ fun _ _ _ => True := by
    unfold runCommand
    refine h1.bind (fun k _ w' _ => ?_) fun _ _ _ _ => trivial
    refine (runResult_now cfg true w' _ (Q := fun _ _ _ => True) fun _ => trivial).bind (fun _ r w'' _ => ?_) fun _ _ _ _ => trivial
    split
    · exact .pure trivial
    · split
      · exact .pure trivial
      · exact .raise trivial
  obtain ⟨n, hn⟩ := h2.upto
  refine ⟨n, ?_⟩
  unfold execute
  dsimp only
  rcases h : runCommand cfg f w (σ.upto n) with ⟨o, w', r⟩
  rw [h] at hn
  cases o with
  | blocked => exact absurd rfl hn
  | ok a => simp
  | exc e => simp

theorem execute_block_ends {w : W} {σ : Sched} (hf : w.Fresh) (hσ : F σ)
    (hbody : ∀ w σ', Up w → F σ' →
      Terms userBody w σ' fun o w' σ'' => Up w' ∧ (o = .ok () → WaitEnds cfg (w'.log (.bodyEnd none)) σ'')) :
    EndsOn .block cfg w σ := by
  obtain ⟨n, hn⟩ := (withRun_ends hF hL hm hf hσ fun w1 k hl hσ1 _ _ => hbody (w1.log .bodyStart) _ hl.up hσ1).upto
  refine ⟨n, ?_⟩
  unfold execute
  dsimp only
  rcases h : withRun cfg userBody w (σ.upto n) with ⟨o, w', r⟩
  rw [h] at hn
  cases o with
  | blocked => exact absurd rfl hn
  | ok a => simp
  | exc e => simp

end

/-- The body of a block ends as the schedule says. -/
theorem userBody_ends0 {w : W} {σ : Sched} (hl : σ.Leaves) :
    Terms userBody w σ fun o w' _ => Ext w w' ∧ ∃ n x, σ n = .bodyDone x ∧ (o = .ok () → x = none) := by
  have main : ∀ n (w : W) (σ : Sched), (∃ x, σ n = .bodyDone x) → ∃ k r w' m x, r ≠ .blocked ∧
      (∀ l, userBody w (σ.upto k ++ l) = (r, w', l)) ∧ σ m = .bodyDone x ∧ (r = .ok () → x = none) := by
    intro n
    induction n with
    | zero =>
      rintro w σ ⟨x, hx⟩
      cases x with
      | none => exact ⟨1, .ok (), w, 0, none, by simp, fun l => by
          simp only [Sched.upto, hx, List.cons_append, List.nil_append]; rfl, hx, fun _ => rfl⟩
      | some e => exact ⟨1, .exc e, w, 0, some e, by simp, fun l => by
          simp only [Sched.upto, hx, List.cons_append, List.nil_append]; rfl, hx, by simp⟩
    | succ n ih =>
      rintro w σ ⟨x, hx⟩
      have hx' : ∃ x, σ.shift 1 n = .bodyDone x := ⟨x, by simp only [Sched.shift]; rw [Nat.add_comm]; exact hx⟩
      have lift : ∀ w0, (∀ l, userBody w (σ 0 :: l) = userBody w0 l) → ∃ k r w' m x, r ≠ .blocked ∧
          (∀ l, userBody w (σ.upto k ++ l) = (r, w', l)) ∧ σ m = .bodyDone x ∧ (r = .ok () → x = none) := by
        intro w0 h0
        obtain ⟨k, r, w', m, x, h1, h2, h3, h4⟩ := ih w0 (σ.shift 1) hx'
        refine ⟨k + 1, r, w', m + 1, x, h1, fun l => ?_, ?_, h4⟩
        · rw [Sched.upto, List.cons_append, h0, h2]
        · simp only [Sched.shift] at h3; rwa [Nat.add_comm]
      cases he : σ 0 with
      | bodyDone y =>
        cases y with
        | none => exact ⟨1, .ok (), w, 0, none, by simp, fun l => by
            simp only [Sched.upto, he, List.cons_append, List.nil_append]; rfl, he, fun _ => rfl⟩
        | some e => exact ⟨1, .exc e, w, 0, some e, by simp, fun l => by
            simp only [Sched.upto, he, List.cons_append, List.nil_append]; rfl, he, by simp⟩
      | bodyGotCancel =>
        by_cases hm : w.mustCancel = true
        · exact lift w.throwCancel fun l => by
            rw [he]; simp only [userBody]; rw [userBodyLoop, if_pos hm]
        · exact lift w fun l => by
            rw [he]; simp only [userBody]; rw [userBodyLoop, if_neg hm]
      | _ => exact lift (w.env none (σ 0)) fun l => by rw [he]; rfl
  obtain ⟨n, _, hn⟩ := hl 0
  obtain ⟨k, r, w', m, x, h1, h2, h3, h4⟩ := main n w σ hn
  refine ⟨k, r, w', h1, h2, ?_, m, x, h3, h4⟩
  have := userBody_bodyRel w (σ.upto k ++ [])
  rw [h2] at this
  exact this.ext

theorem userBody_ends {w : W} {σ : Sched} (hl : σ.Leaves) (hu : Up w) :
    Terms userBody w σ fun o w' _ => Up w' ∧ ∃ n x, σ n = .bodyDone x ∧ (o = .ok () → x = none) := by
  refine (userBody_ends0 hl).mono ?_
  rintro k o w' ⟨hx, h⟩
  refine ⟨hu.of hx.toRExt ?_, h⟩
  intro i hi
  rwa [hx.mine] at hi

/-- A cancellation is pending or to come. -/
def Hope (w : W) (σ : Sched) : Prop := w.mustCancel = true ∨ HasCancel σ

theorem must_env (w : W) (e : Ev) (h : w.mustCancel = true) : (w.env none e).mustCancel = true := by
  cases hq : (w.env none e).mustCancel with
  | true => rfl
  | false => rw [(env_quiet w e).mustLost hq] at h; cases h

/-- A wait ends if a cancellation is pending when the caller is resumed. -/
theorem wait_by {J : W → Prop} (hJ : Stable J) (ready : W → Bool) {w : W} {σ : Sched} (hw : J w)
    (h : ∃ m, σ m = .resume ∧ (evolve none w σ m).mustCancel = true) : Terms (wait ready false none) w σ fun _ w' _ => J w' := by
  obtain ⟨m, hr, hmc⟩ := h
  obtain ⟨j, r, w', _, _, h3, h4⟩ := waitLoop_by none ready false m false w σ hr (.inl hmc)
  have hj : J (evolve none w σ j) := evolve_keeps (fun w e h => hJ.env none w e h) (Nat.zero_le j) hw
  refine ⟨j + 1, r, w', ?_, h3, ?_⟩
  · rcases h4 with ⟨h, _⟩ | ⟨h, _⟩ <;> rw [h] <;> simp
  · rcases h4 with ⟨_, h, _⟩ | ⟨_, h, _⟩ <;> rw [h]
    · exact hj
    · exact hJ.throw _ hj

/-- A wait ends after a cancellation, be it pending or to come. -/
theorem wait_hoped {F : Sched → Prop} (hF : Good F) {J : W → Prop} (hJ : Stable J) (ready : W → Bool) {w : W} {σ : Sched} (hw : J w)
    (hσ : F σ) (hc : Hope w σ) : Terms (wait ready false none) w σ fun _ w' _ => J w' := by
  refine wait_by hJ ready hw ?_
  rcases hc with hc | ⟨n, hn⟩
  · obtain ⟨m, _, hr⟩ := hF.runs σ hσ 0
    exact ⟨m, hr, evolve_keeps (J := fun w => w.mustCancel = true) must_env (Nat.zero_le m) hc⟩
  · obtain ⟨m, hm, hr⟩ := hF.runs σ hσ (n + 1)
    refine ⟨m, hr, evolve_keeps (J := fun w => w.mustCancel = true) must_env hm ?_⟩
    rw [evolve_succ, hn]; rfl

theorem Counts.ite {α : Type} {p : Prop} [Decidable p] {c d : Coro α} (hc : Counts c) (hd : Counts d) : Counts (if p then c else d) := by
  split
  · exact hc
  · exact hd

theorem cancelAll_cancels (w : W) (ids : List Nat) : w.cancels ≤ (w.cancelAll ids).cancels :=
  ((rstable_ext w).toStable.cancelAll ids w (.refl w)).cancels

theorem asyncWait_counts (ids : List Nat) (t fe : Bool) : Counts (asyncWait ids t fe) := .ite (.raise _) .wait

theorem cancelWaiter_counts (ids : List Nat) (t : Bool) : Counts (cancelWaiter ids t) :=
  .bind (asyncWait_counts _ _ _) fun _ => .bind .get fun w => .ite
    (.bind (.upd fun w => cancelAll_cancels (w.log .gaveUp) _) fun _ => .raise _) (.pure _)

theorem cancelWait_counts (ids : List Nat) (t cf : Bool) : Counts (cancelWait ids t cf) :=
  .catch_ (.bind (.when (.upd fun w => cancelAll_cancels w _)) fun _ => cancelWaiter_counts _ _) fun e => .ite
    (.bind (.upd fun w => Nat.le_refl _) fun _ => cancelWaiter_counts _ _) (.raise _)

theorem consume_counts (ids : List Nat) : Counts (consumeExceptions ids) := .bind .get fun _ => .ite (.pure _) (.raise _)

theorem raiseFirst_counts (ids : List Nat) : Counts (raiseFirst ids) := by
  induction ids with
  | nil => exact .pure _
  | cons i ids ih => exact .bind .get fun _ => .ite ih (.bind (taskResult_counts i) fun _ => ih)

theorem harvest_counts (ids : List Nat) (t ct cf : Bool) : Counts (harvest ids t ct cf) := by
  refine .bind ?_ fun _ => .bind (consume_counts ids) fun _ => raiseFirst_counts ids
  refine .bind (.catch_ (.bind (asyncWait_counts _ _ _) fun _ => .bind .get fun _ => .pure _) fun e => .ite
    (.bind (cancelWait_counts _ _ _) fun _ => .bind (consume_counts _) fun _ => .raise _) (.raise _)) fun _ => ?_
  exact .bind (.when (cancelWait_counts _ _ _)) fun _ => .bind .get fun _ => .ite (.raise _) (.ite
    (.bind (consume_counts _) fun _ => .raise _) (.pure _))

theorem poll_hope {F : Sched → Prop} (hF : Good F) {w : W} {σ : Sched} (hw : Up w) (hσ : F σ) (hc : Hope w σ) :
    Terms waitPidPoll w σ fun _ w' _ => Up w' := by
  have hu : Held w.mine w.pollOnce := (stable_held w.mine).env _ _ _ ((stable_held w.mine).env _ _ _ ⟨hw, rfl⟩)
  have hup : ∀ v, Held w.mine v → Up v := fun v ⟨h, h'⟩ => by rw [Up, h']; exact h
  refine Terms.updThen (Terms.getThen (.when (fun _ => ?_) fun _ => hup _ hu))
  refine (wait_hoped hF (stable_held w.mine) _ hu hσ ?_).mono fun _ _ v h => hup v h
  exact hc.imp_left fun h => (pollOnce_must w).trans h

/-- The waits at the end of a run end after a cancellation, be it pending or to come. -/
theorem wait_hope {F : Sched → Prop} (hF : Good F) {cfg : RCfg} {w : W} {σ : Sched} (hw : Up w) (hσ : F σ) (hc : Hope w σ) :
    WaitEnds cfg w σ := by
  constructor
  · unfold TasksEnd asyncWait
    split
    · exact .raise ⟨hw, rfl⟩
    · exact wait_hoped hF (stable_held w.mine) _ ⟨hw, rfl⟩ hσ hc
  · intro _ k w' h hu
    refine poll_hope hF hu (hF.shift σ k hσ) ?_
    rcases h with ⟨rfl, rfl, _⟩ | h
    · rw [Sched.shift_zero]; exact hc
    · right
      have hs := harvest_spec w.mine false true false w (σ.upto k ++ [])
      have hn := harvest_counts w.mine false true false w (σ.upto k ++ [])
      rw [h] at hs hn
      obtain ⟨_, hm, q, _⟩ := hs.ok rfl
      have hl : w'.cancels = w.cancels := q.lost hm
      dsimp only at hn
      simp only [List.append_nil, show nCancels ([] : List Ev) = 0 from rfl] at hn
      rcases hc with hc | hc
      · rw [q.must hc] at hm; cases hm
      · exact hasCancel_shift hc (by omega)

/-- The waits at the end of a run end after a cancellation. -/
theorem wait_cancel {F : Sched → Prop} (hF : Good F) {cfg : RCfg} {w : W} {σ : Sched} (hw : Up w) (hσ : F σ) (hc : HasCancel σ) :
    WaitEnds cfg w σ := wait_hope hF hw hσ (.inr hc)

end Shellous
