import Verif.Lemmas.EndsHarvest
import Verif.Lemmas.RunAll

/-!
# A run of a command comes to an end
-/

namespace Shellous

/-! ## Tasks end -/

/-- `i` is a task that does not depend on another one. -/
def OkId (w : W) (i : Nat) : Prop := ∃ t, w.tasks[i]? = some t ∧ ∀ o, t.kind ≠ .ready o

theorem OkId.ext {w w' : W} {i : Nat} (h : OkId w i)
    (hx : ∀ (i : Nat) (t : TaskSt), w.tasks[i]? = some t → ∃ t', w'.tasks[i]? = some t' ∧ TaskExt t t') : OkId w' i := by
  obtain ⟨t, ht, hk⟩ := h
  obtain ⟨t', ht', e⟩ := hx i t ht
  exact ⟨t', ht', fun o => by rw [e.kind]; exact hk o⟩

/-- There is a child, and the tasks `ids` can end. -/
def Under (ids : List Nat) (w : W) : Prop := w.proc.isSome = true ∧ ∀ i, i ∈ ids → OkId w i

theorem Under.rext {ids : List Nat} {w w' : W} (h : Under ids w) (hx : RExt w w') : Under ids w' := by
  refine ⟨?_, fun i hi => (h.2 i hi).ext hx.task⟩
  obtain ⟨p, hp⟩ := Option.isSome_iff_exists.mp h.1
  obtain ⟨p', h', _⟩ := hx.proc p hp
  simp [h']

theorem Under.ext {ids : List Nat} {w w' : W} (h : Under ids w) (hx : Ext w w') : Under ids w' := h.rext hx.toRExt

theorem under_log {ids : List Nat} {w : W} (o : Obs) (h : Under ids w) : Under ids (w.log o) := h

theorem stable_under (ids : List Nat) : Stable (Under ids) where
  env fwd w e h := h.ext (env_ext fwd w e)
  throw w h := h.ext (throwCancel_ext w)
  log w o _ h := under_log o h
  cancelTask w i h := h.ext (cancelTask_ext w i)

theorem isDone_env {fwd : Option Nat} {i : Nat} (w : W) (e : Ev) (h : w.isDone i = true) : (w.env fwd e).isDone i = true := by
  unfold W.isDone at h ⊢
  rcases ht : w.tasks[i]? with _ | t
  · rw [ht] at h; cases h
  · rw [ht] at h
    obtain ⟨t', ht', ex⟩ := (env_ext fwd w e).task i t ht
    have := ex.out h
    subst this
    rw [ht']; exact h

/-- A task that may end with any value is done after the event that ends it. -/
theorem taskDone_done {fwd : Option Nat} {w : W} {i : Nat} {t : TaskSt} (ht : w.tasks[i]? = some t) (r : Option Result)
    (hm : w.mayEnd t (.val r) = true) : (w.env fwd (.taskDone i (.val r))).isDone i = true := by
  simp only [W.env, ht, TOut.norm, hm, Bool.and_true]
  split
  · rename_i hn
    have e1 : (w.endEffect t.kind (.val r)).tasks = w.tasks := by
      unfold W.endEffect W.stopTimer; split <;> rfl
    simp [W.isDone, W.setOut, e1, List.getElem?_modify, ht]
  · rename_i hn
    rw [W.isDone, ht]
    cases hq : t.out <;> simp_all

/-- The child has exited. -/
def ExitedP (w : W) : Prop := ∃ p, w.proc = some p ∧ p.exited.isSome = true

/-- The child has been reaped. -/
def ReapedP (w : W) : Prop := ∃ p, w.proc = some p ∧ p.exited.isSome = true ∧ p.reaped.isSome = true

theorem ExitedP.env {fwd : Option Nat} (w : W) (e : Ev) (h : ExitedP w) : ExitedP (w.env fwd e) := by
  obtain ⟨p, hp, he⟩ := h
  obtain ⟨p', hp', x⟩ := (env_ext fwd w e).proc p hp
  obtain ⟨c, hc⟩ := Option.isSome_iff_exists.mp he
  exact ⟨p', hp', by simp [x.exited c hc]⟩

theorem ReapedP.env {fwd : Option Nat} (w : W) (e : Ev) (h : ReapedP w) : ReapedP (w.env fwd e) := by
  obtain ⟨p, hp, he, hr⟩ := h
  obtain ⟨p', hp', x⟩ := (env_ext fwd w e).proc p hp
  obtain ⟨c, hc⟩ := Option.isSome_iff_exists.mp he
  obtain ⟨d, hd⟩ := Option.isSome_iff_exists.mp hr
  exact ⟨p', hp', by simp [x.exited c hc], by simp [x.reaped d hd]⟩

theorem rcKnown_env {fwd : Option Nat} (w : W) (e : Ev) (h : w.rcKnown = true) : (w.env fwd e).rcKnown = true := by
  unfold W.rcKnown at h ⊢
  rcases hp : w.proc with _ | p
  · rw [hp] at h; cases h
  · rw [hp] at h
    obtain ⟨p', hp', x⟩ := (env_ext fwd w e).proc p hp
    obtain ⟨c, hc⟩ := Option.isSome_iff_exists.mp h
    simp [hp', x.rc c hc]

/-- If the child exits some time, the return code becomes known. -/
theorem rc_due {w : W} {σ : Sched} (hx : σ.Exits) (h : w.proc.isSome = true) :
    ∃ n, ∀ m, n ≤ m → (evolve none w σ m).rcKnown = true := by
  have h0 : ∃ n, ∀ m, n ≤ m → (evolve none w σ m).proc.isSome = true :=
    ⟨0, fun m hm => evolve_keeps (J := fun w => w.proc.isSome = true)
      (fun w e h => ((stable_under []).env none w e ⟨h, by simp⟩).1) hm h⟩
  have h1 : ∃ n, ∀ m, n ≤ m → ExitedP (evolve none w σ m) := by
    refine evt (J := fun w => w.proc.isSome = true) (fun w e h => ((stable_under []).env none w e ⟨h, by simp⟩).1)
      (fun w e h => h.env w e) hx.exit ?_ h0
    rintro w e hp ⟨c, rfl⟩
    obtain ⟨p, hp⟩ := Option.isSome_iff_exists.mp hp
    simp only [W.env, hp]
    split
    · exact ⟨_, rfl, rfl⟩
    · exact ⟨p, hp, by cases hq : p.exited <;> simp_all⟩
  have h2 : ∃ n, ∀ m, n ≤ m → ReapedP (evolve none w σ m) := by
    refine evt (J := ExitedP) (fun w e h => h.env w e) (fun w e h => h.env w e) hx.reap ?_ h1
    rintro w e ⟨p, hp, he⟩ hq
    obtain ⟨c, hc⟩ := Option.isSome_iff_exists.mp he
    rcases hr : p.reaped with _ | d
    · rcases hq with rfl | rfl
      · simp only [W.env, hp, hc, hr]; exact ⟨_, rfl, by simp [hc], rfl⟩
      · simp only [W.env, hp, hc, hr]; exact ⟨_, rfl, by simp [hc], rfl⟩
    · exact ReapedP.env w e ⟨p, hp, he, by simp [hr]⟩
  refine evt (J := ReapedP) (fun w e h => h.env w e) (fun w e h => rcKnown_env w e h) hx.deliver ?_ h2
  rintro w e ⟨p, hp, _, hr⟩ rfl
  obtain ⟨c, hc⟩ := Option.isSome_iff_exists.mp hr
  rcases hq : p.rc with _ | d
  · simp [W.env, hp, hc, hq, W.rcKnown]
  · exact rcKnown_env w _ (by simp [W.rcKnown, hp, hq])

/-- Every task ends if the child exits some time and events that end tasks keep coming. -/
theorem due_under {F : Sched → Prop} (hx : ∀ σ, F σ → σ.Exits ∧ σ.Finishes) (ids : List Nat) : Due F (Under ids) ids := by
  intro i hi w σ hw hσ
  obtain ⟨n1, h1⟩ := rc_due (hx σ hσ).1 hw.1
  refine evt (J := fun w => Under ids w ∧ w.rcKnown = true)
    (fun w e h => ⟨(stable_under ids).env none w e h.1, rcKnown_env w e h.2⟩) (fun w e h => isDone_env w e h)
    ((hx σ hσ).2 i) ?_ ⟨n1, fun m hm => ⟨evolve_keeps (fun w e h => (stable_under ids).env none w e h) (Nat.zero_le m) hw, h1 m hm⟩⟩
  rintro w e ⟨hu, hr⟩ ⟨r, rfl⟩
  obtain ⟨t, ht, hk⟩ := hu.2 i hi
  refine taskDone_done ht r ?_
  unfold W.mayEnd
  cases h : t.kind with
  | io => rfl
  | closer => rfl
  | waiter => exact hr
  | spawn => exact hu.1
  | ready o => exact absurd h (hk o)

/-- The schedules on which the library's waits end: the time limits expire, or everything ends some time. -/
def WaitMode (F : Sched → Prop) (ct : Bool) : Prop :=
  (ct = true ∧ ∀ σ, F σ → σ.Ticks) ∨ ∀ σ, F σ → σ.Exits ∧ σ.Finishes

theorem WaitMode.waitOk {F : Sched → Prop} {ct : Bool} (h : WaitMode F ct) (ids : List Nat) {t : Bool} (ht : ct = true → t = true) :
    WaitOk F (Under ids) ids t :=
  h.elim (fun h => .inl ⟨ht h.1, h.2⟩) fun h => .inr (due_under h ids)

/-! ## Killing -/

/-- There is a child, and the background tasks can end. -/
def Up (w : W) : Prop := Under w.mine w

theorem Up.of {w w' : W} (h : Up w) (hx : RExt w w') (hm : ∀ i, i ∈ w'.mine → i ∈ w.mine) : Up w' :=
  ⟨(Under.rext h hx).1, fun i hi => (Under.rext h hx).2 i (hm i hi)⟩

section
variable {F : Sched → Prop} (hF : Good F)
include hF

/-- `harvest` of some tasks, in a world with a child. -/
theorem harvest_up {ids : List Nat} {timed ct cf : Bool} (h1 : WaitOk F (Under ids) ids timed)
    (h2 : WaitOk F (Under ids) ids ct) {w : W} {σ : Sched} (hw : Up w) (hi : ∀ i, i ∈ ids → OkId w i) (hσ : F σ) :
    Terms (harvest ids timed ct cf) w σ fun _ w' _ => Up w' := by
  have hS : Stable (fun v => (Under ids v ∧ Under w.mine v) ∧ v.mine = w.mine) :=
    { env := fun fwd v e h => ⟨⟨(stable_under ids).env fwd v e h.1.1, (stable_under w.mine).env fwd v e h.1.2⟩,
        (env_ext fwd v e).mine.trans h.2⟩
      throw := fun v h => ⟨⟨(stable_under ids).throw v h.1.1, (stable_under w.mine).throw v h.1.2⟩, h.2⟩
      log := fun v o ho h => ⟨⟨(stable_under ids).log v o ho h.1.1, (stable_under w.mine).log v o ho h.1.2⟩, h.2⟩
      cancelTask := fun v i h => ⟨⟨(stable_under ids).cancelTask v i h.1.1, (stable_under w.mine).cancelTask v i h.1.2⟩, h.2⟩ }
  have cv : ∀ t, WaitOk F (Under ids) ids t → WaitOk F (fun v => (Under ids v ∧ Under w.mine v) ∧ v.mine = w.mine) ids t :=
    fun t h => h.elim .inl fun h => .inr fun i hi v σ hv hσ => h i hi v σ hv.1.1 hσ
  refine (harvest_ends hF hS (cv _ h1) (cv _ h2) w σ ⟨⟨⟨hw.1, hi⟩, hw⟩, rfl⟩ hσ).mono ?_
  rintro _ _ w' ⟨⟨_, h⟩, hm⟩
  rw [Up, hm]; exact h

/-- A new task that is harvested. -/
theorem harvestNew_up {k : TaskKind} (hk : ∀ o, k ≠ .ready o) {timed ct cf : Bool}
    (h1 : ∀ ids, WaitOk F (Under ids) ids timed) (h2 : ∀ ids, WaitOk F (Under ids) ids ct) {w : W} {σ : Sched} (hw : Up w)
    (hσ : F σ) : Terms (do let i ← createTask k; harvest [i] timed ct cf) w σ fun _ w' _ => Up w' := by
  refine (Terms.createTask (Q := fun o w' _ => Up w' ∧ ∀ i, o = .ok i → OkId w' i) ⟨?_, ?_⟩).bind ?_ fun _ _ _ h => h.1
  · exact hw.of (createTask_ext w k).toRExt fun i h => h
  · rintro i hi
    cases hi
    exact ⟨{ kind := k }, by simp, hk⟩
  · rintro k i w' ⟨h, hi⟩
    refine harvest_up hF (h1 _) (h2 _) h ?_ (hF.shift σ k hσ)
    intro j hj
    simp only [List.mem_singleton] at hj
    subst hj
    exact hi j rfl

theorem killWait_ends {ct : Bool} (hm : WaitMode F ct) : Keeps F Up killWait := by
  have ht : ∀ ids, WaitOk F (Under ids) ids true := fun ids => hm.waitOk ids fun _ => rfl
  unfold killWait
  refine .getBind hF fun w σ hw hσ => ?_
  refine (Keeps.when fun _ => .catch_ hF ?_ fun e => .ite (fun _ => ?_) fun _ => .raise) w σ hw hσ
  · unfold killWaitTry
    refine .bind hF (.upd fun w h => Up.of h (rsignal_ext w false none) fun i hi => by rwa [signal_mine] at hi) fun _ => ?_
    intro w σ hw hσ
    exact harvestNew_up hF (by simp) ht ht hw hσ
  · unfold killWaitExpired
    refine .getBind hF fun w σ hw hσ => ?_
    refine (Keeps.ite (fun _ => .upd fun w h => h.of (poll_ext w) fun i hi => by rwa [(poll_facts w).1] at hi)
      fun _ => ?_) w σ hw hσ
    exact .bind hF (.upd fun w h => h) fun _ => .raise

theorem kill_ends {cfg : RCfg} (hm : WaitMode F cfg.cancelTimed) : Keeps F Up (kill cfg) := by
  have ht : ∀ ids, WaitOk F (Under ids) ids true := fun ids => hm.waitOk ids fun _ => rfl
  have hc : ∀ ids, WaitOk F (Under ids) ids cfg.cancelTimed := fun ids => hm.waitOk ids id
  unfold kill
  refine .catch_ hF ?_ fun e => .ite (fun _ => ?_) fun _ => .bind hF (killWait_ends hF hm) fun _ => .raise
  · unfold killTry
    refine .getBind hF fun w σ hw hσ => ?_
    refine Terms.bind (Q := fun _ w' _ => Up w' ∧ w'.mine = w.mine) (.when (fun _ => .upd ?_) fun _ => ⟨hw, rfl⟩) ?_ fun _ _ _ h => h.1
    · exact ⟨hw.of (rsignal_ext w false _) fun i hi => by rwa [signal_mine] at hi, signal_mine _ _ _⟩
    · rintro k _ w1 ⟨h1, hm1⟩
      refine Terms.bind (Q := fun _ w' _ => Up w') (.when (fun _ => ?_) fun _ => h1) ?_ fun _ _ _ h => h
      · exact harvest_up hF (hc _) (ht _) h1 (fun i hi => h1.2 i (by rwa [hm1])) (hF.shift σ k hσ)
      · intro k' _ w2 h2
        refine (Keeps.getBind hF (J := Up) ?_) w2 _ h2 (hF.shift _ k' (hF.shift σ k hσ))
        intro w σ hw hσ
        exact (Keeps.when fun _ => fun w σ hw hσ => harvestNew_up hF (by simp) hc ht hw hσ) w σ hw hσ
  · exact .bind hF (.when fun _ => .upd fun w h => h.of (setCancelled_ext w) fun i hi => hi) fun _ => killWait_ends hF hm

theorem closeRun_ends {cfg : RCfg} {ct : Bool} (hm : WaitMode F ct) : Keeps F Up (closeRun cfg) := by
  have ht : ∀ ids, WaitOk F (Under ids) ids true := fun ids => hm.waitOk ids fun _ => rfl
  unfold closeRun
  refine .bind hF (.upd fun w h => h.of (transportClose_ext w) fun i hi => by rwa [(transportClose_facts w).2.1] at hi) fun _ => ?_
  refine .getBind hF fun w σ hw hσ => ?_
  have : Keeps F Up (Coro.when cfg.hasStdin (Coro.catch_
      (do
        let i ← createTask .closer
        harvest [i] true true true)
      fun e => if e = .timeout then Coro.upd (·.log .closeTimeout) else Coro.raise e)) := by
    refine .when fun _ => .catch_ hF ?_ fun e => ?_
    · intro w σ hw hσ
      exact harvestNew_up hF (by simp) ht ht hw hσ
    · exact .ite (fun _ => .upd fun w h => h) fun _ => .raise
  split
  · exact .upd hw
  · exact this w σ hw hσ

end

end Shellous
