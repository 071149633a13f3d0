import Verif.Lemmas.RunEnd

/-!
# The start of a run: `_start` and `__aenter__`
-/

namespace Shellous

variable {α β : Type}

/-! ## Awaiting a task directly -/

/-- What happens to the awaited task `i` and to the caller while cancellations are forwarded. -/
structure Fwd (i : Nat) (w w' : W) : Prop where
  ext : Ext w w'
  throws : w'.throws = w.throws
  pend : w'.mustCancel = true → w.mustCancel = true ∨ w'.isDone i = true
  count : ∀ t t', w.tasks[i]? = some t → w'.tasks[i]? = some t' → t'.cancels + w.cancels ≤ t.cancels + w'.cancels

theorem Fwd.refl (i : Nat) (w : W) : Fwd i w w :=
  ⟨.refl w, rfl, .inl, fun t t' h h' => by rw [h] at h'; cases h'; omega⟩

theorem Fwd.trans {i : Nat} {w w' w'' : W} (h : Fwd i w w') (h' : Fwd i w' w'') : Fwd i w w'' where
  ext := h.ext.trans h'.ext
  throws := h'.throws.trans h.throws
  pend hm := by
    rcases h'.pend hm with h1 | h1
    · exact (h.pend h1).imp_right h'.ext.isDone
    · exact .inr h1
  count t t'' ht ht'' := by
    obtain ⟨t', ht', _⟩ := h.ext.task i t ht
    have := h.count t t' ht ht'
    have := h'.count t' t'' ht' ht''
    omega

theorem Fwd.ofQuiet {i : Nat} {w w' : W} (q : Quiet w w') (hm : w'.mustCancel = w.mustCancel) : Fwd i w w' where
  ext := q.toExt
  throws := q.throws
  pend h := .inl (by rw [← hm]; exact h)
  count t t' ht ht' := by
    obtain ⟨t1, ht1, hc⟩ := q.same i t ht
    rw [ht'] at ht1; cases ht1
    have := q.toExt.cancels
    omega

theorem Fwd.cancelCaller (i : Nat) (w : W) : Fwd i w (w.cancelCaller (some i)) := by
  unfold W.cancelCaller
  simp only []
  split
  · rename_i hd
    refine ⟨?_, rfl, fun _ => .inr hd, fun t t' ht ht' => ?_⟩
    · have := cancelCaller_ext none w
      exact this
    · rw [show t' = t from ?_]
      · simp only []; omega
      · have : w.tasks[i]? = some t' := ht'
        rw [ht] at this; cases this; rfl
  · have hx : Ext w ({ w with cancels := w.cancels + 1 } : W) := { Ext.refl w with cancels := Nat.le_succ _ }
    refine ⟨hx.trans (cancelTask_ext _ i), rfl, fun h => .inl h, fun t t' ht ht' => ?_⟩
    simp only [W.cancelTask, List.getElem?_modify, ht, if_true, Option.map_eq_map, Option.map_some,
      Option.some.injEq] at ht'
    subst ht'
    unfold TaskSt.cancel
    split <;> simp only [W.cancelTask] <;> omega

theorem env_fwd (i : Nat) (w : W) (ev : Ev) : Fwd i w (w.env (some i) ev) := by
  cases ev
  case cancel => exact Fwd.cancelCaller i w
  case timer =>
    unfold W.env
    simp only []
    split
    · rename_i h
      have h1 : Fwd i w { w with timedOut := true, timer := false } := by
        refine ⟨?_, rfl, .inl, fun t t' ht ht' => ?_⟩
        · exact { Ext.refl w with
            timer := fun h => (by cases h)
            timedOut := fun _ => rfl
            timedOutBy := fun _ => .inr h }
        · have : w.tasks[i]? = some t' := ht'
          rw [ht] at this; cases this; simp only []; omega
      exact h1.trans (Fwd.cancelCaller i _)
    · exact .refl i w
  case taskDone j out =>
    refine Fwd.ofQuiet (env_quiet w (.taskDone j out)) ?_
    unfold W.env; simp only []
    split
    · rfl
    · split
      · unfold W.setOut W.endEffect W.stopTimer; simp only []; split <;> (try split) <;> rfl
      · rfl
  case taskDrop j =>
    refine Fwd.ofQuiet (env_quiet w (.taskDrop j)) ?_
    unfold W.env W.setOut; simp only []
    repeat' split
    all_goals rfl
  case userSignal s =>
    refine Fwd.ofQuiet (env_quiet w (.userSignal s)) ?_
    unfold W.env W.signal W.log; simp only []
    repeat' split
    all_goals rfl
  case fork => exact Fwd.ofQuiet (env_quiet w .fork) (by unfold W.env; simp only []; repeat' split
                                                         all_goals rfl)
  case exit c => exact Fwd.ofQuiet (env_quiet w (.exit c)) (by unfold W.env; simp only []; repeat' split
                                                               all_goals rfl)
  case reap => exact Fwd.ofQuiet (env_quiet w .reap) (by unfold W.env; simp only []; repeat' split
                                                         all_goals rfl)
  case reapLost => exact Fwd.ofQuiet (env_quiet w .reapLost) (by unfold W.env; simp only []; repeat' split
                                                                 all_goals rfl)
  case deliver => exact Fwd.ofQuiet (env_quiet w .deliver) (by unfold W.env; simp only []; repeat' split
                                                               all_goals rfl)
  all_goals exact .refl i w

theorem Envs.fwd {i : Nat} {w w' : W} (h : Envs (some i) w w') : Fwd i w w' := by
  induction h with
  | refl w => exact .refl i w
  | step w ev w' _ ih => exact (env_fwd i w ev).trans ih

theorem env_mustCancel (w : W) (ev : Ev) :
    (w.env none ev).mustCancel = w.mustCancel ∨ w.cancels < (w.env none ev).cancels := by
  cases ev
  case cancel => right; simp [W.env, W.cancelCaller]
  case timer =>
    unfold W.env; simp only []
    split
    · right; simp [W.cancelCaller]
    · exact .inl rfl
  case taskDone j out =>
    left
    unfold W.env; simp only []
    split
    · rfl
    · split
      · unfold W.setOut W.endEffect W.stopTimer; simp only []; split <;> (try split) <;> rfl
      · rfl
  case taskDrop j =>
    left
    unfold W.env W.setOut; simp only []
    repeat' split
    all_goals rfl
  case userSignal s =>
    left
    unfold W.env W.signal W.log; simp only []
    repeat' split
    all_goals rfl
  all_goals (left; unfold W.env; simp only []; repeat' split)
  all_goals rfl

/-- A pending cancellation of the caller comes from a `cancel()`. -/
theorem Envs.pendingCount {w w' : W} (h : Envs none w w') (hm : w.mustCancel = false)
    (hm' : w'.mustCancel = true) : w.cancels < w'.cancels := by
  induction h with
  | refl w => rw [hm] at hm'; cases hm'
  | step w ev w' he ih =>
    rcases env_mustCancel w ev with h | h
    · exact Nat.lt_of_le_of_lt (env_ext none w ev).cancels (ih (h.trans hm) hm')
    · exact Nat.lt_of_lt_of_le h he.ext.cancels

/-! ## Spawning -/

/-- Facts about `uninterrupted(...)`, from a world without pending cancellation. `i` is the new task. -/
structure UPost (i : Nat) (w : W) (o : Out Unit) (w' : W) : Prop where
  ext : Ext w w'
  good : w'.Ok
  len : w'.tasks.length = i + 1
  task : ∃ t, w'.tasks[i]? = some t ∧ t.kind = .spawn ∧
    (t.cancels = 0 ∨ w.cancels + t.cancels + 1 ≤ w'.cancels)
  done : o ≠ .blocked → w'.isDone i = true
  ok : o = .ok () → w'.attached = true ∧ w'.cancels = w.cancels ∧ w'.mustCancel = false ∧ w'.throws = w.throws
  why : ∀ e, o = .exc e → (e = .cancelled ∧ w.throws < w'.throws) ∨ w'.outOf i = some (.err e)

theorem throwCancel_task {w : W} {i : Nat} : w.throwCancel.tasks[i]? = w.tasks[i]? := rfl

theorem uninterrupted_spec (w : W) (hok : w.Ok)
    (hns : ∀ (i : Nat) (t : TaskSt), w.tasks[i]? = some t → t.kind ≠ .spawn)
    (hm : w.mustCancel = false) : wp uninterruptedSpawn (UPost w.tasks.length w) w := by
  unfold uninterruptedSpawn
  refine wp_bind (wp_createTask ?_)
  simp only []
  have hx0 := createTask_ext w .spawn
  have hok0 := hok.append .spawn (fun _ => hns)
  have hl0 : (w.tasks ++ [({ kind := .spawn } : TaskSt)]).length = w.tasks.length + 1 := by simp
  have ht0 : (w.tasks ++ [({ kind := .spawn } : TaskSt)])[w.tasks.length]? = some { kind := .spawn } := by simp
  generalize hw0 : ({ w with tasks := w.tasks ++ [{ kind := .spawn }] } : W) = w0 at *
  have hl0 : w0.tasks.length = w.tasks.length + 1 := by rw [← hw0]; exact hl0
  have ht0 : w0.tasks[w.tasks.length]? = some { kind := .spawn } := by rw [← hw0]; exact ht0
  have hm0 : w0.mustCancel = false := by rw [← hw0]; exact hm
  have hc0 : w0.cancels = w.cancels := by rw [← hw0]
  have hth0 : w0.throws = w.throws := by rw [← hw0]; rfl
  generalize w.tasks.length = i at *
  -- facts after a quiet wait
  have quiet : ∀ w1, Quiet w0 w1 → Ext w w1 ∧ w1.tasks.length = i + 1 ∧
      (∃ t, w1.tasks[i]? = some t ∧ t.kind = .spawn ∧ t.cancels = 0) := by
    intro w1 q
    refine ⟨hx0.trans q.toExt, q.lenEq.trans hl0, ?_⟩
    obtain ⟨t, ht, e⟩ := q.task i _ ht0
    obtain ⟨t', ht', hc⟩ := q.same i _ ht0
    rw [ht] at ht'; cases ht'
    exact ⟨t, ht, e.kind, hc⟩
  refine wp_catch (wp_bind (wp_wait ?_ ?_ ?_))
  · -- interrupted
    intro w1 he hmc
    simp only [if_true]
    have q := he.quiet
    obtain ⟨hx1, hl1, t1, ht1, hk1, hcs1⟩ := quiet w1 q
    have hok1 : w1.throwCancel.Ok := stable_ok.throw _ (stable_ok.envs he hok0)
    have hcan : w.cancels + 1 ≤ w1.cancels := by
      have := q.toExt.cancels
      by_cases h : w1.cancels = w0.cancels
      · -- a pending cancellation needs a `cancel`
        exfalso
        have hq := Envs.pendingCount he hm0 hmc
        omega
      · omega
    have hx1' : Ext w w1.throwCancel := hx1.trans (throwCancel_ext w1)
    have hth1 : w.throws < w1.throwCancel.throws := by
      rw [throws_throwCancel, q.throws, hth0]; omega
    refine wp_bind (wp_get ?_)
    simp only []
    refine wp_bind (wp_when ?_ ?_)
    · intro hnc
      refine wp_bind ?_
      -- awaitTask
      unfold awaitTask
      refine wp_bind (wp_get ?_)
      simp only []
      -- after the wait, whatever it was
      have after : ∀ w2 (hf : Fwd i w1.throwCancel w2) (hok2 : w2.Ok) (hd : w2.isDone i = true)
          (hl2 : w2.tasks.length = i + 1), wp (do
            let w ← Coro.get
            Coro.when (decide (w.outOf i = some .cancelled)) (Coro.upd (·.log .thrown))
            taskResult i) (fun o w' => match o with
              | .ok _ => wp (Coro.raise .cancelled) (UPost i w) w'
              | .exc e => UPost i w (.exc e) w'
              | .blocked => UPost i w .blocked w') w2 := by
        intro w2 hf hok2 hd hl2
        have hx2 := hx1'.trans hf.ext
        obtain ⟨t2, ht2, e2⟩ := hf.ext.task i t1 ht1
        have hcnt := hf.count t1 t2 ht1 ht2
        have hcc : w1.throwCancel.cancels = w1.cancels := rfl
        have htask : t2.cancels = 0 ∨ w.cancels + t2.cancels + 1 ≤ w2.cancels := by right; omega
        have hth2 : w.throws < w2.throws := by rw [hf.throws]; exact hth1
        refine wp_bind (wp_get ?_)
        simp only []
        obtain ⟨out, hout⟩ := W.isDone_iff.1 hd
        refine wp_bind (wp_when ?_ ?_)
        · intro hcn
          have hcn := of_decide_eq_true hcn
          refine wp_upd ?_
          simp only []
          intro evs
          have h3 : (w2.log .thrown).outOf i = some .cancelled := hcn
          simp only [taskResult, h3]
          refine ⟨hx2.trans (log_ext rfl), hok2.same rfl rfl rfl, hl2, ⟨t2, ht2, e2.kind.trans hk1, htask⟩,
            fun _ => hd, by simp, ?_⟩
          intro e he; cases he
          exact .inl ⟨rfl, Nat.lt_of_lt_of_le hth2 (log_ext (w := w2) (o := .thrown) rfl).throws⟩
        · intro hcn
          have hcn := of_decide_eq_false hcn
          simp only []
          intro evs
          cases out with
          | cancelled => exact absurd hout hcn
          | val r =>
            simp only [taskResult, hout]
            refine wp_raise ⟨hx2, hok2, hl2, ⟨t2, ht2, e2.kind.trans hk1, htask⟩, fun _ => hd, by simp, ?_⟩
            intro e he; cases he
            exact .inl ⟨rfl, hth2⟩
          | err e =>
            simp only [taskResult, hout]
            refine ⟨hx2, hok2, hl2, ⟨t2, ht2, e2.kind.trans hk1, htask⟩, fun _ => hd, by simp, ?_⟩
            intro e' he; cases he
            exact .inr hout
      refine wp_bind (wp_when ?_ ?_)
      · intro hnd
        refine wp_wait ?_ ?_ ?_
        · intro w2 he2 hmc2
          have hf := he2.fwd
          have hok2 := stable_ok.throw _ (stable_ok.envs he2 hok1)
          have hl2 := (stable_len (i + 1)).envs he2 hl1
          have hd : w2.isDone i = true := (hf.pend hmc2).resolve_left (by simp [W.throwCancel, W.log])
          obtain ⟨t2, ht2, e2⟩ := hf.ext.task i t1 ht1
          have hcnt := hf.count t1 t2 ht1 ht2
          have hcc : w1.throwCancel.cancels = w1.cancels := rfl
          refine ⟨(hx1'.trans hf.ext).trans (throwCancel_ext w2), hok2, hl2, ⟨t2, ht2, e2.kind.trans hk1, ?_⟩,
            fun _ => hd, by simp, ?_⟩
          · right; change w.cancels + t2.cancels + 1 ≤ w2.cancels; omega
          · intro e he; cases he
            refine .inl ⟨rfl, ?_⟩
            have := hf.throws
            rw [throws_throwCancel]; omega
        · intro w2 he2 _ hr
          have hf := he2.fwd
          refine wp_mono (after w2 hf (stable_ok.envs he2 hok1) (hr.resolve_right (by simp))
            ((stable_len (i + 1)).envs he2 hl1)) ?_
          intro o w' h
          cases o <;> first | exact wp_pure h | exact h
        · intro w2 he2
          have hf := he2.fwd
          obtain ⟨t2, ht2, e2⟩ := hf.ext.task i t1 ht1
          have hcnt := hf.count t1 t2 ht1 ht2
          have hcc : w1.throwCancel.cancels = w1.cancels := rfl
          exact ⟨hx1'.trans hf.ext, stable_ok.envs he2 hok1, (stable_len (i + 1)).envs he2 hl1,
            ⟨t2, ht2, e2.kind.trans hk1, .inr (by omega)⟩, by simp, by simp, by simp⟩
      · intro hd
        simp only [Bool.not_eq_false'] at hd
        refine wp_mono (after _ (.refl i _) hok1 hd hl1) ?_
        intro o w' h
        cases o <;> first | exact wp_pure h | exact h
    · intro hnc
      have hnc := of_decide_eq_false hnc
      simp only [ne_eq, Classical.not_not] at hnc
      refine wp_raise ⟨hx1', hok1, hl1, ⟨t1, ht1, hk1, .inl hcs1⟩, fun _ => W.isDone_iff.2 ⟨_, hnc⟩, by simp, ?_⟩
      intro e he; cases he
      exact .inl ⟨rfl, hth1⟩
  · -- the task is done
    intro w1 he hmc hr
    simp only []
    have hd : w1.isDone i = true := hr.resolve_right (by simp)
    have q := he.quiet
    obtain ⟨hx1, hl1, t1, ht1, hk1, hcs1⟩ := quiet w1 q
    have hok1 := stable_ok.envs he hok0
    obtain ⟨out, hout⟩ := W.isDone_iff.1 hd
    have hto := hok1.task i t1 ht1
    have hout' := hout
    unfold W.outOf at hout'
    rw [ht1] at hout'
    simp only [] at hout'
    unfold TaskOk at hto
    rw [hout', hk1, hcs1] at hto
    refine wp_bind ?_
    intro evs
    cases out with
    | val r =>
      simp only [taskResult, hout]
      refine wp_pure ⟨hx1, hok1, hl1, ⟨t1, ht1, hk1, .inl hcs1⟩, fun _ => hd, fun _ => ⟨hto, ?_, hmc, ?_⟩, by simp⟩
      · have := q.lost hmc; omega
      · rw [q.throws, hth0]
    | err e =>
      simp only [taskResult, hout]
      have hne : e ≠ .cancelled := hto.1
      simp only [hne, if_false]
      refine wp_raise ⟨hx1, hok1, hl1, ⟨t1, ht1, hk1, .inl hcs1⟩, fun _ => hd, by simp, ?_⟩
      intro e' he'; cases he'
      exact .inr hout
    | cancelled => exact absurd hto.1 (by simp)
  · intro w1 he
    obtain ⟨hx1, hl1, t1, ht1, hk1, hcs1⟩ := quiet w1 he.quiet
    exact ⟨hx1, stable_ok.envs he hok0, hl1, ⟨t1, ht1, hk1, .inl hcs1⟩, by simp, by simp, by simp⟩

/-! ## `_start` -/

/-- Nothing has been launched. -/
def W.Unlaunched (w : W) : Prop := w.tasks = [] ∧ w.proc = none ∧ w.attached = false

theorem unlaunched_cancelCaller (fwd : Option Nat) {w : W} (h : w.Unlaunched) :
    (w.cancelCaller fwd).Unlaunched := by
  unfold W.cancelCaller; split
  · split
    · exact h
    · exact ⟨by simp [W.cancelTask, h.1], h.2⟩
  · exact h

theorem stable_unlaunched : Stable W.Unlaunched where
  env fwd w ev h := by
    have hh := h
    obtain ⟨h1, h2, h3⟩ := hh
    cases ev
    case cancel => exact unlaunched_cancelCaller fwd h
    case timer =>
      unfold W.env; simp only []
      split
      · exact unlaunched_cancelCaller (w := { w with timedOut := true, timer := false }) fwd h
      · exact h
    all_goals
      unfold W.env
      simp [h1, h2, h3, W.spawning]
      exact h
  throw w h := h
  log w o _ h := h
  cancelTask w i h := ⟨by simp [W.cancelTask, h.1], h.2⟩

/-- The world just before `_start`. -/
structure W.Blank (w : W) : Prop where
  un : w.Unlaunched
  mine : w.mine = []
  cancelled : w.cancelled = false
  timedOut : w.timedOut = false
  timer : w.timer = false

theorem W.Unlaunched.ok {w : W} (h : w.Unlaunched) : w.Ok where
  task i t ht := by rw [h.1] at ht; simp at ht
  one i j t u ht := by rw [h.1] at ht; simp at ht
  attached ha := by rw [h.2.2] at ha; cases ha
  proc p hp := by rw [h.2.1] at hp; cases hp

/-- The shape of the world during `_start`. -/
structure SMid (w w' : W) : Prop where
  ext : RExt w w'
  good : w'.Ok
  cancelled : w'.cancelled = false
  timedOut : w'.timedOut = false
  timer : w'.timer = false
  quiet : Grew Obs.quiet w.trace w'.trace
  first : ∀ (t : TaskSt), w'.tasks[0]? = some t → t.kind = .spawn ∧
    (t.cancels = 0 ∨ w.cancels + t.cancels + 1 ≤ w'.cancels)
  others : ∀ (i : Nat) (t : TaskSt), w'.tasks[i]? = some t → i ≠ 0 → t = { kind := .io }
  mine : w'.mine = List.range' 1 (w'.tasks.length - 1)
  none : w'.tasks = [] → w'.Unlaunched

/-- Facts about the `try` block of `_start`. -/
structure SPost (cfg : RCfg) (w : W) (o : Out Unit) (w' : W) : Prop extends SMid w w' where
  done : o ≠ .blocked → 0 < w'.tasks.length → w'.isDone 0 = true
  ok : o = .ok () → w'.attached = true ∧ w'.cancels = w.cancels ∧ w'.mustCancel = false ∧ w'.throws = w.throws ∧
    w.mustCancel = false
  single : o ≠ .blocked → w'.attached = false → w'.tasks.length ≤ 1
  why : ∀ e, o = .exc e → (e = .cancelled ∧ w.throws < w'.throws) ∨ w'.outOf 0 = some (.err e) ∨ cfg.mayRaise e

theorem addTasks_eq (n : Nat) (w : W) (evs : List Ev) : addTasks n w evs =
    (.ok (), { w with
      tasks := w.tasks ++ List.replicate n { kind := .io }
      mine := w.mine ++ List.range' w.tasks.length n }, evs) := by
  induction n generalizing w with
  | zero => simp [addTasks, Coro.pure]
  | succ n ih =>
    change addTasks n { w with
      tasks := w.tasks ++ [{ kind := .io }], mine := w.mine ++ [w.tasks.length] } evs = _
    rw [ih]
    simp [List.replicate_succ, List.range'_succ]

theorem wp_addTasks {n : Nat} {R : Out Unit → W → Prop} {w : W}
    (h : R (.ok ()) { w with
      tasks := w.tasks ++ List.replicate n { kind := .io }
      mine := w.mine ++ List.range' w.tasks.length n }) : wp (addTasks n) R w := by
  intro evs
  rw [addTasks_eq]
  exact h

theorem getElem?_append_replicate {l : List α} {n : Nat} {a b : α} {i : Nat}
    (h : (l ++ List.replicate n a)[i]? = some b) : l[i]? = some b ∨ (l.length ≤ i ∧ b = a) := by
  rw [List.getElem?_append] at h
  split at h
  · exact .inl h
  · rename_i hlt
    rw [List.getElem?_replicate] at h
    split at h
    · cases h; exact .inr ⟨by omega, rfl⟩
    · cases h

theorem SPost.addTasks {cfg : RCfg} {w w' : W} (h : SPost cfg w (.ok ()) w') (hl : 0 < w'.tasks.length) (n : Nat) :
    SPost cfg w (.ok ()) { w' with
      tasks := w'.tasks ++ List.replicate n { kind := .io }
      mine := w'.mine ++ List.range' w'.tasks.length n } where
  ext := by
    have := h.ext.trans ((rstable_ext w').addTasks n w' (.refl w') [])
    rw [addTasks_eq] at this
    exact this
  good := by
    have := rstable_ok.addTasks n w' h.good []
    rw [addTasks_eq] at this
    exact this
  cancelled := h.cancelled
  timedOut := h.timedOut
  timer := h.timer
  quiet := h.quiet
  first t ht := by
    rcases getElem?_append_replicate ht with h1 | ⟨h1, _⟩
    · exact h.first t h1
    · omega
  others i t ht hi := by
    rcases getElem?_append_replicate ht with h1 | ⟨h1, h2⟩
    · exact h.others i t h1 hi
    · exact h2
  mine := by
    simp only [List.length_append, List.length_replicate]
    rw [h.mine]
    have e1 : w'.tasks.length = 1 + (w'.tasks.length - 1) := by omega
    rw [show w'.tasks.length + n - 1 = (w'.tasks.length - 1) + n by omega, ← List.range'_append_1, ← e1]
  none ht := by
    simp only [List.append_eq_nil_iff] at ht
    rw [ht.1] at hl; simp at hl
  done _ _ := by
    have := h.done (by simp) hl
    unfold W.isDone at this ⊢
    simp only [List.getElem?_append_left hl]
    exact this
  ok _ := h.ok rfl
  single _ ha := by
    rw [(h.ok rfl).1] at ha; cases ha
  why := by simp

theorem SPost.raise {cfg : RCfg} {w w' : W} (h : SPost cfg w (.ok ()) w') {e : Exc} (he : cfg.mayRaise e) :
    SPost cfg w (.exc e) w' :=
  { h.toSMid with
    done := fun _ => h.done (by simp)
    ok := by simp
    single := fun _ => h.single (by simp)
    why := fun e' he' => by cases he'; exact .inr (.inr he) }

theorem SPost.blank {cfg : RCfg} {w w' : W} (hb : w.Blank) (q : Ext w w') (hu : w'.Unlaunched) (o : Out Unit)
    (ho : o ≠ .ok ())
    (why : ∀ e, o = .exc e → (e = .cancelled ∧ w.throws < w'.throws) ∨ cfg.mayRaise e) : SPost cfg w o w' where
  ext := q.toRExt
  good := hu.ok
  cancelled := q.cancelled.trans hb.cancelled
  timedOut := by
    cases h : w'.timedOut
    · rfl
    · rcases q.timedOutBy h with h | h
      · rw [hb.timedOut] at h; cases h
      · rw [hb.timer] at h; cases h
  timer := by
    cases h : w'.timer
    · rfl
    · have := q.timer h; rw [hb.timer] at this; cases this
  quiet := q.trace
  first t ht := by rw [hu.1] at ht; simp at ht
  others i t ht := by rw [hu.1] at ht; simp at ht
  mine := by rw [q.mine, hb.mine, hu.1]; rfl
  none _ := hu
  done _ hl := by rw [hu.1] at hl; simp at hl
  ok h := absurd h ho
  single _ _ := by rw [hu.1]; simp
  why e he := (why e he).imp_right .inr

/-- One trip through the event loop before anything is launched. -/
theorem wp_sleep0 {cfg : RCfg} {w w1 : W} (hb : w.Blank) (hq : Ext w w1) (hu : w1.Unlaunched)
    {R : Out Unit → W → Prop}
    (hexc : ∀ e w', SPost cfg w (.exc e) w' → R (.exc e) w')
    (hblk : ∀ w', SPost cfg w .blocked w' → R .blocked w')
    (hok : ∀ w', Quiet w1 w' → w'.Unlaunched → w'.mustCancel = false → R (.ok ()) w') :
    wp sleep0 R w1 := by
  unfold sleep0
  refine wp_wait ?_ ?_ ?_
  · intro w' he hm
    have q := he.quiet
    refine hexc _ _ (SPost.blank hb ((hq.trans q.toExt).trans (throwCancel_ext w'))
      (stable_unlaunched.throw _ (stable_unlaunched.envs he hu)) _ (by simp) ?_)
    intro e h; cases h
    refine .inl ⟨rfl, ?_⟩
    rw [throws_throwCancel]
    have := hq.throws
    have := q.throws
    omega
  · intro w' he hm _
    exact hok w' he.quiet (stable_unlaunched.envs he hu) hm
  · intro w' he
    exact hblk w' (SPost.blank hb (hq.trans he.quiet.toExt) (stable_unlaunched.envs he hu) _ (by simp) (by simp))

theorem wp_raiseOpt {e : Option Exc} {R : Out Unit → W → Prop} {w : W} (h0 : e = none → R (.ok ()) w)
    (h1 : ∀ x, e = some x → R (.exc x) w) : wp (raiseOpt e) R w := by
  cases e with
  | none => exact wp_pure (h0 rfl)
  | some x => exact wp_raise (h1 x rfl)

theorem Quiet.mustLost {w w' : W} (q : Quiet w w') (hm : w'.mustCancel = false) : w.mustCancel = false := by
  cases h : w.mustCancel
  · rfl
  · rw [q.must h] at hm; cases hm

/-- `sleep(0)` and the spawn. -/
theorem spawnPart_spec (cfg : RCfg) (w w1 : W) (hb : w.Blank) (q1 : Quiet w w1) (hu1 : w1.Unlaunched) :
    wp (do
      sleep0
      uninterruptedSpawn
      addTasks cfg.procsubs) (fun o w' => SPost cfg w o w' ∧ (o = .ok () → w'.tasks.length = 1 + cfg.procsubs)) w1 := by
  refine wp_bind (wp_sleep0 hb q1.toExt hu1 (cfg := cfg) ?_ ?_ ?_)
  · intro e w' h; exact ⟨h, by simp⟩
  · intro w' h; exact ⟨h, by simp⟩
  intro w2 q2 hu2 hm2
  have q := q1.trans q2
  simp only []
  have hok2 : w2.Ok := (SPost.blank (cfg := cfg) hb q.toExt hu2 .blocked (by simp) (by simp)).good
  refine wp_bind (wp_mono (uninterrupted_spec w2 hok2 (fun i t ht => by rw [hu2.1] at ht; simp at ht) hm2) ?_)
  intro o w3 u
  have hlen0 : w2.tasks.length = 0 := by rw [hu2.1]; rfl
  rw [hlen0] at u
  have hx := q.toExt.trans u.ext
  have hc2 : w2.cancels = w.cancels := q.lost hm2
  obtain ⟨t0, ht0, hk0, hcs0⟩ := u.task
  have hlen : w3.tasks.length = 1 := by rw [u.len]
  have sm : SMid w w3 := by
    refine ⟨hx.toRExt, u.good, hx.cancelled.trans hb.cancelled, ?_, ?_, hx.trace, ?_, ?_, ?_, ?_⟩
    · cases h : w3.timedOut
      · rfl
      · rcases hx.timedOutBy h with h | h
        · rw [hb.timedOut] at h; cases h
        · rw [hb.timer] at h; cases h
    · cases h : w3.timer
      · rfl
      · have := hx.timer h; rw [hb.timer] at this; cases this
    · intro t ht
      rw [ht0] at ht; cases ht
      exact ⟨hk0, hcs0.imp_right (by omega)⟩
    · intro i t ht hi
      have := (List.getElem?_eq_some_iff.1 ht).1
      omega
    · rw [hx.mine, hb.mine, hlen]; rfl
    · intro h; rw [h] at hlen; simp at hlen
  cases o with
  | blocked => exact ⟨{ sm with done := by simp, ok := by simp, single := by simp, why := by simp }, by simp⟩
  | exc e =>
    refine ⟨{ sm with done := fun _ _ => u.done (by simp), ok := by simp, single := fun _ _ => by omega, why := ?_ },
      by simp⟩
    intro e' he; cases he
    have := q.throws
    exact (u.why e rfl).elim (fun ⟨h, h'⟩ => .inl ⟨h, by omega⟩) fun h => .inr (.inl h)
  | ok _ =>
    obtain ⟨h1, h2, h3, h4⟩ := u.ok rfl
    have sp : SPost cfg w (.ok ()) w3 :=
      { sm with
        done := fun _ _ => u.done (by simp)
        ok := fun _ => ⟨h1, by omega, h3, by rw [h4, q.throws], q.mustLost hm2⟩
        single := fun _ _ => by omega
        why := by simp }
    refine wp_addTasks ⟨sp.addTasks (by omega) _, fun _ => ?_⟩
    simp only [List.length_append, List.length_replicate]; omega

theorem spawnStage_spec (cfg : RCfg) (w : W) (hb : w.Blank) :
    wp (spawnStage cfg) (fun o w' => SPost cfg w o w' ∧ (o = .ok () → w'.tasks.length = 1 + cfg.procsubs)) w := by
  unfold spawnStage
  refine wp_bind (wp_when (fun _ => ?_) (fun _ => ?_))
  · refine wp_bind (wp_sleep0 hb (.refl w) hb.un (cfg := cfg) ?_ ?_ ?_)
    · intro e w' h; exact ⟨h, by simp⟩
    · intro w' h; exact ⟨h, by simp⟩
    intro w1 q1 hu1 hm1
    refine wp_bind (wp_sleep0 hb q1.toExt hu1 (cfg := cfg) ?_ ?_ ?_)
    · intro e w' h; exact ⟨h, by simp⟩
    · intro w' h; exact ⟨h, by simp⟩
    intro w2 q2 hu2 hm2
    refine wp_raiseOpt (fun _ => ?_) (fun e he => ?_)
    · exact spawnPart_spec cfg w w2 hb (q1.trans q2) hu2
    · refine ⟨SPost.blank hb (q1.trans q2).toExt hu2 _ (by simp) ?_, by simp⟩
      intro e' h; cases h
      exact .inr (.inr (.inl he))
  · exact spawnPart_spec cfg w w hb (.refl w) hb.un

theorem SPost.reraise {cfg : RCfg} {w w' : W} {e : Exc} (h : SPost cfg w (.exc e) w') :
    SPost cfg w (.exc ((cfg.exitErr true).getD e)) w' := by
  cases hx : cfg.exitErr true with
  | none => simpa using h
  | some e' =>
    exact { h.toSMid with
      done := fun _ => h.done (by simp)
      ok := by simp
      single := fun _ => h.single (by simp)
      why := fun e'' he => by
        simp only [Option.getD_some, Out.exc.injEq] at he
        subst he
        exact .inr (.inr (.inr (.inr (.inl hx)))) }

theorem startTry_spec (cfg : RCfg) (w : W) (hb : w.Blank) :
    wp (startTry cfg) (fun o w' => SPost cfg w o w' ∧
      (o = .ok () → w'.tasks.length = 1 + cfg.procsubs + cfg.ioTasks)) w := by
  unfold startTry
  refine wp_bind (wp_raiseOpt (fun _ => ?_) (fun e he => ?_))
  · refine wp_bind (wp_catch (wp_mono (spawnStage_spec cfg w hb) ?_))
    rintro o w1 ⟨sp, hl⟩
    cases o with
    | blocked => exact ⟨sp, by simp⟩
    | exc e => exact wp_raise ⟨sp.reraise, by simp⟩
    | ok _ =>
      have hl := hl rfl
      simp only []
      refine wp_bind (wp_raiseOpt (fun _ => ?_) (fun e he => ?_))
      · refine wp_bind (wp_addTasks ?_)
        simp only []
        have sp2 := sp.addTasks (by omega) cfg.ioTasks
        refine wp_raiseOpt (fun _ => ⟨sp2, fun _ => ?_⟩) (fun e he => ⟨sp2.raise (.inr (.inr (.inr (.inr he)))), by simp⟩)
        simp only [List.length_append, List.length_replicate]; omega
      · exact ⟨sp.raise (.inr (.inr (.inr (.inl he)))), by simp⟩
  · refine ⟨SPost.blank hb (.refl w) hb.un _ (by simp) ?_, by simp⟩
    intro e' h; cases h
    exact .inr (.inl he)

/-- The tasks `_start` adds after its `try` block: a waiter, except for a pty on BSD. -/
def RCfg.waiters (cfg : RCfg) : Nat := if cfg.bsdPty then 0 else 1

/-- The world when `_start` has succeeded, `w1` being the world after its `try` block. -/
def W.started (cfg : RCfg) (w1 : W) : W :=
  { w1 with
    tasks := w1.tasks ++ (if cfg.bsdPty then [] else [{ kind := .waiter }])
    mine := w1.mine ++ (if cfg.bsdPty then [] else [w1.tasks.length])
    timer := w1.timer || cfg.opts.timeout.isSome }

/-- A launch that has not ended yet. -/
structure LMid (cfg : RCfg) (w w' : W) : Prop where
  ext : RExt w w'
  good : w'.Ok
  sigs : SigsOk cfg w w'
  timedOut : w'.timedOut = false
  timer : w'.timer = false

/-- A launch that has failed with `e`. -/
structure LFail (cfg : RCfg) (w : W) (e : Exc) (w' : W) : Prop extends LMid cfg w w' where
  cancelled : w'.cancelled = true → w.throws < w'.throws ∨ cfg.mayRaise .cancelled
  single : w'.attached = false → w'.tasks.length ≤ 1 ∧ libSigs w'.trace = libSigs w.trace ∧ w'.AllTasksDone ∧
    (w'.proc = none ∨ w'.rcKnown = true ∨ ∃ t, w'.tasks[0]? = some t ∧ t.kind = .spawn ∧ 2 ≤ t.cancels ∧
      w.cancels + t.cancels + 1 ≤ w'.cancels)
  attached : w'.attached = true → w'.rcKnown = true ∨ Survived w e w'
  spawn : ∀ t, w'.tasks[0]? = some t → t.kind = .spawn ∧ w'.isDone 0 = true
  spawnOut : w'.outOf 0 = some .cancelled → w.cancels + 2 ≤ w'.cancels
  done : Few w w' → w'.AllTasksDone
  why : Why w w'.mine e w' ∨ w'.outOf 0 = some (.err e) ∨ cfg.mayRaise e
  alone : w'.attached = false → (e = .cancelled ∧ w.throws < w'.throws) ∨ w'.outOf 0 = some (.err e) ∨ cfg.mayRaise e

/-- Facts about `_start`. -/
def StPost (cfg : RCfg) (w : W) (o : Out Unit) (w' : W) : Prop :=
  (o = .ok () ∧ ∃ w1, SPost cfg w (.ok ()) w1 ∧ w1.tasks.length = 1 + cfg.procsubs + cfg.ioTasks ∧ w' = w1.started cfg) ∨
    (∃ e, o = .exc e ∧ LFail cfg w e w') ∨ (o = .blocked ∧ LMid cfg w w')

theorem SMid.libSigs {w w' : W} (h : SMid w w') : libSigs w'.trace = libSigs w.trace := by
  obtain ⟨l, hl, hq⟩ := h.quiet
  rw [hl, libSigs_append, libSigs_quiet hq, List.append_nil]

theorem SMid.lmid {cfg : RCfg} {w w' : W} (h : SMid w w') : LMid cfg w w' :=
  ⟨h.ext, h.good, .same h.libSigs, h.timedOut, h.timer⟩

theorem RExt.offTimer {w w' : W} (h : RExt w w') (h1 : w.timedOut = false) (h2 : w.timer = false) :
    w'.timedOut = false ∧ w'.timer = false := by
  constructor
  · cases hh : w'.timedOut
    · rfl
    · rcases h.timedOutBy hh with h | h
      · rw [h1] at h; cases h
      · rw [h2] at h; cases h
  · cases hh : w'.timer
    · rfl
    · rw [h.timer hh] at h2; cases h2

/-- A done spawn task tells about the process. -/
theorem W.Ok.spawnDone {w : W} (h : w.Ok) {i : Nat} {t : TaskSt} (ht : w.tasks[i]? = some t) (hk : t.kind = .spawn)
    (hd : w.isDone i = true) (ha : w.attached = false) : w.proc = none ∨ w.rcKnown = true ∨ 2 ≤ t.cancels := by
  have := h.task i t ht
  unfold W.isDone at hd
  rw [ht] at hd
  simp only [] at hd
  unfold TaskOk at this
  rw [hk] at this
  cases ho : t.out with
  | none => rw [ho] at hd; cases hd
  | some o =>
    rw [ho] at this
    cases o with
    | val r => rw [ha] at this; cases this
    | err e => exact this.2.imp_right .inl
    | cancelled => exact this.2.imp_right (Or.imp_right (by intro h; omega))

/-- The handler of `_start`, after the update of the cancelled flag. -/
theorem startFail_spec (cfg : RCfg) (w w1 w2 : W) (e : Exc) (sp : SPost cfg w (.exc e) w1)
    (hx2 : RExt w1 w2) (hok2 : w2.Ok) (hm2 : w2.mine = w1.mine) (htr2 : w2.trace = w1.trace)
    (hta2 : w2.tasks = w1.tasks) (hto2 : w2.timedOut = false) (hti2 : w2.timer = false)
    (ha2 : w2.attached = w1.attached) (hpr2 : w2.proc = w1.proc) (hc2 : w2.cancelled = true → e = .cancelled) :
    wp (do
      let w ← Coro.get
      Coro.when w.attached (kill cfg)
      Coro.raise e) (fun (o : Out Unit) w' => (∃ e, o = .exc e ∧ LFail cfg w e w') ∨ (o = .blocked ∧ LMid cfg w w')) w2 := by
  have hxx := sp.ext.trans hx2
  have hth2 : w2.throws = w1.throws := by unfold W.throws; rw [htr2]
  have hgu2 : w2.gaveUps = w1.gaveUps := by unfold W.gaveUps; rw [htr2]
  have hls2 : libSigs w2.trace = libSigs w.trace := by rw [htr2]; exact sp.toSMid.libSigs
  have hcan : w2.cancelled = true → w.throws < w1.throws ∨ cfg.mayRaise .cancelled := by
    intro h
    have he := hc2 h
    rcases sp.why e rfl with ⟨_, h⟩ | h | h
    · exact .inl h
    · exfalso
      unfold W.outOf at h
      split at h
      · rename_i t ht
        have := sp.good.task _ _ ht
        unfold TaskOk at this
        rw [h] at this
        exact this.1 he
      · cases h
    · exact .inr (he ▸ h)
  have hd2 : ∀ i, w2.isDone i = w1.isDone i := fun i => by unfold W.isDone; rw [hta2]
  have spawn2 : ∀ t, w2.tasks[0]? = some t → t.kind = .spawn ∧ w2.isDone 0 = true := by
    intro t ht
    rw [hta2] at ht
    refine ⟨(sp.first t ht).1, ?_⟩
    rw [hd2]
    exact sp.done (by simp) (List.getElem?_eq_some_iff.1 ht).1
  have out2 : w2.outOf 0 = some .cancelled → w.cancels + 2 ≤ w1.cancels := by
    intro h
    unfold W.outOf at h
    split at h
    · rename_i t ht
      have h2 := hok2.task 0 t ht
      obtain ⟨hk, hc⟩ := sp.first t (by rw [← hta2]; exact ht)
      unfold TaskOk at h2
      rw [h, hk] at h2
      have := h2.1
      omega
    · cases h
  have why2 : Why w w2.mine e w2 ∨ w2.outOf 0 = some (.err e) ∨ cfg.mayRaise e := by
    rcases sp.why e rfl with ⟨h, h'⟩ | h | h
    · exact .inl (.inl ⟨h, by omega⟩)
    · exact .inr (.inl (hx2.outOf h))
    · exact .inr (.inr h)
  refine wp_bind (wp_get ?_)
  simp only []
  refine wp_bind (wp_when (fun ha => ?_) (fun ha => ?_))
  · -- attached
    have hp2 := hok2.attached ha
    refine wp_mono (kill_spec cfg w2 hok2 hp2) ?_
    intro o w3 k
    have hx3 := hxx.trans k.ext
    have off := k.ext.offTimer hto2 hti2
    have mid : LMid cfg w w3 := ⟨hx3, k.good, SigsOk.left k.sigsOk hxx hls2, off.1, off.2⟩
    have t3 := k.ext.throws
    have g3 := k.ext.gaveUps
    have t1 := sp.ext.throws
    have g1 := sp.ext.gaveUps
    have hat := k.ext.attached ha
    have hown : w2.Owned := by
      intro i hi
      by_cases h0 : i = 0
      · left; subst h0
        obtain ⟨t, ht⟩ : ∃ t, w2.tasks[0]? = some t := ⟨_, List.getElem?_eq_getElem hi⟩
        exact (spawn2 t ht).2
      · right
        rw [hm2, sp.mine, List.mem_range'_1]
        rw [hta2] at hi
        omega
    have fin : o ≠ .blocked → ∀ e', (Why w w3.mine e' w3 ∨ w3.outOf 0 = some (.err e') ∨ cfg.mayRaise e') →
        (w3.rcKnown = true ∨ Survived w e' w3) → LFail cfg w e' w3 := by
      intro hb e' hw' hs
      have hal : w3.attached = false → (e' = .cancelled ∧ w.throws < w3.throws) ∨ w3.outOf 0 = some (.err e') ∨
          cfg.mayRaise e' := by
        intro h; rw [hat] at h; cases h
      refine { mid with cancelled := ?_, single := ?_, attached := fun _ => hs, spawn := ?_, spawnOut := ?_, done := ?_, why := hw', alone := hal }
      · intro h
        rcases k.cancelled h with h | h
        · exact (hcan h).imp_left (by omega)
        · exact .inl (by omega)
      · intro h; rw [hat] at h; cases h
      · intro t ht
        by_cases hl : 0 < w2.tasks.length
        · obtain ⟨t2, ht2⟩ : ∃ t, w2.tasks[0]? = some t := ⟨_, List.getElem?_eq_getElem hl⟩
          obtain ⟨t', ht', ex⟩ := k.ext.task 0 t2 ht2
          rw [ht] at ht'; cases ht'
          exact ⟨ex.kind.trans (spawn2 t2 ht2).1, k.ext.isDone (spawn2 t2 ht2).2⟩
        · exfalso
          have : w1.tasks = [] := by rw [← hta2]; exact List.length_eq_zero_iff.1 (by omega)
          have := (sp.none this).2.2
          rw [ha2, this] at ha; cases ha
      · intro h
        have hl : 0 < w2.tasks.length := by
          apply Nat.pos_of_ne_zero
          intro hl
          have : w1.tasks = [] := by rw [← hta2]; exact List.length_eq_zero_iff.1 hl
          have := (sp.none this).2.2
          rw [ha2, this] at ha; cases ha
        obtain ⟨t2, ht2⟩ : ∃ t, w2.tasks[0]? = some t := ⟨_, List.getElem?_eq_getElem hl⟩
        obtain ⟨out, hout⟩ := W.isDone_iff.1 (spawn2 t2 ht2).2
        have h' := k.ext.outOf hout
        rw [h] at h'; cases h'
        have := out2 hout
        have := hx2.cancels
        have := k.ext.cancels
        omega
      · intro hf
        exact k.done hb (hf.split hxx k.ext).2 hown
    cases o with
    | blocked => exact .inr ⟨rfl, mid⟩
    | exc e' =>
      refine .inl ⟨e', rfl, fin (by simp) e' (.inl ?_) ((k.exc e' rfl).imp_right fun h => Survived.left (w1 := w2) h hxx)⟩
      rw [k.mine]
      rcases k.why e' rfl with ⟨h, h'⟩ | ⟨h, h'⟩ | h
      · exact .inl ⟨h, by omega⟩
      · exact .inr (.inl ⟨h, h'.imp_left fun h => by omega⟩)
      · exact .inr (.inr h)
    | ok _ =>
      refine wp_raise (.inl ⟨e, rfl, fin (by simp) e ?_ (.inl (k.ok rfl))⟩)
      rcases why2 with h | h | h
      · exact .inl (by rw [k.mine]; exact h.right k.ext)
      · exact .inr (.inl (k.ext.outOf h))
      · exact .inr (.inr h)
  · -- not attached
    simp only []
    have hs := sp.single (by simp) (by rw [← ha2]; exact ha)
    rw [← hta2] at hs
    have hall : w2.AllTasksDone := by
      intro i hi
      have : i = 0 := by omega
      subst this
      obtain ⟨t, ht⟩ : ∃ t, w2.tasks[0]? = some t := ⟨_, List.getElem?_eq_getElem hi⟩
      exact (spawn2 t ht).2
    have hal : (e = .cancelled ∧ w.throws < w2.throws) ∨ w2.outOf 0 = some (.err e) ∨ cfg.mayRaise e := by
      rcases sp.why e rfl with ⟨h, h'⟩ | h | h
      · exact .inl ⟨h, by omega⟩
      · exact .inr (.inl (hx2.outOf h))
      · exact .inr (.inr h)
    refine wp_raise (.inl ⟨e, rfl, ⟨⟨hxx, hok2, .same hls2, hto2, hti2⟩, ?_, ?_, ?_, spawn2, fun h => Nat.le_trans (out2 h) hx2.cancels, fun _ => hall, why2, fun _ => hal⟩⟩)
    · intro h
      exact (hcan h).imp_left (by omega)
    · intro _
      refine ⟨hs, hls2, hall, ?_⟩
      by_cases hl : 0 < w2.tasks.length
      · obtain ⟨t, ht⟩ : ∃ t, w2.tasks[0]? = some t := ⟨_, List.getElem?_eq_getElem hl⟩
        obtain ⟨hk, hd⟩ := spawn2 t ht
        rcases hok2.spawnDone ht hk hd ha with h | h | h
        · exact .inl h
        · exact .inr (.inl h)
        · refine .inr (.inr ⟨t, ht, hk, h, ?_⟩)
          rw [hta2] at ht
          have := hx2.cancels
          rcases (sp.first t ht).2 with h' | h' <;> omega
      · have h0 : w1.tasks = [] := by rw [← hta2]; exact List.length_eq_zero_iff.1 (by omega)
        have hu := sp.none h0
        exact .inl (hpr2.trans hu.2.1)
    · intro h; rw [ha] at h; cases h

theorem startRun_spec (cfg : RCfg) (w : W) (hb : w.Blank) : wp (startRun cfg) (StPost cfg w) w := by
  unfold startRun
  refine wp_bind (wp_catch (wp_mono (startTry_spec cfg w hb) ?_))
  rintro o w1 ⟨sp, hl⟩
  cases o with
  | blocked => exact .inr (.inr ⟨rfl, sp.toSMid.lmid⟩)
  | ok _ =>
    have hl := hl rfl
    simp only []
    unfold addTask
    refine wp_bind (wp_when (fun hb => wp_bind (wp_createTask (wp_upd ?_))) fun hb => ?_)
    all_goals
      simp only []
      refine wp_when (fun h => wp_upd ?_) (fun h => ?_)
      · refine .inl ⟨rfl, w1, sp, hl, ?_⟩
        simp at hb
        simp [W.started, h, hb]
      · refine .inl ⟨rfl, w1, sp, hl, ?_⟩
        simp at hb
        simp [W.started, h, hb]
  | exc e =>
    simp only []
    refine wp_bind (wp_when (fun h => wp_upd ?_) (fun h => ?_))
    · have h : e = .cancelled := of_decide_eq_true h
      refine wp_mono (startFail_spec cfg w w1 w1.setCancelled e sp (setCancelled_ext w1) (sp.good.same rfl rfl rfl)
        rfl rfl rfl sp.timedOut rfl rfl rfl fun _ => h) ?_
      intro o w' hh
      rcases hh with ⟨e', rfl, hf⟩ | ⟨rfl, hm⟩
      · exact .inr (.inl ⟨e', rfl, hf⟩)
      · exact .inr (.inr ⟨rfl, hm⟩)
    · refine wp_mono (startFail_spec cfg w w1 w1 e sp (.refl w1) sp.good
        rfl rfl rfl sp.timedOut sp.timer rfl rfl fun h => by rw [sp.cancelled] at h; cases h) ?_
      intro o w' hh
      rcases hh with ⟨e', rfl, hf⟩ | ⟨rfl, hm⟩
      · exact .inr (.inl ⟨e', rfl, hf⟩)
      · exact .inr (.inr ⟨rfl, hm⟩)

end Shellous
