import Verif.Lemmas.RunCleanup

/-!
# There is a process object only if the spawn task has returned one
-/

namespace Shellous

/-- `Runner._proc` is set only by a spawn task that has returned. -/
def W.Spawned (w : W) : Prop :=
  w.attached = true → ∃ (i : Nat) (t : TaskSt) (r : Option Result), w.tasks[i]? = some t ∧ t.kind = .spawn ∧ t.out = some (.val r)

theorem Spawned.ext {w w' : W} (h : w.Spawned) (ha : w'.attached = w.attached)
    (ht : ∀ (i : Nat) (t : TaskSt), w.tasks[i]? = some t → ∃ t', w'.tasks[i]? = some t' ∧ TaskExt t t') : w'.Spawned := by
  intro hat
  rw [ha] at hat
  obtain ⟨i, t, r, hi, hk, ho⟩ := h hat
  obtain ⟨t', hi', e⟩ := ht i t hi
  have := e.out (by rw [ho]; rfl)
  subst this
  exact ⟨i, _, r, hi', hk, ho⟩

theorem signal_attached (w : W) (b : Bool) (s : Option Nat) : (w.signal b s).attached = w.attached := by
  unfold W.signal
  split
  · rfl
  · rename_i p _
    cases p.exited.isNone <;> rfl

theorem close_attached (w : W) : w.transportClose.attached = w.attached := by
  unfold W.transportClose
  split
  · rfl
  · rename_i p _
    cases p.rc.isSome <;> cases p.exited.isNone <;> rfl

theorem poll_attached (w : W) : w.pollWaitPid.2.attached = w.attached := by
  unfold W.pollWaitPid
  repeat' split
  all_goals rfl

theorem cancelCaller_attached (fwd : Option Nat) (w : W) : (w.cancelCaller fwd).attached = w.attached := by
  unfold W.cancelCaller
  repeat' split
  all_goals rfl

theorem env_spawned (fwd : Option Nat) (w : W) (ev : Ev) (h : w.Spawned) : (w.env fwd ev).Spawned := by
  have ext := (env_ext fwd w ev).task
  cases ev
  case taskDone i out =>
    unfold W.env at ext ⊢
    simp only [] at ext ⊢
    split
    · exact h
    · rename_i t ht
      split
      · rename_i hm
        rw [ht] at ext
        simp only [hm, if_true] at ext
        cases hk : t.kind
        case spawn =>
          cases ho : out.norm
          case val r =>
            intro _
            refine ⟨i, { t with out := some (.val r) }, r, ?_, hk, rfl⟩
            simp [W.endEffect, W.setOut, List.getElem?_modify, ht]
          all_goals
            rw [hk, ho] at ext
            exact Spawned.ext h rfl ext
        all_goals
          rw [hk] at ext
          exact Spawned.ext h rfl ext
      · exact h
  case timer =>
    refine Spawned.ext h ?_ ext
    unfold W.env
    simp only []
    split
    · exact cancelCaller_attached _ _
    · rfl
  case cancel => exact Spawned.ext h (cancelCaller_attached _ _) ext
  case userSignal s =>
    refine Spawned.ext h ?_ ext
    unfold W.env
    simp only []
    split
    · exact signal_attached _ _ _
    · rfl
  all_goals
    refine Spawned.ext h ?_ ext
    unfold W.env
    simp only []
    repeat' split
    all_goals rfl

theorem fstable_spawned : FStable W.Spawned := by
  have app : ∀ (w : W) k, w.Spawned → W.Spawned { w with tasks := w.tasks ++ [{ kind := k }] } := by
    intro w k h
    refine Spawned.ext h rfl ?_
    intro i t hi
    refine ⟨t, ?_, .refl t⟩
    simp only [List.getElem?_append_left (List.getElem?_eq_some_iff.1 hi).1, hi]
  have same : ∀ (w w' : W), w'.attached = w.attached → w'.tasks = w.tasks → w.Spawned → w'.Spawned := by
    intro w w' ha ht h
    exact Spawned.ext h ha fun i t hi => ⟨t, by rw [ht]; exact hi, .refl t⟩
  exact
    { env := fun fwd w ev h => env_spawned fwd w ev h
      throw := fun w h => same w _ rfl rfl h
      log := fun w o _ h => same w _ rfl rfl h
      cancelTask := fun w i h => Spawned.ext h rfl (cancelTask_ext w i).task
      create := fun w k _ h => app w k h
      signal := fun w s h => same w _ (signal_attached _ _ _) (signal_tasks _ _ _) h
      setCancelled := fun w h => same w _ rfl rfl h
      stop := fun w h => same w _ rfl rfl h
      mine := fun w m h => same w _ rfl rfl h
      poll := fun w h => same w _ (poll_attached w) (poll_facts w).2.2.2.1 h
      spawn := fun w h => app w _ h
      setTimer := fun w b h => same w _ rfl rfl h
      mark := fun w o _ h => same w _ rfl rfl h
      close := fun w h => same w _ (close_attached w) (transportClose_facts w).1 h }

theorem execute_spawned (how : How) (cfg : RCfg) (w : W) (hf : w.Fresh) (evs : List Ev) :
    (execute how cfg w evs).2.Spawned :=
  execute_pres fstable_spawned how cfg w evs (fun h => by rw [hf.attached] at h; cases h)

/-- The user can only signal a process that has been launched. -/
def W.UserSignals (w : W) : Prop := ∀ s, .auditSignal true s ∈ w.trace → w.attached = true

theorem fstable_userSignals : FStable W.UserSignals := by
  have log : ∀ (w : W) (o : Obs), (∀ s, o ≠ .auditSignal true s) → w.UserSignals → (w.log o).UserSignals := by
    intro w o ho h s hm
    simp only [W.log, List.mem_append, List.mem_singleton] at hm
    rcases hm with hm | hm
    · exact h s hm
    · exact absurd hm.symm (ho s)
  have same : ∀ (w w' : W), (w.attached = true → w'.attached = true) → w'.trace = w.trace → w.UserSignals → w'.UserSignals := by
    intro w w' ha ht h s hm
    rw [ht] at hm
    exact ha (h s hm)
  have sig : ∀ (w : W) s, w.UserSignals → (w.signal false s).UserSignals := by
    intro w s h s' hm
    rw [signal_attached]
    rcases signal_trace w false s with e | e | ⟨_, e⟩ <;> rw [e] at hm
    · exact h s' hm
    · simp at hm; exact h s' hm
    · simp at hm; exact h s' hm
  exact
    { env := fun fwd w ev h => by
        rcases env_trace_attached fwd w ev with e | ⟨s, ha, e⟩
        · exact same w _ (env_ext fwd w ev).attached e h
        · intro s' _
          rw [e, signal_attached]
          exact ha
      throw := fun w h => log _ _ (by simp) h
      log := fun w o ho h => log w o (by rintro s rfl; cases ho) h
      cancelTask := fun w i h => same w _ id rfl h
      create := fun w k _ h => same w _ id rfl h
      signal := fun w s h => sig w s h
      setCancelled := fun w h => same w _ id rfl h
      stop := fun w h => same w _ id rfl h
      mine := fun w m h => same w _ id rfl h
      poll := fun w h => same w _ (poll_ext w).attached (poll_trace w) h
      spawn := fun w h => same w _ id rfl h
      setTimer := fun w b h => same w _ id rfl h
      mark := fun w o ho h => log w o (by rintro s rfl; cases ho) h
      close := fun w h => by
        intro s hm
        rw [close_attached]
        rcases close_trace w with e | ⟨_, e⟩ <;> rw [e] at hm
        · exact h s hm
        · simp at hm; exact h s hm }

theorem execute_userSignals (how : How) (cfg : RCfg) (w : W) (hf : w.Fresh) (evs : List Ev) :
    (execute how cfg w evs).2.UserSignals :=
  execute_pres fstable_userSignals how cfg w evs (fun s h => by rw [hf.trace] at h; cases h)

theorem delivered_zero {t : List Obs} (h1 : ∀ b s, .kill b s ∉ t) (h2 : .closeKill ∉ t) : delivered t = 0 := by
  induction t with
  | nil => rfl
  | cons o t ih =>
    have ih := ih (fun b s hm => h1 b s (by simp [hm])) (fun hm => h2 (by simp [hm]))
    cases o
    case kill b s => exact absurd (by simp) (h1 b s)
    case closeKill => exact absurd (by simp) h2
    all_goals exact ih

theorem audits_none {t : List Obs} (h1 : ∀ b s, .auditSignal b s ∉ t) (h2 : ∀ o ∈ t, o.inner = true) : audits t = [] := by
  induction t with
  | nil => rfl
  | cons o t ih =>
    have ih := ih (fun b s hm => h1 b s (by simp [hm])) (fun o hm => h2 o (by simp [hm]))
    have ho := h2 o (by simp)
    cases o
    case auditSignal b s => exact absurd (by simp) (h1 b s)
    case auditStart => cases ho
    case auditStop => cases ho
    all_goals exact ih

theorem libSigs_mem {t : List Obs} {s : Option Nat} (h : .auditSignal false s ∈ t) : s ∈ libSigs t := by
  unfold libSigs
  rw [List.mem_filterMap]
  exact ⟨_, h, rfl⟩

end Shellous
