import Verif.Lemmas.RunSignals

/-!
# The part of the log after the body
-/

namespace Shellous

theorem cleanupLog_none {t : List Obs} (h : ∀ ex, .bodyEnd ex ∉ t) : cleanupLog t = t := by
  unfold cleanupLog
  rw [if_neg]
  intro hn
  rw [List.any_eq_true] at hn
  obtain ⟨o, ho, hb⟩ := hn
  cases o <;> first | exact h _ ho | cases hb

theorem cleanupLog_append {t t' : List Obs} {ex : Option Exc} (h : ∀ ex, .bodyEnd ex ∉ t) :
    cleanupLog (t ++ .bodyEnd ex :: t') = .bodyEnd ex :: t' := by
  unfold cleanupLog
  rw [if_pos (by simp)]
  induction t with
  | nil => rfl
  | cons o t ih =>
    have ih := ih fun ex hm => h ex (by simp [hm])
    have ho := fun ex => h ex
    cases o
    case bodyEnd ex' => exact absurd (by simp) (h ex')
    all_goals exact ih

/-- The log of a run that ended after its body. -/
structure Split (w2 w3 : W) (ex : Option Exc) (l : List Obs) : Prop where
  tail : w3.trace = w2.trace ++ .bodyEnd ex :: l
  inner : ∀ o ∈ l, o.inner = true
  before : ∀ ex, .bodyEnd ex ∉ w2.trace
  start : .bodyStart ∈ w2.trace

theorem Launched.split {cfg : RCfg} {w w1 w2 w3 : W} {ex : Option Exc} {o : Out Bool} (hf : w.Fresh)
    (h : Launched cfg (w.log .auditStart) w1) (b : BodyRel (w1.log .bodyStart) w2)
    (x : XPost cfg ex (w2.log (.bodyEnd ex)) o w3) : ∃ l, Split w2 w3 ex l := by
  obtain ⟨l1, l2, ht, h1, h2⟩ := h.bodyTrace hf b
  obtain ⟨l, hl, hi⟩ := x.ext.trace
  refine ⟨l, ⟨by rw [hl, W.log]; simp, hi, ?_, by rw [ht]; simp⟩⟩
  intro ex' hm
  rw [ht] at hm
  simp only [List.mem_cons, List.mem_append, reduceCtorEq, false_or] at hm
  rcases hm with hm | hm
  · exact absurd (h1 _ hm) (by simp [Obs.inner])
  · exact absurd (h2 _ hm) (by simp [Obs.inner])

theorem Split.full {w2 w3 : W} {ex : Option Exc} {l : List Obs} (s : Split w2 w3 ex l) :
    (w3.stopTimer.log (.auditStop none)).trace = w2.trace ++ .bodyEnd ex :: (l ++ [.auditStop none]) := by
  rw [W.log, W.stopTimer, s.tail]; simp

theorem Split.cleanup {w2 w3 : W} {ex : Option Exc} {l : List Obs} (s : Split w2 w3 ex l) :
    Shellous.cleanupLog (w3.stopTimer.log (.auditStop none)).trace = .bodyEnd ex :: (l ++ [.auditStop none]) := by
  rw [s.full, cleanupLog_append s.before]

theorem Split.bodyEnd {w2 w3 : W} {ex ex' : Option Exc} {l : List Obs} (s : Split w2 w3 ex l)
    (h : .bodyEnd ex' ∈ (w3.stopTimer.log (.auditStop none)).trace) : ex' = ex := by
  rw [s.full] at h
  simp only [List.mem_append, List.mem_cons, List.mem_singleton, reduceCtorEq, Obs.bodyEnd.injEq, or_false,
    List.not_mem_nil] at h
  rcases h with h | h | h
  · exact absurd h (s.before _)
  · exact h
  · exact absurd (s.inner _ h) (by simp [Obs.inner])

theorem Split.throwsIn {w2 w3 : W} {ex : Option Exc} {l : List Obs} (s : Split w2 w3 ex l) :
    throwsIn (Shellous.cleanupLog (w3.stopTimer.log (.auditStop none)).trace) = l.count .thrown := by
  rw [s.cleanup, Shellous.throwsIn]
  simp [List.count_append, List.count_cons]

theorem Split.throws {w2 w3 : W} {ex : Option Exc} {l : List Obs} (s : Split w2 w3 ex l) :
    w3.throws = (w2.log (.bodyEnd ex)).throws + l.count .thrown := by
  simp [W.throws, W.log, s.tail, List.count_append, List.count_cons]

theorem Split.gaveUps {w2 w3 : W} {ex : Option Exc} {l : List Obs} (s : Split w2 w3 ex l) :
    w3.gaveUps = (w2.log (.bodyEnd ex)).gaveUps + l.count .gaveUp := by
  simp [W.gaveUps, W.log, s.tail, List.count_append, List.count_cons]

theorem Split.gaveUpIn {w2 w3 : W} {ex : Option Exc} {l : List Obs} (s : Split w2 w3 ex l)
    (h : .gaveUp ∉ Shellous.cleanupLog (w3.stopTimer.log (.auditStop none)).trace) : .gaveUp ∉ l := by
  rw [s.cleanup] at h
  intro hm
  exact h (by simp [hm])

/-- At most one interruption and no surrender in the cleanup. -/
theorem Split.few {w2 w3 : W} {ex : Option Exc} {l : List Obs} (s : Split w2 w3 ex l)
    (h1 : Shellous.throwsIn (Shellous.cleanupLog (w3.stopTimer.log (.auditStop none)).trace) ≤ 1)
    (h2 : .gaveUp ∉ Shellous.cleanupLog (w3.stopTimer.log (.auditStop none)).trace) : Few (w2.log (.bodyEnd ex)) w3 := by
  have := s.throwsIn
  have := s.throws
  have := s.gaveUps
  have hz : l.count .gaveUp = 0 := List.count_eq_zero.2 (s.gaveUpIn h2)
  exact ⟨by omega, by omega⟩

/-- The log of a failed launch. -/
theorem LFail.log {cfg : RCfg} {w w1 : W} {e1 : Exc} (hf : w.Fresh) (h : LFail cfg (w.log .auditStart) e1 w1) :
    ∃ l, (w1.stopTimer.log (.auditStop (some e1))).trace = .auditStart :: l ++ [.auditStop (some e1)] ∧
      w1.trace = .auditStart :: l ∧ ∀ o ∈ l, o.inner = true := by
  obtain ⟨l, hl, hi⟩ := h.ext.trace
  have : w1.trace = .auditStart :: l := by rw [hl, W.log, hf.trace]; rfl
  exact ⟨l, by rw [W.log, W.stopTimer, this], this, hi⟩

theorem LFail.noBody {cfg : RCfg} {w w1 : W} {e1 : Exc} (hf : w.Fresh) (h : LFail cfg (w.log .auditStart) e1 w1) :
    .bodyStart ∉ (w1.stopTimer.log (.auditStop (some e1))).trace ∧
      ∀ ex, .bodyEnd ex ∉ (w1.stopTimer.log (.auditStop (some e1))).trace := by
  obtain ⟨l, hl, _, hi⟩ := h.log hf
  rw [hl]
  constructor
  · intro hm
    simp at hm
    exact absurd (hi _ hm) (by simp [Obs.inner])
  · intro ex hm
    simp at hm
    exact absurd (hi _ hm) (by simp [Obs.inner])

theorem fresh_throws {w : W} (hf : w.Fresh) : (w.log .auditStart).throws = 0 := by
  simp [W.throws, W.log, hf.trace]

theorem fresh_gaveUps {w : W} (hf : w.Fresh) : (w.log .auditStart).gaveUps = 0 := by
  simp [W.gaveUps, W.log, hf.trace]

theorem stopped_reaped {w : W} {f : Option Exc} (hok : w.Ok) (h : w.rcKnown = true) :
    Reaped (w.stopTimer.log (.auditStop f)) :=
  rcKnown_reaped (hok.same rfl rfl rfl) h

/-- What a child that survived its SIGKILL left in the log. -/
theorem Survived.undisturbed {w w' : W} {e : Exc} {f : Option Exc} (h : Survived w e w')
    (hk : KillUndisturbed (w'.stopTimer.log (.auditStop f)).trace) : .unableToKill ∈ w'.trace ∧ e = .runtimeError := by
  obtain ⟨⟨l1, l2, ht, hc⟩, _⟩ := h
  obtain ⟨k1, k2⟩ := hk (w.trace ++ l1) (l2 ++ [.auditStop f]) (by rw [W.log, W.stopTimer, ht]; simp)
  rcases hc with h | h | ⟨h, h'⟩
  · exact absurd (by simp [h]) k1
  · exact absurd (by simp [h]) k2
  · exact ⟨by rw [ht]; simp [h], h'⟩

theorem Survived.killed {w w' : W} {e : Exc} (h : Survived w e w') : .auditSignal false none ∈ w'.trace := by
  obtain ⟨⟨l1, l2, ht, _⟩, _⟩ := h
  rw [ht]; simp

theorem exitedBy_iff {w : W} {p : Proc} (hp : w.proc = some p) : w.exitedBy = true ↔ p.exited ≠ none := by
  unfold W.exitedBy
  rw [hp]
  cases h : p.exited <;> simp [h]

theorem runResult_out (cfg : RCfg) (check : Bool) (w : W) : (runResult cfg check w []).1 =
    match runnerResult
      { proc := if w.attached then some (w.proc.bind (·.rc)) else none
        cancelled := w.cancelled
        timedOut := w.timedOut
        lastSignal := w.lastSignal
        outputBytes := cfg.outBytes
        errorBytes := cfg.errBytes } cfg.opts check with
    | .ok r => .ok r
    | .error e => .exc e := by
  unfold runResult
  change (Coro.bind Coro.get _ w []).1 = _
  unfold Coro.bind Coro.get
  simp only []
  generalize runnerResult _ _ _ = r
  cases r <;> rfl

theorem returncode_unknown (c : Bool) (s : Option Nat) : runnerReturncode (some none) c s = none := by
  unfold runnerReturncode
  cases s <;> simp

/-- What a checked result says about the run. -/
theorem runResult_ok {cfg : RCfg} {w : W} {r : Result} (h : (runResult cfg true w []).1 = .ok r) (ha : w.attached = true) :
    w.rcKnown = true ∧ r.cancelled = w.cancelled ∧ exitCodeAllowed cfg.opts.exitCodes r.exitCode = true ∧
      (w.cancelled = true → cfg.opts.catchCancelled = true ∧ w.timedOut = true) := by
  rw [runResult_out] at h
  unfold runnerResult at h
  rw [ha] at h
  simp only [if_true, Bool.not_true, Bool.false_eq_true, if_false] at h
  cases hk : w.proc.bind (·.rc) with
  | none =>
    rw [hk, returncode_unknown] at h
    cases h
  | some c =>
    have hrc : w.rcKnown = true := by
      unfold W.rcKnown
      cases hp : w.proc with
      | none => rw [hp] at hk; cases hk
      | some p => rw [hp] at hk; simp only [Option.bind_some] at hk; simp [hk]
    rw [hk] at h
    cases hr : runnerReturncode (some (some c)) w.cancelled w.lastSignal with
    | none => rw [hr] at h; cases h
    | some code =>
      rw [hr] at h
      unfold checkResult at h
      simp only [] at h
      split at h
      · rename_i r' hr'
        cases h
        split at hr'
        · cases hr'
        · rename_i h1
          split at hr'
          · cases hr'
          · rename_i h2
            cases hr'
            refine ⟨hrc, rfl, ?_, ?_⟩
            · simp only [Bool.or_eq_true, not_or, Bool.not_eq_true', Bool.not_eq_false] at h2
              exact h2.2
            · intro hc
              rw [hc] at h1 h2
              simp at h1 h2
              exact ⟨h1, h2.1⟩
      · cases h

/-- Why there is no checked result. -/
theorem runResult_exc {cfg : RCfg} {w : W} {e : Exc} (h : (runResult cfg true w []).1 = .exc e) :
    (e = .typeError ∧ w.rcKnown = false ∧ (w.attached = false → w.cancelled = false)) ∨
    (e = .cancelled ∧ w.cancelled = true ∧ cfg.opts.catchCancelled = false) ∨
    (∃ r, e = .resultError r ∧ r.cancelled = w.cancelled ∧
      (exitCodeAllowed cfg.opts.exitCodes r.exitCode = false ∨
        (w.cancelled = true ∧ w.timedOut = false ∧ cfg.opts.catchCancelled = true))) ∨
    (e = .typeError ∧ w.attached = false ∧ w.cancelled = false) := by
  rw [runResult_out] at h
  unfold runnerResult at h
  simp only [] at h
  cases hr : runnerReturncode (if w.attached then some (w.proc.bind (·.rc)) else none) w.cancelled w.lastSignal with
  | none =>
    rw [hr] at h
    cases h
    cases ha : w.attached with
    | false =>
      refine .inr (.inr (.inr ⟨rfl, rfl, ?_⟩))
      rw [ha] at hr
      simp [runnerReturncode] at hr
      exact hr
    | true =>
      refine .inl ⟨rfl, ?_, by simp⟩
      rw [ha] at hr
      simp only [if_true] at hr
      unfold W.rcKnown
      cases hp : w.proc with
      | none => rfl
      | some p =>
        rw [hp] at hr
        cases hc : p.rc with
        | none => simp [hc]
        | some c =>
          exfalso
          simp only [Option.bind_some, hc, runnerReturncode] at hr
          split at hr
          · split at hr <;> cases hr
          · cases hr
  | some code =>
    rw [hr] at h
    simp only [Bool.not_true, Bool.false_eq_true, if_false, checkResult] at h
    split at h
    · cases h
    · rename_i e' he'
      cases h
      split at he'
      · rename_i h1
        cases he'
        simp only [Bool.and_eq_true, Bool.not_eq_true'] at h1
        exact .inr (.inl ⟨rfl, h1.1, h1.2⟩)
      · rename_i h1
        split at he'
        · rename_i h2
          cases he'
          refine .inr (.inr (.inl ⟨_, rfl, rfl, ?_⟩))
          simp only [Bool.or_eq_true, Bool.and_eq_true, Bool.not_eq_true'] at h2
          rcases h2 with h2 | h2
          · refine .inr ⟨h2.1, h2.2, ?_⟩
            simp only [h2.1, Bool.true_and, Bool.not_eq_true', Bool.not_eq_false] at h1
            exact h1
          · exact .inl h2
        · cases he'

theorem mem_of_throws {w : W} {n : Nat} (h : n < w.throws) : .thrown ∈ w.trace :=
  List.count_pos_iff.1 (by unfold W.throws at h; omega)

theorem mem_of_gaveUps {w : W} {n : Nat} (h : n < w.gaveUps) : .gaveUp ∈ w.trace :=
  List.count_pos_iff.1 (by unfold W.gaveUps at h; omega)

theorem firstFailure_mem {w : W} {ids : List Nat} {e : Exc} (h : w.firstFailure ids = some e) :
    ∃ i ∈ ids, w.outOf i = some (.err e) := by
  obtain ⟨l, i, l', hi, ho, _⟩ := firstFailure_some.1 h
  exact ⟨i, by rw [hi]; simp, ho⟩

theorem Final.await_ok {f : Option Exc} {cfg : RCfg} {w : W} {o : Out Unit} {v : Option Returned}
    (h : Final (.await f) cfg w o (.ok v)) : o = .ok () ∧ ∃ r, (runResult cfg true w []).1 = .ok r := by
  generalize hh : How.await f = how at h
  cases h with
  | block h => rw [h] at hh; cases hh
  | result f r v _ hr _ => exact ⟨rfl, r, hr⟩

end Shellous
