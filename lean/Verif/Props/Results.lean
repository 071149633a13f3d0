import Verif.Model.Result
import Verif.Model.Command

/-!
# C21 - C26: results
-/

namespace Shellous.Props

open Shellous

/-! ## C21 -/

/-- The documented meaning of `exit_codes`: `None` (or an empty container) means {0}. -/
def Allowed (exitCodes : Option Container) (code : Int) : Prop :=
  match exitCodes with
  | none => code = 0
  | some c => (c.truthy = true ∧ c.mem code = true) ∨ (c.truthy = false ∧ code = 0)

theorem exitCodeAllowed_iff (e : Option Container) (c : Int) :
    exitCodeAllowed e c = true ↔ Allowed e c := by
  cases e with
  | none => simp [exitCodeAllowed, Allowed]
  | some k => cases h : k.truthy <;> simp [exitCodeAllowed, Allowed, h]

/-- **C21.** What `await cmd` does, as a function of how the run ended, for the public API
(`_catch_cancelled_error` is internal to pipelines). `code` is `Runner.returncode`. -/
theorem C21_await_outcome (decode : Bytes → Text → Except Exc Text) (s : RunEnd) (o : Options)
    (code : Int) (hcode : runnerReturncode s.proc s.cancelled s.lastSignal = some code)
    (hcatch : o.catchCancelled = false) :
    let r : Result :=
      { exitCode := code, outputBytes := s.outputBytes.getD [], errorBytes := s.errorBytes.getD [],
        cancelled := s.cancelled, encoding := o.encoding }
    (s.cancelled = true → runCommandEnd decode s o = .error .cancelled) ∧
    (s.cancelled = false → ¬ Allowed o.exitCodes code →
      runCommandEnd decode s o = .error (.resultError r)) ∧
    (s.cancelled = false → Allowed o.exitCodes code → o.returnResult = true →
      runCommandEnd decode s o = .ok (.result r)) ∧
    (s.cancelled = false → Allowed o.exitCodes code → o.returnResult = false →
      runCommandEnd decode s o = (decode r.outputBytes o.encoding).map .text) := by
  intro r
  have hr : runnerResult s o = checkResult r o s.cancelled s.timedOut := by
    simp [runnerResult, hcode, r]
  refine ⟨?_, ?_, ?_, ?_⟩
  · intro hc; simp [runCommandEnd, hr, checkResult, hc, hcatch, bind, Except.bind]
  · intro hc ha
    have : exitCodeAllowed o.exitCodes code = false := by
      rw [← Bool.not_eq_true, exitCodeAllowed_iff]; exact ha
    simp [runCommandEnd, hr, checkResult, hc, bind, Except.bind, r, this]
  · intro hc ha hrr
    have := (exitCodeAllowed_iff _ _).mpr ha
    simp [runCommandEnd, hr, checkResult, hc, bind, Except.bind, r, this, hrr, pure, Except.pure]
  · intro hc ha hrr
    have := (exitCodeAllowed_iff _ _).mpr ha
    simp only [runCommandEnd, hr, checkResult, hc, bind, Except.bind, r, this, hrr, Bool.false_and,
      Bool.not_true, Bool.or_self, Bool.false_eq_true, if_false]
    cases decode (s.outputBytes.getD []) o.encoding <;> rfl

/-- **C21.** A process that has not exited has no result. -/
theorem C21_no_result_before_exit (s : RunEnd) (o : Options) (check : Bool)
    (h : runnerReturncode s.proc s.cancelled s.lastSignal = none) :
    runnerResult s o check = .error .typeError := by
  simp [runnerResult, h]

/-- **C21.** `exit_codes` as a set, list or range. -/
theorem C21_exit_codes_containers (l : List Int) (lo hi code : Int) :
    (Allowed none code ↔ code = 0) ∧
    (l ≠ [] → (Allowed (some (.ofList l)) code ↔ code ∈ l)) ∧
    (lo < hi → (Allowed (some (.range lo hi)) code ↔ lo ≤ code ∧ code < hi)) ∧
    -- an empty container means {0}, not "no exit code is acceptable":
    (Allowed (some (.ofList [])) code ↔ code = 0) := by
  refine ⟨Iff.rfl, ?_, ?_, ?_⟩
  · intro h; cases l with
    | nil => exact absurd rfl h
    | cons a as => simp [Allowed, Container.ofList]
  · intro h; simp [Allowed, Container.range, h]
  · simp [Allowed, Container.ofList]

/-- A run that exits with 3 and `exit_codes={0, 3}`. -/
example : runCommandEnd (fun b _ => .ok (b.map fun x => Char.ofNat x.toNat))
    { proc := some (some 3), cancelled := false, timedOut := false, lastSignal := none,
      outputBytes := some [104, 105], errorBytes := none }
    { exitCodes := some (.ofList [0, 3]) } = .ok (.text ['h', 'i']) := by rfl

/-- **C21** inside a pipeline (`_catch_cancelled_error`, set by the pipeline on its commands): a
cancelled command whose deadline did not pass is a `ResultError` whatever its exit code; a cancelled
command that merely timed out is judged by its exit code; nothing here raises `CancelledError`. -/
theorem C21_inside_pipeline (s : RunEnd) (o : Options)
    (code : Int) (hcode : runnerReturncode s.proc s.cancelled s.lastSignal = some code)
    (hcatch : o.catchCancelled = true) :
    let r : Result :=
      { exitCode := code, outputBytes := s.outputBytes.getD [], errorBytes := s.errorBytes.getD [],
        cancelled := s.cancelled, encoding := o.encoding }
    (s.cancelled = true → s.timedOut = false → runnerResult s o = .error (.resultError r)) ∧
    (¬ Allowed o.exitCodes code → runnerResult s o = .error (.resultError r)) ∧
    (s.cancelled = true → s.timedOut = true → Allowed o.exitCodes code → runnerResult s o = .ok r) ∧
    (s.cancelled = false → Allowed o.exitCodes code → runnerResult s o = .ok r) := by
  intro r
  have hr : runnerResult s o = checkResult r o s.cancelled s.timedOut := by
    simp [runnerResult, hcode, r]
  rw [hr]
  refine ⟨?_, ?_, ?_, ?_⟩
  · intro hc ht; simp [checkResult, hc, ht, hcatch]
  · intro ha
    have : exitCodeAllowed o.exitCodes code = false := by
      rw [← Bool.not_eq_true, exitCodeAllowed_iff]; exact ha
    simp [checkResult, hcatch, r, this]
  · intro hc ht ha
    have := (exitCodeAllowed_iff _ _).mpr ha
    simp [checkResult, hc, ht, hcatch, r, this]
  · intro hc ha
    have := (exitCodeAllowed_iff _ _).mpr ha
    simp [checkResult, hc, hcatch, r, this]

/-- The hypotheses of `C21_inside_pipeline` for a command of a pipeline stopped by SIGTERM. -/
example : let s : RunEnd := ⟨some (some (-15)), true, false, some 15, some [104], none⟩
    let o : Options := { catchCancelled := true }
    runnerReturncode s.proc s.cancelled s.lastSignal = some (-15) ∧ o.catchCancelled = true ∧
    runnerResult s o = .error (.resultError ⟨-15, [104], [], true, o.encoding⟩) := ⟨rfl, rfl, rfl⟩

/-- **C21.** `check=False` never raises for a process that has ended. -/
theorem C21_unchecked (s : RunEnd) (o : Options) (code : Int)
    (hcode : runnerReturncode s.proc s.cancelled s.lastSignal = some code) :
    runnerResult s o (check := false) = .ok
      { exitCode := code, outputBytes := s.outputBytes.getD [], errorBytes := s.errorBytes.getD [],
        cancelled := s.cancelled, encoding := o.encoding } := by
  simp [runnerResult, hcode]

/-! ## C22, C25: wait statuses -/

/-- How a process can end, as the operating system sees it. -/
inductive Ending where
  | exit (n : Nat) (h : n ≤ 255)
  | killed (sig : Nat) (core : Bool) (h : 1 ≤ sig ∧ sig ≤ 64)

/-- The wait status word the kernel reports (wait(2), Linux). -/
def Ending.status : Ending → Nat
  | .exit n _ => n * 256
  | .killed s core _ => s + (if core then 128 else 0)

/-- What the user should see: the exit code, or the negated signal number. -/
def Ending.code : Ending → Int
  | .exit n _ => n
  | .killed s _ _ => -(s : Int)

/-- **C25.** `wait_pid` reports every ending faithfully, never reports a running child as exited, and
reports 255 for a child that somebody else reaped. -/
theorem C25_exit_status_decoding (e : Ending) :
    waitPid (.status e.status) = some e.code ∧
    waitPid .running = none ∧
    waitPid .childProcessError = some 255 := by
  refine ⟨?_, rfl, rfl⟩
  cases e with
  | exit n h =>
    simp only [Ending.status, Ending.code, waitPid, waitstatusToExitcode]
    have h1 : n * 256 % 128 = 0 := by omega
    have h2 : n * 256 / 256 % 256 = n := by omega
    simp only [h1, h2, if_true]
  | killed s core h =>
    simp only [Ending.status, Ending.code, waitPid]
    have h1 : ¬ (s + (if core then 128 else 0)) % 128 = 0 := by split <;> omega
    have h2 : ¬ (s + (if core then 128 else 0)) % 128 = 127 := by split <;> omega
    have h3 : (s + (if core then 128 else 0)) % 128 = s := by split <;> omega
    have h4 : waitstatusToExitcode (s + (if core then 128 else 0)) = .ok (-(s : Int)) := by
      unfold waitstatusToExitcode
      rw [if_neg h1, if_neg h2, h3]
    simp only [h4]

/-- **C25.** Two endings are reported alike only if they have the same exit code, or the same signal. -/
theorem C25_decoding_injective (e f : Ending)
    (h : waitPid (.status e.status) = waitPid (.status f.status)) : e.code = f.code := by
  rw [(C25_exit_status_decoding e).1, (C25_exit_status_decoding f).1] at h
  exact Option.some.inj h

/-- **C25.** `poll_wait_pid` never overwrites a known return code and returns True exactly when the
return code is known afterwards. -/
theorem C25_poll (rc : Option Int) (w : WaitOutcome) :
    (∀ c, rc = some c → (pollWaitPid rc w).1 = some c) ∧
    ((pollWaitPid rc w).2 = true ↔ (pollWaitPid rc w).1 ≠ none) ∧
    (rc = none → (pollWaitPid rc w).1 = waitPid w) := by
  cases rc with
  | some c => simp [pollWaitPid]
  | none => cases hw : waitPid w <;> simp [pollWaitPid, hw]

example : waitPid (.status 139) = some (-11) := by decide
example : (Ending.killed 11 true (by omega)).status = 139 := rfl

/-- The names `signal.Signals` has on Linux: the standard signals 1..31 and the two ends of the
realtime range. -/
def NamedSignal (n : Nat) : Prop := (1 ≤ n ∧ n ≤ 31) ∨ n = 34 ∨ n = 64

/-- **C61, partial.** `Result.exit_signal` for every way a child can end: `None` after an exit of any
code (including 128 + n), the signal itself after death by a signal that `signal.Signals` names, and
`ValueError` after death by an unnamed realtime signal. Missing: the realtime signals
(`C61_realtime_false`). -/
theorem C61_exit_signal_partial (e : Ending) (r : Result) (hr : r.exitCode = e.code) :
    (∀ n h, e = .exit n h → r.exitSignal = .ok none) ∧
    (∀ s c h, e = .killed s c h → NamedSignal s → r.exitSignal = .ok (some (s : Int))) ∧
    (∀ s c h, e = .killed s c h → ¬ NamedSignal s → r.exitSignal = .error .valueError) := by
  refine ⟨?_, ?_, ?_⟩
  · rintro n h rfl
    have : r.exitCode ≥ 0 := by rw [hr]; simp only [Ending.code]; omega
    simp [Result.exitSignal, this]
  · rintro s c h rfl hn
    have h0 : ¬ r.exitCode ≥ 0 := by rw [hr]; simp only [Ending.code]; omega
    have hm : isSignalsMember (s : Int) = true := by
      simp only [isSignalsMember, Bool.or_eq_true, Bool.and_eq_true, decide_eq_true_eq, beq_iff_eq]
      rcases hn with h | h | h <;> omega
    rw [Result.exitSignal, if_neg h0]
    simp only [hr, Ending.code, Int.neg_neg, hm, if_true]
  · rintro s c h rfl hn
    have h0 : ¬ r.exitCode ≥ 0 := by rw [hr]; simp only [Ending.code]; omega
    have hm : isSignalsMember (s : Int) = false := by
      rw [← Bool.not_eq_true]
      simp only [isSignalsMember, Bool.or_eq_true, Bool.and_eq_true, decide_eq_true_eq, beq_iff_eq]
      intro hh; apply hn; rcases hh with (h | h) | h
      · exact .inl ⟨by omega, by omega⟩
      · exact .inr (.inl (by omega))
      · exact .inr (.inr (by omega))
    rw [Result.exitSignal, if_neg h0]
    simp only [hr, Ending.code, Int.neg_neg, hm]
    rfl

/-- **C61 is false of the code** for a child killed by a realtime signal other than SIGRTMIN and
SIGRTMAX: reading `exit_signal` raises `ValueError` although the child died by a signal. -/
theorem C61_realtime_false :
    ¬ ∀ (s : Nat) (c : Bool) (h : 1 ≤ s ∧ s ≤ 64) (r : Result), r.exitCode = (Ending.killed s c h).code →
        r.exitSignal = .ok (some (s : Int)) := by
  intro h
  have := h 40 false (by omega) ⟨-40, [], [], false, []⟩ rfl
  cases this

example : (⟨-9, [], [], false, []⟩ : Result).exitSignal = .ok (some 9) ∧ NamedSignal 9 :=
  ⟨rfl, .inl (by omega)⟩

/-- **C22.** With `.result`, every ending of an uncancelled command gives a Result, and it is truthy
exactly for exit code 0. -/
theorem C22_result_never_raises (decode : Bytes → Text → Except Exc Text) (c d : Command)
    (hd : c.result = .ok d) (e : Ending) (s : RunEnd) (hs : s.cancelled = false)
    (hp : s.proc = some (waitPid (.status e.status))) (hsig : ∀ x, s.lastSignal = some x → x ≤ 64) :
    ∃ r, runCommandEnd decode s d.options = .ok (.result r) ∧
      (r.toBool = true ↔ r.exitCode = 0) ∧ (s.lastSignal = none → r.exitCode = e.code) := by
  have ho : d.options = c.options.set resultKwds := by
    simp only [Command.result, Command.set, bind, Except.bind, Options.setChecked] at hd
    split at hd
    · cases hd
    · rename_i o2 h2
      simp [resultKwds] at h2
      simp only [Command.make] at hd
      split at hd
      · cases hd
      · cases hd; simp only [Command.options_mk, ← h2]; rfl
  have hrr : d.options.returnResult = true := by rw [ho]; rfl
  have hex : d.options.exitCodes = some (Container.range (-255) 256) := by rw [ho]; rfl
  rw [(C25_exit_status_decoding e).1] at hp
  have hbound : -64 ≤ e.code ∧ e.code ≤ 255 := by
    cases e with
    | exit n h => simp only [Ending.code]; omega
    | killed s core h => simp only [Ending.code]; omega
  -- the reported code
  obtain ⟨code, hcode, hb, hcs⟩ : ∃ code, runnerReturncode s.proc s.cancelled s.lastSignal = some code ∧
      (-255 ≤ code ∧ code < 256) ∧ (s.lastSignal = none → code = e.code) := by
    rw [hp]
    cases hl : s.lastSignal with
    | none => exact ⟨e.code, rfl, by omega, fun _ => rfl⟩
    | some x =>
      have := hsig x hl
      by_cases h255 : e.code = unknownExitCode
      · refine ⟨-(x : Int), by simp [runnerReturncode, h255], by omega, by simp⟩
      · exact ⟨e.code, by simp [runnerReturncode, h255], by omega, by simp⟩
  have hallow : exitCodeAllowed d.options.exitCodes code = true := by
    rw [hex]
    simp only [exitCodeAllowed, Container.range]
    simp
    omega
  refine ⟨{ exitCode := code, outputBytes := s.outputBytes.getD [],
            errorBytes := s.errorBytes.getD [], cancelled := s.cancelled,
            encoding := d.options.encoding }, ?_, by simp [Result.toBool], hcs⟩
  rw [hs] at hcode
  simp [runCommandEnd, runnerResult, hcode, checkResult, hs, hallow, hrr, bind, Except.bind, pure,
    Except.pure]

example : ∃ d, (Command.mk [.str ['x']] {}).result = .ok d := ⟨_, rfl⟩

/-! ## C23, C24: pipelines -/

/-- The result carried by an item, if it is a `Result` or a `ResultError`. -/
def itemResult : Item → Option Result
  | .res r => some r
  | .exc (.resultError r) => some r
  | .exc _ => none

/-- The command failed by itself: non-zero exit code and not cancelled. -/
def FailedItself (r : Result) : Prop := r.exitCode ≠ 0 ∧ r.cancelled = false

instance : DecidablePred FailedItself := fun r => by unfold FailedItself; infer_instance

/-- `k` is the first element of `rs` that failed by itself. -/
def FirstFailed (rs : List Result) (k : Result) : Prop :=
  ∃ before after, rs = before ++ k :: after ∧ FailedItself k ∧ ∀ r ∈ before, ¬ FailedItself r

theorem getResult_ok (i : Item) (r : Result) (h : itemResult i = some r) : getResult i = .ok r := by
  cases i with
  | res x => simp [itemResult] at h; simp [getResult, h]
  | exc e => cases e <;> simp [itemResult] at h; simp [getResult, h]

theorem compare_nc (acc : Option Result) (r : Result) (h : r.cancelled = false) :
    compareResult acc r = r := by
  cases acc with
  | none => rfl
  | some a =>
    have hp : ∀ x y : Bool, pairGe (true, x) (y, x) = true := by decide
    simp only [compareResult, h, Bool.not_false, hp, if_true]

theorem compare_c (a r : Result) (h : r.cancelled = true) :
    compareResult (some a) r = if a.cancelled then r else a := by
  have hp : ∀ x y : Bool, pairGe (false, x) (!y, x) = y := by decide
  simp only [compareResult, h, Bool.not_true]
  rw [hp]

/-- When nobody failed by itself the loop ends with the last uncancelled result, or, if all were
cancelled, with the last one. -/
theorem findKeyLoop_spec (rs : List Result) : ∀ (l : List Item) (acc : Option Result),
    l.map itemResult = rs.map some →
    (∀ a, acc = some a → ¬ FailedItself a) →
    (∀ k, FirstFailed rs k → findKeyLoop acc l = .ok k) ∧
    ((∀ r ∈ rs, ¬ FailedItself r) →
      findKeyLoop acc l =
        match acc, ((acc.toList ++ rs).filter (fun r => !r.cancelled)).getLast? with
        | none, none => match rs.getLast? with
          | none => .error .runtimeError
          | some r => .ok r
        | some a, none => .ok (rs.getLast?.getD a)
        | _, some r => .ok r) := by
  induction rs with
  | nil =>
    intro l acc hl hacc
    have : l = [] := by simpa using hl
    subst this
    refine ⟨?_, ?_⟩
    · rintro k ⟨b, a, h, _⟩; simp at h
    · intro _
      cases acc with
      | none => rfl
      | some a => cases hc : a.cancelled <;> simp [findKeyLoop, hc]
  | cons r rs ih =>
    intro l acc hl hacc
    cases l with
    | nil => simp at hl
    | cons i l =>
      simp only [List.map_cons, List.cons.injEq] at hl
      have hg := getResult_ok i r hl.1
      have step : findKeyLoop acc (i :: l) =
          if !(compareResult acc r).cancelled && (compareResult acc r).exitCode != 0 then
            .ok (compareResult acc r) else findKeyLoop (some (compareResult acc r)) l := by
        simp [findKeyLoop, hg, bind, Except.bind]
      by_cases hf : FailedItself r
      · -- r is returned at once
        have hk : compareResult acc r = r := compare_nc acc r hf.2
        have hret : findKeyLoop acc (i :: l) = .ok r := by
          rw [step, hk]; simp [hf.2, hf.1]
        refine ⟨?_, fun h => absurd hf (h r (by simp))⟩
        rintro k ⟨b, a, he, hkf, hb⟩
        cases b with
        | nil => simp at he; rw [hret, he.1]
        | cons x xs =>
          simp at he
          exact absurd (he.1 ▸ hf) (hb x (by simp))
      · have hnf : ¬ FailedItself (compareResult acc r) := by
          cases hc : r.cancelled with
          | false => rw [compare_nc acc r hc]; exact hf
          | true =>
            cases acc with
            | none => exact hf
            | some a =>
              rw [compare_c a r hc]
              split
              · exact hf
              · exact hacc a rfl
        have hcont : findKeyLoop acc (i :: l) = findKeyLoop (some (compareResult acc r)) l := by
          rw [step]
          have : (!(compareResult acc r).cancelled && (compareResult acc r).exitCode != 0) = false := by
            rw [Bool.eq_false_iff]
            intro h
            simp at h
            exact hnf ⟨h.2, h.1⟩
          simp [this]
        have ih' := ih l (some (compareResult acc r)) hl.2 (by intro a ha; cases ha; exact hnf)
        rw [hcont]
        refine ⟨?_, ?_⟩
        · rintro k ⟨b, a, he, hkf, hb⟩
          apply ih'.1
          cases b with
          | nil => simp at he; exact absurd (he.1 ▸ hkf) hf
          | cons x xs =>
            simp at he
            exact ⟨xs, a, he.2, hkf, fun q hq => hb q (by simp [hq])⟩
        · intro hall
          rw [ih'.2 (fun q hq => hall q (by simp [hq]))]
          cases hc : r.cancelled with
          | false =>
            rw [compare_nc acc r hc]
            have e1 : (((some r).toList ++ rs).filter (fun r => !r.cancelled)).getLast? =
                some (((rs.filter (fun r => !r.cancelled)).getLast?).getD r) := by
              simp [hc, List.getLast?_cons]
            have e2 : ((acc.toList ++ r :: rs).filter (fun r => !r.cancelled)).getLast? =
                some (((rs.filter (fun r => !r.cancelled)).getLast?).getD r) := by
              simp [List.filter_append, hc, List.getLast?_append, List.getLast?_cons]
            rw [e1, e2]
            cases acc <;> rfl
          | true =>
            cases acc with
            | none =>
              simp only [compareResult, Option.toList_some, Option.toList_none, List.nil_append,
                List.singleton_append, List.filter_cons, hc, Bool.not_true, Bool.false_eq_true,
                if_false]
              cases (rs.filter (fun r => !r.cancelled)).getLast? with
              | none => simp [List.getLast?_cons]
              | some x => rfl
            | some a =>
              rw [compare_c a r hc]
              cases ha : a.cancelled with
              | true =>
                simp only [if_true, Option.toList_some, List.singleton_append, List.filter_cons, hc,
                  ha, Bool.not_true, Bool.false_eq_true, if_false]
                cases (rs.filter (fun r => !r.cancelled)).getLast? with
                | none => simp [List.getLast?_cons]
                | some x => rfl
              | false =>
                simp only [Bool.false_eq_true, if_false, Option.toList_some, List.singleton_append,
                  List.filter_cons, hc, ha, Bool.not_true, Bool.not_false, if_true,
                  List.getLast?_cons]

theorem otherEx_nil (l : List Item) (rs : List Result) (h : l.map itemResult = rs.map some) :
    otherEx l = [] := by
  induction l generalizing rs with
  | nil => rfl
  | cons i l ih =>
    cases rs with
    | nil => simp at h
    | cons r rs =>
      simp only [List.map_cons, List.cons.injEq] at h
      have := ih rs h.2
      unfold otherEx at this ⊢
      cases i with
      | res x => simpa using this
      | exc e => cases e <;> simp_all [itemResult]

/-- The results of the commands of a pipeline, all of which ended with a `Result` or `ResultError`. -/
def AllResults (l : List Item) (rs : List Result) : Prop := l.map itemResult = rs.map some

/-- **C23.** The pipeline's exit code is that of the first command that failed by itself. -/
theorem C23_first_failure_reported (l : List Item) (rs : List Result) (k : Result) (c : Bool)
    (hl : AllResults l rs) (hk : FirstFailed rs k) :
    ∃ r, convertResultList l c = .ok r ∧ r.exitCode = k.exitCode ∧ r.errorBytes = k.errorBytes := by
  have h1 := (findKeyLoop_spec rs l none hl (by simp)).1 k hk
  have hne : rs ≠ [] := by
    obtain ⟨b, a, he, _⟩ := hk; rw [he]; simp
  have hlne : l ≠ [] := by
    intro h; subst h; simp [AllResults] at hl; exact hne hl
  obtain ⟨li, hli⟩ : ∃ li, l.getLast? = some li := by
    cases hh : l.getLast? with
    | none => exact absurd (List.getLast?_eq_none_iff.mp hh) hlne
    | some x => exact ⟨x, rfl⟩
  have hlast : ∃ lr, itemResult li = some lr := by
    have : itemResult li ∈ l.map itemResult := List.mem_map.mpr ⟨li, List.mem_of_getLast? hli, rfl⟩
    rw [hl] at this
    obtain ⟨q, _, hq⟩ := List.mem_map.mp this
    exact ⟨q, hq.symm⟩
  obtain ⟨lr, hlr⟩ := hlast
  refine ⟨{ exitCode := k.exitCode, outputBytes := lr.outputBytes, errorBytes := k.errorBytes,
            cancelled := c, encoding := lr.encoding }, ?_, rfl, rfl⟩
  simp [convertResultList, otherEx_nil l rs hl, findKeyResult, h1, hli, getResult_ok li lr hlr,
    bind, Except.bind, pure, Except.pure]

/-- **C23.** The pipeline reports success only if no command failed by itself. -/
theorem C23_zero_means_no_failure (l : List Item) (rs : List Result) (c : Bool) (r : Result)
    (hl : AllResults l rs) (h : convertResultList l c = .ok r) (h0 : r.exitCode = 0) :
    ∀ q ∈ rs, ¬ FailedItself q := by
  intro q hq hf
  -- the first failing command exists
  have : ∃ k, FirstFailed rs k := by
    clear h hl
    induction rs with
    | nil => simp at hq
    | cons x xs ih =>
      by_cases hx : FailedItself x
      · exact ⟨x, [], xs, rfl, hx, by simp⟩
      · have hq' : q ∈ xs := by
          rcases List.mem_cons.mp hq with rfl | h
          · exact absurd hf hx
          · exact h
        obtain ⟨k, b, a, he, hk, hb⟩ := ih hq'
        refine ⟨k, x :: b, a, by simp [he], hk, ?_⟩
        intro y hy
        rcases List.mem_cons.mp hy with rfl | h
        · exact hx
        · exact hb y h
  obtain ⟨k, hk⟩ := this
  obtain ⟨r', h', he, _⟩ := C23_first_failure_reported l rs k c hl hk
  rw [h] at h'; cases h'
  obtain ⟨_, _, _, hkf, _⟩ := hk
  exact hkf.1 (he ▸ h0)

/-- **C23.** When no command failed by itself the exit code is that of the last command that was not
cancelled, or of the last command if all were cancelled. -/
theorem C23_otherwise (l : List Item) (rs : List Result) (c : Bool) (last : Result)
    (hl : AllResults l rs) (hlast : rs.getLast? = some last)
    (hnf : ∀ q ∈ rs, ¬ FailedItself q) :
    ∃ r, convertResultList l c = .ok r ∧
      r.exitCode = (((rs.filter (fun r => !r.cancelled)).getLast?).getD last).exitCode := by
  have h1 := (findKeyLoop_spec rs l none hl (by simp)).2 hnf
  have hne : rs ≠ [] := by intro h; rw [h] at hlast; simp at hlast
  have hlne : l ≠ [] := by
    intro h; subst h; simp [AllResults] at hl; exact hne hl
  obtain ⟨li, hli⟩ : ∃ li, l.getLast? = some li := by
    cases hh : l.getLast? with
    | none => exact absurd (List.getLast?_eq_none_iff.mp hh) hlne
    | some x => exact ⟨x, rfl⟩
  have hlr : itemResult li = some last := by
    have := congrArg List.getLast? hl
    simp only [List.getLast?_map, hli, hlast, Option.map_some, Option.some.injEq] at this
    exact this
  have hkey : findKeyLoop none l =
      .ok (((rs.filter (fun r => !r.cancelled)).getLast?).getD last) := by
    rw [h1]
    simp only [Option.toList_none, List.nil_append]
    cases (rs.filter (fun r => !r.cancelled)).getLast? with
    | none => simp [hlast]
    | some x => rfl
  refine ⟨{ exitCode := (((rs.filter (fun r => !r.cancelled)).getLast?).getD last).exitCode,
            outputBytes := last.outputBytes,
            errorBytes := (((rs.filter (fun r => !r.cancelled)).getLast?).getD last).errorBytes,
            cancelled := c, encoding := last.encoding }, ?_, rfl⟩
  · simp [convertResultList, otherEx_nil l rs hl, findKeyResult, hkey, hli,
      getResult_ok li last hlr, bind, Except.bind, pure, Except.pure]

/-- The hypotheses of C23 are met by a three command pipeline whose middle command failed and whose
first was then cancelled. -/
example : let mk (c : Int) (x : Bool) : Result := ⟨c, [], [], x, []⟩
    AllResults [.exc (.resultError (mk (-15) true)), .exc (.resultError (mk 2 false)), .res (mk 0 false)]
      [mk (-15) true, mk 2 false, mk 0 false] ∧
    FirstFailed [mk (-15) true, mk 2 false, mk 0 false] (mk 2 false) := by
  refine ⟨rfl, [_], [_], rfl, ⟨by decide, rfl⟩, ?_⟩
  intro r hr; simp at hr; subst hr; simp [FailedItself]

/-- Corner case worth knowing: if every command was cancelled, an exit code 0 of the last one hides
the others (here the first was terminated by SIGTERM). Only possible when the pipeline itself was
cancelled or torn down. -/
theorem C23_all_cancelled_corner :
    let mk (c : Int) (x : Bool) : Result := ⟨c, [], [], x, []⟩
    (convertResultList [.exc (.resultError (mk (-15) true)), .exc (.resultError (mk 0 true))] true).map
      (·.exitCode) = .ok 0 := by rfl

/-- **C24.** A pipeline whose commands all produced results: output and encoding come from the last
command, stderr from the command whose exit code is reported. -/
theorem C24_provenance (l : List Item) (rs : List Result) (c : Bool) (r : Result)
    (hl : AllResults l rs) (h : convertResultList l c = .ok r) :
    ∃ last key, rs.getLast? = some last ∧ key ∈ rs ∧
      r = { exitCode := key.exitCode, outputBytes := last.outputBytes,
            errorBytes := key.errorBytes, cancelled := c, encoding := last.encoding } := by
  have hne : rs ≠ [] := by
    intro hh; subst hh
    have : l = [] := by simpa [AllResults] using hl
    subst this
    simp [convertResultList, otherEx, findKeyResult, findKeyLoop, bind, Except.bind] at h
  obtain ⟨last, hlast⟩ : ∃ x, rs.getLast? = some x := by
    cases hh : rs.getLast? with
    | none => exact absurd (List.getLast?_eq_none_iff.mp hh) hne
    | some x => exact ⟨x, rfl⟩
  have hmem : ∀ (acc : Option Result) (l : List Item) (rs : List Result) (k : Result), l.map itemResult = rs.map some →
      findKeyLoop acc l = .ok k → k ∈ rs ∨ acc = some k := by
    intro acc l rs
    induction rs generalizing acc l with
    | nil =>
      intro k hl hk
      have : l = [] := by simpa using hl
      subst this
      cases acc with
      | none => simp [findKeyLoop] at hk
      | some a => simp [findKeyLoop] at hk; exact .inr (by rw [hk])
    | cons x xs ih =>
      intro k hl hk
      cases l with
      | nil => simp at hl
      | cons i l =>
        simp only [List.map_cons, List.cons.injEq] at hl
        have hg := getResult_ok i x hl.1
        have hcmp : compareResult acc x = x ∨ acc = some (compareResult acc x) := by
          cases hc : x.cancelled with
          | false => exact .inl (compare_nc acc x hc)
          | true =>
            cases acc with
            | none => exact .inl rfl
            | some a =>
              rw [compare_c a x hc]
              split
              · exact .inl rfl
              · exact .inr rfl
        simp only [findKeyLoop, hg, bind, Except.bind] at hk
        split at hk
        · cases hk
          rcases hcmp with h | h
          · exact .inl (by rw [h]; simp)
          · exact .inr h
        · rcases ih _ l k hl.2 hk with h | h
          · exact .inl (by simp [h])
          · cases h
            rcases hcmp with h | h
            · exact .inl (by rw [h]; simp)
            · exact .inr h
  simp only [convertResultList, otherEx_nil l rs hl, bind, Except.bind, findKeyResult] at h
  split at h
  · cases h
  · rename_i key hkey
    have hk := hmem none l rs key hl hkey
    simp at hk
    split at h
    · cases h
    · rename_i li hli
      have hlr : itemResult li = some last := by
        have := congrArg List.getLast? hl
        simp only [List.getLast?_map, hli, hlast, Option.map_some, Option.some.injEq] at this
        exact this
      rw [getResult_ok li last hlr] at h
      simp only [pure, Except.pure] at h
      cases h
      exact ⟨last, key, hlast, hk, rfl⟩

/-- Proper failures: an exception of a command that is an `Exception` other than `ResultError`. -/
def Proper : Item → Option Exc
  | .exc (.resultError _) => none
  | .exc .cancelled => none
  | .exc e => some e
  | .res _ => none

/-- **C24.** If some command failed with another exception, the first such exception in pipe order is
raised; otherwise no such exception is invented. -/
theorem C24_first_other_exception (l : List Item) (c : Bool) :
    (∀ e, (l.filterMap Proper).head? = some e → convertResultList l c = .error e) ∧
    (l.filterMap Proper = [] → ∀ e, convertResultList l c = .error e →
      e = .assertionError ∨ (e = .runtimeError ∧ l = [])) := by
  have hp : otherEx l = l.filterMap Proper := by
    unfold otherEx
    congr 1
    funext i
    cases i with
    | res r => rfl
    | exc e => cases e <;> rfl
  constructor
  · intro e he
    unfold convertResultList
    rw [hp]
    cases h : l.filterMap Proper with
    | nil => rw [h] at he; simp at he
    | cons x xs => rw [h] at he; simp at he; subst he; rfl
  · intro hnil e he
    unfold convertResultList at he
    rw [hp, hnil] at he
    have hloop : ∀ acc l e, findKeyLoop acc l = .error e →
        e = .assertionError ∨ (e = .runtimeError ∧ l = []) := by
      intro acc l
      induction l generalizing acc with
      | nil => intro e h; cases acc <;> simp [findKeyLoop] at h; exact .inr ⟨h.symm, rfl⟩
      | cons i l ih =>
        intro e h
        simp only [findKeyLoop, bind, Except.bind] at h
        split at h
        · rename_i e' he'
          cases h
          left
          cases i with
          | res r => simp [getResult] at he'
          | exc x => cases x <;> simp [getResult] at he' <;> exact he'.symm
        · split at h
          · cases h
          · rcases ih _ e h with h1 | ⟨h1, h2⟩
            · exact .inl h1
            · subst h2
              simp [findKeyLoop] at h
    simp only [bind, Except.bind, findKeyResult] at he
    split at he
    · rename_i e' h'
      cases he
      exact hloop none l e h'
    · rename_i key hk
      split at he
      · rename_i hlast
        have : l = [] := List.getLast?_eq_none_iff.mp hlast
        subst this
        simp [findKeyLoop] at hk
      · split at he
        · rename_i li _ _ _ he'
          cases he
          left
          cases li with
          | res r => simp [getResult] at he'
          | exc x => cases x <;> simp [getResult] at he' <;> exact he'.symm
        · cases he

example : convertResultList [.res ⟨0, [], [], false, []⟩, .exc .fileNotFound, .exc .brokenPipe] false
    = .error .fileNotFound := by rfl

/-- **C62/C36 for pipelines.** What `PipeRunner.result()` reports for a pipeline whose commands all
produced results: it is `CancelledError` if the pipeline was cancelled; otherwise the combined result
is judged by the options of the *last* command alone. -/
theorem C24_pipeline_outcome (l : List Item) (r : Result) (o : Options)
    (hl : convertResultList l false = .ok r) :
    (o.catchCancelled = false → pipeResult l true o = .error .cancelled) ∧
    (o.catchCancelled = true → pipeResult l true o = .error (.resultError { r with cancelled := true })) ∧
    (Allowed o.exitCodes r.exitCode → pipeResult l false o = .ok r) ∧
    (¬ Allowed o.exitCodes r.exitCode → pipeResult l false o = .error (.resultError r)) ∧
    (∀ c, pipeResult l c o (check := false) = .ok { r with cancelled := c }) := by
  have hc : ∀ c, convertResultList l c = .ok { r with cancelled := c } := by
    intro c
    unfold convertResultList at hl ⊢
    cases ho : otherEx l with
    | cons => rw [ho] at hl; cases hl
    | nil =>
      rw [ho] at hl
      simp only [bind, Except.bind] at hl ⊢
      cases hk : findKeyResult l with
      | error => rw [hk] at hl; cases hl
      | ok key =>
        rw [hk] at hl
        simp only at hl ⊢
        cases hg : l.getLast? with
        | none => rw [hg] at hl; cases hl
        | some i =>
          rw [hg] at hl
          simp only at hl ⊢
          cases hr : getResult i with
          | error => rw [hr] at hl; cases hl
          | ok last => rw [hr] at hl; cases hl; rfl
  refine ⟨?_, ?_, ?_, ?_, ?_⟩
  · intro h; simp [pipeResult, hc, bind, Except.bind, checkResult, h]
  · intro h; simp [pipeResult, hc, bind, Except.bind, checkResult, h]
  · intro ha
    simp [pipeResult, hl, bind, Except.bind, checkResult, (exitCodeAllowed_iff _ _).mpr ha]
  · intro ha
    have : exitCodeAllowed o.exitCodes r.exitCode = false := by
      rw [← Bool.not_eq_true, exitCodeAllowed_iff]; exact ha
    simp [pipeResult, hl, bind, Except.bind, checkResult, this]
  · intro c; simp [pipeResult, hc, bind, Except.bind, pure, Except.pure]

example : convertResultList [.exc (.resultError ⟨1, [], [], false, []⟩), .res ⟨0, [104], [], false, []⟩] false
    = .ok ⟨1, [104], [], false, []⟩ := by rfl

/-! ## C26 -/

/-- How the exit of a launched process became known to asyncio: its real code, or lost. -/
inductive Known where
  | code (c : Int)
  | lost

/-- asyncio's `returncode`: a lost status is 255. -/
def Known.rc : Known → Int
  | .code c => c
  | .lost => 255

/-- The code the user should see according to the documentation. -/
def expectedCode (k : Known) (lastSignal : Option Nat) : Int :=
  match k, lastSignal with
  | .code c, _ => c
  | .lost, some s => -(s : Int)
  | .lost, none => 255

/-- **C26 is false of the code**: a child that really exits with status 255 after it was sent a
signal is reported as killed by that signal. -/
theorem C26_returncode_false :
    ¬ ∀ (k : Known) (cancelled : Bool) (lastSignal : Option Nat),
        runnerReturncode (some (some k.rc)) cancelled lastSignal = some (expectedCode k lastSignal) := by
  intro h
  exact absurd (h (.code 255) false (some 15)) (by decide)

/-- **C26, partial**: in all other cases (exit code not 255, or no signal was sent, or the status was
lost) the reported code is the child's. Missing: exit code 255 after a signal (false, above). -/
theorem C26_returncode_partial (k : Known) (cancelled : Bool) (lastSignal : Option Nat)
    (h : k = .code 255 → lastSignal = none) :
    runnerReturncode (some (some k.rc)) cancelled lastSignal = some (expectedCode k lastSignal) := by
  cases k with
  | lost => cases lastSignal <;> simp [runnerReturncode, expectedCode, Known.rc, unknownExitCode]
  | code c =>
    cases lastSignal with
    | none => rfl
    | some s =>
      have hc : c ≠ 255 := by rintro rfl; exact absurd (h rfl) (by simp)
      simp [runnerReturncode, expectedCode, Known.rc, unknownExitCode, hc]

/-- **C26.** Before the launch: None, or -1000 if the launch was cancelled; while running: None. -/
theorem C26_before_exit (cancelled : Bool) (s : Option Nat) :
    runnerReturncode none cancelled s = (if cancelled then some (-1000) else none) ∧
    runnerReturncode (some none) cancelled s = none := by
  constructor
  · rfl
  · cases s <;> simp [runnerReturncode]

example : (Known.code 3) = .code 255 → (some 15 : Option Nat) = none := by
  intro h; cases h

end Shellous.Props
