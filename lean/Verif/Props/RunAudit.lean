import Verif.Lemmas.RunTrace

/-!
# C32: audit callbacks of a run
-/

namespace Shellous.Props
open Shellous

/-- Events of a run that ends normally: spawn, two copies and the waiter end, child exits with 0. -/
def calmRun : List Ev :=
  [.resume, .fork, .taskDone 0 (.val none), .resume, .taskDone 1 (.val none), .taskDone 2 (.val none), .exit 0, .reap,
    .deliver, .taskDone 3 (.val none), .resume, .taskDone 4 (.val none), .resume]

/-- A command with two copies. -/
def twoCopies : RCfg := { ioTasks := 2, opts := { returnResult := true } }

theorem fresh_default (b : Bool) (n : Nat) : W.Fresh { mustCancel := b, cancels := n } :=
  ⟨rfl, rfl, rfl, rfl, rfl, rfl, rfl, rfl, rfl, rfl⟩

/-- C32, at every point before the end of a run: the callback has been told "start", and then only signals. -/
theorem C32_running (how : How) (cfg : RCfg) (w : W) (hf : w.Fresh) (evs : List Ev) (w' : W)
    (h : execute how cfg w evs = (.blocked, w')) :
    ∃ sigs : List (Option Nat), audits w'.trace = .start :: sigs.map .signal := by
  obtain ⟨o1, rp, fin⟩ := execute_spec how cfg w hf evs
  rw [h] at rp fin
  obtain ⟨l, hl, ⟨_, ht⟩ | ⟨hb, _⟩⟩ := rp.trace hf
  · obtain ⟨s, hs⟩ := audits_noBracket hl
    exact ⟨s, by rw [ht]; simp [audits, hs]⟩
  · exact absurd (fin.blocked_iff.1 rfl) hb

/-- C32, when a run has ended, for any reason: "start", signals, and exactly one "stop". -/
theorem C32_ended (how : How) (cfg : RCfg) (w : W) (hf : w.Fresh) (evs : List Ev) (o : Out (Option Returned)) (w' : W)
    (h : execute how cfg w evs = (o, w')) (hb : o ≠ .blocked) :
    ∃ (sigs : List (Option Nat)) (f : Option Exc), audits w'.trace = .start :: sigs.map .signal ++ [.stop f] := by
  obtain ⟨o1, rp, fin⟩ := execute_spec how cfg w hf evs
  rw [h] at rp fin
  obtain ⟨l, hl, ⟨hb', _⟩ | ⟨_, f, ht⟩⟩ := rp.trace hf
  · exact absurd (fin.blocked_iff.2 hb') hb
  · obtain ⟨s, hs⟩ := audits_noBracket hl
    exact ⟨s, f, by rw [ht]; simp [audits, audits_append, hs]⟩

/-- C32: what the callback has seen at some point is the beginning of what it has seen at any later point. -/
theorem C32_prefix (how : How) (cfg : RCfg) (w : W) (evs more : List Ev) :
    audits (execute how cfg w evs).2.trace <+: audits (execute how cfg w (evs ++ more)).2.trace := by
  obtain ⟨l, hl⟩ := execute_trace_prefix how cfg w evs more
  exact ⟨audits l, by rw [hl, audits_append]⟩

theorem after_silent {w : W} (hr : w.rcKnown = true) (evs : List Ev) : (w.after evs).trace = w.trace := by
  unfold W.after
  induction evs generalizing w with
  | nil => rfl
  | cons ev evs ih =>
    have := ih ((env_ext none w ev).rcKnown hr)
    rw [List.foldl_cons, this, env_trace_eq w ev (.inr hr)]

theorem env_settled {w : W} (hd : w.AllTasksDone) (ha : w.attached = false) (ev : Ev) :
    (w.env none ev).AllTasksDone ∧ (w.env none ev).attached = false := by
  have q := env_quiet w ev
  constructor
  · intro i hi
    rw [q.lenEq] at hi
    exact q.toExt.isDone (hd i hi)
  · cases ev <;> simp only [W.env]
    case taskDone i out =>
      split
      · exact ha
      · rename_i t ht
        have := hd i (List.getElem?_eq_some_iff.1 ht).1
        simp only [W.isDone, ht] at this
        rw [if_neg]
        · exact ha
        · cases hto : t.out <;> simp_all
    case userSignal sig => simp [ha]
    all_goals repeat' split
    all_goals exact ha

theorem after_settled {w : W} (hd : w.AllTasksDone) (ha : w.attached = false) (evs : List Ev) :
    (w.after evs).trace = w.trace := by
  unfold W.after
  induction evs generalizing w with
  | nil => rfl
  | cons ev evs ih =>
    obtain ⟨h1, h2⟩ := env_settled hd ha ev
    rw [List.foldl_cons, ih h1 h2, env_trace_eq w ev (.inl ha)]

/-- C32: after "stop" the callback is never called again, whatever happens, provided the child has been reaped
or was never started. Missing (and false, see `C32_after_false`): a child that survived its SIGKILL. -/
theorem C32_after_partial (how : How) (cfg : RCfg) (w : W) (hf : w.Fresh) (evs : List Ev) (o : Out (Option Returned))
    (w' : W) (h : execute how cfg w evs = (o, w')) (hb : o ≠ .blocked) (hd : Reaped w' ∨ w'.attached = false)
    (later : List Ev) : audits (w'.after later).trace = audits w'.trace := by
  rcases hd with hd | hd
  · rw [after_silent hd.rcKnown]
  · cases execute_ended hf h hb with
    | failed e1 e w1 hl =>
      rw [after_settled _ hd]
      exact (hl.single hd).2.2.1
    | ended w1 w2 w3 ex ob _ hl _ hbr x =>
      have : w3.attached = true := x.ext.attached (hl.atExit ex hbr).attached
      rw [show (w3.stopTimer.log (.auditStop none)).attached = w3.attached from rfl, this] at hd
      cases hd

/-- Events of a run whose child does not react to signals at all: `_kill` and `_kill_wait` time out. -/
def undeadRun : List Ev :=
  [.resume, .fork, .taskDone 0 (.val none), .resume,
   .cancel, .resume, .taskDrop 1, .taskDrop 2, .taskDrop 3, .resume,
   .timeout, .resume, .taskDrop 4, .resume,
   .timeout, .resume, .taskDrop 5, .resume]

/-- C32 is false for a child that survived SIGKILL: a signal sent by the user after the end of the run is
reported after "stop". -/
theorem C32_after_false : (execute (.await none) twoCopies {} undeadRun).1 = .exc .runtimeError ∧
    audits (execute (.await none) twoCopies {} undeadRun).2.trace =
      [.start, .signal (some 15), .signal none, .stop none] ∧
    audits ((execute (.await none) twoCopies {} undeadRun).2.after [.userSignal (some 2)]).trace =
      [.start, .signal (some 15), .signal none, .stop none, .signal (some 2)] := by
  decide +kernel

/-- The hypotheses of this file are met: a run that ends with a result, and one that is cancelled. -/
example : (execute (.await none) twoCopies {} calmRun).1 =
      .ok (some (.result ⟨0, [], [], false, twoCopies.opts.encoding⟩)) ∧
    audits (execute (.await none) twoCopies {} calmRun).2.trace = [.start, .stop none] ∧
    (execute (.await none) twoCopies {} calmRun).2.rcKnown = true := by
  decide +kernel

example : (execute (.await none) twoCopies {} (undeadRun.take 10 ++ [.exit (-15), .reap, .deliver, .taskDone 4 (.val none),
      .resume, .resume, .taskDone 5 (.val none), .resume])).1 = .exc .cancelled ∧
    audits (execute (.await none) twoCopies {} (undeadRun.take 10 ++ [.exit (-15), .reap, .deliver,
      .taskDone 4 (.val none), .resume, .resume, .taskDone 5 (.val none), .resume])).2.trace =
      [.start, .signal (some 15), .stop none] := by
  decide +kernel

end Shellous.Props
