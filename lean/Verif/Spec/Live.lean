import Verif.Spec.Run
import Verif.Spec.Pipe

/-!
# Vocabulary for statements about endless schedules

A schedule says what happens from now on, for ever. A run on a schedule ends if it has ended after some number of events.
-/

namespace Shellous

/-- What happens, event by event, for ever. -/
abbrev Sched := Nat → Ev

/-- The schedule without its first `k` events. -/
def Sched.shift (σ : Sched) (k : Nat) : Sched := fun n => σ (k + n)

/-- The first `n` events. -/
def Sched.upto (σ : Sched) : Nat → List Ev
  | 0 => []
  | n + 1 => σ 0 :: (σ.shift 1).upto n

/-- Events of this sort never stop coming. -/
def Often (σ : Sched) (p : Ev → Prop) : Prop := ∀ n, ∃ m, n ≤ m ∧ p (σ m)

/-- The event loop keeps trying to resume the caller. -/
def Sched.Runs (σ : Sched) : Prop := Often σ (· = .resume)

/-- The operating system gets on with the launch, and the launch (the task `0` of a run) is told. (If the launch fails, that
comes before.) -/
structure Sched.Launches (σ : Sched) : Prop where
  fork : Often σ (· = .fork)
  spawned : Often σ (fun e => ∃ r, e = .taskDone 0 (.val r))

/-- The child exits some time, somebody reaps it, and asyncio gets to know. -/
structure Sched.Exits (σ : Sched) : Prop where
  exit : Often σ (fun e => ∃ c, e = .exit c)
  reap : Often σ (fun e => e = .reap ∨ e = .reapLost)
  deliver : Often σ (· = .deliver)

/-- Every task ends some time. (If it ends with an exception, that comes before; a waiter for the child cannot end before the
return code is known.) In particular every stream that is copied comes to its end. -/
def Sched.Finishes (σ : Sched) : Prop := ∀ i, Often σ (fun e => ∃ r, e = .taskDone i (.val r))

/-- The time limits of the waits inside the library expire some time. -/
def Sched.Ticks (σ : Sched) : Prop := Often σ (· = .timeout)

/-- The user's block ends some time. -/
def Sched.Leaves (σ : Sched) : Prop := Often σ (fun e => ∃ x, e = .bodyDone x)

/-- A run of a command on a schedule comes to an end. -/
def EndsOn (how : How) (cfg : RCfg) (w : W) (σ : Sched) : Prop :=
  ∃ n, (execute how cfg w (σ.upto n)).1 ≠ .blocked

/-- A task that has been asked to cancel ends some time. (If it ends otherwise, that comes before.) -/
def Sched.Yields (σ : Sched) : Prop := ∀ i, Often σ (· = .taskDrop i)

/-- A run of a pipeline on a schedule comes to an end. -/
def PEndsOn (how : PHow) (cfg : PRCfg) (w : W) (σ : Sched) : Prop :=
  ∃ n, (pipeExecute how cfg w (σ.upto n)).1 ≠ .blocked

end Shellous
