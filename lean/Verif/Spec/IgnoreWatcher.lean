import Verif.Model.IgnoreWatcher
import Verif.Model.Run

/-! # Specification: exactly one party waits for a child -/

namespace Shellous.Ign

/-- Does the runner of this child poll it (`Runner._is_bsd_pty`)? -/
def polled : Option (Bool × Bool) → Bool
  | some (bsd, pty) => RCfg.bsdPty { bsd := bsd, pty := pty }
  | none => false

/-- How many parties wait for the child of this job: the child watcher, as often as it was told, and the runner, if it polls. -/
def Job.parties (j : Job) : Nat := j.watched + (if polled j.launch = true then 1 else 0)

/-- All launches are in one thread. -/
def OneThread (evs : List Ev) : Prop := ∃ t, ∀ p t' l, Ev.create p t' l ∈ evs → t' = t

