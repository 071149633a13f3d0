import Verif.Spec.Pipe
import Verif.Spec.Run

/-!
# `await pipeline`, end to end (C71)

Model/PipeRun describes the tasks of a pipeline's commands by their outcomes only, Model/Run describes the run of one
command. Here they are put together: each task of the pipeline executes the run of its command.
-/

namespace Shellous

/-- The outcome of a task whose coroutine ended (or not) so. -/
def taskOutcome : Out (Option Returned) → Option TOut
  | .ok (some (.result r)) => some (.val (some r))
  | .ok _ => some (.val none)
  | .exc .cancelled => some .cancelled
  | .exc e => some (.err e)
  | .blocked => none

/-- One run of a command: its configuration, the world before, the schedule, the outcome, and the world after. -/
structure CmdRun where
  cfg : RCfg
  before : W
  evs : List Ev
  out : Out (Option Returned)
  after : W

/-- In the world `w` of the pipeline, the task `i` has executed `run`: an `await` of a command to which
shellous/runner.py:1175-1176 has given the options `return_result` and `catch_cancelled`. `CancelledError` gets into it by
a request of the pipeline to cancel task `i`, or by the timer of the command. -/
structure RunBy (w : W) (i : Nat) (run : CmdRun) : Prop where
  fresh : run.before.Fresh
  ran : execute (.await none) run.cfg run.before run.evs = (run.out, run.after)
  result : run.cfg.opts.returnResult = true
  catches : run.cfg.opts.catchCancelled = true
  outcome : w.outOf i = taskOutcome run.out
  asked : .thrown ∈ run.after.trace → CancelRequested w i ∨ run.after.timedOut = true

/-- The run prepared its command without errors, and none of its background tasks raised a `ResultError` (as a process
substitution may). -/
structure CmdRun.Plain (run : CmdRun) : Prop where
  prepared : Prepared run.cfg
  tasks : ∀ i r, run.after.outOf i ≠ some (.err (.resultError r))

end Shellous
