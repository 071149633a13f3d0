import Verif.Model.PipeRun
import Verif.Spec.Run

/-!
# Vocabulary for statements about runs of a pipeline
-/

namespace Shellous

/-- The two ways to run a pipeline. -/
inductive PHow where
  /-- `await pipeline` -/
  | await
  /-- `async with pipeline as run: ...`, with any body -/
  | block
deriving DecidableEq

/-- Run a pipeline: what the statement gave or raised (`blocked`: it has not ended yet), and the world then. -/
def pipeExecute (how : PHow) (cfg : PRCfg) (w : W) (evs : List Ev) : Out (Option Returned) × W :=
  match how with
  | .await => match runPipeline cfg w evs with
    | (.ok r, w', _) => (.ok (some r), w')
    | (.exc e, w', _) => (.exc e, w')
    | (.blocked, w', _) => (.blocked, w')
  | .block => match pipeBlock cfg w evs with
    | (.ok _, w', _) => (.ok none, w')
    | (.exc e, w', _) => (.exc e, w')
    | (.blocked, w', _) => (.blocked, w')

/-- The tasks that run the commands of the pipeline, first command first. (In a block, 0 and 1 are the futures that
tell that the first and the last command have been launched.) -/
def commands (how : PHow) (cfg : PRCfg) : List Nat :=
  match how with
  | .await => List.range' 0 cfg.n
  | .block => List.range' 2 cfg.n

/-- Task `i` has been created and has not ended. -/
def Unfinished (w : W) (i : Nat) : Prop := ∃ t, w.tasks[i]? = some t ∧ t.out = none

/-- Task `i` has been asked to cancel. -/
def CancelRequested (w : W) (i : Nat) : Prop := ∃ t, w.tasks[i]? = some t ∧ 0 < t.cancels

/-- Task `i` has failed with an exception (not: been cancelled). -/
def Failed (w : W) (i : Nat) : Prop := ∃ e, w.outOf i = some (.err e)

/-- The body of the `async with` has ended (for `await`: the commands have been started). -/
def BodyEnded (w : W) : Prop := ∃ e, .bodyEnd e ∈ w.trace

end Shellous
