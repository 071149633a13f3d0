import Verif.Model.PromptRun
import Verif.Spec.Pipe

/-!
# Vocabulary for statements about prompt sessions
-/

namespace Shellous

/-- An `async with` statement gives no value. -/
def Out.asBlock : Out Unit → Out (Option Returned)
  | .ok _ => .ok none
  | .exc e => .exc e
  | .blocked => .blocked

/-- A prompt session: what the statement `async with cmd.prompt() as cli: ...` gave or raised (`blocked`: it has not
ended yet), and the world then. -/
def promptSession (cfg : RCfg) (p : PromptCfg) (w : W) (evs : List Ev) : Out (Option Returned) × W :=
  ((withPrompt cfg p w evs).1.asBlock, (withPrompt cfg p w evs).2.1)

/-- A prompt session of a pipeline (`async with pipeline.prompt() as cli: ...`). -/
def pipeSession (cfg : PRCfg) (p : PromptCfg) (w : W) (evs : List Ev) : Out (Option Returned) × W :=
  ((withPipePrompt cfg p w evs).1.asBlock, (withPipePrompt cfg p w evs).2.1)

/-- The two worlds differ at most in what `cli.result` gives. -/
def ApartFromCli (w w' : W) : Prop := ({ w with cli := none } : W) = { w' with cli := none }

end Shellous
