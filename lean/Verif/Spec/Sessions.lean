import Verif.Model.PromptRun
import Verif.Spec.Live

/-!
# Prompt sessions that come to an end (C94)
-/

namespace Shellous

/-- The statement `async with cmd.prompt() as cli:` ends on a schedule. -/
def SessionEnds (cfg : RCfg) (p : PromptCfg) (w : W) (σ : Sched) : Prop := ∃ n, (withPrompt cfg p w (σ.upto n)).1 ≠ .blocked

/-- The statement `async with pipeline.prompt() as cli:` ends on a schedule. -/
def PSessionEnds (cfg : PRCfg) (p : PromptCfg) (w : W) (σ : Sched) : Prop := ∃ n, (withPipePrompt cfg p w (σ.upto n)).1 ≠ .blocked

end Shellous
