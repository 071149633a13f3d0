import Verif.Spec.Prompt

/-! # Specification: a dialogue with an interactive program -/

namespace Shellous.Props

open Shellous

/-- What an interactive program with the prompt `P` writes: its greeting and its answers, each followed by the prompt. -/
def transcript (P : Text) (as : List Text) : Text := as.flatMap (· ++ P)

/-- The answer cannot be mistaken for one that ends earlier: in `a ++ P` the prompt occurs at the end only. -/
def Unambiguous (P a : Text) : Prop := FirstOccurrence P (a ++ P) a.length

/-- The prompt `P` is given as the argument, or it is the default. -/
def IsPrompt (cfg : PCfg) (P : Text) (arg : PromptArg) : Prop :=
  arg = .str P ∨ arg = .none ∧ cfg.dflt = some (exactPattern P)

/-- The calls of a dialogue: `expect` and `command`, always with the prompt `P`, `send` and `close`. -/
def InDialogue (cfg : PCfg) (P : Text) : POp → Prop
  | .expect arg _ => IsPrompt cfg P arg
  | .command _ _ _ arg _ _ => IsPrompt cfg P arg
  | .send .. => True
  | .close => True
  | _ => False

/-- The answers that the calls of a session return, in order. -/
def answers (outs : List POut) : List (Text × Text) := outs.filterMap fun
  | .matched t m => some (t, m)
  | _ => none

end Shellous.Props
