import Verif.Model.Contexts

/-!
# Vocabulary for statements about re-entrant commands
-/

namespace Shellous

/-- Every event of the history is possible when it happens. -/
def PossibleHistory (evs : List CEv) : Prop := ∀ l1 ev l2, evs = l1 ++ ev :: l2 → (CW.after l1).allows ev

/-- How often a block was entered. The run of the `n`-th `async with` that was entered has the number `n`. -/
def entered (evs : List CEv) : Nat := (evs.filter fun ev => match ev with | .enter _ _ => true | _ => false).length

/-- What an event does to the list of the runs of the command `o` that task `t` has opened and not closed, latest first;
`n`: how often a block was entered before. -/
def openStep (t o n : Nat) (open_ : List Nat) : CEv → List Nat
  | .enter t' o' => if t' = t ∧ o' = o then n :: open_ else open_
  | .exit t' o' => if t' = t ∧ o' = o then open_.tail else open_
  | _ => open_

/-- The runs of the command `o` that task `t` has opened and not closed, latest first. `n`, `open_`: before the history. -/
def openFrom (t o : Nat) : Nat → List Nat → List CEv → List Nat
  | _, open_, [] => open_
  | n, open_, ev :: evs => openFrom t o (n + entered [ev]) (openStep t o n open_ ev) evs

def openRuns (t o : Nat) (evs : List CEv) : List Nat := openFrom t o 0 [] evs

/-- Between the two ends of this part of the history, task `t` has left all the blocks of `o` that it entered, and no other. -/
inductive Balanced (t o : Nat) : List CEv → Prop
  | nil : Balanced t o []
  | other (ev : CEv) (l : List CEv) : ev ≠ .enter t o → ev ≠ .exit t o → Balanced t o l → Balanced t o (ev :: l)
  | block (l l' : List CEv) : Balanced t o l → Balanced t o l' → Balanced t o (.enter t o :: l ++ .exit t o :: l')

/-- Every task leaves the blocks it has entered before it ends. -/
def Tidy (evs : List CEv) : Prop := ∀ l1 t l2, evs = l1 ++ .finish t :: l2 → ∀ o, openRuns t o l1 = []

/-- No task leaves a block that it has not entered. -/
def NoStrayExit (evs : List CEv) : Prop := ∀ l1 t o l2, evs = l1 ++ .exit t o :: l2 → openRuns t o l1 ≠ []

end Shellous
