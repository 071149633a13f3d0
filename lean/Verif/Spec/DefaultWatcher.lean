import Verif.Model.DefaultWatcher

/-!
# Vocabulary for statements about the shared child watcher
-/

namespace Shellous

/-- `w` is the state after the history `l` of any number of concurrent calls; `forced`: `DefaultChildWatcher(thread_strategy=True)`. -/
inductive DwHist (forced : Bool) : List DwEv → DW → Prop
  | start : DwHist forced [] (DW.init forced)
  | step {l : List DwEv} {w w' : DW} (ev : DwEv) : DwHist forced l w → w.step ev = some w' → DwHist forced (l ++ [ev]) w'

/-- Call `i` has ended. -/
def DwPc.ended : DwPc → Bool
  | .watched _ | .raised _ | .closed => true
  | _ => false

/-- How many steps call `i` has made in a history. -/
def stepsOf (i : Nat) (l : List DwEv) : Nat := l.countP fun ev => ev = .go i true ∨ ev = .go i false

end Shellous
