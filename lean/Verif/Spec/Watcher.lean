import Verif.Model.Watcher

/-!
# Vocabulary for statements about the child watcher
-/

namespace Shellous

/-- A history of the watcher, from its creation: every interleaving of steps of all threads, in which each step is possible
when it happens, and the world it leads to. `r`, `wr`: the numbers of the descriptors of the self-pipe. -/
inductive WHist (r wr : Nat) : List WatchEv → WW → Prop
  | start : r ≠ wr → WHist r wr [] (WW.init r wr)
  | step {l : List WatchEv} {w w' : WW} (ev : WatchEv) :
      WHist r wr l w → w.gives ev → w.step ev = some w' → WHist r wr (l ++ [ev]) w'

/-- Nobody but the watcher reaps children. -/
def NoOtherReaper (l : List WatchEv) : Prop := ∀ pid, .reapElsewhere pid ∉ l

/-- No child is watched twice ("Calling this function more than once for a given process pid is not supported"). -/
def WatchedOnce (w : WW) : Prop := ∀ i j, i < w.nCalls → j < w.nCalls → w.target i = w.target j → i = j

/-- The callback of the call `i` of `watch_pid` was called. -/
def Reported (w : WW) (i : Nat) : Prop := ∃ p st, (i, p, st) ∈ w.reports

/-- The child that the call `i` of `watch_pid` is for has exited. -/
def ChildExited (w : WW) (i : Nat) : Prop := w.exited (w.target i) ≠ none

/-- The call `i` of `watch_pid` has returned (without raising). -/
def WatchReturned (w : WW) (i : Nat) : Prop := ∃ fd, w.pc i = .done fd

/-- The thread has not left its loop: nobody has closed the watcher (as far as the thread knows), and no callback has raised
anything but RuntimeError. -/
def ThreadRuns (w : WW) : Prop := w.left = none

end Shellous
