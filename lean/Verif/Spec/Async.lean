import Verif.Model.Async

/-!
# Vocabulary for statements about asynchronous runs

`r` is always the triple (outcome, final world, events left) of running a coroutine.
-/

namespace Shellous

/-- The world after some events have happened while the caller is suspended. -/
def W.after (w : W) (evs : List Ev) : W := evs.foldl (W.env none) w

/-- How many times the caller received `CancelledError` between the worlds `w` and `w'`. -/
def interruptions (w w' : W) : Nat := w'.trace.count .thrown - w.trace.count .thrown

/-- The library logged that it gave up waiting for cancelled tasks (after `cancel_timeout`). -/
def gaveUpBetween (w w' : W) : Prop := w.trace.count .gaveUp < w'.trace.count .gaveUp

/-- Every one of these tasks is done. -/
def AllDone (w : W) (ids : List Nat) : Prop := ∀ i ∈ ids, ∃ o, w.outOf i = some o

/-- Task `i` has been asked to cancel between `w` and `w'`. -/
def AskedToCancel (w w' : W) (i : Nat) : Prop :=
  ∃ t t', w.tasks[i]? = some t ∧ w'.tasks[i]? = some t' ∧ t.cancels < t'.cancels

/-- Task `i` has not been asked to cancel between `w` and `w'`. -/
def NotAskedToCancel (w w' : W) (i : Nat) : Prop :=
  ∃ t t', w.tasks[i]? = some t ∧ w'.tasks[i]? = some t' ∧ t'.cancels = t.cancels

/-- `e` is the exception of the first task, in order, that failed. -/
def FirstFailure (w : W) (ids : List Nat) (e : Exc) : Prop :=
  ∃ l i l', ids = l ++ i :: l' ∧ w.outOf i = some (.err e) ∧ ∀ j ∈ l, ∀ e', w.outOf j ≠ some (.err e')

/-- No task failed. -/
def NoFailure (w : W) (ids : List Nat) : Prop := ∀ i ∈ ids, ∀ e, w.outOf i ≠ some (.err e)

/-- The first awaitable, in order, that ended with AssertionError or RuntimeError. -/
def FirstSerious (w : W) (ids : List Nat) (e : Exc) : Prop :=
  ∃ l i l', ids = l ++ i :: l' ∧ w.outOf i = some (.err e) ∧ (e = .assertionError ∨ e = .runtimeError) ∧
    ∀ j ∈ l, w.outOf j ≠ some (.err .assertionError) ∧ w.outOf j ≠ some (.err .runtimeError)

/-- The tasks with these ids exist. -/
def Known (w : W) (ids : List Nat) : Prop := ∀ i ∈ ids, i < w.tasks.length

end Shellous
