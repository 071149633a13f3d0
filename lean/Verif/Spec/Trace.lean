import Verif.Model.Trace

/-! # Specification: what tracing may change -/

namespace Shellous.Trace

/-- Not a line in the log. -/
def Ev.isAct : Ev → Bool
  | .act _ => true
  | _ => false

/-- What is left of a history without the log: the actions of each resumption, and what its driver sees. -/
def unlogged (h : List (List Ev × Seen)) : List (List Ev × Seen) := h.map fun x => (x.1.filter Ev.isAct, x.2)

/-- The log. -/
def logged (h : List (List Ev × Seen)) : List Ev := (h.flatMap Prod.fst).filter fun e => !e.isAct

/-- A coroutine: it never yields. -/
structure Body.Coroutine {S : Type} (b : Body S) : Prop where
  start : ∀ es v s, b.start ≠ (es, .yield v s)
  step : ∀ s r es v s', b.step s r ≠ (es, .yield v s')

/-- At a `yield` there is neither a `try` statement around it nor is its value used. -/
structure Body.Bare {S : Type} (b : Body S) : Prop where
  start : ∀ es v s, b.start = (es, .yield v s) → (∀ e, b.step s (.throw e) = ([], .raise e)) ∧ ∀ v, b.step s (.send v) = b.step s (.send 0)
  step : ∀ s r es v s', b.step s r = (es, .yield v s') →
    (∀ e, b.step s' (.throw e) = ([], .raise e)) ∧ ∀ v, b.step s' (.send v) = b.step s' (.send 0)

/-- The driver asks for the next item after each item, as `async for` does as long as its body does not raise or break. -/
def Asks (h : List (List Ev × Seen)) (rs : List Resume) : Prop :=
  ∀ i x v, h[i]? = some (x, .yields v) → rs[i + 1]? = none ∨ rs[i + 1]? = some (.send 0)

end Shellous.Trace
