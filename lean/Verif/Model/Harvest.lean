import Verif.Model.Async

/-!
# shellous/harvest.py
-/

namespace Shellous

/-- The tasks of `ids` that are not done. -/
def W.pending (w : W) (ids : List Nat) : List Nat := ids.filter fun i => !w.isDone i

/-- shellous/harvest.py:179-201 `_cancel_waiter`. -/
def cancelWaiter (ids : List Nat) (timed : Bool) : Coro Unit := do
  asyncWait ids timed false
  let w ← Coro.get
  if w.pending ids ≠ [] then do
    Coro.upd fun w => (w.log .gaveUp).cancelAll (w.pending ids)
    Coro.raise .runtimeError
  else Coro.pure ()

/-- shellous/harvest.py:158-176 `_cancel_wait`. -/
def cancelWait (ids : List Nat) (timed cancelFinish : Bool) : Coro Unit :=
  Coro.catch_
    (do
      Coro.when (!cancelFinish) (Coro.upd (·.cancelAll ids))
      cancelWaiter ids timed)
    fun e =>
      if e = .cancelled then do
        Coro.upd (·.log .cleanupCancelled)
        cancelWaiter ids timed
      else Coro.raise e

/-- shellous/harvest.py:217-224 `_consume_exceptions`: asserts that every task is done. -/
def consumeExceptions (ids : List Nat) : Coro Unit := do
  let w ← Coro.get
  if ids.all w.isDone then Coro.pure () else Coro.raise .assertionError

/-- shellous/harvest.py:123-131: did `asyncio.wait` time out? -/
def timeExpired (w : W) (ids : List Nat) : Bool :=
  if ids.any w.isDone then
    if w.pending ids ≠ [] then !ids.any w.failed else false
  else true

/-- shellous/harvest.py:146-155: the part of `harvest_wait` after its `try` statement. -/
def harvestRest (ids : List Nat) (cancelTimed : Bool) (pending : List Nat) (expired : Bool) :
    Coro Unit := do
  Coro.when (pending ≠ []) (cancelWait pending cancelTimed false)
  let w ← Coro.get
  if !ids.all w.isDone then Coro.raise .assertionError
  else if expired then do
    consumeExceptions ids
    Coro.raise .timeout
  else Coro.pure ()

/-- shellous/harvest.py:91-155 `harvest_wait`. `timed`: a `timeout` was given; `cancelTimed`: the
`cancel_timeout` (always set by the library) is not None. GeneratorExit is not modelled. -/
def harvestWait (ids : List Nat) (timed cancelTimed cancelFinish : Bool) : Coro Unit := do
  let (pending, expired) ← Coro.catch_
    (do
      asyncWait ids timed true
      let w ← Coro.get
      Coro.pure (w.pending ids, timeExpired w ids))
    fun e =>
      if e = .cancelled then do
        cancelWait ids cancelTimed cancelFinish
        consumeExceptions ids
        Coro.raise .cancelled
      else Coro.raise e
  harvestRest ids cancelTimed pending expired

/-- shellous/harvest.py:45-47: `task.result()` of every task that was not cancelled, in order. -/
def raiseFirst : List Nat → Coro Unit
  | [] => Coro.pure ()
  | i :: ids => do
    let w ← Coro.get
    if w.outOf i = some .cancelled then raiseFirst ids
    else do
      let _ ← taskResult i
      raiseFirst ids

/-- shellous/harvest.py:11-47 `harvest`; `ids` are the tasks made by `ensure_future` (line 36). -/
def harvest (ids : List Nat) (timed : Bool := false) (cancelTimed : Bool := true)
    (cancelFinish : Bool := false) : Coro Unit := do
  harvestWait ids timed cancelTimed cancelFinish
  consumeExceptions ids
  raiseFirst ids

/-- shellous/harvest.py:204-214 `_to_result`: values and exceptions are results; AssertionError and
RuntimeError are re-raised; a task that is not done raises InvalidStateError. -/
def toResult (w : W) (i : Nat) : Except Exc TOut :=
  match w.outOf i with
  | none => .error .invalidState
  | some (.err .assertionError) => .error .assertionError
  | some (.err .runtimeError) => .error .runtimeError
  | some o => .ok o

/-- shellous/harvest.py:88: the list comprehension. -/
def toResults (w : W) : List Nat → Except Exc (List TOut)
  | [] => .ok []
  | i :: ids =>
    match toResult w i with
    | .error e => .error e
    | .ok o =>
      match toResults w ids with
      | .error e => .error e
      | .ok os => .ok (o :: os)

/-- shellous/harvest.py:50-88 `harvest_results`. -/
def harvestResults (ids : List Nat) (timed : Bool := false) (cancelTimed : Bool := true) :
    Coro (Bool × List TOut) := do
  let cancelled ← Coro.catch_
    (do
      harvestWait ids timed cancelTimed false
      Coro.pure false)
    fun e => if e = .cancelled then Coro.pure true else Coro.raise e
  let w ← Coro.get
  match toResults w ids with
  | .ok l => Coro.pure (cancelled, l)
  | .error e => Coro.raise e

end Shellous
