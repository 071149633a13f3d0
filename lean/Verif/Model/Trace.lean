/-!
# Tracing: `log_method` (shellous/log.py:45-154)

With `SHELLOUS_TRACE=detail` every coroutine and async generator marked with `@log_method(LOG_DETAIL)` is
replaced by a wrapper that logs when it is entered and left. Without, `log_method` returns the function
itself (shellous/log.py:62-63).

A coroutine or async generator is a state machine that is resumed by its driver (the event loop, or the
`async for` statement around it). Values, exceptions and actions are numbers; nothing is assumed about them.
`log_thread` and `log_timer` (187-233), which run in plain functions, are not modelled.
-/

namespace Shellous.Trace

/-- How it is resumed: `send(v)` or `throw(e)`; `aclose()` is the throwing of `GeneratorExit`, and `__anext__()` is
`asend(None)`, here the sending of 0. -/
inductive Resume where
  | send (v : Nat)
  | throw (e : Nat)
deriving DecidableEq, Repr

/-- What is done between two suspensions: an action of the function, or a line in the log. -/
inductive Ev where
  | act (a : Nat)
  /-- `stepin` -/
  | stepin
  /-- `stepout`, with the exception in flight. -/
  | stepout (ex : Option Nat)
deriving DecidableEq, Repr

/-- How it stops running: it waits for the event loop, it yields an item (async generators), it returns or it raises. -/
inductive Out (S : Type) where
  | wait (s : S)
  | yield (v : Nat) (s : S)
  | ret (v : Nat)
  | raise (e : Nat)

/-- The body of a function: what it does when it is started and when it is resumed. -/
structure Body (S : Type) where
  start : List Ev × Out S
  step : S → Resume → List Ev × Out S

/-- The wrapper's state: the function's, and whether it has just yielded. -/
structure Inside (S : Type) where
  s : S
  yielded : Bool

/-- What the wrapper makes of what the function did: it waits with it and yields what it yields; when it ends, the `finally`
clause logs. `fmt` is the exception that formatting the message raises, if any: shellous/log.py:106-109 formats the exception
that `__aexit__` was called with at once, the other arguments are formatted by the logging module, which catches
exceptions. `hd` is the exception that the caller is handling, if any: on a normal return `sys.exc_info()` (40-42 `_exc`) finds that one.
Simplified: it is the same at the end as at the beginning (for a coroutine the caller is at the same `await`). -/
def leave {S : Type} (fmt hd : Option Nat) : List Ev × Out S → List Ev × Out (Inside S)
  | (es, .wait s) => (es, .wait ⟨s, false⟩)
  | (es, .yield v s) => (es, .yield v ⟨s, true⟩)
  | (es, .ret v) =>
    match fmt with
    | none => (es ++ [.stepout hd], .ret v)
    | some x => (es, .raise x)
  | (es, .raise e) =>
    match fmt with
    | none => (es ++ [.stepout (some e)], .raise e)
    | some x => (es, .raise x)

/-- shellous/log.py:70-90, 93-121, 123-138, 141-150: the four wrappers. `plat` is the exception that `_platform_info` raises, if
any (96-97, called for `__aenter__` only). While the function waits, the wrapper waits for it (`await`, or `async for`
which awaits `__anext__()`), and what the driver sends or throws gets through. When the function has yielded, the wrapper
is at its own `yield`: the next `__anext__()` makes the `async for` call `__anext__()`, and an exception
leaves the loop at once; the function is not told. -/
def traced {S : Type} (plat fmt hd : Option Nat) (b : Body S) : Body (Inside S) where
  start :=
    match plat with
    | some x => ([], .raise x)
    | none =>
      let (es, o) := leave fmt hd b.start
      (.stepin :: es, o)
  step i r :=
    if i.yielded then
      match r with
      | .send _ => leave fmt hd (b.step i.s (.send 0))
      | .throw e => leave fmt hd ([], .raise e)
    else leave fmt hd (b.step i.s r)

/-- shellous/log.py:56-152 `_decorator`, for the wrapper of the method or function: what a call gives. -/
def logMethod {S : Type} (enabled : Bool) (plat fmt hd : Option Nat) (b : Body S) : (T : Type) × Body T :=
  if enabled then ⟨Inside S, traced plat fmt hd b⟩ else ⟨S, b⟩

/-- The object that the call returns: not started, suspended, or over. -/
inductive Obj (S : Type) where
  | fresh
  | live (s : S)
  | over

/-- What the driver and the rest of the program see of a resumption. -/
inductive Seen where
  | waits
  | yields (v : Nat)
  | returns (v : Nat)
  | raises (e : Nat)
  /-- It is over already. -/
  | spent
deriving DecidableEq, Repr

/-- One resumption (CPython: an object that was not started is closed without running). -/
def resume {S : Type} (b : Body S) (o : Obj S) (r : Resume) : List Ev × Seen × Obj S :=
  let after : List Ev × Out S → List Ev × Seen × Obj S
    | (es, .wait s) => (es, .waits, .live s)
    | (es, .yield v s) => (es, .yields v, .live s)
    | (es, .ret v) => (es, .returns v, .over)
    | (es, .raise e) => (es, .raises e, .over)
  match o with
  | .fresh =>
    match r with
    | .send _ => after b.start
    | .throw e => ([], .raises e, .over)
  | .live s => after (b.step s r)
  | .over => ([], .spent, .over)

/-- All that happens when it is resumed again and again. -/
def drive {S : Type} (b : Body S) : Obj S → List Resume → List (List Ev × Seen)
  | _, [] => []
  | o, r :: rs =>
    let (es, x, o') := resume b o r
    (es, x) :: drive b o' rs

/-! ## `read_lines`, the async generator that is marked -/

/-- Where `read_lines` is. -/
inductive RL where
  /-- in `await source.readline()` -/
  | reading
  /-- at the `yield` -/
  | atYield
deriving DecidableEq

/-- shellous/redirect.py:284-288 `read_lines`: lines are numbers, 0 is the empty line that means end-of-file; `decode` may raise.
Simplified: each line is waited for. -/
def readLines (decode : Nat → Except Nat Nat) : Body RL where
  start := ([], .wait .reading)
  step
    | .reading, .send 0 => ([], .ret 0)
    | .reading, .send (n + 1) =>
      match decode (n + 1) with
      | .ok v => ([], .yield v .atYield)
      | .error e => ([], .raise e)
    | .reading, .throw e => ([], .raise e)
    | .atYield, .send _ => ([], .wait .reading)
    | .atYield, .throw e => ([], .raise e)

end Shellous.Trace
