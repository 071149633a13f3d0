/-!
# Basic vocabulary shared by all model files

Python values that the model needs: byte strings, text, exceptions.
-/

namespace Shellous

/-- A Python `bytes` object. -/
abbrev Bytes := List UInt8

/-- A Python `str` (Unicode scalar values only; lone surrogates are not modelled). -/
abbrev Text := List Char

/-- shellous/result.py:25-42 `Result`. -/
structure Result where
  exitCode : Int
  outputBytes : Bytes
  errorBytes : Bytes
  cancelled : Bool
  encoding : Text
deriving DecidableEq, Repr

/-- Exceptions that the modelled code raises or handles by class.
`user n` stands for any other `Exception` subclass instance (identity `n`), e.g. raised by a user's
task or body. `cancelled` is `asyncio.CancelledError` (a `BaseException`, not an `Exception`);
`timeout` is `asyncio.TimeoutError`. -/
inductive Exc where
  | cancelled
  | timeout
  | typeError
  | valueError
  | runtimeError
  | assertionError
  | fileNotFound
  | osError
  | brokenPipe
  | connectionReset
  | eofError
  | unicodeError
  | keyError
  | invalidState
  | resultError (result : Result)
  | user (n : Nat)
deriving DecidableEq, Repr

/-- `isinstance(ex, Exception)`: everything in `Exc` except `CancelledError`
(runner.py:48-49 `_is_cancelled` is the complement). -/
def Exc.isException : Exc → Bool
  | .cancelled => false
  | _ => true

/-- A finite map or table as a function; change one value. (No code: used where the code assigns to one entry.) -/
def upd {α : Type} (f : Nat → α) (i : Nat) (x : α) : Nat → α := fun j => if j = i then x else f j

end Shellous
