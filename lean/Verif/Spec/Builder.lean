import Verif.Model.Command

/-!
# Specification vocabulary for building commands (C01-C10)

Written from the documentation, independently of the functions of the model.
-/

namespace Shellous.Spec

open Shellous

/-- The leaves of an argument tree, depth first, left to right: containers vanish. -/
def leaves : Arg → List Arg
  | .seq _ items => items.flatMap leaves
  | a => [a]

/-- What a leaf is passed as: `none` for unsupported types. -/
def leafValue : Arg → Option Leaf
  | .str s | .other s | .stringIO s => some (.str s)
  | .bytes b | .bytearray b | .memoryview b | .bytesIO b => some (.bytes b)
  | .path p => some (.path p)
  | .cmd c => some (.cmd c)
  | .pipe cs => some (.pipe cs)
  | .seq _ _ => none
  | .bad _ => none

/-- A leaf of an unsupported type. -/
def Unsupported (a : Arg) : Prop := ∃ k, a = .bad k

/-- `tops` are the top-level arguments after `coerce_arg` has been applied once to each of them. -/
def Coerced (fns : CoerceFns) (f : Option Nat) (args tops : List Arg) : Prop :=
  match f with
  | none => tops = args
  | some id => args.length = tops.length ∧ ∀ p ∈ args.zip tops, fns id p.1 = .ok p.2

/-! ## Options by name -/

/-- The names of the fields of `Options`. -/
inductive OptName where
  | path | env | inheritEnv | input | inputClose | output | outputAppend | outputClose | error
  | errorAppend | errorClose | errorLimit | encoding | returnResult | catchCancelled | exitCodes
  | timeout | cancelTimeout | cancelSignal | altName | passFds | passFdsClose | writable
  | startNewSession | preexecFn | pty | closeFds | auditCallback | coerceArg
deriving DecidableEq

/-- The type of an option's value. -/
def OptName.Ty : OptName → Type
  | .path => Option Text
  | .env => Option Dict
  | .inheritEnv => Bool
  | .input | .output | .error => Target
  | .inputClose | .outputAppend | .outputClose | .errorAppend | .errorClose => Bool
  | .errorLimit => Option Int
  | .encoding => Text
  | .returnResult | .catchCancelled => Bool
  | .exitCodes => Option Container
  | .timeout => Option Nat
  | .cancelTimeout => Nat
  | .cancelSignal => Option Nat
  | .altName => Option Text
  | .passFds => List Int
  | .passFdsClose | .writable | .startNewSession | .closeFds => Bool
  | .preexecFn | .auditCallback | .coerceArg => Option Nat
  | .pty => PtyOpt

/-- The value of option `n`. -/
def OptName.get : (n : OptName) → Options → n.Ty
  | .path, o => o.path
  | .env, o => o.env
  | .inheritEnv, o => o.inheritEnv
  | .input, o => o.input
  | .inputClose, o => o.inputClose
  | .output, o => o.output
  | .outputAppend, o => o.outputAppend
  | .outputClose, o => o.outputClose
  | .error, o => o.error
  | .errorAppend, o => o.errorAppend
  | .errorClose, o => o.errorClose
  | .errorLimit, o => o.errorLimit
  | .encoding, o => o.encoding
  | .returnResult, o => o.returnResult
  | .catchCancelled, o => o.catchCancelled
  | .exitCodes, o => o.exitCodes
  | .timeout, o => o.timeout
  | .cancelTimeout, o => o.cancelTimeout
  | .cancelSignal, o => o.cancelSignal
  | .altName, o => o.altName
  | .passFds, o => o.passFds
  | .passFdsClose, o => o.passFdsClose
  | .writable, o => o.writable
  | .startNewSession, o => o.startNewSession
  | .preexecFn, o => o.preexecFn
  | .pty, o => o.pty
  | .closeFds, o => o.closeFds
  | .auditCallback, o => o.auditCallback
  | .coerceArg, o => o.coerceArg

/-- The value a `set(...)` call gives to option `n`, `none` if the call does not name it. -/
def OptName.kw : (n : OptName) → Kwds → Option n.Ty
  | .path, k => k.path
  | .env, k => k.env.map fun e => if e.isEmpty then none else some (envDict none e)
  | .inheritEnv, k => k.inheritEnv
  | .errorLimit, k => k.errorLimit
  | .encoding, k => k.encoding
  | .returnResult, k => k.returnResult
  | .catchCancelled, k => k.catchCancelled
  | .exitCodes, k => k.exitCodes
  | .timeout, k => k.timeout
  | .cancelTimeout, k => k.cancelTimeout
  | .cancelSignal, k => k.cancelSignal
  | .altName, k => k.altName
  | .passFds, k => k.passFds
  | .passFdsClose, k => k.passFdsClose
  | .writable, k => k.writable
  | .startNewSession, k => k.startNewSession
  | .preexecFn, k => k.preexecFn
  | .pty, k => k.pty
  | .closeFds, k => k.closeFds
  | .auditCallback, k => k.auditCallback
  | .coerceArg, k => k.coerceArg
  | .input, _ | .inputClose, _ | .output, _ | .outputAppend, _ | .outputClose, _ | .error, _
  | .errorAppend, _ | .errorClose, _ => none

/-- One call of a setter method. -/
inductive SetCall where
  | set (k : Kwds)
  | stdin (t : Target) (close : Bool)
  | stdout (t : Target) (append close : Bool)
  | stderr (t : Target) (append close : Bool)
  | env (updates : List (PyVal × PyVal))

/-- Perform the call on an options record (the same on commands and contexts). -/
def SetCall.run (c : SetCall) (o : Options) : Except Exc Options :=
  match c with
  | .set k => o.setChecked k
  | .stdin t c => o.setStdin t c
  | .stdout t a c => o.setStdout t a c
  | .stderr t a c => o.setStderr t a c
  | .env u => .ok (o.addEnv u)

/-- Perform calls left to right; the first failing one raises. -/
def runCalls : List SetCall → Options → Except Exc Options
  | [], o => .ok o
  | c :: cs, o => c.run o >>= runCalls cs

/-- The value that a call assigns to option `n` (`env` is treated separately, see C05). -/
def SetCall.assigns : SetCall → (n : OptName) → Option n.Ty
  | .set k, n => n.kw k
  | .stdin t _, .input => some t
  | .stdin _ c, .inputClose => some c
  | .stdout t _ _, .output => some t
  | .stdout _ a _, .outputAppend => some a
  | .stdout _ _ c, .outputClose => some c
  | .stderr t _ _, .error => some t
  | .stderr _ a _, .errorAppend => some a
  | .stderr _ _ c, .errorClose => some c
  | _, _ => none

/-- The value assigned by the last call that names `n`, or the initial one. -/
def lastAssigned (n : OptName) (init : n.Ty) (calls : List SetCall) : n.Ty :=
  ((calls.filterMap (·.assigns n)).getLast?).getD init

/-! ## Environment -/

/-- The value of variable `v` in a list of updates: the last one wins. -/
def lastUpdate (v : Text) (updates : List (PyVal × PyVal)) : Option Text :=
  ((updates.filter fun kv => kv.1.toStr == v).getLast?).map (·.2.toStr)

/-- What the calls say about variable `v`, starting from what `init` said: `.env` adds,
`set(env=...)` forgets everything said before. -/
def envSays (v : Text) : Option Text → List SetCall → Option Text
  | said, [] => said
  | said, .env u :: cs => envSays v ((lastUpdate v u).or said) cs
  | said, .set k :: cs =>
    match k.env with
    | none => envSays v said cs
    | some e => envSays v (lastUpdate v e) cs
  | said, _ :: cs => envSays v said cs

/-- `inherit_env` as last set (default True). -/
def inherits (calls : List SetCall) : Bool := lastAssigned .inheritEnv true calls

end Shellous.Spec
