import Verif.Model.Basic

/-!
# Options, redirect targets and the setters (shellous/command.py, shellous/redirect.py)

User supplied functions (coerce_arg, audit_callback, pty adapter, preexec_fn) are represented by
identities (`Nat`); where their behaviour matters it is given by a separate, universally quantified
interpretation.
-/

namespace Shellous

/-- shellous/redirect.py:25-33 `Redirect` (an `IntEnum`). -/
inductive Redirect where
  | stdout | devnull | capture | inherit | buffer | default
deriving DecidableEq, Repr

/-- shellous/redirect.py:28-33: the integer values of the `IntEnum`. -/
def Redirect.val : Redirect → Int
  | .stdout => -2
  | .devnull => -3
  | .capture => -10
  | .inherit => -11
  | .buffer => -12
  | .default => -20

/-- What a user may pass as a redirection. Mutable objects are given by identity.
`pathLike` is an `os.PathLike` that is not a `pathlib.Path`; `ioBase` is an `io.IOBase` that is
neither `StringIO` nor `BytesIO` (e.g. an opened file); `none` is Python's `None`; `command` stands for
a Command or Pipeline object; `other` is any other object (compares unequal to all `Redirect`s). -/
inductive Target where
  | redirect (r : Redirect)
  | int (n : Int)
  | str (s : Text)
  | bytes (b : Bytes)
  | bytearray (id : Nat)
  | path (p : Text)
  | pathLike (p : Text)
  | stringIO (id : Nat)
  | bytesIO (id : Nat)
  | ioBase (id : Nat)
  | logger (id : Nat)
  | streamReader (id : Nat)
  | streamWriter (id : Nat)
  | command
  | none
  | other (id : Nat)
deriving DecidableEq, Repr

/-- Python's `x == Redirect.R`: `Redirect` is an `IntEnum`, so a plain `int` with the same value is
equal to it as well. -/
def Target.eqR (t : Target) (r : Redirect) : Bool :=
  match t with
  | .redirect q => q == r
  | .int n => n == r.val
  | _ => false

/-- A Python `Container[int]` used as `exit_codes`: its truth value and its membership test. -/
structure Container where
  truthy : Bool
  mem : Int → Bool

/-- `range(lo, hi)` as a container. -/
def Container.range (lo hi : Int) : Container :=
  { truthy := decide (lo < hi), mem := fun c => decide (lo ≤ c) && decide (c < hi) }

/-- A `set`/`list`/`tuple` of integers as a container. -/
def Container.ofList (l : List Int) : Container :=
  { truthy := !l.isEmpty, mem := fun c => l.contains c }

/-- shellous/pty_util.py:31 `PtyAdapterOrBool`. -/
inductive PtyOpt where
  | off | on | func (id : Nat)
deriving DecidableEq, Repr

/-- `bool(pty)`. -/
def PtyOpt.truthy : PtyOpt → Bool
  | .off => false
  | _ => true

/-- An arbitrary Python object used as environment key/value, with its `str()`. -/
inductive PyVal where
  | str (s : Text)
  | int (n : Int)
  | obj (repr : Text)
deriving DecidableEq, Repr

/-- Python's `str(x)`. -/
def PyVal.toStr : PyVal → Text
  | .str s => s
  | .int n => (toString n).toList
  | .obj r => r

/-! ## EnvironmentDict (shellous/util.py:189-221)

A Python `dict[str, str]` is an association list in insertion order with unique keys. -/

/-- Insertion ordered dictionary: assigning an existing key keeps its position. -/
abbrev Dict := List (Text × Text)

/-- `d[k] = v` on a Python dict. -/
def Dict.set (d : Dict) (k v : Text) : Dict :=
  match d with
  | [] => [(k, v)]
  | (k', v') :: rest => if k' = k then (k', v) :: rest else (k', v') :: Dict.set rest k v

/-- `d.get(k)`. -/
def Dict.get (d : Dict) (k : Text) : Option Text :=
  match d with
  | [] => none
  | (k', v) :: rest => if k' = k then some v else Dict.get rest k

/-- `d.update(u)`: assign the items of `u` in order. -/
def Dict.update (d : Dict) (u : List (Text × Text)) : Dict :=
  u.foldl (fun acc kv => Dict.set acc kv.1 kv.2) d

/-- shellous/util.py:47-49 `coerce_env`: a dict comprehension, later duplicates overwrite. -/
def coerceEnv (env : List (PyVal × PyVal)) : Dict :=
  Dict.update [] (env.map fun kv => (kv.1.toStr, kv.2.toStr))

/-- shellous/util.py:194-199 `EnvironmentDict.__init__`. -/
def envDict (base : Option Dict) (updates : List (PyVal × PyVal)) : Dict :=
  let data := match base with
    | none => []
    | some b => b
  Dict.update data (coerceEnv updates)

/-- shellous/command.py:93-182 `Options`, all fields. -/
@[ext] structure Options where
  path : Option Text := none
  env : Option Dict := none
  inheritEnv : Bool := true
  input : Target := .redirect .default
  inputClose : Bool := false
  output : Target := .redirect .default
  outputAppend : Bool := false
  outputClose : Bool := false
  error : Target := .redirect .default
  errorAppend : Bool := false
  errorClose : Bool := false
  errorLimit : Option Int := some 1024
  encoding : Text := "utf-8".toList
  returnResult : Bool := false
  catchCancelled : Bool := false
  exitCodes : Option Container := none
  timeout : Option Nat := none
  cancelTimeout : Nat := 3000
  cancelSignal : Option Nat := some 15
  altName : Option Text := none
  passFds : List Int := []
  passFdsClose : Bool := false
  writable : Bool := false
  startNewSession : Bool := false
  preexecFn : Option Nat := none
  pty : PtyOpt := .off
  closeFds : Bool := true
  auditCallback : Option Nat := none
  coerceArg : Option Nat := none

/-- shellous/command.py:195-207 `Options.set_stdin`. -/
def Options.setStdin (o : Options) (t : Target) (close : Bool) : Except Exc Options :=
  if t = .none then .error .typeError
  else if t.eqR .stdout then .error .valueError
  else .ok { o with input := t, inputClose := close }

/-- shellous/command.py:209-222 `Options.set_stdout`. -/
def Options.setStdout (o : Options) (t : Target) (append close : Bool) : Except Exc Options :=
  if t = .none then .error .typeError
  else if t.eqR .stdout then .error .valueError
  else .ok { o with output := t, outputAppend := append, outputClose := close }

/-- shellous/command.py:224-234 `Options.set_stderr`. -/
def Options.setStderr (o : Options) (t : Target) (append close : Bool) : Except Exc Options :=
  if t = .none then .error .typeError
  else .ok { o with error := t, errorAppend := append, errorClose := close }

/-- shellous/command.py:236-239 `Options.add_env`. -/
def Options.addEnv (o : Options) (updates : List (PyVal × PyVal)) : Options :=
  { o with env := some (envDict o.env updates) }

/-- The keyword arguments of `Command.set`/`CmdContext.set` (shellous/command.py:336-360, 484-508).
`none` is `_UNSET`. For `env`, Python's `None` and `{}` behave alike and are both `some []`. -/
structure Kwds where
  path : Option (Option Text) := none
  env : Option (List (PyVal × PyVal)) := none
  inheritEnv : Option Bool := none
  encoding : Option Text := none
  returnResult : Option Bool := none
  catchCancelled : Option Bool := none
  exitCodes : Option (Option Container) := none
  timeout : Option (Option Nat) := none
  cancelTimeout : Option Nat := none
  cancelSignal : Option (Option Nat) := none
  altName : Option (Option Text) := none
  passFds : Option (List Int) := none
  passFdsClose : Option Bool := none
  writable : Option Bool := none
  startNewSession : Option Bool := none
  preexecFn : Option (Option Nat) := none
  pty : Option PtyOpt := none
  closeFds : Option Bool := none
  auditCallback : Option (Option Nat) := none
  coerceArg : Option (Option Nat) := none
  errorLimit : Option (Option Int) := none

/-- shellous/command.py:241-254 `Options.set`: drop `_UNSET`, convert `env`, `dataclasses.replace`. -/
def Options.set (o : Options) (k : Kwds) : Options :=
  { o with
    path := k.path.getD o.path
    env := match k.env with
      | none => o.env
      | some e => if e.isEmpty then none else some (envDict none e)
    inheritEnv := k.inheritEnv.getD o.inheritEnv
    encoding := k.encoding.getD o.encoding
    returnResult := k.returnResult.getD o.returnResult
    catchCancelled := k.catchCancelled.getD o.catchCancelled
    exitCodes := k.exitCodes.getD o.exitCodes
    timeout := k.timeout.getD o.timeout
    cancelTimeout := k.cancelTimeout.getD o.cancelTimeout
    cancelSignal := k.cancelSignal.getD o.cancelSignal
    altName := k.altName.getD o.altName
    passFds := k.passFds.getD o.passFds
    passFdsClose := k.passFdsClose.getD o.passFdsClose
    writable := k.writable.getD o.writable
    startNewSession := k.startNewSession.getD o.startNewSession
    preexecFn := k.preexecFn.getD o.preexecFn
    pty := k.pty.getD o.pty
    closeFds := k.closeFds.getD o.closeFds
    auditCallback := k.auditCallback.getD o.auditCallback
    coerceArg := k.coerceArg.getD o.coerceArg
    errorLimit := k.errorLimit.getD o.errorLimit }

/-- shellous/command.py:367-369, 647-649: the guard on `encoding` in front of `Options.set`. -/
def Options.setChecked (o : Options) (k : Kwds) : Except Exc Options :=
  if k.encoding = some [] then .error .typeError else .ok (o.set k)

/-- shellous/command.py:184-193 `Options.runtime_env`. The result `none` means that
`create_subprocess_exec` inherits `os.environ`; `environ` is `os.environ`. -/
def Options.runtimeEnv (o : Options) (environ : Dict) : Option Dict :=
  if o.inheritEnv then
    match o.env with
    | none => none
    | some e => if e.isEmpty then none else some (Dict.update environ e)
  else
    match o.env with
    | none => some []
    | some e => if e.isEmpty then some [] else some e

/-- The environment of the child: `env=None` inherits the parent's (subprocess semantics). -/
def Options.childEnv (o : Options) (environ : Dict) : Dict :=
  (o.runtimeEnv environ).getD environ

/-- shellous/redirect.py:58-66 `_DEFAULT_REDIRECTION`. -/
def defaultRedirection (fd : Fin 3) (pty : Bool) : Target :=
  match fd, pty with
  | 0, false => .bytes []
  | 0, true => .redirect .capture
  | 1, _ => .redirect .buffer
  | 2, false => .redirect .buffer
  | 2, true => .redirect .stdout

/-- shellous/redirect.py:44-53 `Redirect.from_default`. -/
def fromDefault (t : Target) (fd : Fin 3) (pty : PtyOpt) : Target :=
  match t with
  | .redirect .default => defaultRedirection fd pty.truthy
  | t => t

end Shellous
