import Verif.Model.Options

/-!
# Commands, contexts and pipelines (shellous/command.py, shellous/pipeline.py)
-/

namespace Shellous

mutual
/-- An element of `Command.args` after `coerce` (shellous/command.py:420). -/
inductive Leaf where
  | str (s : Text)
  | bytes (b : Bytes)
  | path (p : Text)
  | cmd (c : Command)
  | pipe (cs : List Command)

/-- shellous/command.py:401-424 `Command` (fields `args` and `options`). -/
inductive Command where
  | mk (args : List Leaf) (options : Options)
end

/-- `Command.args`. -/
def Command.args : Command → List Leaf
  | .mk a _ => a

/-- `Command.options`. -/
def Command.options : Command → Options
  | .mk _ o => o

@[simp] theorem Command.args_mk (a o) : (Command.mk a o).args = a := rfl
@[simp] theorem Command.options_mk (a o) : (Command.mk a o).options = o := rfl
theorem Command.eta (c : Command) : Command.mk c.args c.options = c := by cases c; rfl

/-- shellous/pipeline.py:39-43 `Pipeline`. -/
structure Pipeline where
  commands : List Command

/-- Unsupported argument types (shellous/command.py:822-832). -/
inductive BadKind where
  | mapping | set | generator | range | none | ellipsis
deriving DecidableEq, Repr

/-- Flattened container types (shellous/command.py:818). -/
inductive SeqKind where
  | list | tuple | reversed | enumerate | zip
deriving DecidableEq, Repr

/-- A Python object passed as a command argument. `other s` is any object not listed explicitly,
with its `str()`. -/
inductive Arg where
  | str (s : Text)
  | bytes (b : Bytes)
  | path (p : Text)
  | cmd (c : Command)
  | pipe (cs : List Command)
  | bytearray (b : Bytes)
  | memoryview (b : Bytes)
  | stringIO (value : Text)
  | bytesIO (value : Bytes)
  | seq (kind : SeqKind) (items : List Arg)
  | bad (kind : BadKind)
  | other (str : Text)

/-- Interpretation of user `coerce_arg` functions: identity of the function, argument ↦ result. -/
abbrev CoerceFns := Nat → Arg → Except Exc Arg

mutual
/-- shellous/command.py:812-836: the body of the loop in `coerce`, for one argument to which
`coerce_arg` (if any) has been applied already. Nested sequences are coerced with
`coerce_arg=None` (line 820). -/
def coerceOne : Arg → Except Exc (List Leaf)
  | .str s => .ok [.str s]
  | .bytes b => .ok [.bytes b]
  | .path p => .ok [.path p]
  | .cmd c => .ok [.cmd c]
  | .pipe cs => .ok [.pipe cs]
  | .bytearray b => .ok [.bytes b]
  | .memoryview b => .ok [.bytes b]
  | .stringIO v => .ok [.str v]
  | .bytesIO v => .ok [.bytes v]
  | .seq _ items => coerceNested items
  | .bad _ => .error .typeError
  | .other s => .ok [.str s]
/-- shellous/command.py:801-837 `coerce(args, None)`. -/
def coerceNested : List Arg → Except Exc (List Leaf)
  | [] => .ok []
  | a :: rest => do
    let x ← coerceOne a
    let xs ← coerceNested rest
    .ok (x ++ xs)
end

/-- shellous/command.py:809-810: apply `coerce_arg` if it is set. -/
def applyCoerceArg (fns : CoerceFns) (f : Option Nat) (a : Arg) : Except Exc Arg :=
  match f with
  | none => .ok a
  | some id => fns id a

/-- shellous/command.py:801-837 `coerce(args, coerce_arg)`. -/
def coerce (fns : CoerceFns) (f : Option Nat) : List Arg → Except Exc (List Leaf)
  | [] => .ok []
  | a :: rest => do
    let a' ← applyCoerceArg fns f a
    let x ← coerceOne a'
    let xs ← coerce fns f rest
    .ok (x ++ xs)

/-- shellous/command.py:426-429 `Command.__post_init__` (construction of a `Command`). -/
def Command.make (args : List Leaf) (o : Options) : Except Exc Command :=
  if args.length = 0 then .error .valueError else .ok (.mk args o)

/-- shellous/command.py:371-373 `CmdContext.__call__`; a context is its options (line 296). -/
def ctxCall (fns : CoerceFns) (ctx : Options) (args : List Arg) : Except Exc Command := do
  let a ← coerce fns ctx.coerceArg args
  Command.make a ctx

/-- shellous/command.py:738-743 `Command.__call__`. -/
def Command.call (fns : CoerceFns) (c : Command) (args : List Arg) : Except Exc Command :=
  if args.isEmpty then .ok c
  else do
    let a ← coerce fns c.options.coerceArg args
    Command.make (c.args ++ a) c.options

/-- shellous/command.py:445-448 `Command.stdin`. -/
def Command.stdin (c : Command) (t : Target) (close : Bool := false) : Except Exc Command := do
  Command.make c.args (← c.options.setStdin t close)

/-- shellous/command.py:450-459 `Command.stdout`. -/
def Command.stdout (c : Command) (t : Target) (append close : Bool := false) :
    Except Exc Command := do
  Command.make c.args (← c.options.setStdout t append close)

/-- shellous/command.py:461-470 `Command.stderr`. -/
def Command.stderr (c : Command) (t : Target) (append close : Bool := false) :
    Except Exc Command := do
  Command.make c.args (← c.options.setStderr t append close)

/-- shellous/command.py:472-482 `Command.env`. -/
def Command.env (c : Command) (updates : List (PyVal × PyVal)) : Except Exc Command :=
  Command.make c.args (c.options.addEnv updates)

/-- shellous/command.py:484-649 `Command.set`. -/
def Command.set (c : Command) (k : Kwds) : Except Exc Command := do
  Command.make c.args (← c.options.setChecked k)

/-- The keyword arguments used by `.result` (shellous/command.py:797). -/
def resultKwds : Kwds :=
  { returnResult := some true, exitCodes := some (some (Container.range (-255) 256)) }

/-- shellous/command.py:792-798 `Command.result`. -/
def Command.result (c : Command) : Except Exc Command := c.set resultKwds

/-- shellous/command.py:787-790 `Command.writable`. -/
def Command.setWritable (c : Command) : Except Exc Command := c.set { writable := some true }

/-- Python's `str()` of an argument leaf; only used for the display name. For `bytes` and nested
commands the exact text is irrelevant: it is a parameter. -/
def Leaf.toStr (reprs : Leaf → Text) : Leaf → Text
  | .str s => s
  | .path p => p
  | l => reprs l

/-- shellous/command.py:431-443 `Command.name`. `alt_name` is used only when truthy (non-empty).
`name[-31:]` on a string longer than 31 drops all but the last 31 characters. -/
def Command.name (reprs : Leaf → Text) (c : Command) : Text :=
  match c.options.altName with
  | some (a :: as) => a :: as
  | _ =>
    match c.args with
    | [] => []          -- unreachable: `__post_init__` rejects empty args
    | a0 :: _ =>
      let name := a0.toStr reprs
      if name.length > 31 then "...".toList ++ name.drop (name.length - 31) else name

/-! ## Pipeline -/

/-- shellous/pipeline.py:50-53 `Pipeline.__post_init__` (construction). -/
def Pipeline.make (cs : List Command) : Except Exc Pipeline :=
  if cs.length = 0 then .error .valueError else .ok ⟨cs⟩

/-- shellous/pipeline.py:55-58 `Pipeline.name`. -/
def Pipeline.name (reprs : Leaf → Text) (p : Pipeline) : Text :=
  List.intercalate ['|'] (p.commands.map (·.name reprs))

/-- shellous/pipeline.py:60-63 `Pipeline.options`: the last command's options (`commands[-1]`
raises IndexError for an empty tuple, which `__post_init__` excludes). -/
def Pipeline.options (p : Pipeline) : Option Options := p.commands.getLast?.map (·.options)

/-- shellous/pipeline.py:65-69 `Pipeline.stdin`. -/
def Pipeline.stdin (p : Pipeline) (t : Target) (close : Bool := false) : Except Exc Pipeline :=
  match p.commands with
  | [] => .error .valueError
  | c :: rest => do
    let c' ← c.stdin t close
    Pipeline.make ([c'] ++ rest)

/-- shellous/pipeline.py:79-81, 91-93, 97-99: replace the last command by `f` of it. -/
def Pipeline.modifyLast (p : Pipeline) (f : Command → Except Exc Command) : Except Exc Pipeline :=
  match p.commands.getLast? with
  | none => .error .valueError
  | some c => do
    let c' ← f c
    Pipeline.make (p.commands.dropLast ++ [c'])

/-- shellous/pipeline.py:71-81 `Pipeline.stdout`. -/
def Pipeline.stdout (p : Pipeline) (t : Target) (append close : Bool := false) :
    Except Exc Pipeline :=
  p.modifyLast (·.stdout t append close)

/-- shellous/pipeline.py:83-93 `Pipeline.stderr`. -/
def Pipeline.stderr (p : Pipeline) (t : Target) (append close : Bool := false) :
    Except Exc Pipeline :=
  p.modifyLast (·.stderr t append close)

/-- shellous/pipeline.py:95-99 `Pipeline._set`. -/
def Pipeline.set (p : Pipeline) (k : Kwds) : Except Exc Pipeline :=
  p.modifyLast (·.set k)

/-- shellous/pipeline.py:210-216 `Pipeline.result`. -/
def Pipeline.result (p : Pipeline) : Except Exc Pipeline := p.set resultKwds

/-- shellous/pipeline.py:205-208 `Pipeline.writable`. -/
def Pipeline.setWritable (p : Pipeline) : Except Exc Pipeline := p.set { writable := some true }

/-- shellous/pipeline.py:160-163 `Pipeline.__call__`. -/
def Pipeline.call (p : Pipeline) (args : List Arg) : Except Exc Pipeline :=
  if args.isEmpty then .ok p else .error .typeError

/-! ## Operators

An operand of `|` or `>>` is a command, a pipeline or a redirect target. -/

/-- The operands of the operators. -/
inductive Operand where
  | cmd (c : Command)
  | pipe (p : Pipeline)
  | target (t : Target)

/-- `isinstance(x, STDIN_TYPES)` (shellous/redirect.py:72-81). `StringIO`/`BytesIO` are `io.IOBase`. -/
def Target.isStdinType : Target → Bool
  | .str _ | .bytes _ | .path _ | .bytearray _ | .ioBase _ | .stringIO _ | .bytesIO _ | .int _
  | .redirect _ | .streamReader _ => true
  | _ => false

/-- `isinstance(x, STDOUT_TYPES)` (shellous/redirect.py:94-102). -/
def Target.isStdoutType : Target → Bool
  | .path _ | .bytearray _ | .ioBase _ | .stringIO _ | .bytesIO _ | .int _ | .redirect _
  | .logger _ | .streamWriter _ => true
  | _ => false

/-- shellous/pipeline.py:144-150 `Pipeline._add`. -/
def Pipeline.add (p : Pipeline) : Operand → Except Exc Pipeline
  | .cmd c => Pipeline.make (p.commands ++ [c])
  | .pipe q => Pipeline.make (p.commands ++ q.commands)
  | .target _ => .error .typeError

/-- shellous/pipeline.py:178-187 `Pipeline.__or__`. Returning `NotImplemented` makes Python raise
TypeError (the right operand, an unrelated object, has no `__ror__`). -/
def Pipeline.or (p : Pipeline) : Operand → Except Exc Pipeline
  | .cmd c => p.add (.cmd c)
  | .pipe q => p.add (.pipe q)
  | .target t =>
    if t.isStdoutType then p.stdout t
    else .error .typeError

/-- shellous/command.py:767-771 `Command.__or__`: a redirected command, or a pipeline. -/
def Command.or (c : Command) : Operand → Except Exc (Command ⊕ Pipeline)
  | .target t =>
    if t.isStdoutType then do return .inl (← c.stdout t)
    else do
      let p ← Pipeline.make [c]
      return .inr (← p.or (.target t))
  | rhs => do
    let p ← Pipeline.make [c]
    return .inr (← p.or rhs)

/-- shellous/command.py:773-777 `Command.__ror__`. -/
def Command.ror (c : Command) (t : Target) : Except Exc Command :=
  if t.isStdinType then c.stdin t else .error .typeError

/-- shellous/pipeline.py:189-192 `Pipeline.__ror__`. -/
def Pipeline.ror (p : Pipeline) (t : Target) : Except Exc Pipeline :=
  if t.isStdinType then p.stdin t else .error .typeError

/-- shellous/command.py:779-785 `Command.__rshift__`. -/
def Command.rshift (c : Command) (t : Target) : Except Exc Command :=
  if t.isStdoutType then c.stdout t (append := true) else .error .typeError

/-- shellous/pipeline.py:194-203 `Pipeline.__rshift__`. -/
def Pipeline.rshift (p : Pipeline) (t : Target) : Except Exc Pipeline :=
  if t.isStdoutType then p.stdout t (append := true) else .error .typeError

end Shellous
