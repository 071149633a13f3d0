import Verif.Model.Command

/-!
# Launching a command: redirections and descriptors (shellous/runner.py `_RunOptions`, `_cleanup`,
`PipeRunner._setup_pipeline`; shellous/util.py `close_fds`; shellous/pty_util.py `open_pty`, `ChildFd`)

Linux only (`BSD_DERIVED` and win32 branches are not modelled).

The operating system is a table of open descriptors. Every system call may fail: which ones do, and
which descriptor numbers are handed out, are given by a parameter `Sys` over which theorems quantify.
-/

namespace Shellous

/-- The parts of the operating system and of user supplied objects that the launch depends on. -/
structure Sys where
  /-- number of a newly opened descriptor, given the table of open ones -/
  alloc : List Int → Int
  /-- does the n-th fallible call fail, and with which exception? -/
  fail : Nat → Option Exc
  /-- does closing this file object raise? (the descriptor is released anyway) -/
  fileCloseErr : Int → Bool
  /-- does closing this user supplied object raise? -/
  objCloseErr : Nat → Bool
  /-- `bytes(x)` / `getvalue()` of user objects -/
  bytesOf : Nat → Bytes
  textOf : Nat → Text
  /-- encoding of the command -/
  encode : Text → Except Exc Bytes
  /-- EOF character of the pty (empty in raw mode) -/
  ptyEof : Bytes
  /-- `os.environ` -/
  environ : Dict := []

/-- The kernel hands out non-negative numbers that are not in use. -/
structure Sys.Ok (sys : Sys) : Prop where
  fresh : ∀ t, sys.alloc t ∉ t
  nonneg : ∀ t, 0 ≤ sys.alloc t

/-- An entry of `_RunOptions.open_fds` (shellous/runner.py:75): a descriptor number, a file object
opened by shellous, the pty's `ChildFd`, or an object supplied by the user. -/
inductive Ent where
  | fd (n : Int)
  | file (n : Int)
  | childFd (n : Int)
  | obj (id : Nat)
deriving DecidableEq, Repr

/-- A command line argument as passed to `create_subprocess_exec`. -/
inductive PArg where
  | leaf (l : Leaf)
  | devFd (n : Int)

/-- How a file is opened (shellous/runner.py:266, 300). -/
inductive Mode where
  | rb | wb | ab
deriving DecidableEq, Repr

/-- A value of the `stdin`/`stdout`/`stderr` keyword arguments: an int (PIPE = -1, STDOUT = -2,
DEVNULL = -3 or a descriptor), a file opened by shellous, a user's file object, or `sys.stdin`,
`sys.stdout`, `sys.stderr`. -/
inductive Handle where
  | int (n : Int)
  | file (n : Int) (path : Text) (mode : Mode)
  | obj (id : Nat)
  | sys (fd : Fin 3)
deriving DecidableEq, Repr

/-- `asyncio.subprocess.PIPE`. -/
abbrev PIPE : Handle := .int (-1)

/-- A process substitution: a Command or Pipeline argument. -/
inductive SubCmd where
  | cmd (c : Command)
  | pipe (p : Pipeline)

/-- `subcmd.options`: for a pipeline those of the last command (shellous/pipeline.py:60-63). -/
def SubCmd.options : SubCmd → Options
  | .cmd c => c.options
  | .pipe p => p.options.getD {}

/-- shellous/runner.py:52-57 `_is_writable`: pipelines check both the last and the first command. -/
def SubCmd.isWritable : SubCmd → Bool
  | .cmd c => c.options.writable
  | .pipe p => (p.options.getD {}).writable || (match p.commands with
      | [] => false
      | c :: _ => c.options.writable)

/-- shellous/pty_util.py:50-56 `PtyFds` before `open_streams`. -/
structure Pty where
  parent : Int
  child : Int
  eof : Bytes
deriving DecidableEq, Repr

/-- What runs in the child between `fork` and `exec`: the user's function, or `set_ctty` with the name of
the terminal whose child side is the descriptor (shellous/runner.py:374-376). -/
inductive Preexec where
  | user (id : Nat)
  | setCtty (child : Int)
deriving DecidableEq, Repr

/-- State: descriptor table; history of opened descriptors, created pipes (read end, write end), all `os.close` calls in order, successful and failed (EBADF) `os.close` calls in order, user objects that
were closed or positioned, number of fallible calls so far; then the fields of `_RunOptions`
(shellous/runner.py:73-95). -/
structure LS where
  tab : List Int
  opened : List Int := []
  pipes : List (Int × Int) := []
  tried : List Int := []
  closed : List Int := []
  ebadf : List Int := []
  objClosed : List Nat := []
  positioned : List (Target × Bool) := []
  calls : Nat := 0
  openFds : List Ent := []
  subcmds : List SubCmd := []
  passFds : List Int := []
  posArgs : List PArg := []
  inputBytes : Option Bytes := none
  outputBuf : Bool := false
  errorBuf : Bool := false
  stderrOnly : Bool := false
  pty : Option Pty := none
  stdin : Handle := PIPE
  stdout : Handle := PIPE
  stderr : Handle := PIPE
  /-- the other entries of `kwd_args`: `close_fds` (`none` while not in the dictionary), `env`,
  `start_new_session`, `preexec_fn` -/
  closeFds : Option Bool := none
  env : Option Dict := none
  session : Bool := false
  preexec : Option Preexec := none

/-- Code that may raise; effects before the exception persist. -/
def M (α : Type) := LS → Except Exc α × LS

/-- Sequencing. -/
def M.bind {α β : Type} (m : M α) (f : α → M β) : M β := fun s =>
  match m s with
  | (.error e, s') => (.error e, s')
  | (.ok a, s') => f a s'

instance : Monad M where
  pure a := fun s => (.ok a, s)
  bind := M.bind

/-- `raise e`. -/
def raise {α : Type} (e : Exc) : M α := fun s => (.error e, s)

/-- Update the state. -/
def modify (f : LS → LS) : M Unit := fun s => (.ok (), f s)

/-- Read the state. -/
def getS : M LS := fun s => (.ok s, s)

/-- A call that may fail. -/
def call (sys : Sys) : M Unit := fun s =>
  let s' := { s with calls := s.calls + 1 }
  match sys.fail s.calls with
  | some e => (.error e, s')
  | none => (.ok (), s')

/-- The kernel hands out a new descriptor. -/
def newFd (sys : Sys) : M Int := fun s => (.ok (sys.alloc s.tab),
    { s with tab := sys.alloc s.tab :: s.tab, opened := s.opened ++ [sys.alloc s.tab] })

/-- `open(...)` of a file. -/
def openFile (sys : Sys) : M Int := do
  call sys
  newFd sys

/-- `pty.openpty()`: two new descriptors. -/
def openPair (sys : Sys) : M (Int × Int) := do
  call sys
  let a ← newFd sys
  let b ← newFd sys
  return (a, b)

/-- `os.pipe()`. -/
def osPipe (sys : Sys) : M (Int × Int) := do
  let (r, w) ← openPair sys
  modify fun s => { s with pipes := s.pipes ++ [(r, w)] }
  return (r, w)

/-! ## Closing -/

/-- `os.close(n)`: EBADF if it is not open. -/
def osClose (n : Int) (s : LS) : LS :=
  if n ∈ s.tab then
    { s with tab := s.tab.erase n, tried := s.tried ++ [n], closed := s.closed ++ [n] }
  else { s with tried := s.tried ++ [n], ebadf := s.ebadf ++ [n] }

/-- shellous/util.py:63-71: one iteration of the loop in `close_fds`; `true` if it raised. An `OSError`
of `os.close` is logged and ignored. shellous/pty_util.py:42-47: `ChildFd.close` does nothing when
closed already, which cannot be distinguished here from its descriptor not being in the table. -/
def closeEnt (sys : Sys) (e : Ent) (s : LS) : LS × Bool :=
  match e with
  | .fd n => if 0 ≤ n then (osClose n s, false) else (s, false)
  | .file n => (if n ∈ s.tab then osClose n s else s, sys.fileCloseErr n)
  | .childFd n => (osClose n s, false)
  | .obj id => ({ s with objClosed := s.objClosed ++ [id] }, sys.objCloseErr id)

/-- shellous/util.py:59-74 `close_fds`: closes the entries in order; an exception of an object's `close`
stops the loop. -/
def closeAll (sys : Sys) : List Ent → LS → LS × Bool
  | [], s => (s, false)
  | e :: es, s =>
    match closeEnt sys e s with
    | (s', true) => (s', true)
    | (s', false) => closeAll sys es s'

/-- `_add_close` in shellous/runner.py:1261-1264: only ints (also members of the `IntEnum` `Redirect`)
and `io.IOBase` objects. -/
def closeEntry (close : Bool) (t : Target) : List Ent :=
  if close then
    match t with
    | .int n => [.fd n]
    | .redirect r => [.fd r.val]
    | .ioBase id | .stringIO id | .bytesIO id => [.obj id]
    | _ => []
  else []

/-- The descriptors collected by shellous/runner.py:1258-1273 `_cleanup`. -/
def cleanupEntries (o : Options) : List Ent :=
  closeEntry o.inputClose o.input ++ closeEntry o.outputClose o.output ++
    closeEntry o.errorClose o.error ++ (if o.passFdsClose then o.passFds.map Ent.fd else [])

/-- shellous/runner.py:1258-1275 `_cleanup`. -/
def cleanup (sys : Sys) (o : Options) (s : LS) : LS × Bool := closeAll sys (cleanupEntries o) s

/-! ## Setting up -/

/-- shellous/runner.py:1288-1299 `_set_position` (may raise, e.g. for a closed file). -/
def setPosition (sys : Sys) (t : Target) (append : Bool) : M Unit := do
  call sys
  modify fun s => { s with positioned := s.positioned ++ [(t, append)] }

/-- `self.open_fds.append(e)`. -/
def addFd (e : Ent) : M Unit := modify fun s => { s with openFds := s.openFds ++ [e] }

/-- shellous/runner.py:256-291 `_setup_input`. -/
def setupInput (sys : Sys) (t : Target) (close : Bool) : M (Handle × Option Bytes) := do
  match t with
  | .bytes b => return (PIPE, some b)
  | .bytearray id => return (PIPE, some (sys.bytesOf id))
  | .path p =>
    let n ← openFile sys
    addFd (.file n)
    return (.file n p .rb, none)
  | .redirect .inherit => return (.sys 0, none)
  | .redirect .buffer => raise .typeError
  | .redirect .capture => return (PIPE, none)
  | .redirect .default => raise .assertionError     -- excluded by `from_default`
  | .redirect r =>                                  -- STDOUT, DEVNULL: plain ints
    if close then addFd (.fd r.val)
    return (.int r.val, none)
  | .int n =>
    if close then addFd (.fd n)
    return (.int n, none)
  | .str s =>
    match sys.encode s with
    | .error e => raise e
    | .ok b => return (PIPE, some b)
  | .streamReader _ | .bytesIO _ | .stringIO _ => return (PIPE, none)
  | _ => raise .typeError

/-- shellous/runner.py:293-341 `_setup_output`; `fd` is 1 or 2 (`sys_stream`). -/
def setupOutput (sys : Sys) (fd : Fin 3) (t : Target) (append close : Bool) : M Handle := do
  let openPath (p : Text) : M Handle := do
    let n ← openFile sys
    addFd (.file n)
    return .file n p (if append then .ab else .wb)
  let s ← getS
  match t with
  | .path p => openPath p
  | .pathLike p => openPath p
  | t =>
    if s.stderrOnly && fd == 2 then do
      modify fun s => { s with outputBuf := true }
      return PIPE
    else
      match t with
      | .redirect .buffer =>
        modify fun s => if fd = 1 then { s with outputBuf := true } else { s with errorBuf := true }
        return PIPE
      | .redirect .inherit => return .sys fd
      | .redirect .capture => return PIPE
      | .redirect .default => raise .assertionError   -- excluded by `from_default`
      | .redirect r =>
        if close then addFd (.fd r.val)
        return .int r.val
      | .int n =>
        if close then addFd (.fd n)
        return .int n
      | .stringIO id => do setPosition sys (.stringIO id) append; return PIPE
      | .bytesIO id => do setPosition sys (.bytesIO id) append; return PIPE
      | .bytearray id => do setPosition sys (.bytearray id) append; return PIPE
      | .logger id => do setPosition sys (.logger id) append; return PIPE
      | .streamWriter id => do setPosition sys (.streamWriter id) append; return PIPE
      | .ioBase id => do setPosition sys (.ioBase id) append; return .obj id
      | _ => raise .typeError

/-- shellous/runner.py:343-378 `_setup_pty1` with shellous/pty_util.py:81-94 `open_pty`: the three
handles with the pty's child side filled in. -/
def setupPty1 (sys : Sys) (stdin stdout stderr : Handle) : M (Handle × Handle × Handle) := do
  let (parent, child) ← openPair sys
  call sys                         -- pty_func(child_fd), _get_eof
  modify fun s => { s with pty := some { parent, child, eof := sys.ptyEof } }
  addFd (.childFd child)
  let stdin := if stdin = PIPE then .int child else stdin
  let stdout := if stdout = PIPE then .int child else stdout
  let stderr := if stderr = .int (-2) then .int child else stderr
  call sys                         -- os.ttyname
  return (stdin, stdout, stderr)

/-- shellous/runner.py:197-199: the "stderr only" case. -/
def noteStderrOnly (o : Options) : M Unit := modify fun s =>
  if o.output.eqR .devnull && o.error.eqR .stdout then { s with stderrOnly := true } else s

/-- shellous/runner.py:219-227: a terminal, if `pty` is set. -/
def setupPty (sys : Sys) (o : Options) (h : Handle × Handle × Handle) :
    M (Handle × Handle × Handle) :=
  if o.pty.truthy then
    if o.preexecFn.isSome then raise .assertionError else setupPty1 sys h.1 h.2.1 h.2.2
  else pure h

/-- shellous/runner.py:187-239 `_setup_redirects`. The function run before `exec` is returned by
`_setup_pty1` in the code; here it is made from the terminal that was set up. -/
def setupRedirects (sys : Sys) (o : Options) : M Unit := do
  let (stdin, inputBytes) ← setupInput sys (fromDefault o.input 0 o.pty) o.inputClose
  noteStderrOnly o
  let stdout ← setupOutput sys 1 (fromDefault o.output 1 o.pty) o.outputAppend o.outputClose
  let stderr ← setupOutput sys 2 (fromDefault o.error 2 o.pty) o.errorAppend o.errorClose
  let (stdin, stdout, stderr) ← setupPty sys o (stdin, stdout, stderr)
  modify fun s => { s with
    inputBytes, stdin, stdout, stderr
    env := o.runtimeEnv sys.environ
    session := if o.pty.truthy then true else o.startNewSession
    preexec := if o.pty.truthy then s.pty.map (fun p => .setCtty p.child)
      else o.preexecFn.map .user }

/-- shellous/runner.py:241-254 `_setup_pass_fds`. -/
def setupPassFds (o : Options) : M Unit := do
  if o.passFds.isEmpty then
    modify fun s => { s with closeFds := some (s.closeFds.getD o.closeFds) }
  else
    modify fun s => { s with passFds := s.passFds ++ o.passFds, closeFds := some true }
    if o.passFdsClose then modify fun s => { s with openFds := s.openFds ++ o.passFds.map Ent.fd }

/-- Turn a builder result into code that raises. -/
def liftE {α : Type} : Except Exc α → M α
  | .ok a => pure a
  | .error e => raise e

/-- `arg.stdin(fd, close=True)` / `arg.stdout(fd, close=True)` on a Command or Pipeline. -/
def SubCmd.stdin : SubCmd → Int → Except Exc SubCmd
  | .cmd c, n => (c.stdin (.int n) true).map .cmd
  | .pipe p, n => (p.stdin (.int n) true).map .pipe

@[inherit_doc SubCmd.stdin]
def SubCmd.stdout : SubCmd → Int → Except Exc SubCmd
  | .cmd c, n => (c.stdout (.int n) false true).map .cmd
  | .pipe p, n => (p.stdout (.int n) false true).map .pipe

/-- `isinstance(arg, (Command, Pipeline))`. -/
def Leaf.sub? : Leaf → Option SubCmd
  | .cmd c => some (.cmd c)
  | .pipe cs => some (.pipe ⟨cs⟩)
  | _ => none

/-- shellous/runner.py:159-174: the loop of `_setup_process_substitution`; returns the new arguments
and the descriptors to pass. -/
def procSubLoop (sys : Sys) : List Leaf → M (List PArg × List Int)
  | [] => return ([], [])
  | a :: rest => do
    match a.sub? with
    | none =>
      let (args, fds) ← procSubLoop sys rest
      return (.leaf a :: args, fds)
    | some sub =>
      let (r, w) ← osPipe sys
      if sub.isWritable then
        let sub ← liftE (sub.stdin r)
        modify fun s => { s with subcmds := s.subcmds ++ [sub] }
        let (args, fds) ← procSubLoop sys rest
        return (.devFd w :: args, w :: fds)
      else
        let sub ← liftE (sub.stdout w)
        modify fun s => { s with subcmds := s.subcmds ++ [sub] }
        let (args, fds) ← procSubLoop sys rest
        return (.devFd r :: args, r :: fds)

/-- shellous/runner.py:1244-1248 `_uses_process_substitution`. -/
def usesProcSub (args : List Leaf) : Bool := args.any (·.sub?.isSome)

/-- shellous/runner.py:148-185 `_setup_process_substitution` and 102-107. -/
def setupArgs (sys : Sys) (args : List Leaf) : M Unit := do
  if usesProcSub args then
    let (newArgs, newFds) ← procSubLoop sys args
    modify fun s => { s with
      posArgs := newArgs, passFds := newFds, closeFds := some true,
      openFds := s.openFds ++ newFds.map Ent.fd }
  else
    modify fun s => { s with posArgs := args.map PArg.leaf }

/-- shellous/runner.py:85-95 `__init__`: a new `_RunOptions` object. -/
def LS.newRun (s : LS) : LS :=
  { tab := s.tab, opened := s.opened, pipes := s.pipes, tried := s.tried, closed := s.closed,
    ebadf := s.ebadf, objClosed := s.objClosed, positioned := s.positioned, calls := s.calls }

/-- shellous/runner.py:101-119: the `try` block of `__enter__`; the last call is the program lookup in
PATH (the replacement of `pos_args[0]` by the path found is not modelled). -/
def enterBody (sys : Sys) (c : Command) : M Unit := do
  modify LS.newRun
  setupArgs sys c.args
  setupRedirects sys c.options
  setupPassFds c.options
  call sys

/-- shellous/runner.py:97-128 `__enter__`. An exception of the clean-up replaces the one in flight. -/
def enter (sys : Sys) (c : Command) : M Unit := fun s =>
  match enterBody sys c s with
  | (.ok (), s') => (.ok (), s')
  | (.error e, s') =>
    let (s'', raised) := cleanup sys c.options s'
    (.error (if raised then .osError else e), s'')

/-- shellous/runner.py:145-146: clean up after sub-commands that will not run. -/
def cleanupSubs (sys : Sys) : List SubCmd → LS → LS × Bool
  | [], s => (s, false)
  | c :: cs, s =>
    match cleanup sys c.options s with
    | (s', true) => (s', true)
    | (s', false) => cleanupSubs sys cs s'

/-- shellous/runner.py:130-146 `__exit__`; `true` if it raised. -/
def exit (sys : Sys) (failed : Bool) (s : LS) : LS × Bool :=
  match closeAll sys s.openFds s with
  | (s', true) => ({ s' with openFds := [] }, true)
  | (s', false) =>
    if failed then cleanupSubs sys s'.subcmds { s' with openFds := [] }
    else ({ s' with openFds := [] }, false)

/-- shellous/runner.py:648-649: `with self._options as opts: await self._subprocess_spawn(opts)`. The
spawn (713-745: opening the pty streams, yielding, exec) may fail. On success the process runs and
`LS.subcmds` have been scheduled. -/
def launch (sys : Sys) (c : Command) : M Unit := fun s =>
  match enter sys c s with
  | (.error e, s') => (.error e, s')
  | (.ok (), s') =>
    match call sys s' with
    | (.error e, s'') =>
      let (s3, raised) := exit sys true s''
      (.error (if raised then .osError else e), s3)
    | (.ok (), s'') =>
      let (s3, raised) := exit sys false s''
      if raised then (.error .osError, s3) else (.ok (), s3)

/-! ## Streams and background tasks (shellous/runner.py:651-701, 786-852) -/

/-- Streams connected to the child. -/
inductive Stream where
  | procStdin | procStdout | procStderr | ptyWriter | ptyReader
deriving DecidableEq, Repr

/-- Destination of a copy: the `Result` buffers or a user's object. -/
inductive Sink where
  | outputBytes | errorBytes
  | user (t : Target)
deriving DecidableEq, Repr

/-- A background I/O task. -/
inductive IoTask where
  | writeStream (data : Bytes) (dst : Stream) (eof : Option Bytes)
  | writeReader (id : Nat) (dst : Stream) (eof : Option Bytes)
  | copy (src : Stream) (sink : Sink) (limit : Option Int)
deriving DecidableEq, Repr

/-- The tasks started and the streams handed to the caller (`run.stdin`, `run.stdout`, `run.stderr`). -/
structure Wired where
  tasks : List IoTask := []
  stdin : Option Stream := none
  stdout : Option Stream := none
  stderr : Option Stream := none
deriving DecidableEq, Repr

/-- shellous/runner.py:818-852 `_setup_output_sink`: the task, or the stream itself. -/
def setupOutputSink (src : Stream) (sink : Sink) (limit : Option Int) : List IoTask × Option Stream :=
  match sink with
  | .user (.stringIO id) => ([.copy src (.user (.stringIO id)) none], none)
  | .user (.bytesIO id) => ([.copy src (.user (.bytesIO id)) none], none)
  | .user (.bytearray id) => ([.copy src (.user (.bytearray id)) limit], none)
  | .outputBytes => ([.copy src .outputBytes limit], none)
  | .errorBytes => ([.copy src .errorBytes limit], none)
  | .user (.logger id) => ([.copy src (.user (.logger id)) none], none)
  | .user (.streamWriter id) => ([.copy src (.user (.streamWriter id)) none], none)
  | _ => ([], some src)

/-- shellous/runner.py:788-816 `_setup_input_source`. -/
def setupInputSource (sys : Sys) (o : Options) (s : LS) (dst : Stream) :
    Except Exc (List IoTask × Option Stream) :=
  let eof := s.pty.map (·.eof)
  match s.inputBytes with
  | some b => .ok ([.writeStream b dst eof], none)
  | none =>
    match o.input with
    | .streamReader id => .ok ([.writeReader id dst eof], none)
    | .bytesIO id => .ok ([.writeStream (sys.bytesOf id) dst eof], none)
    | .stringIO id =>
      match sys.encode (sys.textOf id) with
      | .error e => .error e
      | .ok b => .ok ([.writeStream b dst eof], none)
    | _ => .ok ([], some dst)

/-- shellous/runner.py:651-659: the library's ends of stdin and stdout. `proc.stdin` etc. are streams
iff the handle passed to the subprocess was PIPE. -/
def wireStreams (s : LS) : Except Exc (Option Stream × Option Stream) :=
  let pin := if s.stdin = PIPE then some Stream.procStdin else none
  let pout := if s.stdout = PIPE then some Stream.procStdout else none
  if s.pty.isSome then
    if pin.isNone && pout.isNone then .ok (some .ptyWriter, some .ptyReader) else .error .assertionError
  else .ok (pin, pout)

/-- shellous/runner.py:661-674: stderr. -/
def wireErr (o : Options) (s : LS) (sout : Option Stream) : Except Exc (List IoTask × Option Stream) :=
  if s.stderr = PIPE then
    if s.errorBuf then .ok (setupOutputSink .procStderr .errorBytes o.errorLimit)
    else if s.stderrOnly then
      if sout.isSome then .error .assertionError
      else if s.outputBuf then .ok (setupOutputSink .procStderr .outputBytes none)
      else .error .assertionError
    else .ok (setupOutputSink .procStderr (.user o.error) none)
  else .ok ([], none)

/-- shellous/runner.py:676-684: stdout. -/
def wireOut (o : Options) (s : LS) (sout : Option Stream) : List IoTask × Option Stream :=
  match sout with
  | none => ([], none)
  | some x =>
    if s.outputBuf then setupOutputSink x .outputBytes none
    else setupOutputSink x (.user o.output) none

/-- shellous/runner.py:686-687: stdin. -/
def wireIn (sys : Sys) (o : Options) (s : LS) (sin : Option Stream) :
    Except Exc (List IoTask × Option Stream) :=
  match sin with
  | none => .ok ([], none)
  | some x => setupInputSource sys o s x

/-- shellous/runner.py:651-701: the part of `_start` after the spawn. -/
def wire (sys : Sys) (o : Options) (s : LS) : Except Exc Wired :=
  match wireStreams s with
  | .error e => .error e
  | .ok (sin, sout) =>
    match wireErr o s sout with
    | .error e => .error e
    | .ok (t1, stderr) =>
      match wireIn sys o s sin with
      | .error e => .error e
      | .ok (t3, stdin) =>
        .ok { tasks := t1 ++ (wireOut o s sout).1 ++ t3, stdin, stdout := (wireOut o s sout).2, stderr }

/-! ## Pipelines -/

/-- shellous/runner.py:1168-1173: the loop of `_setup_pipeline`, from the command `c` (whose stdin has
been set already) on; the new descriptors are recorded in `open_fds`. -/
def stitchFrom (sys : Sys) (c : Command) : List Command → M (List Command)
  | [] => return [c]
  | d :: rest => do
    let (r, w) ← osPipe sys
    modify fun s => { s with openFds := s.openFds ++ [.fd r, .fd w] }
    let c' ← liftE (c.stdout (.int w) false true)
    let d' ← liftE (d.stdin (.int r) true)
    let rest' ← stitchFrom sys d' rest
    return c' :: rest'

@[inherit_doc stitchFrom]
def stitch (sys : Sys) : List Command → M (List Command)
  | [] => return []
  | c :: rest => stitchFrom sys c rest

/-- shellous/runner.py:1175-1178. -/
def pipeKwds : Kwds := { returnResult := some true, catchCancelled := some true }

/-- shellous/runner.py:1159-1178 `_setup_pipeline`. -/
def setupPipeline (sys : Sys) (cs : List Command) : M (List Command) := do
  let cs ← stitch sys cs
  liftE (cs.mapM (·.set pipeKwds))

/-- shellous/runner.py:1130-1157 `PipeRunner._start` without capturing: the stitched commands, each of
which is then run by its own task. -/
def pipeStart (sys : Sys) (cs : List Command) : M (List Command) := fun s =>
  match setupPipeline sys cs { s with openFds := [] } with
  | (.ok cmds, s') => (.ok cmds, { s' with openFds := [] })
  | (.error e, s') =>
    let (s'', raised) := closeAll sys s'.openFds s'
    (.error (if raised then .osError else e), { s'' with openFds := [] })

/-- What happens while `_setup_capturing` waits for the first and the last command to be ready: the task
of a command launches it (or fails to), or other code of the program opens a descriptor. -/
inductive CaptEv where
  | launched (i : Nat)
  | opened
deriving DecidableEq, Repr

/-- The effect of these events on the descriptors. -/
def captWait (sys : Sys) (cmds : List Command) : List CaptEv → LS → LS
  | [], s => s
  | .opened :: evs, s => captWait sys cmds evs (newFd sys s).2
  | .launched i :: evs, s =>
    match cmds[i]? with
    | some c => captWait sys cmds evs (launch sys c s).2
    | none => captWait sys cmds evs s

/-- shellous/runner.py:1131-1157 `PipeRunner._start` with capturing (`async with`, `async for`), when the
caller is cancelled while it waits (1180-1208): `close_fds` of all the pipe ends, in 1154-1157. The tasks
that have not launched their command yet are cancelled afterwards (`__aenter__`, 1099). -/
def pipeStartCancelled (sys : Sys) (cs : List Command) (evs : List CaptEv) : M Unit := fun s =>
  match setupPipeline sys cs { s with openFds := [] } with
  | (.ok cmds, s') =>
    let (s'', raised) := closeAll sys s'.openFds (captWait sys cmds evs s')
    (.error (if raised then .osError else .cancelled), { s'' with openFds := [] })
  | (.error e, s') =>
    let (s'', raised) := closeAll sys s'.openFds s'
    (.error (if raised then .osError else e), { s'' with openFds := [] })

/-! ## Entry points -/

/-- shellous/redirect.py:294-301: the redirection made for iteration. -/
def aiterRedirect (c : Command) : Except Exc Command :=
  if c.options.output.eqR .default then c.stdout (.redirect .capture)
  else if c.options.output.eqR .devnull && c.options.error.eqR .stdout then
    c.stderr (.redirect .capture)
  else .ok c

/-- shellous/redirect.py:291-310 `aiter_preflight` on a command. -/
def aiterPreflight (c : Command) : Except Exc Command :=
  match aiterRedirect c with
  | .error e => .error e
  | .ok d =>
    if d.options.output.eqR .capture && d.options.error.eqR .capture then .error .runtimeError
    else .ok d

/-- shellous/redirect.py:291-310 `aiter_preflight` on a pipeline: the same on its last command. -/
def aiterPreflightPipe (p : Pipeline) : Except Exc Pipeline := p.modifyLast aiterPreflight

/-- shellous/command.py:728-736: `async for` over a command, up to the launch; returns the command
launched. -/
def iterStart (sys : Sys) (c : Command) : M Command := fun s =>
  match aiterPreflight c with
  | .error e => (.error e, s)
  | .ok d =>
    match launch sys d s with
    | (.error e, s') => (.error e, s')
    | (.ok (), s') => (.ok d, s')

/-- shellous/runner.py:1251-1255 `_is_multiple_capture`. -/
def isMultipleCapture (o : Options) : Bool :=
  (fromDefault o.output 1 o.pty).eqR .capture && (fromDefault o.error 2 o.pty).eqR .capture

/-- shellous/runner.py:969-980 `run_command`, up to the launch; `fut` tells if `_run_future` was given
(only for the first and the last command of a captured pipeline). -/
def runCommandStart (sys : Sys) (c : Command) (fut : Bool) : M Unit := fun s =>
  if !fut && isMultipleCapture c.options then
    let (s', raised) := cleanup sys c.options s
    (.error (if raised then .osError else .valueError), s')
  else launch sys c s

end Shellous
