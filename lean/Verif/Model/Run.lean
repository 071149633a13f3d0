import Verif.Model.Harvest

/-!
# Running one command (shellous/runner.py `Runner`)

Both kinds of systems: on BSD and macOS a command on a pseudo-terminal is awaited by polling (`_is_bsd_pty`), everywhere else through the child
watcher. A cancellation of one of the library's own background tasks by a stranger is not modelled. For an `audit_callback` that raises see
Model/AuditRun.
-/

namespace Shellous

/-- Everything a run depends on besides the schedule. Theorems quantify over it. -/
structure RCfg where
  /-- the options of the command (used: `catchCancelled`, `exitCodes`, `returnResult`, `encoding`,
  `cancelSignal`, `timeout`) -/
  opts : Options := {}
  /-- the exception of `_RunOptions.__enter__`, if it raises (see Model/Launch `enter`) -/
  setupErr : Option Exc := none
  /-- is there a pseudo-terminal, and does opening its streams fail? -/
  pty : Bool := false
  ptyErr : Option Exc := none
  /-- `BSD_DERIVED`: is this a BSD or macOS? -/
  bsd : Bool := false
  /-- the exception of `_RunOptions.__exit__`, given that the spawn failed / succeeded -/
  exitErr : Bool → Option Exc := fun _ => none
  /-- number of process substitutions -/
  procsubs : Nat := 0
  /-- number of stream copies started (see Model/Launch `wire`), and the exception raised after that -/
  ioTasks : Nat := 0
  wireErr : Option Exc := none
  /-- `proc.stdin is not None` -/
  hasStdin : Bool := true
  /-- `cancel_timeout` is not None -/
  cancelTimed : Bool := true
  /-- contents of the result buffers when the result is made -/
  outBytes : Option Bytes := none
  errBytes : Option Bytes := none
  /-- `decode_bytes` -/
  decode : Bytes → Text → Except Exc Text := fun _ _ => .ok []

/-- shellous/runner.py:522-524 `_is_bsd_pty`. -/
def RCfg.bsdPty (cfg : RCfg) : Bool := cfg.bsd && cfg.pty

/-- `if e is not None: raise e`. -/
def raiseOpt : Option Exc → Coro Unit
  | none => Coro.pure ()
  | some e => Coro.raise e

/-- shellous/runner.py:501-510 `add_task`. -/
def addTask (k : TaskKind) : Coro Unit := do
  let i ← createTask k
  Coro.upd fun w => { w with mine := w.mine ++ [i] }

/-- `n` background tasks. -/
def addTasks : Nat → Coro Unit
  | 0 => Coro.pure ()
  | n + 1 => do
    addTask .io
    addTasks n

/-- shellous/runner.py:434-499: `Runner.result(check=...)` in the present state. -/
def runResult (cfg : RCfg) (check : Bool := true) : Coro Result := do
  let w ← Coro.get
  match runnerResult
      { proc := if w.attached then some (w.proc.bind (·.rc)) else none
        cancelled := w.cancelled
        timedOut := w.timedOut
        lastSignal := w.lastSignal
        outputBytes := cfg.outBytes
        errorBytes := cfg.errBytes } cfg.opts check with
  | .ok r => Coro.pure r
  | .error e => Coro.raise e

/-- shellous/runner.py:614-616: the `try` block of `_kill_wait`. -/
def killWaitTry : Coro Unit := do
  Coro.upd (·.signal false none)
  let i ← createTask .waiter
  harvest [i] true

/-- shellous/runner.py:617-623: `_kill_wait` after a timeout. -/
def killWaitExpired : Coro Unit := do
  let w ← Coro.get
  if w.pollWaitPid.1 then Coro.upd fun w => w.pollWaitPid.2
  else do
    Coro.upd (·.log .unableToKill)
    Coro.raise .runtimeError

/-- shellous/runner.py:605-623 `_kill_wait`. -/
def killWait : Coro Unit := do
  let w ← Coro.get
  Coro.when (!w.rcKnown) (Coro.catch_ killWaitTry fun e =>
    if e = .timeout then killWaitExpired else Coro.raise e)

/-- shellous/runner.py:568-578: the `try` block of `_kill`. -/
def killTry (cfg : RCfg) : Coro Unit := do
  let w ← Coro.get
  Coro.when (!w.rcKnown) (Coro.upd (·.signal false cfg.opts.cancelSignal))
  Coro.when (w.mine ≠ []) (harvest w.mine cfg.cancelTimed)
  let w ← Coro.get
  Coro.when (!w.rcKnown) (do
    let i ← createTask .waiter
    harvest [i] cfg.cancelTimed)

/-- shellous/runner.py:561-589 `_kill`. -/
def kill (cfg : RCfg) : Coro Unit :=
  Coro.catch_ (killTry cfg) fun e =>
    if e = .cancelled ∨ e = .timeout then do
      Coro.when (e = .cancelled) (Coro.upd W.setCancelled)
      killWait
    else do
      killWait
      Coro.raise e

/-- shellous/util.py:120-138 `poll_wait_pid` as `_wait_pid` calls it: reap the child if it has exited, and note its status. No child watcher looks
after this child (`set_ignore_child_watcher`), so if it has already been reaped, then by somebody else, and the status is 255. -/
def W.pollOnce (w : W) : W := (w.env none .reap).env none .deliver

/-- shellous/runner.py:549-559 `_wait_pid`: poll until the child has exited. Only the first poll is a step of its own, for no time passes before it; the
later ones are the events `reap` and `deliver`, at whatever times. -/
def waitPidPoll : Coro Unit := do
  Coro.upd W.pollOnce
  let w ← Coro.get
  Coro.when (!w.rcKnown) (wait W.rcKnown)

/-- shellous/runner.py:531-534: the `try` block of `_wait`. The second part is `_waiter` (747-758), not in a task of its own. -/
def waitTry (cfg : RCfg) : Coro Unit := do
  let w ← Coro.get
  Coro.when (w.mine ≠ []) (harvest w.mine)
  Coro.when cfg.bsdPty (Coro.finally_ waitPidPoll (Coro.upd W.stopTimer))

/-- shellous/runner.py:526-547 `_wait`. -/
def waitRun (cfg : RCfg) : Coro Unit :=
  Coro.catch_ (waitTry cfg)
    fun e =>
      if e = .cancelled then do
        Coro.upd fun w => { w.setCancelled with mine := [] }
        kill cfg
      else do
        Coro.upd fun w => { w with mine := [] }
        kill cfg
        Coro.raise e

/-- shellous/runner.py:898-928 `_close` (closing the terminal has no effect in this model). -/
def closeRun (cfg : RCfg) : Coro Unit := do
  Coro.upd W.transportClose
  let w ← Coro.get
  if !w.rcKnown then Coro.upd (·.log .stillRunning)
  else Coro.when cfg.hasStdin (Coro.catch_
    (do
      let i ← createTask .closer
      harvest [i] true true true)
    fun e => if e = .timeout then Coro.upd (·.log .closeTimeout) else Coro.raise e)

/-- shellous/runner.py:885-893: the `try` block of `_finish`. -/
def finishTry (cfg : RCfg) : Option Exc → Coro Bool
  | some e => do
    Coro.when (e = .cancelled) (Coro.upd W.setCancelled)
    kill cfg
    let w ← Coro.get
    Coro.pure w.cancelled
  | none => do
    waitRun cfg
    Coro.pure false

/-- shellous/runner.py:880-896 `_finish`. -/
def finish (cfg : RCfg) (ex : Option Exc) : Coro Bool :=
  Coro.finally_ (finishTry cfg ex) (closeRun cfg)

/-- shellous/runner.py:854-878 `__aexit__`. -/
def aexit (cfg : RCfg) (ex : Option Exc) : Coro Bool := do
  let suppress ← Coro.finally_
    (Coro.catch_ (finish cfg ex) fun e =>
      if e = .cancelled then do
        Coro.upd W.setCancelled
        Coro.pure false
      else Coro.raise e)
    (Coro.upd fun w => w.stopTimer.log (.auditStop none))
  let w ← Coro.get
  if w.cancelled && w.timedOut && !cfg.opts.catchCancelled then Coro.raise .timeout
  else Coro.pure suppress

/-- shellous/util.py:141-150 `uninterrupted(self._subprocess_exec(opts))`. `asyncio.shield(task)` is a
wait for the task that does not forward a cancellation to it. -/
def uninterruptedSpawn : Coro Unit := do
  let i ← createTask .spawn
  Coro.catch_
    (do
      wait (fun w => w.isDone i)
      let _ ← taskResult i)
    fun e =>
      if e = .cancelled then do
        let w ← Coro.get
        Coro.when (w.outOf i ≠ some .cancelled) (do
          let _ ← awaitTask i)
        Coro.raise .cancelled
      else Coro.raise e

/-- shellous/runner.py:712-732 `_subprocess_spawn`; opening the pty streams (pty_util.py:58-61) suspends
twice. -/
def spawnStage (cfg : RCfg) : Coro Unit := do
  Coro.when cfg.pty (do
    sleep0
    sleep0
    raiseOpt cfg.ptyErr)
  sleep0
  uninterruptedSpawn
  addTasks cfg.procsubs

/-- shellous/runner.py:646-687: the `try` block of `_start`. -/
def startTry (cfg : RCfg) : Coro Unit := do
  raiseOpt cfg.setupErr
  Coro.catch_ (spawnStage cfg) fun e => Coro.raise ((cfg.exitErr true).getD e)
  raiseOpt (cfg.exitErr false)
  addTasks cfg.ioTasks
  raiseOpt cfg.wireErr

/-- shellous/runner.py:640-710 `_start`. -/
def startRun (cfg : RCfg) : Coro Unit := do
  Coro.catch_ (startTry cfg) fun e => do
    Coro.when (e = .cancelled) (Coro.upd W.setCancelled)
    let w ← Coro.get
    Coro.when w.attached (kill cfg)
    Coro.raise e
  Coro.when (!cfg.bsdPty) (addTask .waiter)
  Coro.when cfg.opts.timeout.isSome (Coro.upd fun w => { w with timer := true })

/-- shellous/runner.py:625-638 `__aenter__`. -/
def aenter (cfg : RCfg) : Coro Unit := do
  Coro.upd (·.log .auditStart)
  Coro.finally_
    (Coro.catch_ (startRun cfg) fun e => do
      Coro.upd fun w => w.stopTimer.log (.auditStop (some e))
      Coro.raise e)
    (do
      let w ← Coro.get
      Coro.when (w.cancelled && cfg.opts.catchCancelled) (do
        let _ ← runResult cfg))

/-- Run a coroutine and return its exception instead of raising it. -/
def attempt (c : Coro Unit) : Coro (Option Exc) := fun w evs =>
  match c w evs with
  | (.ok _, w, evs) => (.ok none, w, evs)
  | (.exc e, w, evs) => (.ok (some e), w, evs)
  | (.blocked, w, evs) => (.blocked, w, evs)

/-- Python's `async with Runner(cmd) as run: body`. -/
def withRun (cfg : RCfg) (body : Coro Unit) : Coro Unit := do
  aenter cfg
  Coro.upd (·.log .bodyStart)
  let r ← attempt body
  Coro.upd (·.log (.bodyEnd r))
  let suppress ← aexit cfg r
  match r with
  | none => Coro.pure ()
  | some e => if suppress then Coro.pure () else Coro.raise e

/-- Any body the user may write: anything may happen while it runs; it may receive (and handle)
cancellations, send signals, and ends when it likes, with any exception or none. -/
def userBodyLoop : W → List Ev → Out Unit × W × List Ev
  | w, [] => (.blocked, w, [])
  | w, .bodyDone none :: evs => (.ok (), w, evs)
  | w, .bodyDone (some e) :: evs => (.exc e, w, evs)
  | w, .bodyGotCancel :: evs =>
    if w.mustCancel then userBodyLoop w.throwCancel evs else userBodyLoop w evs
  | w, ev :: evs => userBodyLoop (w.env none ev) evs

@[inherit_doc userBodyLoop]
def userBody : Coro Unit := userBodyLoop

/-- shellous/runner.py:968-988 `run_command`, i.e. `await cmd`, after the check of multiple captures
(Model/Launch `runCommandStart`). `futErr`: the exception of `_run_future.set_result`, if it is used
and raises. -/
def runCommand (cfg : RCfg) (futErr : Option Exc := none) : Coro Returned := do
  withRun cfg (raiseOpt futErr)
  let r ← runResult cfg
  if cfg.opts.returnResult then Coro.pure (.result r)
  else match cfg.decode r.outputBytes r.encoding with
    | .ok t => Coro.pure (.text t)
    | .error e => Coro.raise e

/-- The world when a runner is created: nothing has been started. The caller may have a pending
cancellation. -/
structure W.Fresh (w : W) : Prop where
  tasks : w.tasks = []
  proc : w.proc = none
  attached : w.attached = false
  mine : w.mine = []
  cancelled : w.cancelled = false
  timedOut : w.timedOut = false
  timer : w.timer = false
  lastSignal : w.lastSignal = none
  trace : w.trace = []
  cli : w.cli = none

end Shellous
