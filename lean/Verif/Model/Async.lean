import Verif.Model.Result

/-!
# A small model of asyncio, of one child process and of the adversary that drives them

A coroutine is a function from the world and the list of future *events* to an outcome, the new
world and the events not consumed. Events are applied only while the coroutine is suspended
(asyncio is cooperative). When the event list runs out while the coroutine is suspended the outcome is
`blocked`: quantifying over all event lists therefore covers every schedule and every intermediate
(crash) point of it.
-/

namespace Shellous

/-- The outcome of an `asyncio.Task`: a value (`some r`: a `Result`; `none`: anything else), an
exception that is not `CancelledError`, or cancelled. -/
inductive TOut where
  | val (r : Option Result)
  | err (e : Exc)
  | cancelled
deriving DecidableEq

/-- The background tasks of the library, by the coroutine they run:
`io`: any stream copy or process substitution (runner.py:732, 799-849), or an arbitrary awaitable;
`waiter`: `Runner._waiter` (runner.py:748-758);
`spawn`: `Runner._subprocess_exec` (runner.py:735-745);
`closer`: `proc.stdin.wait_closed()` (runner.py:921).
`ready owner`: not a task but the future that tells a captured pipeline that the command run by task
`owner` has been launched (runner.py:983, 1185-1186); kept in the same list. -/
inductive TaskKind where
  | io
  | waiter
  | spawn
  | closer
  | ready (owner : Nat)
deriving DecidableEq

/-- An `asyncio.Task`: its outcome when done, and how many times `cancel()` was called on it while it
was not done. -/
structure TaskSt where
  kind : TaskKind
  out : Option TOut := none
  cancels : Nat := 0
deriving DecidableEq

/-- One child process. `exited`: it has terminated, with this status. `reaped`: some `waitpid` has
consumed the zombie, and asyncio's child watcher will report this code. `rc`: asyncio's
`Process.returncode`. -/
structure Proc where
  exited : Option Int := none
  reaped : Option Int := none
  rc : Option Int := none
deriving DecidableEq

/-- What can be seen from outside, in order. The `byUser` flag tells signals the user asked for
(`run.send_signal`, `run.cancel`) from those of the library. -/
inductive Obs where
  /-- audit callback, phase "start" -/
  | auditStart
  /-- audit callback, phase "signal"; `none` is SIGKILL (runner.py:597) -/
  | auditSignal (byUser : Bool) (sig : Option Nat)
  /-- audit callback, phase "stop" with the name of the failure if any -/
  | auditStop (failure : Option Exc)
  /-- `os.kill` is called on the child -/
  | kill (byUser : Bool) (sig : Option Nat)
  /-- SIGKILL sent by asyncio's `transport.close()` to a child not known to have exited -/
  | closeKill
  /-- `CancelledError` is thrown into the modelled coroutine -/
  | thrown
  /-- harvest.py:201 "Harvest._cancel_waiter failed" -/
  | gaveUp
  /-- harvest.py:175 "_cancel_wait cancelled itself" -/
  | cleanupCancelled
  /-- runner.py:622 "failed to kill process" -/
  | unableToKill
  /-- runner.py:912 "process still running" -/
  | stillRunning
  /-- runner.py:928 "timeout stdin" -/
  | closeTimeout
  /-- the body of the `async with` starts -/
  | bodyStart
  /-- the body of the `async with` has ended, with this exception if any -/
  | bodyEnd (failure : Option Exc)
deriving DecidableEq

/-- The state of the world around one coroutine (the *caller*, the task that runs the modelled code). -/
structure W where
  /-- every task, in order of creation -/
  tasks : List TaskSt := []
  /-- `CancelledError` will be thrown into the caller when it is resumed -/
  mustCancel : Bool := false
  /-- how many times `cancel()` was called on the caller -/
  cancels : Nat := 0
  /-- the child process, as the operating system sees it -/
  proc : Option Proc := none
  /-- `Runner._proc is not None` -/
  attached : Bool := false
  /-- `Runner._tasks` (indices into `tasks`) -/
  mine : List Nat := []
  /-- `Runner._cancelled` -/
  cancelled : Bool := false
  /-- `Runner._timed_out` -/
  timedOut : Bool := false
  /-- `Runner._timer is not None` -/
  timer : Bool := false
  /-- `Runner._last_signal` -/
  lastSignal : Option Nat := none
  /-- `CancelledError`s thrown, signals, audit callbacks and logs so far -/
  trace : List Obs := []
  /-- the `Prompt` object made by `cmd.prompt()`, if any, and its `_result` (prompt.py:62) -/
  cli : Option (Option Result) := none
deriving DecidableEq

/-- Events: what can happen while the caller is suspended. -/
inductive Ev where
  /-- task `i` finishes -/
  | taskDone (i : Nat) (out : TOut)
  /-- task `i`, cancelled before its first step, ends without having run -/
  | taskDrop (i : Nat)
  /-- the spawn task has forked the child -/
  | fork
  /-- the child terminates -/
  | exit (status : Int)
  /-- asyncio's child watcher reaps the zombie -/
  | reap
  /-- somebody else has reaped the zombie, the watcher gets ECHILD -/
  | reapLost
  /-- asyncio learns the return code -/
  | deliver
  /-- somebody cancels the caller -/
  | cancel
  /-- the runner's `timeout` timer fires -/
  | timer
  /-- the timer of the current `asyncio.wait` fires -/
  | timeout
  /-- the event loop tries to resume the caller -/
  | resume
  /-- somebody calls `run.send_signal` or `run.cancel` -/
  | userSignal (sig : Option Nat)
  /-- the user's body receives (and handles) the pending `CancelledError` -/
  | bodyGotCancel
  /-- the user's body ends, possibly with an exception -/
  | bodyDone (e : Option Exc)
deriving DecidableEq

/-! ## Tasks -/

/-- `task.done()`. -/
def W.isDone (w : W) (i : Nat) : Bool :=
  match w.tasks[i]? with
  | some t => t.out.isSome
  | none => false

/-- The outcome of a task, if it is done. -/
def W.outOf (w : W) (i : Nat) : Option TOut :=
  match w.tasks[i]? with
  | some t => t.out
  | none => none

/-- `not task.cancelled() and task.exception() is not None` for a done task. -/
def W.failed (w : W) (i : Nat) : Bool :=
  match w.outOf i with
  | some (.err _) => true
  | _ => false

/-- `Task.cancel`: no effect on a done task. How the task reacts is up to the adversary. -/
def TaskSt.cancel (t : TaskSt) : TaskSt :=
  if t.out.isSome then t else { t with cancels := t.cancels + 1 }

/-- `tasks[i].cancel()`. -/
def W.cancelTask (i : Nat) (w : W) : W :=
  { w with tasks := w.tasks.modify i TaskSt.cancel }

/-- `for task in ids: task.cancel()`. -/
def W.cancelAll (ids : List Nat) (w : W) : W := ids.foldl (fun w i => w.cancelTask i) w

/-- Append to the trace. -/
def W.log (o : Obs) (w : W) : W := { w with trace := w.trace ++ [o] }

/-! ## The child process -/

/-- asyncio 3.12 `transport.send_signal` → `subprocess.Popen.send_signal`: `poll()` first (which reaps
a zombie, so that the watcher later finds nothing and reports 255), then `os.kill` only if the child
is still running. The poll and the kill are taken to be one atomic step. -/
def Proc.signalReaps (p : Proc) : Proc :=
  match p.exited, p.reaped with
  | some _, none => { p with reaped := some unknownExitCode }
  | _, _ => p

/-- shellous/runner.py:591-603 `Runner._signal`: audit callback, then signal the child, then remember
the signal (not for `None`, i.e. SIGKILL). -/
def W.signal (byUser : Bool) (sig : Option Nat) (w : W) : W :=
  match w.proc with
  | none => w
  | some p =>
    let w := w.log (.auditSignal byUser sig)
    let w := if p.exited.isNone then w.log (.kill byUser sig) else w
    { w with
      proc := some p.signalReaps
      lastSignal := match sig with
        | some s => some s
        | none => w.lastSignal }

/-- asyncio 3.12 base_subprocess.py `close()`: if the return code is not known, `poll()`, and kill the
child if it still runs. (Closing the pipes has no effect in the model.) -/
def W.transportClose (w : W) : W :=
  match w.proc with
  | none => w
  | some p =>
    if p.rc.isSome then w
    else
      let w := if p.exited.isNone then w.log .closeKill else w
      { w with proc := some p.signalReaps }

/-- shellous/util.py:120-138 `poll_wait_pid`: true and the return code is set if the child has exited;
255 if somebody else has already reaped it (util.py:94-100). -/
def W.pollWaitPid (w : W) : Bool × W :=
  match w.proc with
  | none => (false, w)
  | some p =>
    if p.rc.isSome then (true, w)
    else match p.exited, p.reaped with
      | none, _ => (false, w)
      | some c, none => (true, { w with proc := some { p with reaped := some c, rc := some c } })
      | some _, some _ => (true, { w with proc := some { p with rc := some unknownExitCode } })

/-- Asyncio knows the child's return code (`proc.returncode is not None`). -/
def W.rcKnown (w : W) : Bool :=
  match w.proc with
  | some p => p.rc.isSome
  | none => false

/-- shellous/runner.py:784-787 `_stop_timer`. -/
def W.stopTimer (w : W) : W := { w with timer := false }

/-- shellous/runner.py:760-763 `_set_cancelled`. -/
def W.setCancelled (w : W) : W := { w with cancelled := true, timer := false }

/-! ## Events -/

/-- `cancel()` on the caller. If it directly awaits the unfinished task `fwd`, the request goes to
that task instead (CPython `Task.cancel`: `self._fut_waiter.cancel()`). -/
def W.cancelCaller (fwd : Option Nat) (w : W) : W :=
  match fwd with
  | some i =>
    if w.isDone i then { w with mustCancel := true, cancels := w.cancels + 1 }
    else ({ w with cancels := w.cancels + 1 } : W).cancelTask i
  | none => { w with mustCancel := true, cancels := w.cancels + 1 }

/-- Which outcomes a task of each kind may have in which state of the world.
`waiter` returns when the return code is known, or when cancelled.
`ready` gets its value from the running task `owner`.
`spawn` returns only with a process; asyncio (unix_events.py `_make_subprocess_transport`) kills and awaits
a half-started child before it lets an exception out, unless that wait is cancelled in turn. -/
def W.mayEnd (w : W) (t : TaskSt) (out : TOut) : Bool :=
  match t.kind with
  | .io => true
  | .closer => true
  | .ready owner =>
    match out with
    | .val _ => owner < w.tasks.length && !w.isDone owner
    | .err _ => false
    | .cancelled => false
  | .waiter =>
    match out with
    | .val _ => w.rcKnown
    | .err _ => false
    | .cancelled => 0 < t.cancels
  | .spawn =>
    match out with
    | .val _ => w.proc.isSome
    | .err _ => w.proc.isNone || w.rcKnown
    | .cancelled => 0 < t.cancels && (w.proc.isNone || w.rcKnown || 1 < t.cancels)

/-- Effects of a task that has run to its end: `_waiter` stops the timer (runner.py:757-758),
`_subprocess_exec` sets `Runner._proc` (runner.py:742). -/
def W.endEffect (w : W) (k : TaskKind) (out : TOut) : W :=
  match k with
  | .waiter => w.stopTimer
  | .spawn => match out with
    | .val _ => { w with attached := true }
    | _ => w
  | _ => w

/-- A task raising `CancelledError` is cancelled. -/
def TOut.norm : TOut → TOut
  | .err .cancelled => .cancelled
  | o => o

/-- Set the outcome of task `i`. -/
def W.setOut (w : W) (i : Nat) (out : TOut) : W :=
  { w with tasks := w.tasks.modify i fun t => { t with out := some out } }

/-- Is a spawn task under way? -/
def W.spawning (w : W) : Bool := w.tasks.any fun t => t.kind = .spawn && t.out.isNone

/-- One event. Events that cannot happen in the present state have no effect. -/
def W.env (fwd : Option Nat) (w : W) : Ev → W
  | .taskDone i out =>
    match w.tasks[i]? with
    | none => w
    | some t =>
      if t.out.isNone && w.mayEnd t out.norm then (w.endEffect t.kind out.norm).setOut i out.norm
      else w
  | .taskDrop i =>
    match w.tasks[i]? with
    | none => w
    | some t =>
      if t.out.isNone && 0 < t.cancels && (t.kind != .spawn || w.proc.isNone) then
        w.setOut i .cancelled
      else w
  | .fork => if w.spawning && w.proc.isNone then { w with proc := some {} } else w
  | .exit c =>
    match w.proc with
    | some p => if p.exited.isNone then { w with proc := some { p with exited := some c } } else w
    | none => w
  | .reap =>
    match w.proc with
    | some p =>
      match p.exited, p.reaped with
      | some c, none => { w with proc := some { p with reaped := some c } }
      | _, _ => w
    | none => w
  | .reapLost =>
    match w.proc with
    | some p =>
      match p.exited, p.reaped with
      | some _, none => { w with proc := some { p with reaped := some unknownExitCode } }
      | _, _ => w
    | none => w
  | .deliver =>
    match w.proc with
    | some p =>
      match p.reaped, p.rc with
      | some c, none => { w with proc := some { p with rc := some c } }
      | _, _ => w
    | none => w
  | .cancel => w.cancelCaller fwd
  | .timer =>
    -- shellous/runner.py:778-782 `_set_timer_expired`
    if w.timer then ({ w with timedOut := true, timer := false } : W).cancelCaller fwd else w
  | .userSignal sig =>
    -- shellous/runner.py:512-520: only while the return code is unknown
    if w.attached && !w.rcKnown then w.signal true sig else w
  | .timeout => w
  | .resume => w
  | .bodyGotCancel => w
  | .bodyDone _ => w

/-! ## Coroutines -/

/-- The outcome of running a coroutine: it returned, raised, or is still suspended. -/
inductive Out (α : Type) where
  | ok (a : α)
  | exc (e : Exc)
  | blocked
deriving DecidableEq

/-- A coroutine. -/
def Coro (α : Type) : Type := W → List Ev → Out α × W × List Ev

namespace Coro
variable {α β : Type}

/-- `return a` -/
def pure (a : α) : Coro α := fun w evs => (.ok a, w, evs)

/-- Sequencing. -/
def bind (c : Coro α) (f : α → Coro β) : Coro β := fun w evs =>
  match c w evs with
  | (.ok a, w, evs) => f a w evs
  | (.exc e, w, evs) => (.exc e, w, evs)
  | (.blocked, w, evs) => (.blocked, w, evs)

instance : Monad Coro where
  pure := Coro.pure
  bind := Coro.bind

/-- `raise e` -/
def raise (e : Exc) : Coro α := fun w evs => (.exc e, w, evs)

/-- Read the world. -/
def get : Coro W := fun w evs => (.ok w, w, evs)

/-- Change the world without suspending. -/
def upd (f : W → W) : Coro Unit := fun w evs => (.ok (), f w, evs)

/-- `if b: c` -/
def when (b : Bool) (c : Coro Unit) : Coro Unit := if b then c else Coro.pure ()

/-- `try: c except BaseException as e: h e` (`h` may re-raise). -/
def catch_ (c : Coro α) (h : Exc → Coro α) : Coro α := fun w evs =>
  match c w evs with
  | (.exc e, w, evs) => h e w evs
  | r => r

/-- `try: c finally: f`: an exception of `f` replaces the outcome of `c`. -/
def finally_ (c : Coro α) (f : Coro Unit) : Coro α := fun w evs =>
  match c w evs with
  | (.ok a, w, evs) => (f.bind fun _ => Coro.pure a) w evs
  | (.exc e, w, evs) => (f.bind fun _ => Coro.raise e) w evs
  | r => r

end Coro

/-- Throw the pending `CancelledError` into the caller. -/
def W.throwCancel (w : W) : W := ({ w with mustCancel := false } : W).log .thrown

/-- Suspension of the caller until `ready` holds (checked when the loop tries to resume it) or, if `timed`,
the wait's own timer fired. A pending cancellation wins. `expired`: the timer has fired. -/
def waitLoop (fwd : Option Nat) (ready : W → Bool) (timed : Bool) :
    Bool → W → List Ev → Out Unit × W × List Ev
  | _, w, [] => (.blocked, w, [])
  | expired, w, .resume :: evs =>
    if w.mustCancel then (.exc .cancelled, w.throwCancel, evs)
    else if ready w || expired then (.ok (), w, evs)
    else waitLoop fwd ready timed expired w evs
  | expired, w, .timeout :: evs => waitLoop fwd ready timed (expired || timed) w evs
  | expired, w, ev :: evs => waitLoop fwd ready timed expired (w.env fwd ev) evs

/-- `await` of something that becomes ready. -/
def wait (ready : W → Bool) (timed : Bool := false) (fwd : Option Nat := none) : Coro Unit :=
  waitLoop fwd ready timed false

/-- `asyncio.sleep(0)`: one trip through the event loop. -/
def sleep0 : Coro Unit := wait fun _ => true

/-- `asyncio.create_task(...)`: the index of the new task. -/
def createTask (k : TaskKind) : Coro Nat := fun w evs =>
  (.ok w.tasks.length, { w with tasks := w.tasks ++ [{ kind := k }] }, evs)

/-- CPython 3.12 tasks.py `asyncio.wait(ids, timeout=..., return_when=FIRST_EXCEPTION | ALL_COMPLETED)`.
ValueError on an empty collection. The done/pending split is read from the world afterwards. -/
def asyncWait (ids : List Nat) (timed firstExc : Bool) : Coro Unit :=
  if ids = [] then .raise .valueError
  else wait (fun w => ids.all w.isDone || (firstExc && ids.any w.failed)) timed

/-- The result of a done task: `task.result()`. -/
def taskResult (i : Nat) : Coro (Option Result) := fun w evs =>
  match w.outOf i with
  | some (.val r) => (.ok r, w, evs)
  | some (.err e) => (.exc e, w, evs)
  | some .cancelled => (.exc .cancelled, w, evs)
  | none => (.exc .invalidState, w, evs)

/-- `await task`: a cancellation of the caller is forwarded to the task; a done task is not waited
for. If the task ends cancelled, `CancelledError` is thrown into the caller. -/
def awaitTask (i : Nat) : Coro (Option Result) := do
  let w ← Coro.get
  Coro.when (!w.isDone i) (wait (fun w => w.isDone i) false (some i))
  let w ← Coro.get
  Coro.when (w.outOf i = some .cancelled) (Coro.upd (·.log .thrown))
  taskResult i

end Shellous
