import Verif.Model.Run

/-!
# Running one command with an `audit_callback` that may raise

The functions of Model/Run that call `_audit_callback` (shellous/runner.py:930-946), directly or not, with
the exception of the callback as one more parameter. A callback called because user code calls
`run.send_signal` raises into that user code; this is not modelled.
-/

namespace Shellous

/-- The callback: given everything observed so far, of which the last element is the call itself, the
exception that it raises, if any. -/
abbrev Callback := List Obs → Option Exc

/-- shellous/runner.py:930-946 `_audit_callback`. -/
def audit (cb : Callback) (o : Obs) : Coro Unit := do
  Coro.upd (·.log o)
  let w ← Coro.get
  raiseOpt (cb w.trace)

/-- shellous/runner.py:599-603: `_signal` after the callback. -/
def W.sendSignal (sig : Option Nat) (w : W) : W :=
  match w.proc with
  | none => w
  | some p =>
    let w := if p.exited.isNone then w.log (.kill false sig) else w
    { w with
      proc := some p.signalReaps
      lastSignal := match sig with
        | some s => some s
        | none => w.lastSignal }

/-- shellous/runner.py:591-603 `_signal`. -/
def signalA (cb : Callback) (sig : Option Nat) : Coro Unit := do
  let w ← Coro.get
  Coro.when w.proc.isSome (do
    audit cb (.auditSignal false sig)
    Coro.upd (·.sendSignal sig))

/-- shellous/runner.py:605-623 `_kill_wait`. -/
def killWaitA (cb : Callback) : Coro Unit := do
  let w ← Coro.get
  Coro.when (!w.rcKnown) (Coro.catch_
    (do
      signalA cb none
      let i ← createTask .waiter
      harvest [i] true)
    fun e => if e = .timeout then killWaitExpired else Coro.raise e)

/-- shellous/runner.py:568-578: the `try` block of `_kill`. -/
def killTryA (cb : Callback) (cfg : RCfg) : Coro Unit := do
  let w ← Coro.get
  Coro.when (!w.rcKnown) (signalA cb cfg.opts.cancelSignal)
  Coro.when (w.mine ≠ []) (harvest w.mine cfg.cancelTimed)
  let w ← Coro.get
  Coro.when (!w.rcKnown) (do
    let i ← createTask .waiter
    harvest [i] cfg.cancelTimed)

/-- shellous/runner.py:561-589 `_kill`. -/
def killA (cb : Callback) (cfg : RCfg) : Coro Unit :=
  Coro.catch_ (killTryA cb cfg) fun e =>
    if e = .cancelled ∨ e = .timeout then do
      Coro.when (e = .cancelled) (Coro.upd W.setCancelled)
      killWaitA cb
    else do
      killWaitA cb
      Coro.raise e

/-- shellous/runner.py:526-547 `_wait`. -/
def waitRunA (cb : Callback) (cfg : RCfg) : Coro Unit :=
  Coro.catch_ (waitTry cfg)
    fun e =>
      if e = .cancelled then do
        Coro.upd fun w => { w.setCancelled with mine := [] }
        killA cb cfg
      else do
        Coro.upd fun w => { w with mine := [] }
        killA cb cfg
        Coro.raise e

/-- shellous/runner.py:885-893: the `try` block of `_finish`. -/
def finishTryA (cb : Callback) (cfg : RCfg) : Option Exc → Coro Bool
  | some e => do
    Coro.when (e = .cancelled) (Coro.upd W.setCancelled)
    killA cb cfg
    let w ← Coro.get
    Coro.pure w.cancelled
  | none => do
    waitRunA cb cfg
    Coro.pure false

/-- shellous/runner.py:880-896 `_finish`. -/
def finishA (cb : Callback) (cfg : RCfg) (ex : Option Exc) : Coro Bool :=
  Coro.finally_ (finishTryA cb cfg ex) (closeRun cfg)

/-- shellous/runner.py:854-878 `__aexit__`. -/
def aexitA (cb : Callback) (cfg : RCfg) (ex : Option Exc) : Coro Bool := do
  let suppress ← Coro.finally_
    (Coro.catch_ (finishA cb cfg ex) fun e =>
      if e = .cancelled then do
        Coro.upd W.setCancelled
        Coro.pure false
      else Coro.raise e)
    (do
      Coro.upd W.stopTimer
      audit cb (.auditStop none))
  let w ← Coro.get
  if w.cancelled && w.timedOut && !cfg.opts.catchCancelled then Coro.raise .timeout
  else Coro.pure suppress

/-- shellous/runner.py:640-710 `_start`. -/
def startRunA (cb : Callback) (cfg : RCfg) : Coro Unit := do
  Coro.catch_ (startTry cfg) fun e => do
    Coro.when (e = .cancelled) (Coro.upd W.setCancelled)
    let w ← Coro.get
    Coro.when w.attached (killA cb cfg)
    Coro.raise e
  Coro.when (!cfg.bsdPty) (addTask .waiter)
  Coro.when cfg.opts.timeout.isSome (Coro.upd fun w => { w with timer := true })

/-- shellous/runner.py:625-638 `__aenter__`. -/
def aenterA (cb : Callback) (cfg : RCfg) : Coro Unit := do
  audit cb .auditStart
  Coro.finally_
    (Coro.catch_ (startRunA cb cfg) fun e => do
      Coro.upd W.stopTimer
      audit cb (.auditStop (some e))
      Coro.raise e)
    (do
      let w ← Coro.get
      Coro.when (w.cancelled && cfg.opts.catchCancelled) (do
        let _ ← runResult cfg))

/-- Python's `async with Runner(cmd) as run: body`. -/
def withRunA (cb : Callback) (cfg : RCfg) (body : Coro Unit) : Coro Unit := do
  aenterA cb cfg
  Coro.upd (·.log .bodyStart)
  let r ← attempt body
  Coro.upd (·.log (.bodyEnd r))
  let suppress ← aexitA cb cfg r
  match r with
  | none => Coro.pure ()
  | some e => if suppress then Coro.pure () else Coro.raise e

/-- shellous/runner.py:968-988 `run_command`. -/
def runCommandA (cb : Callback) (cfg : RCfg) (futErr : Option Exc := none) : Coro Returned := do
  withRunA cb cfg (raiseOpt futErr)
  let r ← runResult cfg
  if cfg.opts.returnResult then Coro.pure (.result r)
  else match cfg.decode r.outputBytes r.encoding with
    | .ok t => Coro.pure (.text t)
    | .error e => Coro.raise e

end Shellous
