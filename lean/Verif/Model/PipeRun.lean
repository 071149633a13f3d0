import Verif.Model.Run

/-!
# Running a pipeline (shellous/runner.py `PipeRunner`)

Each command of the pipeline is run by its own task (`Runner.run_command`, Model/Run): for the
pipeline, that task is an awaitable that ends with any outcome at any time. Descriptors of the pipeline are
in Model/Launch (`setupPipeline`, `pipeStart`).
-/

namespace Shellous

/-- Everything a pipeline run depends on besides the schedule. -/
structure PRCfg where
  /-- number of commands -/
  n : Nat
  /-- the options of the pipeline, i.e. of its last command (runner.py:1037-1043) -/
  opts : Options := {}
  /-- the exception of `_setup_pipeline`, if it raises (see Model/Launch) -/
  setupErr : Option Exc := none
  /-- `decode_bytes` -/
  decode : Bytes → Text → Except Exc Text := fun _ _ => .ok []

/-- What a finished command contributes to `PipeRunner._results` (harvest.py:204-214). The tasks of a
pipeline return a `Result` (`_return_result=True`, runner.py:1175-1178); any other value would fail the
assertion in result.py:147. -/
def TOut.item : TOut → Item
  | .val (some r) => .res r
  | .val none => .exc .assertionError
  | .err e => .exc e
  | .cancelled => .exc .cancelled

/-- shellous/runner.py:1180-1208 `_setup_capturing`: two futures, one task per command, and
`asyncio.gather(first_fut, last_fut)`. Only the first and last command's tasks set the futures
(runner.py:981-983). When the gather is cancelled it also cancels the futures, so that a command that is
just being launched fails; a command's task may end with any outcome at any time in this model. -/
def setupCapturing (n : Nat) : Coro Unit := do
  let w ← Coro.get
  let f1 ← createTask (.ready (w.tasks.length + 2))
  let f2 ← createTask (.ready (w.tasks.length + 1 + n))
  addTasks n
  wait fun w => w.isDone f1 && w.isDone f2

/-- shellous/runner.py:1130-1157 `_start`. Closing the pipe descriptors has no effect in this model. -/
def pipeStartRun (cfg : PRCfg) (capturing : Bool) : Coro Unit := do
  raiseOpt cfg.setupErr
  if capturing then setupCapturing cfg.n else addTasks cfg.n

/-- shellous/runner.py:1074-1087 `_wait`; returns `self._results`. -/
def pipeWait (kill : Bool) : Coro (List TOut) := do
  let w ← Coro.get
  Coro.when kill (Coro.upd (·.cancelAll w.mine))
  let (cancelled, results) ← harvestResults w.mine
  Coro.when cancelled (Coro.upd fun w => { w with cancelled := true })
  Coro.upd fun w => { w with mine := [] }
  Coro.pure results

/-- shellous/runner.py:1089-1099 `__aenter__`. -/
def pipeAenter (cfg : PRCfg) (capturing : Bool) : Coro Unit :=
  Coro.catch_ (pipeStartRun cfg capturing) fun e => do
    Coro.when (e = .cancelled) (Coro.upd fun w => { w with cancelled := true })
    let _ ← pipeWait true
    Coro.raise e

/-- shellous/runner.py:1117-1128 `_finish`: the value returned and `self._results`. -/
def pipeFinish : Option Exc → Coro (Bool × List TOut)
  | some e => do
    Coro.when (e = .cancelled) (Coro.upd fun w => { w with cancelled := true })
    let l ← pipeWait true
    let w ← Coro.get
    Coro.pure (w.cancelled, l)
  | none => do
    let l ← pipeWait false
    Coro.pure (false, l)

/-- shellous/runner.py:1101-1115 `__aexit__`: the value returned and `self._results`. -/
def pipeAexit (ex : Option Exc) : Coro (Bool × Option (List TOut)) :=
  Coro.catch_
    (do
      let (s, l) ← pipeFinish ex
      Coro.pure (s, some l))
    fun e =>
      if e = .cancelled then do
        Coro.upd fun w => { w with cancelled := true }
        Coro.pure (false, none)
      else Coro.raise e

/-- Python's `async with PipeRunner(pipe, capturing=...) as run: body`; returns `run._results`. -/
def withPipe (cfg : PRCfg) (capturing : Bool) (body : Coro Unit) : Coro (Option (List TOut)) := do
  pipeAenter cfg capturing
  Coro.upd (·.log .bodyStart)
  let r ← attempt body
  Coro.upd (·.log (.bodyEnd r))
  let (suppress, results) ← pipeAexit r
  match r with
  | none => Coro.pure results
  | some e => if suppress then Coro.pure results else Coro.raise e

/-- shellous/runner.py:1053-1061 `PipeRunner.result(check=...)`. -/
def pipeRunResult (cfg : PRCfg) (results : Option (List TOut)) (check : Bool := true) : Coro Result := do
  let w ← Coro.get
  match results with
  | none => Coro.raise .assertionError
  | some l =>
    match pipeResult (l.map TOut.item) w.cancelled cfg.opts check with
    | .ok r => Coro.pure r
    | .error e => Coro.raise e

/-- shellous/runner.py:1231-1241 `run_pipeline`, i.e. `await pipeline`. -/
def runPipeline (cfg : PRCfg) : Coro Returned := do
  let results ← withPipe cfg false (Coro.pure ())
  let r ← pipeRunResult cfg results
  if cfg.opts.returnResult then Coro.pure (.result r)
  else match cfg.decode r.outputBytes r.encoding with
    | .ok t => Coro.pure (.text t)
    | .error e => Coro.raise e

/-- shellous/pipeline.py:267-284: `async with pipeline as run: <anything>`. -/
def pipeBlock (cfg : PRCfg) : Coro (Option (List TOut)) := withPipe cfg true userBody

end Shellous
