import Verif.Model.PipeRun

/-!
# Prompt sessions (`async with cmd.prompt() as cli: ...`)

`contextlib.asynccontextmanager` runs the generator up to its `yield`, then the user's block, then the rest of the
generator, with the exception of the block raised at the `yield`; an exception that the generator does not let out is
suppressed. So the user's block is in the place of the `yield`. `GeneratorExit` (a generator that is thrown away) is not
modelled.
-/

namespace Shellous

/-- What `prompt()` depends on besides the command. -/
structure PromptCfg where
  /-- the exception of `Prompt(...)` if it raises (an unknown encoding, prompt.py:73-88) -/
  ctorErr : Option Exc := none
  /-- the exception of `cli.close()` if it raises (prompt.py:399-414) -/
  closeErr : Option Exc := none

/-- shellous/command.py:698-706, pipeline.py:131-139: make the `Prompt`, run the user's block, `cli.close()`. -/
def promptBody (p : PromptCfg) : Coro Unit := do
  raiseOpt p.ctorErr
  Coro.upd fun w => { w with cli := some none }
  userBody
  raiseOpt p.closeErr

/-- shellous/prompt.py:416-424 `Prompt._finish_`, if there is a `cli` (command.py:707-709, pipeline.py:140-142);
`res` is `self._runner.result(check=False)`. -/
def finishCli (res : Coro Result) : Coro Unit := do
  let w ← Coro.get
  Coro.when w.cli.isSome (do
    let r ← res
    Coro.upd fun w => { w with cli := some (some r) })

/-- shellous/command.py:672-709 `Command.prompt` and the user's block. (`cmd` is `self` with standard input and
output captured, command.py:694: its run is one of those in Model/Run, its wiring in Model/Launch.) -/
def withPrompt (cfg : RCfg) (p : PromptCfg) : Coro Unit :=
  Coro.finally_ (withRun cfg (promptBody p)) (finishCli (runResult cfg false))

/-- Run a coroutine and return its exception, or its value. -/
def attemptValue {α : Type} (c : Coro α) : Coro (Exc ⊕ α) := fun w evs =>
  match c w evs with
  | (.ok a, w, evs) => (.ok (.inr a), w, evs)
  | (.exc e, w, evs) => (.ok (.inl e), w, evs)
  | (.blocked, w, evs) => (.blocked, w, evs)

/-- shellous/pipeline.py:105-142 `Pipeline.prompt` and the user's block: `async with PipeRunner(...)` as in `withPipe`,
with the `finally` clause after it. When `__aexit__` raises, `_wait` has not set `_results` (runner.py:1084). -/
def withPipePrompt (cfg : PRCfg) (p : PromptCfg) : Coro Unit := do
  pipeAenter cfg true
  Coro.upd (·.log .bodyStart)
  let r ← attempt (promptBody p)
  Coro.upd (·.log (.bodyEnd r))
  let x ← attemptValue (pipeAexit r)
  match x with
  | .inl e => do
    finishCli (pipeRunResult cfg none false)
    Coro.raise e
  | .inr (suppress, results) => do
    finishCli (pipeRunResult cfg results false)
    match r with
    | none => Coro.pure ()
    | some e => if suppress then Coro.pure () else Coro.raise e

/-- shellous/prompt.py:127-145: what `cli.result` gives, if there is a `cli`. -/
def W.cliResult (w : W) : Option (Except Exc Result) :=
  match w.cli with
  | none => none
  | some none => some (.error .runtimeError)
  | some (some r) => some (.ok r)

end Shellous
