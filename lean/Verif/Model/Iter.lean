import Verif.Model.PromptRun
import Verif.Model.Launch
import Verif.Model.Streams

/-!
# Iteration over the lines of a command or a pipeline (`async for line in cmd: ...`)

`async for` is driven by the *consumer*, the task that executes the loop. The async generator `Command._readlines`
(shellous/command.py:732-736) is suspended either in `StreamReader.readline`, where the consumer waits, or at its
`yield`, while the consumer executes the body of its loop. A cancellation of the consumer is thrown into the generator
only in the first case; in the second the body of the loop gets it. A generator that is closed by another task (the
event loop does this with a generator that was thrown away) is not modelled.
-/

namespace Shellous

/-- Something that happens to the `StreamReader`: data, end of file, or an exception set by the transport. -/
inductive Arrival where
  | data (b : Bytes)
  | eof
  | failed (e : Exc)

/-- The same, as an event of Model/Streams. -/
def Arrival.ev : Arrival → SEv
  | .data b => .feed b
  | .eof => .eof
  | .failed e => .exc e

/-- What an iteration depends on besides the command. -/
structure GenCfg where
  /-- is there a stream to read: `self.stdout or self.stderr` (runner.py:959, 1222)? -/
  stream : Bool := true
  /-- the limit of the `StreamReader` -/
  limit : Nat := 65536
  /-- `decode_bytes` with the encoding of the command -/
  decode : Bytes → Except Exc Text
  /-- what arrives at the reader between the generator's attempts to read, before attempt 0, 1, ... -/
  arrive : Nat → List Arrival

/-- The state of the generator: the reader, how often it tried to read, the lines handed to the consumer. -/
structure GenSt where
  ls : LineSt := {}
  tries : Nat := 0
  out : List Text := []

/-- What the generator does when it runs: wait for more data, yield a line, return or raise. -/
inductive GenNext where
  | wait
  | yield
  | stop (e : Option Exc)
deriving DecidableEq

/-- shellous/redirect.py:284-288 `read_lines`: one attempt to read a line (`async for line in stream`), and
`yield decode_bytes(line, encoding)`. -/
def genTry (gc : GenCfg) (g : GenSt) : GenSt × GenNext :=
  let ls := (gc.arrive g.tries).foldl (fun s a => lineStep gc.limit s a.ev) g.ls
  let ls' := lineStep gc.limit ls .go
  let g' : GenSt := { g with ls := ls', tries := g.tries + 1 }
  match ls'.st with
  | .raised e => (g', .stop (some e))
  | .done => (g', .stop none)
  | .running =>
    match ls'.lines.drop ls.lines.length with
    | [] => (g', .wait)
    | line :: _ =>
      match gc.decode line with
      | .error e => (g', .stop (some e))
      | .ok t => ({ g' with out := g.out ++ [t] }, .yield)

/-- The generator between two of its steps; `atYield` tells where it is suspended. At the `yield`, `resume` is the
consumer's next `__anext__()`, `bodyDone (some e)` an exception raised at the `yield` (by `aclose()` or `athrow()`), and
`bodyGotCancel` a cancellation received by the body of the consumer's loop. In `readline`, `resume` is an attempt of
the event loop to resume the consumer. -/
def genLoop (gc : GenCfg) : Bool → GenSt → W → List Ev → Out (Option Exc × GenSt) × W × List Ev
  | _, _, w, [] => (.blocked, w, [])
  | atYield, g, w, .resume :: evs =>
    if !atYield && w.mustCancel then (.ok (some .cancelled, g), w.throwCancel, evs)
    else match genTry gc g with
      | (g', .wait) => genLoop gc false g' w evs
      | (g', .yield) => genLoop gc true g' w evs
      | (g', .stop e) => (.ok (e, g'), w, evs)
  | atYield, g, w, .bodyDone (some e) :: evs =>
    if atYield then (.ok (some e, g), w, evs) else genLoop gc atYield g w evs
  | atYield, g, w, .bodyGotCancel :: evs =>
    if atYield && w.mustCancel then genLoop gc atYield g w.throwCancel evs else genLoop gc atYield g w evs
  | atYield, g, w, ev :: evs => genLoop gc atYield g (w.env none ev) evs

/-- shellous/runner.py:957-962, 1220-1225 `_readlines`: the body of the `async with` of the generator, up to its end or
to its exception. The first attempt to read is made at once. -/
def genBody (gc : GenCfg) : Coro (Option Exc × GenSt) := fun w evs =>
  if gc.stream then
    match genTry gc {} with
    | (g, .wait) => genLoop gc false g w evs
    | (g, .yield) => genLoop gc true g w evs
    | (g, .stop e) => (.ok (e, g), w, evs)
  else (.ok (none, {}), w, evs)

/-- shellous/command.py:732-736 `_readlines`: `async with Runner(self) as run: async for line in run: yield line`. It
returns the exception with which the generator ended (none: `StopAsyncIteration`, the consumer's loop ends normally) and
its state. (`aiter_preflight` is in Model/Launch, `iterStart`.) -/
def iterate (cfg : RCfg) (gc : GenCfg) : Coro (Option Exc × GenSt) := do
  let e0 ← attempt (aenter cfg)
  match e0 with
  | some e => Coro.pure (some e, {})
  | none => do
    Coro.upd (·.log .bodyStart)
    let (r, g) ← genBody gc
    Coro.upd (·.log (.bodyEnd r))
    let x ← attemptValue (aexit cfg r)
    match x, r with
    | .inl e, _ => Coro.pure (some e, g)
    | .inr _, none => Coro.pure (none, g)
    | .inr suppress, some e => Coro.pure (if suppress then none else some e, g)

/-- shellous/pipeline.py:238-242 `_readlines`: the same with `PipeRunner(self, capturing=True)`. -/
def pipeIterate (cfg : PRCfg) (gc : GenCfg) : Coro (Option Exc × GenSt) := do
  let e0 ← attempt (pipeAenter cfg true)
  match e0 with
  | some e => Coro.pure (some e, {})
  | none => do
    Coro.upd (·.log .bodyStart)
    let (r, g) ← genBody gc
    Coro.upd (·.log (.bodyEnd r))
    let x ← attemptValue (pipeAexit r)
    match x, r with
    | .inl e, _ => Coro.pure (some e, g)
    | .inr _, none => Coro.pure (none, g)
    | .inr (suppress, _), some e => Coro.pure (if suppress then none else some e, g)

/-- The stream an iteration reads: `self.stdout or self.stderr` (shellous/runner.py:959). -/
def Wired.iterStream (wd : Wired) : Option Stream := wd.stdout.or wd.stderr

end Shellous
