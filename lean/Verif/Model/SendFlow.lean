import Verif.Model.Flow

/-!
# The flow of data in a prompt session

The child, the pipes to and from it with their limited capacity, the buffers of the event loop's streams, and the calls of the prompt API: all of
them take their steps in any order. The child is a program as in Model/Flow. Its standard error is drained by a task of its own (C85) or goes
elsewhere, so writing there never waits here. Timeouts and cancellation of `send` are in Model/Prompt (C73); characters are in Model/Prompt
(C48), here there are only bytes and the question whether they can be decoded.
-/

namespace Shellous.SendFlow

open Shellous.Flow

/-- What is given. -/
structure SCfg (S : Type) where
  act : S → Act S
  prog : S
  /-- The capacities of the pipes to and from the child. -/
  inCap : Nat
  outCap : Nat
  /-- The limits of the writer (asyncio: 64 KiB and 16 KiB): `drain()` waits from the time when more than `high` bytes are buffered until at
  most `low` are. -/
  high : Nat
  low : Nat
  /-- The limit of the reader: reading from the pipe pauses when more than `2 * limit` bytes are buffered, until at most `limit` are. -/
  limit : Nat
  /-- shellous/prompt.py:71, 84 `_chunk_size`, the most that one `read` returns. -/
  chunk : Nat
  /-- The decoder accepts these bytes (all that were received so far). -/
  decodes : List Byte → Bool := fun _ => true

/-- The task that reads while `send` waits (shellous/prompt.py:499-501). -/
inductive Reader where
  | notStarted | running | finished
deriving DecidableEq, Repr

/-- All that there is. -/
structure SNet (S : Type) where
  loc : Loc S
  /-- All bytes that were passed to `send`, and those that the child has read. -/
  sent : List Byte := []
  taken : List Byte := []
  /-- In the writer's buffer, and in the pipe to the child. -/
  wbuf : List Byte := []
  inPipe : List Byte := []
  /-- `drain()` has to wait. -/
  wPaused : Bool := false
  /-- The writer has noticed that nobody reads. -/
  broken : Bool := false
  /-- In the pipe from the child, and in the reader's buffer. -/
  outPipe : List Byte := []
  stream : List Byte := []
  rPaused : Bool := false
  /-- The reader has seen the end of the pipe. -/
  eof : Bool := false
  /-- The bytes that the session has read. -/
  got : List Byte := []
  /-- shellous/prompt.py:61 `_at_eof`. -/
  atEof : Bool := false
  /-- A call of `send` that has not ended, and its reader task. -/
  sending : Option Reader := none

variable {S : Type}

/-- The child has the read end of its standard input. -/
def SNet.reads (n : SNet S) : Bool := n.loc.code.isNone && n.loc.inOpen

/-- The child has the write end of its standard output. -/
def SNet.writes (n : SNet S) : Bool := n.loc.code.isNone && n.loc.outOpen

/-- Before the first call. -/
def SCfg.init (cfg : SCfg S) : SNet S := { loc := { st := cfg.prog } }

/-- Whose turn it is. -/
inductive Turn where
  /-- The user calls `send`; the first `now` bytes go straight into the pipe. -/
  | call (data : List Byte) (now : Nat)
  /-- The user's `expect` or `read_all` reads a chunk. -/
  | look
  /-- The child. -/
  | child
  /-- The event loop writes `k` bytes to the pipe. -/
  | flush (k : Nat)
  /-- The event loop finds that the child does not read any more. -/
  | breaks
  /-- The event loop reads `k` bytes from the pipe; the end of the pipe. -/
  | recv (k : Nat)
  | recvEof
  /-- The reader task of `send` starts; it reads a chunk. -/
  | start
  | readSome
  /-- `drain()` returns or raises, and `send` ends. -/
  | drained
deriving DecidableEq, Repr

/-- Write bytes from the writer's buffer to the pipe (asyncio `_UnixWritePipeTransport._write_ready` and `_maybe_resume_protocol`). -/
def SCfg.flushed (cfg : SCfg S) (n : SNet S) (k : Nat) : SNet S :=
  { n with
    inPipe := n.inPipe ++ n.wbuf.take k
    wbuf := n.wbuf.drop k
    wPaused := n.wPaused && decide (cfg.low < (n.wbuf.drop k).length) }

/-- One `read` of a chunk (asyncio `StreamReader.read`, `_maybe_resume_transport`), and the decoder (shellous/prompt.py:526-538, 440-462). The answer:
whether the decoder raises. `none`: nothing there yet. -/
def SCfg.readChunk (cfg : SCfg S) (n : SNet S) : Option (Bool × SNet S) :=
  if n.stream = [] then
    if n.eof then some (false, { n with atEof := true }) else none
  else
    let got := n.got ++ n.stream.take cfg.chunk
    let rest := n.stream.drop cfg.chunk
    some (!cfg.decodes got, { n with got, stream := rest, rPaused := n.rPaused && decide (cfg.limit < rest.length) })

/-- The step of the child; `none` if it has to wait. -/
def SCfg.childStep (cfg : SCfg S) (n : SNet S) : Option (SNet S) :=
  let go (a : Option Byte) : Loc S := lstep cfg.act (fun _ => a) n.loc
  match cfg.act n.loc.st with
  | .read _ =>
    if n.loc.inOpen then
      match n.inPipe with
      | b :: r => some { n with loc := go (some b), inPipe := r, taken := n.taken ++ [b] }
      | [] => none
    else some { n with loc := go none }
  | .out b _ =>
    if n.loc.outOpen then
      if n.outPipe.length < cfg.outCap then some { n with loc := go none, outPipe := n.outPipe ++ [b] } else none
    else some { n with loc := go none }
  | _ => some { n with loc := go none }

/-- One step; `none` if it is not possible. -/
def SCfg.step (cfg : SCfg S) (n : SNet S) : Turn → Option (SNet S)
  -- shellous/prompt.py:190-200: `stdin.write(data)`, then `_drain`
  | .call data now =>
    if n.sending = none ∧ now ≤ data.length ∧ (now = 0 ∨ (n.wbuf = [] ∧ n.inPipe.length + now ≤ cfg.inCap)) then
      let wbuf := n.wbuf ++ data.drop now
      some { n with
        sent := n.sent ++ data, inPipe := n.inPipe ++ data.take now, wbuf
        wPaused := n.wPaused || decide (cfg.high < wbuf.length)
        sending := some .notStarted }
    else none
  -- shellous/prompt.py:426-470 `_read_to_pattern`: the caller waits for a chunk
  | .look =>
    if n.sending = none ∧ n.atEof = false then (cfg.readChunk n).map (·.2) else none
  | .child => if n.loc.code = none then cfg.childStep n else none
  | .flush k =>
    if 0 < k ∧ k ≤ n.wbuf.length ∧ n.inPipe.length + k ≤ cfg.inCap ∧ n.reads = true then some (cfg.flushed n k) else none
  | .breaks => if n.reads = false ∧ n.broken = false then some { n with broken := true } else none
  | .recv k =>
    if 0 < k ∧ k ≤ n.outPipe.length ∧ n.rPaused = false then
      let stream := n.stream ++ n.outPipe.take k
      some { n with stream, outPipe := n.outPipe.drop k, rPaused := decide (2 * cfg.limit < stream.length) }
    else none
  | .recvEof =>
    if n.outPipe = [] ∧ n.writes = false ∧ n.rPaused = false ∧ n.eof = false then some { n with eof := true } else none
  -- shellous/prompt.py:510-538 `_read_some`
  | .start =>
    if n.sending = some .notStarted then some { n with sending := some (if n.atEof then .finished else .running) } else none
  | .readSome =>
    if n.sending = some .running then
      (cfg.readChunk n).map fun x => { x.2 with sending := some (if x.1 || x.2.atEof then .finished else .running) }
    else none
  -- shellous/prompt.py:502-508: `await stream.drain()`, and the reader task is cancelled
  | .drained =>
    if n.sending ≠ none ∧ (n.wPaused = false ∨ n.broken = true) then some { n with sending := none } else none

/-- Any number of steps, all of them possible. -/
def SCfg.run (cfg : SCfg S) (n : SNet S) : List Turn → Option (SNet S)
  | [] => some n
  | t :: ts =>
    match cfg.step n t with
    | some n => cfg.run n ts
    | none => none

end Shellous.SendFlow
