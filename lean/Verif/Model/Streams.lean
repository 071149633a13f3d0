import Verif.Model.Codec

/-!
# Stream copies (shellous/redirect.py:115-288, shellous/runner.py:1288-1299)

A copy is a coroutine. It is modelled as a machine that is driven by a list of events: data and EOF
arriving at the reader, `go` (the coroutine runs until its next `await` of a read/drain), `exc e` (its
current `await` raises `e`: cancellation or a transport error). Because theorems quantify over *all*
event lists they cover every chunking, every schedule and every interruption point.
-/

namespace Shellous

/-- Events seen by a copy coroutine. -/
inductive SEv where
  | feed (b : Bytes)
  | eof
  | go
  | exc (e : Exc)

/-- Where a coroutine is. -/
inductive Status where
  | running
  | done
  | raised (e : Exc)
deriving DecidableEq

/-- `asyncio.StreamReader` (CPython Lib/asyncio/streams.py): internal buffer and EOF flag. -/
structure SR where
  buffer : Bytes := []
  eof : Bool := false

/-- `feed_data` (not legal after EOF, then ignored). -/
def SR.feed (s : SR) (b : Bytes) : SR := if s.eof then s else { s with buffer := s.buffer ++ b }

/-- `StreamReader.read(n)`, `n > 0`: `none` means that the caller has to wait. -/
def SR.read (s : SR) (n : Nat) : Option (Bytes × SR) :=
  if s.buffer.isEmpty && !s.eof then none
  else some (s.buffer.take n, { s with buffer := s.buffer.drop n })

/-- shellous/redirect.py:17 `_CHUNK_SIZE`. -/
def chunkSize : Nat := 8192

/-- A copy coroutine: the stream it reads, its local state and destination, where it is. -/
structure CopySt (δ : Type) where
  sr : SR := {}
  dest : δ
  st : Status := .running

/-- The loop `while True: data = await source.read(_CHUNK_SIZE); if not data: break; ...` common to
shellous/redirect.py:199-204, 227-231, 238-242, 254-267. `onData` is the loop body and `final` what
follows the loop: normally (`none`) or when an exception passes through (`some e`). -/
def copyStep {δ : Type} (onData : δ → Bytes → δ) (final : Option Exc → δ → δ × Status)
    (s : CopySt δ) : SEv → CopySt δ
  | .feed b => { s with sr := s.sr.feed b }
  | .eof => { s with sr := { s.sr with eof := true } }
  | .go =>
    if s.st ≠ .running then s
    else
      match s.sr.read chunkSize with
      | none => s
      | some (data, sr) =>
        if data.isEmpty then { sr := sr, dest := (final none s.dest).1, st := (final none s.dest).2 }
        else { s with sr := sr, dest := onData s.dest data }
  | .exc e =>
    if s.st ≠ .running then s
    else { s with dest := (final (some e) s.dest).1, st := (final (some e) s.dest).2 }

/-- A loop with nothing after it: returns, or lets the exception pass. -/
def plainFinal {δ : Type} : Option Exc → δ → δ × Status
  | none, d => (d, .done)
  | some e, d => (d, .raised e)

/-- Run a copy on a list of events. -/
def copyRun {δ : Type} (onData : δ → Bytes → δ) (final : Option Exc → δ → δ × Status) (d : δ)
    (evs : List SEv) : CopySt δ :=
  evs.foldl (copyStep onData final) { dest := d }

/-- shellous/redirect.py:234-242 `copy_bytearray`. -/
def copyBytearray (dest : Bytes) (evs : List SEv) : CopySt Bytes :=
  copyRun (fun d x => d ++ x) plainFinal dest evs

/-- shellous/redirect.py:256-267: the body of `copy_bytearray_limit`; the flag says that the second
(discarding) loop has been reached. -/
def limitBody (limit : Nat) (d : Bytes × Bool) (data : Bytes) : Bytes × Bool :=
  if d.2 then d
  else
    let dest := d.1 ++ data
    if dest.length > limit then (dest.take limit, true) else (dest, false)

/-- shellous/redirect.py:245-267 `copy_bytearray_limit` (after `assert limit >= 0`). -/
def copyBytearrayLimit (limit : Nat) (dest : Bytes) (evs : List SEv) : CopySt (Bytes × Bool) :=
  copyRun (limitBody limit) plainFinal (dest, false) evs

/-! ## In-memory files -/

/-- `io.BytesIO` / `io.StringIO` (newline="\n"): contents and position. `seekable` is False only for
subclasses/other files. -/
structure MemIO (α : Type) where
  buf : List α
  pos : Nat
  seekable : Bool := true

/-- `write`: overwrite at the position, padding with `zero` when the position is past the end; writing
nothing does nothing. -/
def MemIO.write {α : Type} (zero : α) (f : MemIO α) (x : List α) : MemIO α :=
  if x.isEmpty then f
  else
    { f with
      buf := f.buf.take f.pos ++ List.replicate (f.pos - f.buf.length) zero ++ x
        ++ f.buf.drop (f.pos + x.length)
      pos := f.pos + x.length }

/-- shellous/runner.py:1293-1299: `_set_position` for file-like objects. -/
def MemIO.setPosition {α : Type} (f : MemIO α) (append : Bool) : MemIO α :=
  if f.seekable then
    if append then { f with pos := f.buf.length }
    else { f with buf := [], pos := 0 }      -- truncate(0); seek(0)
  else f

/-- shellous/runner.py:1290-1292: `_set_position` for a bytearray. -/
def setPositionBytearray (d : Bytes) (append : Bool) : Bytes := if append then d else []

/-- shellous/redirect.py:223-231 `copy_bytesio`. -/
def copyBytesio (dest : MemIO UInt8) (evs : List SEv) : CopySt (MemIO UInt8) :=
  copyRun (fun d x => d.write 0 x) plainFinal dest evs

/-- shellous/redirect.py:205-208: the `finally` of `copy_stringio`. If decoding raises, its exception
replaces the one in flight. -/
def stringioFinal (decode : Bytes → Except Exc Text) (o : Option Exc) (d : Bytes × MemIO Char) :
    (Bytes × MemIO Char) × Status :=
  match decode d.1 with
  | .error e => (d, .raised e)
  | .ok t => ((d.1, d.2.write (Char.ofNat 0) t), match o with | none => .done | some e => .raised e)

/-- shellous/redirect.py:190-208 `copy_stringio`. -/
def copyStringio (decode : Bytes → Except Exc Text) (dest : MemIO Char) (evs : List SEv) :
    CopySt (Bytes × MemIO Char) :=
  copyRun (fun d x => (d.1 ++ x, d.2)) (stringioFinal decode) ([], dest) evs

/-! ## Lines -/

/-- What `async for line in source` (StreamReader) did so far: lines handed out, and whether it
stopped. -/
structure LineSt where
  sr : SR := {}
  lines : List Bytes := []
  st : Status := .running

/-- CPython Lib/asyncio/streams.py `StreamReader.__anext__`/`readline`/`readuntil(b"\n")`, one attempt:
`limit` is the reader's limit (64 KiB by default), beyond which `ValueError` is raised. -/
def lineStep (limit : Nat) (s : LineSt) : SEv → LineSt
  | .feed b => { s with sr := s.sr.feed b }
  | .eof => { s with sr := { s.sr with eof := true } }
  | .go =>
    if s.st ≠ .running then s
    else
      match s.sr.buffer.idxOf? 0x0A with
      | some isep =>
        if isep > limit then
          { s with st := .raised .valueError, sr := { s.sr with buffer := s.sr.buffer.drop (isep + 1) } }
        else
          { s with lines := s.lines ++ [s.sr.buffer.take (isep + 1)],
                   sr := { s.sr with buffer := s.sr.buffer.drop (isep + 1) } }
      | none =>
        if s.sr.buffer.length > limit then
          { s with st := .raised .valueError, sr := { s.sr with buffer := [] } }
        else if s.sr.eof then
          if s.sr.buffer.isEmpty then { s with st := .done }
          else { s with lines := s.lines ++ [s.sr.buffer], sr := { s.sr with buffer := [] } }
        else s
  | .exc e => if s.st ≠ .running then s else { s with st := .raised e }

/-- The byte lines read by shellous/redirect.py:284-288 `read_lines` before decoding. -/
def lineRun (limit : Nat) (evs : List SEv) : LineSt := evs.foldl (lineStep limit) {}

/-- shellous/redirect.py:284-288 `read_lines` (and the decoding in 216-218 `copy_logger`):
the text lines handed to the caller for the byte lines read, and the exception that ended the
iteration, if any. -/
def readLines (decode : Bytes → Except Exc Text) : List Bytes → List Text × Option Exc
  | [] => ([], none)
  | l :: ls =>
    match decode l with
    | .error e => ([], some e)
    | .ok t => (t :: (readLines decode ls).1, (readLines decode ls).2)

/-! ## Writers -/

/-- `asyncio.StreamWriter` over a pipe transport: bytes accepted by the transport, how many of them the
child has read, whether the child closed its end (or the connection is lost), whether `close()` was
called. -/
structure Writer where
  accepted : Bytes := []
  delivered : Nat := 0
  broken : Bool := false
  closed : Bool := false

/-- `StreamWriter.is_closing`. -/
def Writer.isClosing (w : Writer) : Bool := w.broken || w.closed

/-- `StreamWriter.write`: a closing transport drops the data. -/
def Writer.write (w : Writer) (b : Bytes) : Writer :=
  if w.isClosing then w else { w with accepted := w.accepted ++ b }

/-- `StreamWriter.close`: buffered data is still flushed. -/
def Writer.close (w : Writer) : Writer := { w with closed := true }

/-- The child has read everything and its next read reports end-of-file. -/
def Writer.childAtEof (w : Writer) : Prop :=
  w.closed = true ∧ w.broken = false ∧ w.delivered = w.accepted.length

/-- What the child has read. -/
def Writer.received (w : Writer) : Bytes := w.accepted.take w.delivered

/-- Events seen by a writing coroutine: source events, the child reads `n` more bytes or closes its
end, the current `await` returns (`go`) or raises. -/
inductive WEv where
  | feed (b : Bytes)
  | srcEof
  | deliver (n : Nat)
  | brk
  | go
  | exc (e : Exc)

/-- Where a writing coroutine is suspended. -/
inductive WPc where
  | start | reading | drain | drainEof | done
  | raised (e : Exc)
deriving DecidableEq

structure WriteSt where
  w : Writer := {}
  sr : SR := {}
  endsNl : Bool := true
  pc : WPc := .start

/-- `except (BrokenPipeError, ConnectionResetError)` (shellous/redirect.py:119, 177). -/
def isPipeError : Exc → Bool
  | .brokenPipe | .connectionReset => true
  | _ => false

/-- shellous/redirect.py:144-157 and 180-187: the end of `write_stream`/`write_reader`.
`oneEof`: input ended with a newline. -/
def writeEnd (eof : Option Bytes) (oneEof : Bool) (s : WriteSt) : WriteSt :=
  match eof with
  | none => { s with w := s.w.close, pc := .done }
  | some e =>
    if e.isEmpty then { s with pc := .done }
    else { s with w := s.w.write (if oneEof then e else e ++ e), pc := .drainEof }

/-- Environment events common to both writers. -/
def writeEnv (s : WriteSt) : WEv → WriteSt
  | .feed b => { s with sr := s.sr.feed b }
  | .srcEof => { s with sr := { s.sr with eof := true } }
  | .deliver n => { s with w := { s.w with
      delivered := if s.w.broken then s.w.delivered else min (s.w.delivered + n) s.w.accepted.length } }
  | .brk => { s with w := { s.w with broken := true } }
  | _ => s

/-- shellous/redirect.py:125-157 `write_stream`, with `_drain` (115-122). -/
def writeStreamStep (input : Bytes) (eof : Option Bytes) (s : WriteSt) (ev : WEv) : WriteSt :=
  match ev with
  | .go =>
    match s.pc with
    | .start =>
      if input.isEmpty then writeEnd eof (input.getLast? = some 0x0A) s
      else if s.w.isClosing then { s with pc := .raised .brokenPipe }
      else { s with w := s.w.write input, pc := .drain }
    | .drain => writeEnd eof (input.getLast? = some 0x0A) s
    | .drainEof => { s with pc := .done }
    | _ => s
  | .exc e =>
    match s.pc with
    | .start => if e = .cancelled then { s with pc := .raised e } else s   -- cancelled before it ran
    | .drain =>
      if isPipeError e then writeEnd eof (input.getLast? = some 0x0A) s else { s with pc := .raised e }
    | .drainEof => if isPipeError e then { s with pc := .done } else { s with pc := .raised e }
    | _ => s
  | ev => writeEnv s ev

/-- Run `write_stream`. -/
def writeStream (input : Bytes) (eof : Option Bytes) (evs : List WEv) : WriteSt :=
  evs.foldl (writeStreamStep input eof) {}

/-- shellous/redirect.py:160-187 `write_reader`. -/
def writeReaderStep (eof : Option Bytes) (s : WriteSt) (ev : WEv) : WriteSt :=
  match ev with
  | .go =>
    match s.pc with
    | .start | .reading | .drain =>
      match s.sr.read chunkSize with
      | none => { s with pc := .reading }
      | some (data, sr) =>
        if data.isEmpty then writeEnd eof s.endsNl { s with sr := sr }
        else { s with sr := sr, endsNl := data.getLast? = some 0x0A, w := s.w.write data, pc := .drain }
    | .drainEof => { s with pc := .done }
    | _ => s
  | .exc e =>
    match s.pc with
    | .start => if e = .cancelled then { s with pc := .raised e } else s
    | .reading | .drain =>
      if isPipeError e then writeEnd eof s.endsNl s else { s with pc := .raised e }
    | .drainEof => if isPipeError e then { s with pc := .done } else { s with pc := .raised e }
    | _ => s
  | ev => writeEnv s ev

/-- Run `write_reader`. -/
def writeReader (eof : Option Bytes) (evs : List WEv) : WriteSt :=
  evs.foldl (writeReaderStep eof) {}

end Shellous
