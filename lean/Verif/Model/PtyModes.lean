import Verif.Model.Term
import Verif.Model.Streams

/-!
# Terminal modes and sizes, end of a terminal's output (shellous/pty_util.py)
-/

namespace Shellous

/-- A terminal: attributes and window size (rows, columns). `winszOk`: the ioctl TIOCSWINSZ succeeds. -/
structure Term where
  attrs : TermAttrs
  rows : Nat := 0
  cols : Nat := 0
  winszOk : Bool := true
deriving DecidableEq

/-- `struct.error` (raised by `struct.pack`), an exception that shellous does not know. -/
def structError : Exc := .user 0

/-- shellous/pty_util.py:241-247 `_set_term_size`. `struct.pack("HHHH", ...)` wants 16-bit unsigned numbers; a failure of
the ioctl is logged. -/
def Term.setSize (t : Term) (rows cols : Int) : Except Exc Term :=
  if rows < 0 ∨ 65535 < rows ∨ cols < 0 ∨ 65535 < cols then .error structError
  else if t.winszOk then .ok { t with rows := rows.toNat, cols := cols.toNat }
  else .ok t

/-- `if rows or cols: _set_term_size(...)` (shellous/pty_util.py:189-190, 201-202, 212-213). -/
def Term.maybeSize (t : Term) (rows cols : Int) : Except Exc Term :=
  if rows ≠ 0 ∨ cols ≠ 0 then t.setSize rows cols else .ok t

/-- `cc[VMIN] = 1; cc[VTIME] = 0` (CPython 3.12 Lib/tty.py; Linux: VTIME = 5, VMIN = 6). The two entries are integers in Python; nothing below reads them. -/
def setMinTime (cc : List Bytes) : List Bytes := (cc.set 6 [1]).set 5 [0]

/-- CPython 3.12 Lib/tty.py `cfmakeraw` (Linux values of the flags): IGNBRK, BRKINT, IGNPAR, PARMRK, INPCK, ISTRIP, INLCR,
IGNCR, ICRNL, IXON, IXANY, IXOFF; OPOST; PARENB, CSIZE, CS8; ECHO, ECHOE, ECHOK, ECHONL, ICANON, IEXTEN, ISIG, NOFLSH,
TOSTOP. -/
def makeRaw (a : TermAttrs) : TermAttrs :=
  { a with
    iflag := a.iflag &&& ~~~(0x1dff#32)
    oflag := a.oflag &&& ~~~(0x1#32)
    cflag := (a.cflag &&& ~~~(0x130#32)) ||| 0x30#32
    lflag := a.lflag &&& ~~~(0x81fb#32)
    cc := setMinTime a.cc }

/-- CPython 3.12 Lib/tty.py `cfmakecbreak`: ECHO, ICANON. -/
def makeCbreak (a : TermAttrs) : TermAttrs :=
  { a with lflag := a.lflag &&& ~~~(ECHO ||| ICANON), cc := setMinTime a.cc }

/-- `assert _get_eof(fdesc) == eof`. -/
def Term.assertEof (t : Term) (eof : Bytes) : Except Exc Term :=
  if getEof t.attrs = eof then .ok t else .error .assertionError

/-- shellous/pty_util.py:184-193 `raw`. -/
def ptyRaw (rows cols : Int) (t : Term) : Except Exc Term := do
  let t ← Term.maybeSize { t with attrs := makeRaw t.attrs } rows cols
  t.assertEof []

/-- shellous/pty_util.py:196-205 `cbreak`. -/
def ptyCbreak (rows cols : Int) (t : Term) : Except Exc Term := do
  let t ← Term.maybeSize { t with attrs := makeCbreak t.attrs } rows cols
  t.assertEof []

/-- shellous/pty_util.py:208-218 `cooked`. -/
def ptyCooked (rows cols : Int) (echo : Bool) (t : Term) : Except Exc Term := do
  let t ← t.maybeSize rows cols
  let t := if echo then t else
    match setTermEcho t.attrs false with
    | none => t
    | some a => { t with attrs := a }
  t.assertEof [4]

/-! ## The end of a terminal's output -/

/-- What the transport of the terminal's parent side tells its protocol: data, and the end of the connection (`none`, or an
error: `EIO`, or another one). -/
inductive PtyEv where
  | data (b : Bytes)
  | lost (err : Option (Bool × Exc))

/-- shellous/pty_util.py:112-120 `PtyStreamReaderProtocol.connection_lost` (Linux) and CPython's `StreamReaderProtocol`: what
the reader of the stream sees. The `Bool` of an error: is it `OSError` with `errno == EIO`? -/
def PtyEv.seen : PtyEv → SEv
  | .data b => .feed b
  | .lost none => .eof
  | .lost (some (eio, e)) => if eio then .eof else .exc e

end Shellous
