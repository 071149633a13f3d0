import Verif.Model.Streams

/-!
# The remaining output sinks: a Logger and a StreamWriter (shellous/redirect.py)
-/

namespace Shellous

/-- Python's `str.isspace` for one character (CPython Objects/unicodetype_db.h
`_PyUnicode_IsWhitespace`). -/
def isPySpace (c : Char) : Bool :=
  let n := c.toNat
  (9 ≤ n && n ≤ 13) || (0x1C ≤ n && n ≤ 0x20) || n == 0x85 || n == 0xA0 || n == 0x1680 ||
    (0x2000 ≤ n && n ≤ 0x200A) || n == 0x2028 || n == 0x2029 || n == 0x202F || n == 0x205F || n == 0x3000

/-- Python's `str.rstrip()`. -/
def rstrip (t : Text) : Text := (t.reverse.dropWhile isPySpace).reverse

/-- A running `copy_logger`: the line reader and the messages passed to `dest.error`. -/
structure LoggerSt where
  ls : LineSt := {}
  log : List Text := []

/-- shellous/redirect.py:211-220 `copy_logger`: one step. A line that was read is decoded and logged in
the same step (no `await` in between). -/
def loggerStep (limit : Nat) (decode : Bytes → Except Exc Text) (s : LoggerSt) (ev : SEv) : LoggerSt :=
  let ls := lineStep limit s.ls ev
  match ls.lines.drop s.ls.lines.length with
  | [] => { s with ls := ls }
  | line :: _ =>
    match decode line with
    | .error e => { s with ls := { ls with st := .raised e } }
    | .ok t => { ls := ls, log := s.log ++ [rstrip t] }

/-- Run `copy_logger`. -/
def copyLogger (limit : Nat) (decode : Bytes → Except Exc Text) (evs : List SEv) : LoggerSt :=
  evs.foldl (loggerStep limit decode) {}

/-- Where `copy_streamwriter` is suspended: in `read`, in `drain` or in `wait_closed`. -/
inductive SwPc where
  | reading | drain | closing | done
  | raised (e : Exc)
deriving DecidableEq

/-- A running `copy_streamwriter`: the destination, the source and where it is. -/
structure SwSt where
  w : Writer := {}
  sr : SR := {}
  pc : SwPc := .reading

/-- What happens around it: data or EOF arrive, the peer of the destination reads or goes away. -/
def swEnv (s : SwSt) : WEv → SwSt
  | .feed b => { s with sr := s.sr.feed b }
  | .srcEof => { s with sr := { s.sr with eof := true } }
  | .deliver n => { s with w := { s.w with
      delivered := if s.w.broken then s.w.delivered else min (s.w.delivered + n) s.w.accepted.length } }
  | .brk => { s with w := { s.w with broken := true } }
  | _ => s

/-- shellous/redirect.py:270-281 `copy_streamwriter`: one step. No exception is caught. -/
def swStep (s : SwSt) (ev : WEv) : SwSt :=
  match ev with
  | .go =>
    match s.pc with
    | .reading | .drain =>
      match s.sr.read chunkSize with
      | none => { s with pc := .reading }
      | some (data, sr) =>
        if data.isEmpty then { s with sr := sr, w := s.w.close, pc := .closing }
        else { s with sr := sr, w := s.w.write data, pc := .drain }
    | .closing => { s with pc := .done }
    | _ => s
  | .exc e =>
    match s.pc with
    | .done => s
    | .raised _ => s
    | _ => { s with pc := .raised e }
  | ev => swEnv s ev

/-- Run `copy_streamwriter`. -/
def copyStreamwriter (evs : List WEv) : SwSt := evs.foldl swStep {}

end Shellous
