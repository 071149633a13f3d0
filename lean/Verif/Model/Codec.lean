import Verif.Model.Basic

/-!
# Codecs: CPython's UTF-8 decoder, the buffered incremental decoder and the newline decoder

`decode_bytes`/`encode_bytes` (shellous/util.py:37-44) and `_make_decoder`
(shellous/prompt.py:600-607) call CPython's codecs; this file models those.
-/

namespace Shellous

/-- One step of a decoder at the head of a byte string: more input needed, an error that covers
`n + 1` bytes, or a character made of `n + 1` bytes. -/
inductive Step where
  | incomplete
  | bad (n : Nat)
  | char (c : Char) (n : Nat)
deriving DecidableEq, Repr

/-- UTF-8 continuation byte. -/
def isCont (b : UInt8) : Bool := 0x80 ≤ b.toNat && b.toNat < 0xC0

/-- CPython Objects/stringlib/codecs.h `utf8_decode` (one character): start bytes C2..F4, continuation
bytes 80..BF, no overlong forms, no surrogates, nothing above U+10FFFF. An ill-formed sequence covers
the maximal subpart of 1-3 bytes; a proper prefix of a well-formed sequence is incomplete. -/
def utf8Step : Bytes → Step
  | [] => .incomplete
  | b0 :: rest =>
    let v0 := b0.toNat
    if v0 < 0x80 then .char (Char.ofNat v0) 0
    else if v0 < 0xC2 then .bad 0
    else if v0 < 0xE0 then
      match rest with
      | [] => .incomplete
      | b1 :: _ =>
        if !isCont b1 then .bad 0
        else .char (Char.ofNat ((v0 - 0xC0) * 64 + (b1.toNat - 0x80))) 1
    else if v0 < 0xF0 then
      match rest with
      | [] => .incomplete
      | b1 :: rest =>
        if !isCont b1 || (v0 == 0xE0 && decide (b1.toNat < 0xA0)) ||
            (v0 == 0xED && decide (b1.toNat ≥ 0xA0)) then .bad 0
        else
          match rest with
          | [] => .incomplete
          | b2 :: _ =>
            if !isCont b2 then .bad 1
            else .char (Char.ofNat ((v0 - 0xE0) * 4096 + (b1.toNat - 0x80) * 64
                  + (b2.toNat - 0x80))) 2
    else if v0 < 0xF5 then
      match rest with
      | [] => .incomplete
      | b1 :: rest =>
        if !isCont b1 || (v0 == 0xF0 && decide (b1.toNat < 0x90)) ||
            (v0 == 0xF4 && decide (b1.toNat ≥ 0x90)) then .bad 0
        else
          match rest with
          | [] => .incomplete
          | b2 :: rest =>
            if !isCont b2 then .bad 1
            else
              match rest with
              | [] => .incomplete
              | b3 :: _ =>
                if !isCont b3 then .bad 2
                else .char (Char.ofNat ((v0 - 0xF0) * 262144 + (b1.toNat - 0x80) * 4096
                      + (b2.toNat - 0x80) * 64 + (b3.toNat - 0x80))) 3
    else .bad 0

/-- CPython Objects/stringlib/codecs.h `utf16_decode` (little-endian, one character): two bytes, or four
when the first unit is a high surrogate followed by a low one; a lone surrogate is an error. -/
def utf16leStep : Bytes → Step
  | b0 :: b1 :: rest =>
    let u := b0.toNat + 256 * b1.toNat
    if u < 0xD800 ∨ 0xE000 ≤ u then .char (Char.ofNat u) 1
    else if 0xDC00 ≤ u then .bad 1
    else
      match rest with
      | b2 :: b3 :: _ =>
        let v := b2.toNat + 256 * b3.toNat
        if 0xDC00 ≤ v ∧ v < 0xE000 then
          .char (Char.ofNat (0x10000 + (u - 0xD800) * 0x400 + (v - 0xDC00))) 3
        else .bad 1
      | _ => .incomplete
  | _ => .incomplete

/-- CPython charmap codecs (ASCII, Latin-1, ISO-8859-x, cp1252, KOI8-R, ...): each byte is a character, or an error. -/
def singleStep (f : UInt8 → Option Char) : Bytes → Step
  | [] => .incomplete
  | b :: _ =>
    match f b with
    | some c => .char c 0
    | none => .bad 0

/-- Latin-1: the first 256 characters. -/
def latin1 (b : UInt8) : Option Char := some (Char.ofNat b.toNat)

/-- ASCII. -/
def ascii (b : UInt8) : Option Char := if b.toNat < 128 then some (Char.ofNat b.toNat) else none

/-- Codec error handlers (`errors=` argument). -/
inductive Errors where
  | strict | replace | ignore
deriving DecidableEq, Repr

/-- What an error contributes to the output, `none`: raises `UnicodeDecodeError`. -/
def Errors.subst : Errors → Option Text
  | .strict => none
  | .replace => some [Char.ofNat 0xFFFD]
  | .ignore => some []

/-- CPython `PyUnicode_DecodeUTF8Stateful` for any step function: decodes from the left; at an
incomplete sequence stops when `final` is false (returning the undecoded rest) and otherwise treats the
rest as one error. -/
def decodeLoop (step : Bytes → Step) (errors : Errors) (final : Bool) :
    Bytes → Except Exc (Text × Bytes)
  | [] => .ok ([], [])
  | b :: bs =>
    match step (b :: bs) with
    | .incomplete =>
      if final then
        match errors.subst with
        | none => .error .unicodeError
        | some t => .ok (t, [])
      else .ok ([], b :: bs)
    | .bad n =>
      match errors.subst with
      | none => .error .unicodeError
      | some t =>
        match decodeLoop step errors final (bs.drop n) with
        | .error e => .error e
        | .ok (t', r) => .ok (t ++ t', r)
    | .char c n =>
      match decodeLoop step errors final (bs.drop n) with
      | .error e => .error e
      | .ok (t', r) => .ok (c :: t', r)
termination_by b => b.length
decreasing_by all_goals simp_wf; omega

/-- `bytes.decode`: shellous/util.py:37-39 `decode_bytes` for a given codec and error handler. -/
def decodeAll (step : Bytes → Step) (errors : Errors) (data : Bytes) : Except Exc Text :=
  (decodeLoop step errors true data).map (·.1)

/-- CPython Lib/codecs.py `BufferedIncrementalDecoder.decode`: new buffer and the output. When the
decoder raises, the buffer is unchanged (and the input is dropped). -/
def incDecode (step : Bytes → Step) (errors : Errors) (buffer input : Bytes) (final : Bool) :
    Except Exc Text × Bytes :=
  match decodeLoop step errors final (buffer ++ input) with
  | .error e => (.error e, buffer)
  | .ok (t, rest) => (.ok t, rest)

/-- Newline translation of one string: CR LF becomes LF, then every other CR becomes LF
(`output.replace("\r\n", "\n")`, `output.replace("\r", "\n")`). -/
def crlfToLf : Text → Text
  | '\r' :: '\n' :: t => '\n' :: crlfToLf t
  | c :: t => c :: crlfToLf t
  | [] => []

/-- `output.replace("\r", "\n")`. -/
def crToLf (t : Text) : Text := t.map fun c => if c = '\r' then '\n' else c

/-- CPython Lib/_pyio.py `IncrementalNewlineDecoder.decode` with `translate=True`, after the inner
decoder returned `output`: new `pendingcr` and the result. -/
def nlDecode (pendingcr : Bool) (output : Text) (final : Bool) : Text × Bool :=
  let add := pendingcr && (!output.isEmpty || final)
  let output := if add then '\r' :: output else output
  let pendingcr := if add then false else pendingcr
  let hold := decide (output.getLast? = some '\r') && !final
  let pendingcr := if hold then true else pendingcr
  let output := if hold then output.dropLast else output
  (crToLf (crlfToLf output), pendingcr)

/-- The decoder built by shellous/prompt.py:600-607 `_make_decoder`: an incremental decoder, optionally
inside an `IncrementalNewlineDecoder`. -/
structure Decoder where
  step : Bytes → Step
  errors : Errors
  normalize : Bool
  buffer : Bytes := []
  pendingcr : Bool := false

/-- `self._decoder.decode(chunk, final=...)` (shellous/prompt.py:459, 537). -/
def Decoder.decode (d : Decoder) (chunk : Bytes) (final : Bool) : Except Exc Text × Decoder :=
  match incDecode d.step d.errors d.buffer chunk final with
  | (.error e, _) => (.error e, d)
  | (.ok t, rest) =>
    if d.normalize then
      let (out, p) := nlDecode d.pendingcr t final
      (.ok out, { d with buffer := rest, pendingcr := p })
    else (.ok t, { d with buffer := rest })

end Shellous
