import Verif.Model.Basic

/-!
# Terminal attributes: the echo switch and the EOF character (shellous/pty_util.py, shellous/prompt.py)
-/

namespace Shellous

/-- termios(3) attributes, in the order of `termios.tcgetattr`. Flags are 32-bit words. -/
structure TermAttrs where
  iflag : BitVec 32
  oflag : BitVec 32
  cflag : BitVec 32
  lflag : BitVec 32
  ispeed : Nat
  ospeed : Nat
  cc : List Bytes
deriving DecidableEq

/-- `termios.ECHO` on Linux. -/
def ECHO : BitVec 32 := 0x8#32

/-- `termios.ICANON` on Linux. -/
def ICANON : BitVec 32 := 0x2#32

/-- `termios.VEOF` on Linux. -/
def VEOF : Nat := 4

/-- shellous/pty_util.py:221-224 `get_term_echo`. -/
def getTermEcho (a : TermAttrs) : Bool := (a.lflag &&& ECHO) != 0#32

/-- shellous/pty_util.py:227-238 `set_term_echo`: the attributes written by `tcsetattr`, `none` when it is
not called. -/
def setTermEcho (a : TermAttrs) (echo : Bool) : Option TermAttrs :=
  let curr := (a.lflag &&& ECHO) != 0#32
  if echo != curr then
    if echo then some { a with lflag := a.lflag ||| ECHO }
    else some { a with lflag := a.lflag &&& ~~~ECHO }
  else none

/-- shellous/pty_util.py:250-257 `_get_eof`. -/
def getEof (a : TermAttrs) : Bytes :=
  if (a.lflag &&& ICANON) != 0#32 then a.cc.getD VEOF [] else []

/-- The terminal of a prompt: `none` without a pty, else its attributes and how often they were set. -/
structure PromptTerm where
  attrs : Option TermAttrs
  sets : Nat := 0
deriving DecidableEq

/-- shellous/prompt.py:104-115: getter of `Prompt.echo`. -/
def PromptTerm.echo (t : PromptTerm) : Bool :=
  match t.attrs with
  | none => false
  | some a => getTermEcho a

/-- shellous/prompt.py:117-125: setter of `Prompt.echo`. `tcsetattr` is taken to succeed. -/
def PromptTerm.setEcho (t : PromptTerm) (v : Bool) : Except Exc PromptTerm :=
  match t.attrs with
  | none => .error .runtimeError
  | some a =>
    match setTermEcho a v with
    | none => .ok t
    | some a' => .ok { attrs := some a', sets := t.sets + 1 }

end Shellous
