import Verif.Model.Basic

/-!
# The child's side of a pseudo-terminal (kernel line discipline)

What the operating system does with the bytes that shellous writes to the parent side of a pty.
Not code of shellous: this is the part of the environment that gives the EOF logic of
shellous/redirect.py:144-157, 180-187 its meaning.
-/

namespace Shellous

/-- Linux `N_TTY_BUF_SIZE - 1`: longest partial line that the terminal keeps. -/
def maxCanon : Nat := 4095

/-- Line discipline state: results of the successive `read` calls of the program that are complete, and
the line being assembled. -/
structure Tty where
  reads : List Bytes := []
  cur : Bytes := []
deriving DecidableEq, Repr

/-- One input byte in canonical mode (termios(3) ICANON): a newline completes the line, the EOF
character completes it without being part of it, other bytes are added, and dropped when the line is
full. `ctl` gives the effect of every other special character (INTR, ERASE, KILL, CR translation, ...),
about which nothing is assumed. -/
def Tty.feed (eofc : UInt8) (ctl : UInt8 → Option (Tty → Tty)) (t : Tty) (b : UInt8) : Tty :=
  if b = 0x0A then { reads := t.reads ++ [t.cur ++ [b]], cur := [] }
  else if b = eofc then { reads := t.reads ++ [t.cur], cur := [] }
  else
    match ctl b with
    | some f => f t
    | none => if t.cur.length < maxCanon then { t with cur := t.cur ++ [b] } else t

/-- The terminal after these bytes. -/
def Tty.run (eofc : UInt8) (ctl : UInt8 → Option (Tty → Tty)) (bs : Bytes) : Tty :=
  bs.foldl (Tty.feed eofc ctl) {}

/-- The program has read an end-of-file (a `read` that returned nothing). -/
def Tty.sawEof (t : Tty) : Bool := t.reads.any (·.isEmpty)

/-- What the program has read before the first end-of-file. -/
def Tty.received (t : Tty) : Bytes := (t.reads.takeWhile (fun r => !r.isEmpty)).flatten

end Shellous
