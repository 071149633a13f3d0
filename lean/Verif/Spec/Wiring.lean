import Verif.Model.Launch

/-!
# What the standard streams of a launched command must be (C11, C12)

The tables are written in terms of what the user configured (`Target`), what the child process is
given (`Handle`), which background copies run (`IoTask`) and which streams the caller gets (`Wired`).
-/

namespace Shellous

/-- The task writes to the stream. -/
def IoTask.writesTo (x : Stream) : IoTask → Bool
  | .writeStream _ d _ => d = x
  | .writeReader _ d _ => d = x
  | .copy .. => false

/-- The task reads from the stream. -/
def IoTask.readsFrom (x : Stream) : IoTask → Bool
  | .copy s _ _ => s = x
  | _ => false

/-- The background tasks that write to a stream. -/
def Wired.writers (w : Wired) (x : Stream) : List IoTask := w.tasks.filter (IoTask.writesTo x)

/-- The background tasks that read from a stream. -/
def Wired.readers (w : Wired) (x : Stream) : List IoTask := w.tasks.filter (IoTask.readsFrom x)

/-- A stream between the library and the child: the end given to the child and the library's end. -/
structure Ends where
  child : Handle
  lib : Stream
deriving DecidableEq

/-- Where input comes from if it is not redirected away: the terminal or a new pipe. -/
def inEnds : Option Pty → Ends
  | some p => ⟨.int p.child, .ptyWriter⟩
  | none => ⟨PIPE, .procStdin⟩

/-- Where output goes if it is not redirected away. -/
def outEnds : Option Pty → Ends
  | some p => ⟨.int p.child, .ptyReader⟩
  | none => ⟨PIPE, .procStdout⟩

/-- Standard error never goes through the terminal's reader by itself. -/
def errEnds : Ends := ⟨PIPE, .procStderr⟩

section
variable (s : LS) (w : Wired)

/-- The child's stdin is the terminal or a pipe, written to by exactly this task. -/
def InFed (task : Stream → Option Bytes → IoTask) : Prop :=
  s.stdin = (inEnds s.pty).child ∧
  w.writers (inEnds s.pty).lib = [task (inEnds s.pty).lib (s.pty.map (·.eof))] ∧ w.stdin = none

/-- The child's stdin is the terminal or a pipe, left to the caller. -/
def InCaller : Prop :=
  s.stdin = (inEnds s.pty).child ∧ w.writers (inEnds s.pty).lib = [] ∧ w.stdin = some (inEnds s.pty).lib

/-- The child's stdin is `h`. If there is a terminal, the caller may write to it. -/
def InDirect (h : Handle) : Prop :=
  s.stdin = h ∧ w.tasks.all (fun t => match t with
    | .copy .. => true
    | _ => false) = true ∧
  w.stdin = s.pty.map fun _ => Stream.ptyWriter

/-- C11: what stdin must be, for a configured input. `-1` and `-3` are `subprocess.PIPE` and
`subprocess.DEVNULL`. -/
def StdinSpec (sys : Sys) : Target → Prop
  | .bytes b => InFed s w (.writeStream b)
  | .bytearray id => InFed s w (.writeStream (sys.bytesOf id))
  | .str x => ∃ b, sys.encode x = .ok b ∧ InFed s w (.writeStream b)
  | .bytesIO id => InFed s w (.writeStream (sys.bytesOf id))
  | .stringIO id => ∃ b, sys.encode (sys.textOf id) = .ok b ∧ InFed s w (.writeStream b)
  | .streamReader id => InFed s w (.writeReader id)
  | .path p => ∃ n ∈ s.opened, InDirect s w (.file n p .rb)
  | .int n => if n = -1 then InCaller s w else InDirect s w (.int n)
  | .redirect .inherit => InDirect s w (.sys 0)
  | .redirect .devnull => InDirect s w (.int (-3))
  | .redirect .stdout => InDirect s w (.int (-2))
  | .redirect .capture => InCaller s w
  | .redirect .default => if s.pty.isSome then InCaller s w else InFed s w (.writeStream [])
  | _ => False

/-- The child's output goes through a stream read by exactly one background copy into `sink`. -/
def OutCopied (e : Ends) (h : Handle) (caller : Option Stream) (sink : Sink) (limit : Option Int) : Prop :=
  h = e.child ∧ w.readers e.lib = [.copy e.lib sink limit] ∧ caller = none

/-- The child's output goes through a stream that is read by the caller only. -/
def OutCaller (e : Ends) (h : Handle) (caller : Option Stream) : Prop :=
  h = e.child ∧ w.readers e.lib = [] ∧ caller = some e.lib

/-- The child's output goes directly to `h'`, and nobody reads a pipe for it. -/
def OutDirect (h h' : Handle) (caller rest : Option Stream) (lib : Stream) : Prop :=
  h = h' ∧ w.readers lib = [] ∧ caller = rest

/-- C12: what stdout must be. -/
def StdoutSpec (append : Bool) : Target → Prop
  | .redirect .default | .redirect .buffer =>
      OutCopied w (outEnds s.pty) s.stdout w.stdout .outputBytes none
  | .redirect .capture => OutCaller w (outEnds s.pty) s.stdout w.stdout
  | .redirect .inherit => OutDirect w s.stdout (.sys 1) w.stdout (s.pty.map fun _ => .ptyReader) (outEnds s.pty).lib
  | .redirect .devnull => OutDirect w s.stdout (.int (-3)) w.stdout (s.pty.map fun _ => .ptyReader) (outEnds s.pty).lib
  | .redirect .stdout => OutDirect w s.stdout (.int (-2)) w.stdout (s.pty.map fun _ => .ptyReader) (outEnds s.pty).lib
  | .int n =>
      if n = -1 then OutCaller w (outEnds s.pty) s.stdout w.stdout
      else OutDirect w s.stdout (.int n) w.stdout (s.pty.map fun _ => .ptyReader) (outEnds s.pty).lib
  | .path p | .pathLike p => ∃ n ∈ s.opened,
      OutDirect w s.stdout (.file n p (if append then .ab else .wb)) w.stdout
        (s.pty.map fun _ => .ptyReader) (outEnds s.pty).lib
  | .ioBase id => OutDirect w s.stdout (.obj id) w.stdout (s.pty.map fun _ => .ptyReader) (outEnds s.pty).lib
  | .stringIO id => OutCopied w (outEnds s.pty) s.stdout w.stdout (.user (.stringIO id)) none
  | .bytesIO id => OutCopied w (outEnds s.pty) s.stdout w.stdout (.user (.bytesIO id)) none
  | .bytearray id => OutCopied w (outEnds s.pty) s.stdout w.stdout (.user (.bytearray id)) none
  | .logger id => OutCopied w (outEnds s.pty) s.stdout w.stdout (.user (.logger id)) none
  | .streamWriter id => OutCopied w (outEnds s.pty) s.stdout w.stdout (.user (.streamWriter id)) none
  | _ => False

/-- Standard error goes where standard output goes (to the terminal, if there is one). -/
def ErrMerged : Prop :=
  OutDirect w s.stderr (match s.pty with
    | some p => .int p.child
    | none => .int (-2)) w.stderr none .procStderr

/-- C12: what stderr must be. -/
def StderrSpec (append : Bool) (limit : Option Int) : Target → Prop
  | .redirect .default =>
      if s.pty.isSome then ErrMerged s w
      else OutCopied w errEnds s.stderr w.stderr .errorBytes limit
  | .redirect .buffer => OutCopied w errEnds s.stderr w.stderr .errorBytes limit
  | .redirect .capture => OutCaller w errEnds s.stderr w.stderr
  | .redirect .inherit => OutDirect w s.stderr (.sys 2) w.stderr none .procStderr
  | .redirect .devnull => OutDirect w s.stderr (.int (-3)) w.stderr none .procStderr
  | .redirect .stdout => ErrMerged s w
  | .int n =>
      if n = -1 then OutCaller w errEnds s.stderr w.stderr
      else if n = -2 then ErrMerged s w
      else OutDirect w s.stderr (.int n) w.stderr none .procStderr
  | .path p | .pathLike p => ∃ n ∈ s.opened,
      OutDirect w s.stderr (.file n p (if append then .ab else .wb)) w.stderr none .procStderr
  | .ioBase id => OutDirect w s.stderr (.obj id) w.stderr none .procStderr
  | .stringIO id => OutCopied w errEnds s.stderr w.stderr (.user (.stringIO id)) none
  | .bytesIO id => OutCopied w errEnds s.stderr w.stderr (.user (.bytesIO id)) none
  | .bytearray id => OutCopied w errEnds s.stderr w.stderr (.user (.bytearray id)) none
  | .logger id => OutCopied w errEnds s.stderr w.stderr (.user (.logger id)) none
  | .streamWriter id => OutCopied w errEnds s.stderr w.stderr (.user (.streamWriter id)) none
  | _ => False

end

/-- The in-memory or file object whose position is set before the launch, if any. -/
def positions (append : Bool) : Target → List (Target × Bool)
  | .stringIO id => [(.stringIO id, append)]
  | .bytesIO id => [(.bytesIO id, append)]
  | .bytearray id => [(.bytearray id, append)]
  | .logger id => [(.logger id, append)]
  | .streamWriter id => [(.streamWriter id, append)]
  | .ioBase id => [(.ioBase id, append)]
  | _ => []

end Shellous
