/-!
# Pipelines with process substitution: who is connected to whom, and who waits for whom

A command line is a tree: a command may have commands and pipelines among its arguments (process substitution), each of which is run beside it and connected to it by
a pipe, in one of two directions. The processes, and the tasks of the library that feed the first command, read the output and read each standard error, are the
*nodes*; each pipe is a *link* between two of them. The programs are arbitrary (nothing is assumed about what they read and write, and when).
-/

namespace Shellous.Subst

abbrev Byte := UInt8

/-! ## The command line, and its network -/

mutual

/-- A command with its substituted arguments, in order: `true` if the argument is `.writable`. -/
inductive Cmd where
  | mk (subs : List Sub)

/-- A substituted argument: a command or a pipeline, given by its last command and those before it (the nearest first), or by its first command and those after it. -/
inductive Sub where
  /-- The command reads what the pipeline writes: `first | ... | last`. -/
  | reads (last : Cmd) (before : List Cmd)
  /-- The command writes what the pipeline reads. -/
  | writes (first : Cmd) (after : List Cmd)

end

/-- How a node is connected to one with a smaller number: `toParent` if it writes and the other one reads. -/
structure Link where
  parent : Nat
  toParent : Bool
deriving DecidableEq, Repr

mutual

/-- The nodes of a command that is connected to node `p`, when `k` nodes are there already: the process itself, the task that reads its standard error
(shellous/runner.py:818-852 `_setup_output_sink`), and those of its arguments (shellous/runner.py:149-187 `_setup_process_substitution`). -/
def Cmd.build (p : Nat) (up : Bool) (k : Nat) : Cmd → List Link
  | .mk subs => ⟨p, up⟩ :: ⟨k, false⟩ :: buildSubs k (k + 2) subs

/-- The arguments of the command that is node `p`. -/
def buildSubs (p : Nat) (k : Nat) : List Sub → List Link
  | [] => []
  | s :: ss =>
    let a := s.build p k
    a ++ buildSubs p (k + a.length) ss

/-- One argument: a pipe to its last command (it reads) or to its first command (it writes). -/
def Sub.build (p : Nat) (k : Nat) : Sub → List Link
  | .reads last before =>
    let a := last.build p true k
    a ++ buildBefore k (k + a.length) before
  | .writes first after =>
    let a := first.build p false k
    a ++ buildAfter k (k + a.length) after

/-- The commands before node `p` in a pipeline (shellous/runner.py:1159-1180 `_setup_pipeline`): each one writes to the one after it; the first one is fed by a
task (shellous/runner.py:788-816 `_setup_input_source`). -/
def buildBefore (p : Nat) (k : Nat) : List Cmd → List Link
  | [] => [⟨p, true⟩]
  | c :: cs =>
    let a := c.build p true k
    a ++ buildBefore k (k + a.length) cs

/-- The commands after node `p`: each one reads what the one before it writes; a task reads the output of the last one. -/
def buildAfter (p : Nat) (k : Nat) : List Cmd → List Link
  | [] => [⟨p, false⟩]
  | c :: cs =>
    let a := c.build p false k
    a ++ buildAfter k (k + a.length) cs

end

/-- A command or pipeline that is awaited: node 0 is the task that reads its output, node 1 its last command. -/
def build (last : Cmd) (before : List Cmd) : List Link :=
  ⟨0, false⟩ :: (let a := last.build 0 true 1; a ++ buildBefore 1 (1 + a.length) before)

/-! ## How it runs -/

/-- What a node does next: read from a pipe, write to it, close its end of it, or exit. Pipe `v` is the one between node `v` and its parent. -/
inductive Act (S : Type) where
  | read (v : Nat) (k : Option Byte → S)
  | write (v : Nat) (b : Byte) (s : S)
  | close (v : Nat) (s : S)
  | exit

/-- What is given. -/
structure Cfg (S : Type) where
  links : List Link
  act : S → Act S
  prog : Nat → S
  /-- The capacity of each pipe. -/
  cap : Nat → Nat

/-- A pipe. -/
structure Pipe where
  buf : List Byte := []
  /-- The reader, the writer has closed its end. -/
  rClosed : Bool := false
  wClosed : Bool := false

structure Net (S : Type) where
  st : Nat → S
  /-- The process or the task has ended. -/
  ended : Nat → Bool := fun _ => false
  pipe : Nat → Pipe := fun _ => {}

variable {S : Type}

def Cfg.init (cfg : Cfg S) : Net S := { st := cfg.prog }

/-- The node that reads from pipe `v`. -/
def Cfg.reader (cfg : Cfg S) (v : Nat) : Option Nat :=
  if v = 0 then none else cfg.links[v]?.map fun l => if l.toParent then l.parent else v

/-- The node that writes to pipe `v`. -/
def Cfg.writer (cfg : Cfg S) (v : Nat) : Option Nat :=
  if v = 0 then none else cfg.links[v]?.map fun l => if l.toParent then v else l.parent

/-- The read end is open: the parent process of all of them has closed its copies (C41, C43, C45). -/
def Cfg.rOpen (cfg : Cfg S) (net : Net S) (v : Nat) : Bool :=
  match cfg.reader v with
  | some u => !net.ended u && !(net.pipe v).rClosed
  | none => false

/-- The write end is open. -/
def Cfg.wOpen (cfg : Cfg S) (net : Net S) (v : Nat) : Bool :=
  match cfg.writer v with
  | some u => !net.ended u && !(net.pipe v).wClosed
  | none => false

def Net.go (net : Net S) (u : Nat) (s : S) : Net S := { net with st := fun w => if w = u then s else net.st w }
def Net.setPipe (net : Net S) (v : Nat) (p : Pipe) : Net S := { net with pipe := fun w => if w = v then p else net.pipe w }
def Net.stop (net : Net S) (u : Nat) : Net S := { net with ended := fun w => if w = u then true else net.ended w }

/-- One step of a node; `none` if it has ended or has to wait. A read from a pipe that is not open for the node, or that is at its end, answers `none`; a write into
a pipe without a reader ends the node (SIGPIPE; for a task of the library: shellous/redirect.py:115-123 `_drain`). -/
def Cfg.step (cfg : Cfg S) (net : Net S) (u : Nat) : Option (Net S) :=
  if u < cfg.links.length ∧ net.ended u = false then
    match cfg.act (net.st u) with
    | .read v k =>
      let p := net.pipe v
      if cfg.reader v = some u ∧ p.rClosed = false then
        match p.buf with
        | b :: r => some ((net.go u (k (some b))).setPipe v { p with buf := r })
        | [] => if cfg.wOpen net v then none else some (net.go u (k none))
      else some (net.go u (k none))
    | .write v b s =>
      let p := net.pipe v
      if cfg.writer v = some u ∧ p.wClosed = false then
        if cfg.rOpen net v then
          if p.buf.length < cfg.cap v then some ((net.go u s).setPipe v { p with buf := p.buf ++ [b] }) else none
        else some (net.stop u)
      else some (net.go u s)
    | .close v s =>
      let p := net.pipe v
      some ((net.go u s).setPipe v { p with
        rClosed := p.rClosed || decide (cfg.reader v = some u)
        wClosed := p.wClosed || decide (cfg.writer v = some u) })
    | .exit => some (net.stop u)
  else none

/-- Any number of steps, all of them possible. -/
def Cfg.run (cfg : Cfg S) (net : Net S) : List Nat → Option (Net S)
  | [] => some net
  | u :: us =>
    match cfg.step net u with
    | some net => cfg.run net us
    | none => none

end Shellous.Subst
