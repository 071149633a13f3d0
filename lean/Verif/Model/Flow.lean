/-!
# The flow of data through a command or a pipeline

The programs of a pipeline, the pipes between them with their limited capacity, and the tasks of the library that feed the first program and
drain the last one and every standard error: all of them take their steps in any order.

* A program is any deterministic machine that reads and writes bytes (the steps of different programs interleave in any way). It may close its standard
  input or output, and it may run for ever. Not modelled: programs whose behaviour depends on the time, on signals, or on how their input is cut
  into pieces, and programs that close their standard error or leave a child behind that keeps a stream open.
* Writing into a pipe whose reader is gone ends the program by SIGPIPE.
* The parent has closed its copies of the ends of the pipes that belong to the children (C41, C45), so that end-of-file comes through.
-/

namespace Shellous.Flow

abbrev Byte := UInt8

/-- What a program does next, and how it goes on (the environment: no code in /repo). `read` gets a byte, or `none` at end-of-file (or if standard input was closed). -/
inductive Act (S : Type) where
  | read (k : Option Byte → S)
  | out (b : Byte) (s : S)
  | err (b : Byte) (s : S)
  | closeIn (s : S)
  | closeOut (s : S)
  | exit (code : Int)

/-- A program and what it has done so far (the environment). -/
structure Loc (S : Type) where
  st : S
  inOpen : Bool := true
  outOpen : Bool := true
  /-- How often it has read. -/
  got : Nat := 0
  wrote : List Byte := []
  erred : List Byte := []
  code : Option Int := none

/-- One step of a program whose `j`-th read is answered by `f j`. -/
def lstep {S : Type} (act : S → Act S) (f : Nat → Option Byte) (l : Loc S) : Loc S :=
  match l.code with
  | some _ => l
  | none =>
    match act l.st with
    | .read k => if l.inOpen then { l with st := k (f l.got), got := l.got + 1 } else { l with st := k none }
    | .out b s => if l.outOpen then { l with st := s, wrote := l.wrote ++ [b] } else { l with st := s }
    | .err b s => { l with st := s, erred := l.erred ++ [b] }
    | .closeIn s => { l with st := s, inOpen := false }
    | .closeOut s => { l with st := s, outOpen := false }
    | .exit c => { l with code := some c }

/-- What is given (shellous/pipeline.py, shellous/runner.py:1159-1180 `PipeRunner._setup_pipeline`: a pipe between each command and the next one): the programs, the input, the capacities of the pipes, and `error_limit`. -/
structure Cfg (S : Type) where
  act : S → Act S
  /-- The number of commands. -/
  n : Nat
  prog : Nat → S
  input : List Byte
  /-- The capacity of the pipe to the standard input of each command. -/
  cap : Nat → Nat
  outCap : Nat
  errCap : Nat → Nat
  limit : Nat

/-- A command of the pipeline: the program, the pipe to its standard input and the one from its standard error. -/
structure Cmd (S : Type) where
  loc : Loc S
  /-- Killed by SIGPIPE. -/
  killed : Bool := false
  /-- In the pipe to its standard input. -/
  buf : List Byte := []
  errBuf : List Byte := []
  /-- `Result.error_bytes`. -/
  errKept : List Byte := []
  /-- How many bytes the library has read from its standard error. -/
  errRead : Nat := 0
  /-- `copy_bytearray_limit` is in its second loop. -/
  errFull : Bool := false
  errDone : Bool := false
  /-- How many steps the program has done. -/
  steps : Nat := 0

variable {S : Type}

/-- The process has not ended. -/
def Cmd.alive (c : Cmd S) : Bool := c.loc.code.isNone && !c.killed

/-- The process has the read end of the pipe before it. -/
def Cmd.reads (c : Cmd S) : Bool := c.alive && c.loc.inOpen

/-- The process has the write end of the pipe after it. -/
def Cmd.writes (c : Cmd S) : Bool := c.alive && c.loc.outOpen

/-- All that there is. -/
structure Net (S : Type) where
  cmds : Nat → Cmd S
  /-- Input that was written, and that is yet to be written. -/
  sent : List Byte := []
  rest : List Byte
  /-- The library has closed the standard input of the first command. -/
  fed : Bool := false
  outBuf : List Byte := []
  /-- `Result.output_bytes`. -/
  out : List Byte := []
  /-- The task that reads the output has ended. -/
  outDone : Bool := false

/-- Before the first step. shellous/runner.py:788-852 `_setup_input_source`, `_setup_output_sink`: one task that feeds the first command, one that reads the
output of the last one, and one for each standard error that is buffered. -/
def Cfg.init (cfg : Cfg S) : Net S := { cmds := fun i => { loc := { st := cfg.prog i } }, rest := cfg.input }

/-- Whose turn it is. -/
inductive Who where
  | feed
  | cmd (i : Nat)
  | readOut
  | readErr (i : Nat)
deriving DecidableEq, Repr

/-- Replace a command. -/
def Net.set (net : Net S) (i : Nat) (c : Cmd S) : Net S := { net with cmds := fun j => if j = i then c else net.cmds j }

/-- Somebody may still write into the pipe to the standard input of command `i`. -/
def Net.upOpen (net : Net S) : Nat → Bool
  | 0 => !net.fed
  | i + 1 => (net.cmds i).writes

/-- The step of a program; `none` if it has to wait. -/
def Cfg.cmdStep (cfg : Cfg S) (net : Net S) (i : Nat) : Option (Net S) :=
  let c := net.cmds i
  let go (a : Option Byte) (c : Cmd S) : Cmd S := { c with loc := lstep cfg.act (fun _ => a) c.loc, steps := c.steps + 1 }
  match cfg.act c.loc.st with
  | .read _ =>
    if c.loc.inOpen then
      match c.buf with
      | b :: r => some (net.set i (go (some b) { c with buf := r }))
      | [] => if net.upOpen i then none else some (net.set i (go none c))
    else some (net.set i (go none c))
  | .out b _ =>
    if c.loc.outOpen then
      if i + 1 < cfg.n then
        let d := net.cmds (i + 1)
        if d.reads then
          if d.buf.length < cfg.cap (i + 1) then some ((net.set i (go none c)).set (i + 1) { d with buf := d.buf ++ [b] })
          else none
        else some (net.set i { c with killed := true })
      else if net.outBuf.length < cfg.outCap then some { net.set i (go none c) with outBuf := net.outBuf ++ [b] }
      else none
    else some (net.set i (go none c))
  | .err b _ => if c.errBuf.length < cfg.errCap i then some (net.set i { go none c with errBuf := c.errBuf ++ [b] }) else none
  | _ => some (net.set i (go none c))

/-- One step; `none` if it is not possible. -/
def Cfg.step (cfg : Cfg S) (net : Net S) : Who → Option (Net S)
  -- shellous/redirect.py:126-146 `write_stream`: write as long as there is room, then close; stop if the reader is gone (108-123 `_drain`)
  | .feed =>
    if net.fed then none
    else
      let c := net.cmds 0
      if c.reads then
        match net.rest with
        | [] => some { net with fed := true }
        | b :: r => if c.buf.length < cfg.cap 0 then some { net.set 0 { c with buf := c.buf ++ [b] } with sent := net.sent ++ [b], rest := r } else none
      else some { net with fed := true }
  | .cmd i => if i < cfg.n ∧ (net.cmds i).alive = true then cfg.cmdStep net i else none
  -- shellous/redirect.py:235-242 `copy_bytearray`: read until end-of-file
  | .readOut =>
    if net.outDone then none
    else match net.outBuf with
      | b :: r => some { net with outBuf := r, out := net.out ++ [b] }
      | [] => if (net.cmds (cfg.n - 1)).writes then none else some { net with outDone := true }
  -- shellous/redirect.py:246-267 `copy_bytearray_limit`: read until end-of-file, keep the first `limit` bytes
  | .readErr i =>
    let c := net.cmds i
    if i < cfg.n ∧ c.errDone = false then
      match c.errBuf with
      | b :: r =>
        if c.errFull then some (net.set i { c with errBuf := r, errRead := c.errRead + 1 })
        else
          let kept := c.errKept ++ [b]
          some (net.set i { c with
            errBuf := r, errRead := c.errRead + 1, errKept := kept.take cfg.limit, errFull := decide (cfg.limit < kept.length) })
      | [] => if c.alive then none else some (net.set i { c with errDone := true })
    else none

/-- Any number of steps, all of them possible. -/
def Cfg.run (cfg : Cfg S) (net : Net S) : List Who → Option (Net S)
  | [] => some net
  | w :: ws =>
    match cfg.step net w with
    | some net => cfg.run net ws
    | none => none

end Shellous.Flow
