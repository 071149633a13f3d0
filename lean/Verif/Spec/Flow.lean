import Verif.Model.Flow

/-! # Specification: what a pipeline computes, and when it has ended -/

namespace Shellous.Flow

variable {S : Type}

/-- A program, alone, after `n` steps, when its `j`-th read is answered by `f j` at once and its writes never wait. -/
def alone (act : S → Act S) (s : S) (f : Nat → Option Byte) : Nat → Loc S
  | 0 => { st := s }
  | n + 1 => lstep act f (alone act s f n)

/-- A stream: its bytes, then `none`. -/
def ofList (l : List Byte) : Nat → Option Byte := fun j => l[j]?

open Classical in
/-- What a program writes if its input is the stream `f`: the `j`-th byte, if it ever comes to write it. -/
noncomputable def output (act : S → Act S) (s : S) (f : Nat → Option Byte) : Nat → Option Byte := fun j =>
  if h : ∃ n, j < (alone act s f n).wrote.length then (alone act s f h.choose).wrote[j]? else none

/-- The stream between command `i - 1` and command `i`: each program applied to the output of the one before it. -/
noncomputable def Cfg.stream (cfg : Cfg S) : Nat → Nat → Option Byte
  | 0 => ofList cfg.input
  | i + 1 => output cfg.act (cfg.prog i) (cfg.stream i)

/-- The program, alone, reads `inp`, writes `out` and `err` and exits with `code`. -/
def Yields (act : S → Act S) (s : S) (inp out err : List Byte) (code : Int) : Prop :=
  ∃ n, (alone act s (ofList inp) n).code = some code ∧ (alone act s (ofList inp) n).wrote = out ∧ (alone act s (ofList inp) n).erred = err

/-- All processes and all tasks have ended. -/
structure Cfg.Done (cfg : Cfg S) (net : Net S) : Prop where
  fed : net.fed = true
  exited : ∀ i, i < cfg.n → (net.cmds i).alive = false
  out : net.outDone = true
  err : ∀ i, i < cfg.n → (net.cmds i).errDone = true

/-- The pipes can hold something. -/
structure Cfg.Ok (cfg : Cfg S) : Prop where
  some : 0 < cfg.n
  cap : ∀ i, 0 < cfg.cap i
  outCap : 0 < cfg.outCap
  errCap : ∀ i, 0 < cfg.errCap i

/-- The program exits some time, when its input is `f`. -/
def Halts (act : S → Act S) (s : S) (f : Nat → Option Byte) : Prop := ∃ n, (alone act s f n).code ≠ none

/-- The program exits some time, or goes on writing. -/
def Productive (act : S → Act S) (s : S) (f : Nat → Option Byte) : Prop :=
  ∀ m, ∃ n, (alone act s f n).code ≠ none ∨ m ≤ (alone act s f n).wrote.length

end Shellous.Flow
