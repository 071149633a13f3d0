import Verif.Model.Subst

/-! # Specification: executions in which all data is consumed -/

namespace Shellous.Subst

variable {S : Type}

/-- The next step of node `u` kills it: it writes to a pipe that nobody reads any more. -/
def Cfg.Killed (cfg : Cfg S) (net : Net S) (u : Nat) : Prop :=
  ∃ v b s, cfg.act (net.st u) = .write v b s ∧ cfg.writer v = some u ∧ (net.pipe v).wClosed = false ∧ cfg.rOpen net v = false

/-- Nobody is killed during a run. -/
def Cfg.Calm (cfg : Cfg S) : Net S → List Nat → Prop
  | _, [] => True
  | net, u :: us => ¬ cfg.Killed net u ∧ ∀ net', cfg.step net u = some net' → cfg.Calm net' us

/-- A complete execution in which nobody is killed and all that is written is read. -/
structure Cfg.Consumes (cfg : Cfg S) (us : List Nat) (net : Net S) : Prop where
  run : cfg.run cfg.init us = some net
  calm : cfg.Calm cfg.init us
  ended : ∀ u, u < cfg.links.length → net.ended u = true
  empty : ∀ v, (net.pipe v).buf = []

/-- What a program can do when its reads are answered in any way: from `s` it gets to `s'` by reading `l` (pipes and answers, `none` is the end of the file). -/
inductive Path (act : S → Act S) : S → List (Nat × Option Byte) → S → Prop
  | refl (s : S) : Path act s [] s
  | read {s s' : S} {l v k} (r : Option Byte) : Path act s l s' → act s' = .read v k → Path act s (l ++ [(v, r)]) (k r)
  | write {s s' s'' : S} {l v b} : Path act s l s' → act s' = .write v b s'' → Path act s l s''
  | close {s s' s'' : S} {l v} : Path act s l s' → act s' = .close v s'' → Path act s l s''

/-- Each program reads each of its inputs to the end before it closes it or exits. -/
def Cfg.Patient (cfg : Cfg S) : Prop :=
  ∀ u v l s, cfg.reader v = some u → Path cfg.act (cfg.prog u) l s → (cfg.act s = .exit ∨ ∃ s', cfg.act s = .close v s') → (v, none) ∈ l

end Shellous.Subst
