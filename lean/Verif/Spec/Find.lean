import Verif.Model.Find

/-! # Specification: search paths, and when two paths name the same file -/

namespace Shellous.Find

/-- `parts` are what is between the separators of `s`. -/
structure Splits (c : Char) (s : Str) (parts : List Str) : Prop where
  some : parts ≠ []
  clean : ∀ p ∈ parts, c ∉ p
  whole : (parts.intersperse [c]).flatten = s

/-- The search path: the `path` option if there is one, else the environment variable `PATH` of the parent, else the default. -/
inductive Env.PathIs (e : Env) : Str → Prop where
  | option {p : Str} (h : e.path = some p) : PathIs e p
  | environ {p : Str} (h : e.path = none) (h' : e.environ = some p) : PathIs e p
  | default (h : e.path = none) (h' : e.environ = none) : PathIs e e.csPath

/-- `f` is the file `name` in the first directory of `dirs` that has one that can be executed. -/
def Env.First (e : Env) (dirs : List Str) (name f : Str) : Prop :=
  ∃ before d after, dirs = before ++ d :: after ∧ f = join d name ∧ e.exe f = true ∧ ∀ d' ∈ before, e.exe (join d' name) = false

/-- How a path begins: relative, absolute, or with exactly two slashes (which POSIX leaves to the system). -/
inductive Root where
  | cwd
  | root
  | two
deriving DecidableEq

def rootOf (s : Str) : Root :=
  if s.take 2 = ['/', '/'] ∧ s.take 3 ≠ ['/', '/', '/'] then .two else if s.head? = some '/' then .root else .cwd

/-- Both begin at the same place and go through the same directories: they name the same file. -/
def SameFile (s t : Str) : Prop :=
  rootOf s = rootOf t ∧
    ∃ ps qs, Splits '/' s ps ∧ Splits '/' t qs ∧ (ps.filter fun p => p ≠ [] ∧ p ≠ ['.']) = qs.filter fun p => p ≠ [] ∧ p ≠ ['.']

end Shellous.Find
