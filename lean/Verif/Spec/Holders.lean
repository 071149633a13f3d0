import Verif.Spec.Child

/-!
# Specification: which processes hold which open files (C93)

The calling process and its children, as the kernel sees them. An *open file* (a pipe end, a file, a side of a terminal) is told from others by a number of its own,
since descriptor numbers are used again after they were closed.
-/

namespace Shellous

/-- A command or pipeline still to be started; a command whose `__enter__` is over, with the keyword arguments for its process in `s1`; or one whose process was
created and whose `__exit__` is still to come (shellous/runner.py:640-710 `Runner._start`). -/
inductive KItem where
  | todo (c : SubCmd)
  | ready (s1 : LS)
  | running (openFds : List Ent) (subs : List SubCmd)

/-- A child process (with all processes that it creates): the open files it was given, and those that are still held. -/
structure Child where
  given : Nat → Prop
  held : Nat → Prop

/-- The calling process, the children that it created, and the open files. -/
structure Kernel where
  items : List KItem
  /-- The parent sides of terminals. -/
  parents : List Int
  st : LS
  /-- The open file behind each descriptor in the table of the calling process. -/
  file : Int → Nat
  /-- Open files have numbers below this. -/
  files : Nat
  /-- Both ends of the pipes that the library made: read end, write end. -/
  pipes : List (Nat × Nat)
  children : List Child

/-- The calling process opens files: its descriptors stay as they are, and each new one is a new open file. -/
structure Opens (tab tab' : List Int) (f : Int → Nat) (m : Nat) (f' : Int → Nat) (m' : Nat) : Prop where
  old : ∀ n ∈ tab, f' n = f n
  new : ∀ n ∈ tab', n ∉ tab → m ≤ f' n ∧ f' n < m'
  inj : ∀ n n', n ∈ tab' → n' ∈ tab' → n ∉ tab → n' ∉ tab → f' n = f' n' → n = n'
  le : m ≤ m'

/-- The pipes that a step made, as open files. -/
def newPipes (s s' : LS) (f : Int → Nat) : List (Nat × Nat) := (s'.pipes.drop s.pipes.length).map fun p => (f p.1, f p.2)

/-- One step: a command is prepared, the process of a prepared command is created and gets the descriptors that `ChildHolds` says, the library closes its copies and
goes on to the process substitutions, a pipeline is prepared, or a child closes files or exits. `inh` tells which descriptors of the caller are inheritable. -/
inductive KStep (sys : Sys) (inh : Int → Prop) : Kernel → Kernel → Prop
  | enter (q1 q2 : List KItem) (c : Command) (ps : List Int) (s s1 : LS) (f f' : Int → Nat) (m m' : Nat) (pp : List (Nat × Nat)) (ch : List Child) :
      enter sys c s = (.ok (), s1) → Opens s.tab s1.tab f m f' m' →
      KStep sys inh ⟨q1 ++ .todo (.cmd c) :: q2, ps, s, f, m, pp, ch⟩
        ⟨q1 ++ .ready s1 :: q2, ps ++ (s1.pty.map (·.parent)).toList, s1, f', m', pp ++ newPipes s s1 f', ch⟩
  | fork (q1 q2 : List KItem) (s1 : LS) (ps : List Int) (s : LS) (f : Int → Nat) (m : Nat) (pp : List (Nat × Nat)) (ch : List Child) :
      KStep sys inh ⟨q1 ++ .ready s1 :: q2, ps, s, f, m, pp, ch⟩
        ⟨q1 ++ .running s1.openFds s1.subcmds :: q2, ps, s, f, m, pp,
          ch ++ [⟨fun i => ∃ n, ChildHolds inh { s1 with tab := s.tab } n ∧ f n = i, fun i => ∃ n, ChildHolds inh { s1 with tab := s.tab } n ∧ f n = i⟩]⟩
  | exit (q1 q2 : List KItem) (es : List Ent) (subs : List SubCmd) (ps : List Int) (s s1 : LS) (f : Int → Nat) (m : Nat) (pp : List (Nat × Nat)) (ch : List Child) :
      exit sys false { s with openFds := es } = (s1, false) →
      KStep sys inh ⟨q1 ++ .running es subs :: q2, ps, s, f, m, pp, ch⟩ ⟨q1 ++ subs.map .todo ++ q2, ps, s1, f, m, pp, ch⟩
  | stitch (q1 q2 : List KItem) (p : Pipeline) (cs : List Command) (ps : List Int) (s s1 : LS) (f f' : Int → Nat) (m m' : Nat) (pp : List (Nat × Nat)) (ch : List Child) :
      pipeStart sys p.commands s = (.ok cs, s1) → Opens s.tab s1.tab f m f' m' →
      KStep sys inh ⟨q1 ++ .todo (.pipe p) :: q2, ps, s, f, m, pp, ch⟩
        ⟨q1 ++ cs.map (fun c => .todo (.cmd c)) ++ q2, ps, s1, f', m', pp ++ newPipes s s1 f', ch⟩
  | child (q : List KItem) (ps : List Int) (s : LS) (f : Int → Nat) (m : Nat) (pp : List (Nat × Nat)) (ch1 ch2 : List Child) (c : Child) (held : Nat → Prop) :
      (∀ i, held i → c.held i) → KStep sys inh ⟨q, ps, s, f, m, pp, ch1 ++ c :: ch2⟩ ⟨q, ps, s, f, m, pp, ch1 ++ { c with held } :: ch2⟩

/-- Any number of steps. -/
inductive KSteps (sys : Sys) (inh : Int → Prop) : Kernel → Kernel → Prop
  | refl (k : Kernel) : KSteps sys inh k k
  | step {a b c : Kernel} : KSteps sys inh a b → KStep sys inh b c → KSteps sys inh a c

/-- The calling process has the open file `i`. -/
def Kernel.holds (k : Kernel) (i : Nat) : Prop := ∃ n ∈ k.st.tab, k.file n = i

mutual
/-- All commands of a command line, at any depth. -/
def allCmd (P : Options → Prop) : Command → Prop
  | .mk args o => P o ∧ allLeaves P args
@[inherit_doc allCmd]
def allLeaves (P : Options → Prop) : List Leaf → Prop
  | [] => True
  | a :: as => allLeaf P a ∧ allLeaves P as
@[inherit_doc allCmd]
def allLeaf (P : Options → Prop) : Leaf → Prop
  | .cmd c => allCmd P c
  | .pipe cs => allCmds P cs
  | .str _ | .bytes _ | .path _ => True
@[inherit_doc allCmd]
def allCmds (P : Options → Prop) : List Command → Prop
  | [] => True
  | c :: cs => allCmd P c ∧ allCmds P cs
end

@[inherit_doc allCmd]
def SubCmd.all (P : Options → Prop) : SubCmd → Prop
  | .cmd c => allCmd P c
  | .pipe p => allCmds P p.commands

/-- Each descriptor that the options mention is one that the caller keeps, or is handed over there. -/
structure Tame (keep : List Int) (o : Options) : Prop where
  input : ∀ n ∈ o.input.fd, n ∈ keep ∨ o.inputClose = true
  output : ∀ n ∈ o.output.fd, n ∈ keep ∨ o.outputClose = true
  error : ∀ n ∈ o.error.fd, n ∈ keep ∨ o.errorClose = true
  passFds : ∀ n ∈ o.passFds, n ∈ keep ∨ o.passFdsClose = true ∧ 0 ≤ n

/-- The start: the caller's descriptors `keep` and those handed over in the commands are open, and are different open files. -/
def Kernel.start (cmds : List SubCmd) (keep : List Int) (f : Int → Nat) (m : Nat) : Kernel :=
  ⟨cmds.map .todo, [], { tab := keep ++ cmds.flatMap SubCmd.owned }, f, m, [], []⟩

end Shellous
