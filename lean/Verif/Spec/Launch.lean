import Verif.Model.Launch

/-!
# Specification vocabulary for launching: who owns which descriptor
-/

namespace Shellous

/-- The descriptor that `stdin(t, close=True)` hands over (none for anything that is not a
descriptor number). -/
def givenBy (close : Bool) : Target → List Int
  | .int n => if close && decide (0 ≤ n) then [n] else []
  | _ => []

/-- The descriptors a command's options hand over to the library: redirections to a descriptor with
`close=True` and, with `_pass_fds_close`, those in `_pass_fds`. -/
def handed (o : Options) : List Int :=
  givenBy o.inputClose o.input ++ givenBy o.outputClose o.output ++ givenBy o.errorClose o.error ++
    (if o.passFdsClose then o.passFds.filter (fun n => decide (0 ≤ n)) else [])

/-- The substitution is marked with `.writable`: the command itself or, for a pipeline, its first or its
last command. -/
def MarkedWritable : SubCmd → Prop
  | .cmd c => c.options.writable = true
  | .pipe p => ∃ c, (p.commands.head? = some c ∨ p.commands.getLast? = some c) ∧ c.options.writable = true

/-- `Subst args progArgs subs passed kept pipes`: `progArgs` is the program's argument list for `args`,
where every command argument was replaced by the path of one end of a pipe (`passed`, in order) and
`subs` are the commands with the other end of that pipe (`kept`, in order) as stdout, or as stdin for
writable ones. `pipes` are the pipes (read end, write end), one for each substitution, in order. -/
inductive Subst : List Leaf → List PArg → List SubCmd → List Int → List Int → List (Int × Int) → Prop
  | nil : Subst [] [] [] [] [] []
  | plain (a : Leaf) {as ps subs passed kept pipes} : a.sub? = none →
      Subst as ps subs passed kept pipes →
      Subst (a :: as) (.leaf a :: ps) subs passed kept pipes
  | reading (a : Leaf) (sub sub' : SubCmd) (r w : Int) {as ps subs passed kept pipes} :
      a.sub? = some sub → ¬ MarkedWritable sub → sub.stdout w = .ok sub' →
      Subst as ps subs passed kept pipes →
      Subst (a :: as) (.devFd r :: ps) (sub' :: subs) (r :: passed) (w :: kept) ((r, w) :: pipes)
  | writing (a : Leaf) (sub sub' : SubCmd) (r w : Int) {as ps subs passed kept pipes} :
      a.sub? = some sub → MarkedWritable sub → sub.stdin r = .ok sub' →
      Subst as ps subs passed kept pipes →
      Subst (a :: as) (.devFd w :: ps) (sub' :: subs) (w :: passed) (r :: kept) ((r, w) :: pipes)

/-! ## Everything a command hands over, including its process substitutions -/

mutual
/-- Descriptors handed over by a command and, recursively, by the commands among its arguments. -/
def ownedCmd : Command → List Int
  | .mk args o => handed o ++ ownedLeaves args
@[inherit_doc ownedCmd]
def ownedLeaves : List Leaf → List Int
  | [] => []
  | a :: as => ownedLeaf a ++ ownedLeaves as
@[inherit_doc ownedCmd]
def ownedLeaf : Leaf → List Int
  | .cmd c => ownedCmd c
  | .pipe cs => ownedCmds cs
  | .str _ | .bytes _ | .path _ => []
@[inherit_doc ownedCmd]
def ownedCmds : List Command → List Int
  | [] => []
  | c :: cs => ownedCmd c ++ ownedCmds cs
end

@[inherit_doc ownedCmd]
def SubCmd.owned : SubCmd → List Int
  | .cmd c => ownedCmd c
  | .pipe p => ownedCmds p.commands

/-- The command does not hand over a descriptor as its stdin. -/
def noIn (c : Command) : Prop := givenBy c.options.inputClose c.options.input = []
/-- The command does not hand over a descriptor as its stdout. -/
def noOut (c : Command) : Prop := givenBy c.options.outputClose c.options.output = []

/-- No command of a pipeline hands over a descriptor as a stdin or stdout that the pipeline replaces. -/
def cleanLinks : List Command → Prop
  | [] => True
  | [_] => True
  | c :: d :: rest => noOut c ∧ noIn d ∧ cleanLinks (d :: rest)

/-- A process substitution does not hand over a descriptor as the stream that is replaced. -/
def cleanEnd : SubCmd → Prop
  | .cmd c => if c.options.writable then noIn c else noOut c
  | .pipe p => if (SubCmd.pipe p).isWritable then (∀ c, p.commands.head? = some c → noIn c)
      else (∀ c, p.commands.getLast? = some c → noOut c)

mutual
/-- No command overrides a redirection that hands over a descriptor: neither by being piped nor by
being used as a process substitution, at any depth. -/
def cleanCmd : Command → Prop
  | .mk args _ => cleanLeaves args
@[inherit_doc cleanCmd]
def cleanLeaves : List Leaf → Prop
  | [] => True
  | a :: as => cleanLeaf a ∧ cleanLeaves as
@[inherit_doc cleanCmd]
def cleanLeaf : Leaf → Prop
  | .cmd c => cleanEnd (.cmd c) ∧ cleanCmd c
  | .pipe cs => cleanEnd (.pipe ⟨cs⟩) ∧ cleanLinks cs ∧ cleanCmds cs
  | .str _ | .bytes _ | .path _ => True
@[inherit_doc cleanCmd]
def cleanCmds : List Command → Prop
  | [] => True
  | c :: cs => cleanCmd c ∧ cleanCmds cs
end

@[inherit_doc cleanCmd]
def SubCmd.clean : SubCmd → Prop
  | .cmd c => cleanCmd c
  | .pipe p => cleanLinks p.commands ∧ cleanCmds p.commands

/-! ## Concurrent launches -/

/-- A command or pipeline still to be started, or a command between `__enter__` and `__exit__`
(with its `open_fds` and `subcmds`). -/
inductive LItem where
  | todo (c : SubCmd)
  | entered (openFds : List Ent) (subs : List SubCmd)

/-- The commands in progress, the parent sides of the terminals created, and the state. -/
structure LConf where
  items : List LItem
  parents : List Int
  st : LS

/-- One step of concurrently launching commands: any command may enter, any entered one whose process
was spawned may exit, which schedules its process substitutions, and any pipeline may be stitched. -/
inductive LStep (sys : Sys) : LConf → LConf → Prop
  | enter (q1 q2 : List LItem) (c : Command) (ps : List Int) (s s1 : LS) :
      enter sys c s = (.ok (), s1) →
      LStep sys ⟨q1 ++ .todo (.cmd c) :: q2, ps, s⟩
        ⟨q1 ++ .entered s1.openFds s1.subcmds :: q2, ps ++ (s1.pty.map (·.parent)).toList, s1⟩
  | exit (q1 q2 : List LItem) (es : List Ent) (subs : List SubCmd) (ps : List Int) (s s1 : LS) :
      exit sys false { s with openFds := es } = (s1, false) →
      LStep sys ⟨q1 ++ .entered es subs :: q2, ps, s⟩ ⟨q1 ++ subs.map .todo ++ q2, ps, s1⟩
  | stitch (q1 q2 : List LItem) (p : Pipeline) (cs : List Command) (ps : List Int) (s s1 : LS) :
      pipeStart sys p.commands s = (.ok cs, s1) →
      LStep sys ⟨q1 ++ .todo (.pipe p) :: q2, ps, s⟩ ⟨q1 ++ cs.map (fun c => .todo (.cmd c)) ++ q2, ps, s1⟩

/-- Any number of steps. -/
inductive LSteps (sys : Sys) : LConf → LConf → Prop
  | refl (a : LConf) : LSteps sys a a
  | step {a b c : LConf} : LStep sys a b → LSteps sys b c → LSteps sys a c

end Shellous
