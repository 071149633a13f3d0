import Verif.Model.Basic

/-!
# Re-entrant commands (shellous/util.py `context_aenter`, `context_aexit`)

`async with cmd` calls `cmd.__aenter__` and `cmd.__aexit__`. The runs that are open are kept on stacks, in a dictionary that
a context variable refers to. The keys of the dictionary are pairs of addresses (`id(...)`), of the command and of the task.
Addresses are distinct while both objects exist, and may be used again afterwards. A task has a context; a new task
gets a copy of a context (which refers to the same dictionary), or shares one.

Tasks, commands, contexts, dictionaries and runs are numbered in the model; a number is never used again.
-/

namespace Shellous

/-- The key of a stack (util.py:23, 163): the address of the command and that of the task. -/
structure CtxKey where
  cmd : Nat
  task : Nat
deriving DecidableEq

/-- An entry of a stack: a `Runner` (or `PipeRunner`), that refers to its command. -/
structure OpenRun where
  run : Nat
  cmd : Nat
deriving DecidableEq

/-- What happens. -/
inductive CEv where
  /-- a context is made: empty, or a copy of another (`contextvars.copy_context`, `asyncio.create_task`) -/
  | context (copyOf : Option Nat)
  /-- task `t` is made, at address `a`, with the context `c` -/
  | spawn (t a c : Nat)
  /-- task `t` ends, and its address is free again -/
  | finish (t : Nat)
  /-- the command `o` is made, at address `a` -/
  | alloc (o a : Nat)
  /-- nobody refers to the command `o` any more, and its address is free again -/
  | free (o : Nat)
  /-- in task `t`, `Runner.__aenter__` for the command `o` has returned, and the rest of `context_aenter` is done -/
  | enter (t o : Nat)
  /-- in task `t`, `Runner.__aenter__` for the command `o` has raised -/
  | enterFailed (t o : Nat)
  /-- task `t` calls `o.__aexit__`: `context_aexit` up to its `await` -/
  | exit (t o : Nat)
deriving DecidableEq

/-- The world of the context stacks. -/
structure CW where
  /-- the dictionaries: what they hold for a key -/
  dicts : Nat → CtxKey → Option (List OpenRun) := fun _ _ => none
  /-- how many dictionaries, contexts and runs there have been -/
  nDicts : Nat := 0
  nCtxs : Nat := 0
  nRuns : Nat := 0
  /-- the value of `_CONTEXT_STACKS` in a context (util.py:26-28), if it is set -/
  var : Nat → Option Nat := fun _ => none
  /-- the tasks that exist: address and context -/
  task : Nat → Option (Nat × Nat) := fun _ => none
  /-- the commands that exist: address -/
  cmd : Nat → Option Nat := fun _ => none
  /-- the tasks and commands there have been -/
  tasksUsed : List Nat := []
  cmdsUsed : List Nat := []

/-- Change what dictionary `d` holds for the key `k`. -/
def CW.put (w : CW) (d : Nat) (k : CtxKey) (v : Option (List OpenRun)) : CW :=
  { w with dicts := fun d' k' => if d' = d ∧ k' = k then v else w.dicts d' k' }

/-- shellous/util.py:163, 180: `(id(owner), id(asyncio.current_task()))`, and the value of the context variable. -/
def CW.look (w : CW) (t o : Nat) : Option (Option Nat × CtxKey × Nat) :=
  match w.task t, w.cmd o with
  | some (a, c), some b => some (w.var c, ⟨b, a⟩, c)
  | _, _ => none

/-- shellous/util.py:157-167: `context_aenter` after `Runner.__aenter__` has returned. (`ctxt_stacks[key]` of a
`defaultdict` makes a missing entry.) -/
def CW.push (w : CW) (t o : Nat) : CW :=
  match w.look t o with
  | none => w
  | some (some d, k, _) =>
    { w.put d k (some (⟨w.nRuns, o⟩ :: (w.dicts d k).getD [])) with nRuns := w.nRuns + 1 }
  | some (none, k, c) =>
    { w.put w.nDicts k (some (⟨w.nRuns, o⟩ :: (w.dicts w.nDicts k).getD [])) with
      nRuns := w.nRuns + 1, nDicts := w.nDicts + 1, var := upd w.var c (some w.nDicts) }

/-- shellous/util.py:178-186: which run `context_aexit` closes; RuntimeError if the variable is not set or the stack is
empty. -/
def CW.closes (w : CW) (t o : Nat) : Except Exc Nat :=
  match w.look t o with
  | some (some d, k, _) =>
    match (w.dicts d k).getD [] with
    | r :: _ => .ok r.run
    | [] => .error .runtimeError
  | _ => .error .runtimeError

/-- shellous/util.py:178-184: the stack afterwards. An empty stack is deleted; but when there was none, the read access has
left an empty one in the `defaultdict`. -/
def CW.pop (w : CW) (t o : Nat) : CW :=
  match w.look t o with
  | some (some d, k, _) =>
    match (w.dicts d k).getD [] with
    | [_] => w.put d k none
    | _ :: rest => w.put d k (some rest)
    | [] => w.put d k (some [])
  | _ => w

/-- One step. -/
def CW.step (w : CW) : CEv → CW
  | .context none => { w with nCtxs := w.nCtxs + 1 }
  | .context (some c) => { w with nCtxs := w.nCtxs + 1, var := upd w.var w.nCtxs (w.var c) }
  | .spawn t a c => { w with task := upd w.task t (some (a, c)), tasksUsed := t :: w.tasksUsed }
  | .finish t => { w with task := upd w.task t none }
  | .alloc o a => { w with cmd := upd w.cmd o (some a), cmdsUsed := o :: w.cmdsUsed }
  | .free o => { w with cmd := upd w.cmd o none }
  | .enter t o => w.push t o
  | .enterFailed _ _ => w
  | .exit t o => w.pop t o

/-- What can happen: objects are new when they are made, at an address that no other object of the kind has; a command
exists while a run refers to it; only tasks that exist act, on commands that exist. -/
def CW.allows (w : CW) : CEv → Prop
  | .context none => True
  | .context (some c) => c < w.nCtxs
  | .spawn t a c => t ∉ w.tasksUsed ∧ c < w.nCtxs ∧ ∀ t' x, w.task t' = some x → x.1 ≠ a
  | .finish t => w.task t ≠ none
  | .alloc o a => o ∉ w.cmdsUsed ∧ ∀ o' b, w.cmd o' = some b → b ≠ a
  | .free o => w.cmd o ≠ none ∧ ∀ d k, ∀ r ∈ (w.dicts d k).getD [], r.cmd ≠ o
  | .enter t o => w.task t ≠ none ∧ w.cmd o ≠ none
  | .enterFailed t o => w.task t ≠ none ∧ w.cmd o ≠ none
  | .exit t o => w.task t ≠ none ∧ w.cmd o ≠ none

/-- The world after a history. -/
def CW.after (evs : List CEv) : CW := evs.foldl CW.step {}

end Shellous
