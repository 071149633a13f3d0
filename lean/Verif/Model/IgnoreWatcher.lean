/-!
# Who waits for a child on a BSD pty (shellous/pty_util.py:259-295, runner.py:734-745)

On BSD and macOS the runner itself polls a child on a pseudo-terminal; the child watcher of asyncio must not get hold of it. For that the
watcher's `add_child_handler` is wrapped, once and for all, and a context variable tells the wrapper to do nothing.

Children may be launched by any number of tasks in any number of threads (each with its own event loop; the child watcher is the same for all
of them). One access to an attribute of the watcher or to the context variable is one step. Tasks of one thread take turns only where a
coroutine is suspended: from the call of `set_ignore_child_watcher` to the registration of the child there is no such point (asyncio
unix_events.py `_make_subprocess_transport`).

Assumed: nobody replaces the child watcher or wraps it in some other way.
-/

namespace Shellous.Ign

/-- Where a task is in the launch of its child. -/
inductive Pc where
  /-- About to enter `set_ignore_child_watcher`. -/
  | enter
  /-- About to set `_shellous_patched`. -/
  | mark
  /-- About to read `watcher.add_child_handler`. -/
  | save
  /-- About to replace it by a wrapper around the chain of so many wrappers. -/
  | install (saved : Nat)
  /-- About to set the context variable. -/
  | setVar
  /-- Within `create_subprocess_exec`, about to create the child and register it. -/
  | launch
  /-- The child was registered (or not), and the task is suspended in `create_subprocess_exec`, or has left it. -/
  | leave
  /-- Done. -/
  | done
deriving DecidableEq, Repr

/-- One launch. -/
structure Job where
  thread : Nat
  /-- By shellous: `BSD_DERIVED`, and whether the command is on a pty; `none` for a child that is not launched by shellous, but by
  `asyncio.create_subprocess_exec`. -/
  launch : Option (Bool × Bool)
  /-- The argument of `set_ignore_child_watcher`, if it is called. -/
  ignore : Option Bool
  pc : Pc
  /-- The value of `_IGNORE_CHILD_PROCESS` in the context of this task. -/
  var : Bool
  /-- How often its child was handed to the child watcher's own `add_child_handler`. -/
  watched : Nat := 0
  /-- The child exists. -/
  born : Bool := false
deriving DecidableEq, Repr

/-- shellous/runner.py:739-741: `BSD_DERIVED and opts.pty_fds is not None`. -/
def ignoreOf (l : Option (Bool × Bool)) : Option Bool := l.map fun l => l.1 && l.2

/-- A task that is about to launch a child. -/
def Job.new (t : Nat) (l : Option (Bool × Bool)) (var : Bool) : Job :=
  { thread := t, launch := l, ignore := ignoreOf l, pc := .enter, var := var }

/-- The child watcher, and all launches so far. -/
structure World where
  /-- `hasattr(watcher, "_shellous_patched")`. -/
  flag : Bool := false
  /-- How many wrappers there are around `add_child_handler`. -/
  depth : Nat := 0
  jobs : List Job := []
deriving DecidableEq, Repr

/-- The job is at a place between two suspensions. -/
def Pc.busy : Pc → Bool
  | .enter | .leave | .done => false
  | _ => true

/-- shellous/pty_util.py:278-280 `_add_child_handler`, with so many wrappers around the watcher's method: is the method called? -/
def reaches (var : Bool) : Nat → Bool
  | 0 => true
  | n + 1 => !var && reaches var n

/-- What can happen. -/
inductive Ev where
  /-- A task is created, to launch a child. It gets a copy of the context of the job `parent`, or of one in which the variable has its default. -/
  | create (parent : Option Nat) (thread : Nat) (launch : Option (Bool × Bool))
  /-- The next step of a job; `ok`: does the creation of the child succeed? -/
  | step (i : Nat) (ok : Bool)
deriving DecidableEq, Repr

/-- Another task of the thread is in the middle of something. -/
def World.blocked (w : World) (i t : Nat) : Bool :=
  (List.range w.jobs.length).any fun k => k != i && match w.jobs[k]? with
    | some j => j.thread == t && j.pc.busy
    | none => false

/-- The next step of a job, alone: what becomes of it, of the flag and of the wrappers. -/
def Job.next (j : Job) (ok : Bool) (flag : Bool) (depth : Nat) : Job × Bool × Nat :=
  match j.pc with
  -- shellous/pty_util.py:288-289, 272-273
  | .enter =>
    match j.ignore with
    | none => ({ j with pc := .launch }, flag, depth)
    | some ig => ({ j with pc := if ig && !flag then .mark else .setVar }, flag, depth)
  -- shellous/pty_util.py:274
  | .mark => ({ j with pc := .save }, true, depth)
  -- shellous/pty_util.py:276
  | .save => ({ j with pc := .install depth }, flag, depth)
  -- shellous/pty_util.py:282
  | .install n => ({ j with pc := .setVar }, flag, n + 1)
  -- shellous/pty_util.py:291
  | .setVar => ({ j with pc := .launch, var := j.ignore == some true }, flag, depth)
  -- asyncio; shellous/pty_util.py:278-280
  | .launch =>
    if ok then ({ j with pc := .leave, born := true, watched := j.watched + (if reaches j.var depth then 1 else 0) }, flag, depth)
    else ({ j with pc := .leave }, flag, depth)
  -- shellous/pty_util.py:294-295
  | .leave => ({ j with pc := .done, var := if j.ignore.isSome then false else j.var }, flag, depth)
  | .done => (j, flag, depth)

/-- One event. A task cannot do a step while another task of the thread is not suspended, and a task that is within
`create_subprocess_exec` creates none that launches a child. -/
def World.ev (w : World) : Ev → World
  | .create parent t l =>
    match parent with
    | none => { w with jobs := w.jobs ++ [Job.new t l false] }
    | some p =>
      match w.jobs[p]? with
      | some j =>
        if j.pc = .enter ∨ j.pc = .done then
          { w with jobs := w.jobs ++ [Job.new t l j.var] }
        else w
      | none => w
  | .step i ok =>
    match w.jobs[i]? with
    | some j =>
      if w.blocked i j.thread then w
      else
        let r := j.next ok w.flag w.depth
        { flag := r.2.1, depth := r.2.2, jobs := w.jobs.set i r.1 }
    | none => w

/-- Any history. -/
def World.run (w : World) (evs : List Ev) : World := evs.foldl World.ev w

end Shellous.Ign
