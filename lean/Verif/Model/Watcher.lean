import Verif.Model.Result

/-!
# The child watcher (shellous/watcher.py `EPollStrategy`, `_poll_dead_pid`, `_invoke_callback`; shellous/util.py `wait_pid`)

Threads and tasks run interleaved: each event is one step of one of them, or of the operating system. A step is what the code
does between two points at which another thread can run and make a difference: one system call or one operation on the
shared dictionary.

* The operating system: children with process ids that are used again once a child has been reaped; descriptors with numbers
  that are used again once they are closed; epoll, level triggered; a pidfd is readable when the child has exited.
* Any number of calls of `watch_pid`, from any threads, numbered in order. The callback of a call is its number.
* The thread of the watcher (`_run`).
* Calls of `close`.
* Anyone else in the process, who may open and close descriptors, and may reap children.

Children and calls are numbered in the model; a number is never used again.
-/

namespace Shellous

/-- shellous/util.py:108-117: the status that `wait_pid` gives for a child that it has reaped. -/
def exitStatus (raw : Nat) : Int := (Shellous.waitPid (.status raw)).getD 255

/-- What a descriptor refers to: the pidfd of a child (made by the call of `watch_pid` with the number `call`), the ends of
the self-pipe, or something that is not the watcher's. -/
inductive WFd where
  | pidfd (child call : Nat)
  | pipeR
  | pipeW
  | other
deriving DecidableEq

/-- Where a call of `watch_pid` is. -/
inductive WatchPc where
  /-- there is no such call -/
  | unborn
  /-- before `os.pidfd_open` (watcher.py:356) -/
  | start
  /-- before the assignment to `_pidfds` (watcher.py:357) -/
  | opened (fd : Nat)
  /-- before `epoll.register` (watcher.py:359) -/
  | inserted (fd : Nat)
  /-- `watch_pid` has returned -/
  | done (fd : Nat)
  /-- an exception was caught: before `_pidfd_error` (watcher.py:296) -/
  | err
  /-- `watch_pid` has raised; its task `_poll_dead_pid` will try that many times more (watcher.py:438) -/
  | polling (tries : Nat)
  /-- that task has ended -/
  | finished
deriving DecidableEq

/-- How a callback ends: it returns, raises RuntimeError, or raises something else. -/
inductive CallbackEnd where
  | returns
  | runtimeError
  | otherError
deriving DecidableEq

/-- Why the thread has left its loop. -/
inductive Left where
  | closed
  | callbackRaised
  /-- `_pidfds.pop` found no entry -/
  | keyError
  /-- `epoll.unregister` or `os.close` failed -/
  | osError
deriving DecidableEq

/-- Where the thread is. `rest`: the events of the last `epoll.poll` that are still to be handled. -/
inductive TPc where
  /-- at `epoll.poll` (watcher.py:324) -/
  | poll
  /-- at the head of the `for` (watcher.py:325) -/
  | loop (rest : List Nat)
  /-- `_reap_pidfd` has the entry; before `wait_pid` (watcher.py:343) -/
  | waiting (fd pid call : Nat) (rest : List Nat)
  /-- before the callback (watcher.py:345) -/
  | calling (fd pid call : Nat) (status : Int) (rest : List Nat)
  /-- before `epoll.unregister` (watcher.py:364) -/
  | removing (fd : Nat) (rest : List Nat)
  /-- before `os.close` (watcher.py:365) -/
  | closing (fd : Nat) (rest : List Nat)
  /-- before `epoll.close` (watcher.py:332) -/
  | fin
  /-- before the keys are read (watcher.py:333) -/
  | finKeys
  /-- in `close_fds`; the descriptors still to be closed (watcher.py:334) -/
  | finClose (fds : List Nat)
  /-- the thread has ended -/
  | ended
deriving DecidableEq

/-- The world of the watcher. -/
structure WW where
  /-- the child with a process id, running or not reaped -/
  proc : Nat → Option Nat := fun _ => none
  nChildren : Nat := 0
  /-- the wait status of a child that has exited -/
  exited : Nat → Option Nat := fun _ => none
  /-- the descriptors of the process -/
  fds : Nat → Option WFd := fun _ => none
  /-- the epoll object is open; the descriptors registered -/
  epollOpen : Bool := true
  reg : List Nat := []
  /-- something was written to the self-pipe -/
  pipeWritten : Bool := false
  /-- `_pidfds` (watcher.py:267): process id and callback for a descriptor -/
  dict : Nat → Option (Nat × Nat) := fun _ => none
  /-- `_selfpipe` -/
  selfpipe : Option (Nat × Nat) := none
  /-- the local variable `pipe_fd` of the thread (watcher.py:321) -/
  pipeFd : Nat := 0
  /-- the thread, and why it has left its loop -/
  tpc : TPc := .poll
  left : Option Left := none
  /-- the calls of `watch_pid`: where they are, the process id they were given, and the child that had it then -/
  nCalls : Nat := 0
  pc : Nat → WatchPc := fun _ => .unborn
  pid : Nat → Nat := fun _ => 0
  target : Nat → Nat := fun _ => 0
  /-- the callbacks called, latest first: which call of `watch_pid`, process id, status -/
  reports : List (Nat × Nat × Int) := []
  /-- the kills: which call of `watch_pid`, the child that had the process id -/
  kills : List (Nat × Option Nat) := []
  /-- somebody else has reaped a child -/
  stolen : Bool := false
  /-- calls of `close` between the check and the write -/
  closers : Nat := 0
  /-- bytes written to, and descriptors closed that were not the watcher's -/
  strayWrites : Nat := 0
  strayCloses : Nat := 0

/-- shellous/watcher.py:264-277: `EPollStrategy.__init__` (with the descriptors `r` and `w` for the self-pipe). -/
def WW.init (r w : Nat) : WW :=
  { fds := upd (upd (fun _ => none) r (some .pipeR)) w (some .pipeW), reg := [r], selfpipe := some (r, w), pipeFd := r }

/-- What happens. -/
inductive WatchEv where
  -- the operating system
  | fork (pid : Nat)
  | exits (pid raw : Nat)
  -- anyone else
  | reapElsewhere (pid : Nat)
  | otherOpen (fd : Nat)
  | otherClose (fd : Nat)
  -- `watch_pid` (with the result of its system calls)
  | watch (pid : Nat)
  | openPidfd (i : Nat) (result : Option Nat)
  | insert (i : Nat)
  | register (i : Nat) (ok : Bool)
  | kill (i : Nat)
  | pollTry (i : Nat)
  | pollStop (i : Nat)
  -- `close`
  | closeCall
  | closeWrite
  -- the thread
  | poll (fds : List Nat)
  | next
  | wait
  | callback (e : CallbackEnd)
  | unregister
  | closeFd
  | epollClose
  | readKeys (keys : List Nat)
  | closeOne
  | clearPipe
deriving DecidableEq

/-- Linux: epoll (level triggered) may return this descriptor. -/
def WW.ready (w : WW) (fd : Nat) : Prop :=
  fd ∈ w.reg ∧
    ((w.fds fd = some .pipeR ∧ w.pipeWritten = true) ∨ ∃ c i raw, w.fds fd = some (.pidfd c i) ∧ w.exited c = some raw)

/-- Linux: `pidfd_open(pid)` with the result `fd`, for the call `i`. -/
def WW.pidfdOpen (w : WW) (i fd : Nat) : Option WW :=
  match w.fds fd, w.proc (w.pid i) with
  | none, some c => some { w with fds := upd w.fds fd (some (.pidfd c i)), pc := upd w.pc i (.opened fd) }
  | _, _ => none

/-- shellous/util.py:86-117: `wait_pid` (not blocking). 255: there is no such child. `none`: it is still running. -/
def WW.waitPid (w : WW) (pid : Nat) : Option Int × WW :=
  match w.proc pid with
  | none => (some 255, w)
  | some c =>
    match w.exited c with
    | none => (none, w)
    | some raw => (some (exitStatus raw), { w with proc := upd w.proc pid none })

/-- shellous/watcher.py:449-476: `_invoke_callback`. -/
def WW.report (w : WW) (i pid : Nat) (st : Int) : WW := { w with reports := (i, pid, st) :: w.reports }

/-- `os.close(fd)` (the kernel also takes a closed descriptor off epoll). -/
def WW.closeNum (w : WW) (fd : Nat) : WW :=
  { w with fds := upd w.fds fd none, reg := w.reg.filter (· ≠ fd),
           strayCloses := w.strayCloses + (if w.fds fd = some .other then 1 else 0) }

/-- shellous/watcher.py:349-360 `_add_pidfd`, 285-297 `watch_pid`, 299-313 `_pidfd_error`, 432-446 `_poll_dead_pid`: the steps of a call of
`watch_pid`. `none`: this can't happen now. Simplified: `os.kill` of an own child does not fail, and `watch_pid` is called in
a thread with an event loop (the task can be made). The task can be cancelled. -/
def WW.callStep (w : WW) : WatchEv → Option WW
  | .watch pid =>
    match w.proc pid with
    | some c => some { w with nCalls := w.nCalls + 1, pc := upd w.pc w.nCalls .start, pid := upd w.pid w.nCalls pid,
                              target := upd w.target w.nCalls c }
    | none => none
  | .openPidfd i (some fd) => if w.pc i = .start then w.pidfdOpen i fd else none
  | .openPidfd i none => if w.pc i = .start then some { w with pc := upd w.pc i .err } else none
  | .insert i =>
    match w.pc i with
    | .opened fd => some { w with dict := upd w.dict fd (some (w.pid i, i)), pc := upd w.pc i (.inserted fd) }
    | _ => none
  | .register i true =>
    match w.pc i with
    | .inserted fd =>
      if w.epollOpen = true ∧ w.fds fd ≠ none ∧ fd ∉ w.reg then
        some { w with reg := fd :: w.reg, pc := upd w.pc i (.done fd) }
      else none
    | _ => none
  | .register i false =>
    match w.pc i with
    | .inserted _ => some { w with pc := upd w.pc i .err }
    | _ => none
  | .kill i =>
    match w.pc i with
    | .err => some { w with kills := (i, w.proc (w.pid i)) :: w.kills, pc := upd w.pc i (.polling 5) }
    | _ => none
  | .pollTry i =>
    match w.pc i with
    | .polling (n + 1) =>
      match w.waitPid (w.pid i) with
      | (some st, w') => some { w'.report i (w.pid i) st with pc := upd w.pc i .finished }
      | (none, w') => some { w' with pc := upd w.pc i (.polling n) }
    | _ => none
  | .pollStop i =>
    match w.pc i with
    | .polling _ => some { w with pc := upd w.pc i .finished }
    | _ => none
  | _ => none

/-- shellous/watcher.py:316-335 `_run`, 337-347 `_reap_pidfd`, 362-365 `_remove_pidfd`: the steps of the thread. -/
def WW.threadStep (w : WW) : WatchEv → Option WW
  | .poll l =>
    if w.tpc = .poll ∧ l ≠ [] ∧ l.Nodup then
      some { w with tpc := .loop l }
    else none
  | .next =>
    match w.tpc with
    | .loop [] => some { w with tpc := .poll }
    | .loop (fd :: rest) =>
      if fd = w.pipeFd then some { w with tpc := .fin, left := some .closed }
      else match w.dict fd with
        | some (pid, i) => some { w with dict := upd w.dict fd none, tpc := .waiting fd pid i rest }
        | none => some { w with tpc := .fin, left := some .keyError }
    | _ => none
  | .wait =>
    match w.tpc with
    | .waiting fd pid i rest =>
      match w.waitPid pid with
      | (some st, w') => some { w' with tpc := .calling fd pid i st rest }
      | (none, w') => some { w' with tpc := .removing fd rest }
    | _ => none
  | .callback e =>
    match w.tpc with
    | .calling fd pid i st rest =>
      if e = .otherError then some { w.report i pid st with tpc := .fin, left := some .callbackRaised }
      else some { w.report i pid st with tpc := .removing fd rest }
    | _ => none
  | .unregister =>
    match w.tpc with
    | .removing fd rest =>
      if fd ∈ w.reg then some { w with reg := w.reg.filter (· ≠ fd), tpc := .closing fd rest }
      else some { w with tpc := .fin, left := some .osError }
    | _ => none
  | .closeFd =>
    match w.tpc with
    | .closing fd rest =>
      if w.fds fd = none then some { w with tpc := .fin, left := some .osError }
      else some { w.closeNum fd with tpc := .loop rest }
    | _ => none
  | .epollClose =>
    match w.tpc with
    | .fin => some { w with epollOpen := false, reg := [], tpc := .finKeys }
    | _ => none
  | .readKeys ks =>
    match w.tpc, w.selfpipe with
    | .finKeys, some (r, wr) => some { w with tpc := .finClose (ks ++ [r, wr]) }
    | _, _ => none
  | .closeOne =>
    match w.tpc with
    | .finClose (fd :: rest) => some { w.closeNum fd with tpc := .finClose rest }
    | _ => none
  | .clearPipe =>
    match w.tpc with
    | .finClose [] => some { w with selfpipe := none, tpc := .ended }
    | _ => none
  | _ => none

/-- What the operating system gives to the thread: `epoll.poll` returns descriptors that are ready; the keys of a
dictionary. -/
def WW.gives (w : WW) : WatchEv → Prop
  | .poll l => ∀ fd ∈ l, w.ready fd
  | .readKeys ks => ks.Nodup ∧ ∀ fd, fd ∈ ks ↔ w.dict fd ≠ none
  | _ => True

/-- The steps of the operating system, of anyone else, and of `close` (shellous/watcher.py:279-283). -/
def WW.outsideStep (w : WW) : WatchEv → Option WW
  | .fork pid =>
    if w.proc pid = none then some { w with proc := upd w.proc pid (some w.nChildren), nChildren := w.nChildren + 1 } else none
  | .exits pid raw =>
    match w.proc pid with
    | some c => if w.exited c = none then some { w with exited := upd w.exited c (some raw) } else none
    | none => none
  | .reapElsewhere pid =>
    match w.proc pid with
    | some c => if w.exited c = none then none else some { w with proc := upd w.proc pid none, stolen := true }
    | none => none
  | .otherOpen fd => if w.fds fd = none then some { w with fds := upd w.fds fd (some .other) } else none
  | .otherClose fd => if w.fds fd = some .other then some { w with fds := upd w.fds fd none } else none
  | .closeCall => if w.selfpipe = none then none else some { w with closers := w.closers + 1 }
  | .closeWrite =>
    if w.closers = 0 then none
    else match w.selfpipe with
      | none => some { w with closers := w.closers - 1 }
      | some (_, wr) =>
        match w.fds wr with
        | some .pipeW => some { w with closers := w.closers - 1, pipeWritten := true }
        | some .other => some { w with closers := w.closers - 1, strayWrites := w.strayWrites + 1 }
        | _ => some { w with closers := w.closers - 1 }
  | _ => none

/-- One step of anyone. -/
def WW.step (w : WW) (ev : WatchEv) : Option WW :=
  match w.outsideStep ev with
  | some w' => some w'
  | none =>
    match w.callStep ev with
    | some w' => some w'
    | none => w.threadStep ev

end Shellous
