import Verif.Model.Watcher

/-!
# The child watcher with kqueue (shellous/watcher.py `KQueueStrategy`, macOS and BSD)

One step per access to shared state or system call; any interleaving of the calls of `watch_pid`, the tasks they leave, the thread, `close`, the
children and others. Children and calls are numbered; process ids are used again after a child was reaped.

A child dies in two steps: it begins to die, and then it has exited and can be reaped. ("Rarely, the non-blocking wait_pid() indicates the process
is still running", watcher.py:236; "an exiting process is no longer kqueue-able", 200.) What is assumed of the kernel: `EVFILT_PROC`/`NOTE_EXIT` is
registered for the process that has the id now, is returned once (`EV_ONESHOT`) and only after that process has begun to die; registering raises
`ProcessLookupError` only if the process has begun to die (or does not exist); a call that raises has registered nothing.
`control` itself does not raise in the thread.
-/

namespace Shellous

/-- Where a call of `watch_pid`, or the task it leaves, is. -/
inductive KqPc where
  | unborn
  /-- about to test `pid not in self._pids` (watcher.py:190) -/
  | check
  | assertionError
  /-- about to assign `self._pids[pid]` (191) -/
  | insert
  /-- about to register the event (194) -/
  | add
  /-- returned: registered -/
  | done
  /-- an exception other than ProcessLookupError was raised (194) -/
  | raised
  /-- ProcessLookupError: about to take the entry (201) -/
  | failed
  /-- there was no entry (201) -/
  | keyError
  /-- about to call `wait_pid`, with the callback of call `k` (205) -/
  | failWait (k : Nat)
  /-- about to call the callback (207, 442) -/
  | failCall (k : Nat) (st : Int)
  /-- the task of `_poll_dead_pid` has so many attempts left (210, 432-446) -/
  | polling (k n : Nat)
  /-- all done: the callback was called, or the task was given up -/
  | finished
deriving DecidableEq

/-- An event of the kqueue. -/
inductive KqNote where
  | timer
  | exit (pid : Nat)
deriving DecidableEq

/-- Where the thread is. `i`: whose callback it has. -/
inductive KqTpc where
  /-- about to call, or in, `self._kqueue.control(None, 10, 10)` (watcher.py:217) -/
  | control
  /-- about to handle these events (218-223) -/
  | loop (l : List KqNote)
  /-- `_reap_pid`: about to call `wait_pid` (234) -/
  | wait (pid i : Nat) (l : List KqNote)
  /-- about to call `wait_pid` again, after a while (238-239) -/
  | again (pid i : Nat) (l : List KqNote)
  /-- about to call the callback (242) -/
  | call (pid i : Nat) (st : Int) (l : List KqNote)
  /-- about to close the kqueue (226) -/
  | fin
  | ended
deriving DecidableEq

structure KqW where
  /-- the child with a process id, running or not reaped -/
  proc : Nat → Option Nat := fun _ => none
  nChildren : Nat := 0
  /-- the child has begun to die -/
  dying : Nat → Bool := fun _ => false
  /-- the wait status of a child that has exited -/
  exited : Nat → Option Nat := fun _ => none
  /-- `self._pids`: the callback (of which call) for a process id -/
  pids : Nat → Option Nat := fun _ => none
  /-- the kqueue: is it open; the child registered for a process id; a timer event -/
  open_ : Bool := true
  note : Nat → Option Nat := fun _ => none
  timer : Bool := false
  /-- the thread, and why it has left its loop -/
  tpc : KqTpc := .control
  left : Option Left := none
  /-- the calls of `watch_pid`: where they are, the process id they were given, and the child that had it then -/
  nCalls : Nat := 0
  pc : Nat → KqPc := fun _ => .unborn
  pid : Nat → Nat := fun _ => 0
  target : Nat → Nat := fun _ => 0
  /-- the callbacks called, latest first: which call of `watch_pid`, process id, status -/
  reports : List (Nat × Nat × Int) := []
  /-- the calls for which a critical message was logged: "process still running" (watcher.py:244), "is not exiting" (446) -/
  critical : List Nat := []
  /-- ghost: `wait_pid` has not yet given a status for this call -/
  live : Nat → Bool := fun _ => false

/-- What happens. -/
inductive KqEv where
  | fork (pid : Nat)
  | dies (pid : Nat)
  | exits (pid raw : Nat)
  | reapElsewhere (pid : Nat)
  | watch (pid : Nat)
  /-- call `i` goes one step on -/
  | go (i : Nat)
  /-- call `i` registers its event: returns, raises ProcessLookupError, raises something else -/
  | register (i : Nat) (r : Option Bool)
  /-- call `i`, or its task, calls a callback -/
  | goCall (i : Nat) (e : CallbackEnd)
  /-- the task of call `i` is cancelled -/
  | giveUp (i : Nat)
  /-- `close` (watcher.py:178-181) adds the timer event -/
  | close
  -- the thread
  | control (l : List KqNote)
  | next
  | threadWait
  | callback (e : CallbackEnd)
  | closeQueue
deriving DecidableEq

/-- The kernel can return this event. -/
def KqW.fires (w : KqW) : KqNote → Prop
  | .timer => w.timer = true
  | .exit pid => ∃ c, w.note pid = some c ∧ w.dying c = true

/-- shellous/util.py:86-117: `wait_pid` (not blocking), with the callback of call `k`. 255: there is no such child. `none`: it is still running. -/
def KqW.waitPid (w : KqW) (pid k : Nat) : Option Int × KqW :=
  match w.proc pid with
  | none => (some 255, { w with live := upd w.live k false })
  | some c =>
    match w.exited c with
    | none => (none, w)
    | some raw => (some (exitStatus raw), { w with proc := upd w.proc pid none, live := upd w.live k false })

def KqW.at (w : KqW) (i : Nat) (pc : KqPc) : KqW := { w with pc := upd w.pc i pc }

/-- shellous/watcher.py:183-197 `watch_pid`, 199-210 `_kevent_failed`, 432-446 `_poll_dead_pid` (5 attempts): the steps of a call and of its task. -/
def KqW.callStep (w : KqW) : KqEv → Option KqW
  | .watch pid =>
    match w.proc pid with
    | some c => some { w.at w.nCalls .check with
        nCalls := w.nCalls + 1, pid := upd w.pid w.nCalls pid, target := upd w.target w.nCalls c, live := upd w.live w.nCalls true }
    | none => none
  | .register i r =>
    match w.pc i with
    | .add =>
      match r with
      | some true =>
        match w.open_, w.note (w.pid i), w.proc (w.pid i) with
        | true, none, some c => some { w.at i .done with note := upd w.note (w.pid i) (some c) }
        | true, some _, some _ => some (w.at i .done)
        | _, _, _ => none
      | some false =>
        match w.proc (w.pid i) with
        | some c => if w.dying c then some (w.at i .failed) else none
        | none => some (w.at i .failed)
      | none => some (w.at i .raised)
    | _ => none
  | .go i =>
    match w.pc i with
    | .check => some (w.at i (if w.pids (w.pid i) = none then .insert else .assertionError))
    | .insert => some { w.at i .add with pids := upd w.pids (w.pid i) (some i) }
    | .failed =>
      match w.pids (w.pid i) with
      | some k => some { w.at i (.failWait k) with pids := upd w.pids (w.pid i) none }
      | none => some (w.at i .keyError)
    | .failWait k =>
      match w.waitPid (w.pid i) k with
      | (some st, w') => some (w'.at i (.failCall k st))
      | (none, w') => some (w'.at i (.polling k 5))
    | .polling k 0 => some { w.at i .finished with critical := k :: w.critical }
    | .polling k (n + 1) =>
      match w.waitPid (w.pid i) k with
      | (some st, w') => some (w'.at i (.failCall k st))
      | (none, w') => some (w'.at i (.polling k n))
    | _ => none
  | .goCall i _ =>
    match w.pc i with
    | .failCall k st => some { w.at i .finished with reports := (k, w.pid i, st) :: w.reports }
    | _ => none
  | .giveUp i =>
    match w.pc i with
    | .polling _ _ => some (w.at i .finished)
    | _ => none
  | _ => none

/-- shellous/watcher.py:212-226 `_run`, 228-244 `_reap_pid`: the steps of the thread. -/
def KqW.threadStep (w : KqW) : KqEv → Option KqW
  | .control l =>
    if w.tpc = .control ∧ l.Nodup ∧ l.length ≤ 10 then
      some { w with tpc := .loop l, note := fun pid => if .exit pid ∈ l then none else w.note pid,
                    timer := if .timer ∈ l then false else w.timer }
    else none
  | .next =>
    match w.tpc with
    | .loop [] => some { w with tpc := .control }
    | .loop (.timer :: _) => some { w with tpc := .fin, left := some .closed }
    | .loop (.exit pid :: l) =>
      match w.pids pid with
      | some i => some { w with tpc := .wait pid i l, pids := upd w.pids pid none }
      | none => some { w with tpc := .fin, left := some .keyError }
    | _ => none
  | .threadWait =>
    match w.tpc with
    | .wait pid i l =>
      match w.waitPid pid i with
      | (some st, w') => some { w' with tpc := .call pid i st l }
      | (none, w') => some { w' with tpc := .again pid i l }
    | .again pid i l =>
      match w.waitPid pid i with
      | (some st, w') => some { w' with tpc := .call pid i st l }
      | (none, w') => some { w' with tpc := .loop l, critical := i :: w'.critical }
    | _ => none
  | .callback e =>
    match w.tpc with
    | .call pid i st l =>
      if e = .otherError then some { w with reports := (i, pid, st) :: w.reports, tpc := .fin, left := some .callbackRaised }
      else some { w with reports := (i, pid, st) :: w.reports, tpc := .loop l }
    | _ => none
  | .closeQueue =>
    match w.tpc with
    | .fin => some { w with open_ := false, tpc := .ended }
    | _ => none
  | _ => none

/-- The steps of the operating system, of others, and of `close`. (`close` raises if the kqueue is closed.) -/
def KqW.outsideStep (w : KqW) : KqEv → Option KqW
  | .fork pid =>
    if w.proc pid = none then some { w with proc := upd w.proc pid (some w.nChildren), nChildren := w.nChildren + 1 } else none
  | .dies pid =>
    match w.proc pid with
    | some c => some { w with dying := upd w.dying c true }
    | none => none
  | .exits pid raw =>
    match w.proc pid with
    | some c => if w.exited c = none then some { w with dying := upd w.dying c true, exited := upd w.exited c (some raw) } else none
    | none => none
  | .reapElsewhere pid =>
    match w.proc pid with
    | some c => if w.exited c = none then none else some { w with proc := upd w.proc pid none }
    | none => none
  | .close => some (if w.open_ then { w with timer := true } else w)
  | _ => none

/-- What the kernel gives: only events that have happened. -/
def KqW.gives (w : KqW) : KqEv → Prop
  | .control l => ∀ n ∈ l, w.fires n
  | _ => True

/-- One step. -/
def KqW.step (w : KqW) (ev : KqEv) : Option KqW :=
  match ev with
  | .fork _ | .dies _ | .exits _ _ | .reapElsewhere _ | .close => w.outsideStep ev
  | .watch _ | .go _ | .register _ _ | .goCall _ _ | .giveUp _ => w.callStep ev
  | .control _ | .next | .threadWait | .callback _ | .closeQueue => w.threadStep ev

end Shellous
