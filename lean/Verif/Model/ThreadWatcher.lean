import Verif.Model.Watcher

/-!
# A thread for every child (shellous/watcher.py `ThreadStrategy`)

One step per access to shared state or system call. A call of `watch_pid` and the thread that it starts are one program (the call
ends with the start of the thread). Children are numbered; process ids are used again after a child was reaped.
-/

namespace Shellous

/-- Where a call of `watch_pid`, or its thread, is. -/
inductive TsPc where
  | unborn
  /-- about to test `pid not in self._pids` (watcher.py:394) -/
  | check
  | assertionError
  /-- about to assign `self._pids[pid]` (401) -/
  | insert
  /-- about to call `thread.start()` (402) -/
  | start
  /-- `thread.start()` has raised (RuntimeError: can't start new thread) -/
  | startFailed
  /-- the thread is in `os.waitpid` (412) -/
  | waiting
  /-- about to call the callback, with this status (414) -/
  | calling (st : Int)
  /-- about to remove the entry of `_pids` (418) -/
  | popping
  /-- the thread has ended -/
  | done
  /-- the thread has ended with an exception of the callback (418 is not reached) -/
  | callbackRaised
deriving DecidableEq

structure TsW where
  /-- the child with a process id, running or not reaped -/
  proc : Nat → Option Nat := fun _ => none
  nChildren : Nat := 0
  /-- the wait status of a child that has exited -/
  exited : Nat → Option Nat := fun _ => none
  /-- the keys of `self._pids` -/
  pids : List Nat := []
  /-- the calls of `watch_pid`: where they are, the process id they were given, and the child that had it then -/
  nCalls : Nat := 0
  pc : Nat → TsPc := fun _ => .unborn
  pid : Nat → Nat := fun _ => 0
  target : Nat → Nat := fun _ => 0
  /-- the callbacks called, latest first: which call of `watch_pid`, process id, status -/
  reports : List (Nat × Nat × Int) := []

/-- What happens. -/
inductive TsEv where
  | fork (pid : Nat)
  | exits (pid raw : Nat)
  | reapElsewhere (pid : Nat)
  | watch (pid : Nat)
  /-- the call `i`, or its thread, goes one step on; `ok`: `thread.start()` does not raise -/
  | go (i : Nat) (ok : Bool)
  /-- the thread of call `i` calls the callback -/
  | callback (i : Nat) (e : CallbackEnd)
deriving DecidableEq

/-- shellous/util.py:86-117 `wait_pid(pid, block=True)`: `none`: it blocks. -/
def TsW.waitBlocking (w : TsW) (i : Nat) : Option TsW :=
  match w.proc (w.pid i) with
  | none => some { w with pc := upd w.pc i (.calling 255) }
  | some c =>
    match w.exited c with
    | none => none
    | some raw => some { w with proc := upd w.proc (w.pid i) none, pc := upd w.pc i (.calling (exitStatus raw)) }

/-- shellous/watcher.py:387-402 `watch_pid`, 404-418 `_reap_pid`: one step of call `i`, or of its thread. (`wait_pid` does not return `None` when
it blocks: `os.waitpid` of a process id returns that process id. `pop` of a missing key raises in the thread, which ends: not distinguished.) -/
def TsW.goOn (w : TsW) (i : Nat) (ok : Bool) : Option TsW :=
  match w.pc i with
  | .check => some { w with pc := upd w.pc i (if w.pid i ∈ w.pids then .assertionError else .insert) }
  | .insert => some { w with pids := w.pid i :: w.pids, pc := upd w.pc i .start }
  | .start => some { w with pc := upd w.pc i (if ok then .waiting else .startFailed) }
  | .waiting => w.waitBlocking i
  | .popping => some { w with pids := w.pids.filter (· ≠ w.pid i), pc := upd w.pc i .done }
  | _ => none

/-- One step. -/
def TsW.step (w : TsW) : TsEv → Option TsW
  | .fork pid =>
    if w.proc pid = none then some { w with proc := upd w.proc pid (some w.nChildren), nChildren := w.nChildren + 1 } else none
  | .exits pid raw =>
    match w.proc pid with
    | some c => if w.exited c = none then some { w with exited := upd w.exited c (some raw) } else none
    | none => none
  | .reapElsewhere pid =>
    match w.proc pid with
    | some c => if w.exited c = none then none else some { w with proc := upd w.proc pid none }
    | none => none
  | .watch pid =>
    match w.proc pid with
    | some c => some { w with nCalls := w.nCalls + 1, pc := upd w.pc w.nCalls .check, pid := upd w.pid w.nCalls pid,
                              target := upd w.target w.nCalls c }
    | none => none
  | .go i ok => w.goOn i ok
  | .callback i e =>
    match w.pc i with
    | .calling st => some { w with reports := (i, w.pid i, st) :: w.reports,
                                   pc := upd w.pc i (if e = .otherError then .callbackRaised else .popping) }
    | _ => none

end Shellous
