import Verif.Model.Basic

/-!
# The shared child watcher (shellous/watcher.py `DefaultChildWatcher`)

Any number of threads call `add_child_handler` and `close`. A step of the model is one access to shared state: reading or
assigning `self._strategy`, taking or releasing the lock, calling the strategy. Strategies are numbered in the order they are
made. `EPollStrategy` itself is in `Model/Watcher.lean`; here a strategy is an opaque object, whose constructor may raise.
-/

namespace Shellous

/-- How a call of `add_child_handler` can fail in `DefaultChildWatcher` itself. -/
inductive DwExc where
  /-- what the constructor of the strategy raised (`RuntimeError` from `_check_sigchld`, `OSError`) -/
  | constructor
  /-- watcher.py:91 -/
  | assertionError
  /-- watcher.py:93, `None.watch_pid` -/
  | attributeError
deriving DecidableEq

/-- Where a call is. -/
inductive DwPc where
  | unborn
  /-- `add_child_handler`: about to read `_strategy` (watcher.py:88) -/
  | check
  /-- about to take the lock (89) -/
  | wantLock
  /-- about to read `_strategy` in `_init_strategy` (142) -/
  | recheck
  /-- about to call the constructor (152) -/
  | build
  /-- about to assign `_strategy` (152) -/
  | assign (s : Nat)
  /-- about to release the lock (89) -/
  | release
  /-- about to release the lock, while an exception is raised (89) -/
  | releaseFailed
  /-- about to read `_strategy` for the assertion (91) -/
  | assertion
  /-- about to read `_strategy` (93) -/
  | read
  /-- about to call `watch_pid` of the strategy `s` (93) -/
  | call (s : Nat)
  /-- has called `watch_pid` of `s` -/
  | watched (s : Nat)
  | raised (e : DwExc)
  /-- `close`: about to take the lock (118) -/
  | closeWant
  /-- about to read `_strategy` (119) -/
  | closeRead
  /-- about to assign `None` (120) -/
  | closeClear (s : Option Nat)
  /-- about to release the lock (118) -/
  | closeRelease (s : Option Nat)
  /-- about to test and close what was read (122-123) -/
  | closeCall (s : Option Nat)
  | closed
deriving DecidableEq

structure DW where
  /-- `self._strategy` -/
  strategy : Option Nat := none
  /-- the call that holds `self._lock` -/
  lock : Option Nat := none
  /-- how many strategies were made -/
  made : Nat := 0
  /-- how many calls there were; where they are -/
  nCalls : Nat := 0
  pc : Nat → DwPc := fun _ => .unborn
  /-- ghost: the calls of `watch_pid` (call, strategy), latest first -/
  watches : List (Nat × Nat) := []
  /-- ghost: the calls of `strategy.close()`, latest first -/
  closes : List Nat := []
  /-- ghost: how often `_strategy` was set to `None` by `close` -/
  clears : Nat := 0
  /-- ghost: `clears` at the beginning of a call -/
  began : Nat → Nat := fun _ => 0

/-- shellous/watcher.py:65-72 `__init__` -/
def DW.init (threadStrategy : Bool) : DW :=
  if threadStrategy then { strategy := some 0, made := 1 } else {}

/-- What happens. -/
inductive DwEv where
  /-- a thread calls `add_child_handler` -/
  | add
  /-- a thread calls `close` -/
  | close
  /-- call `i` goes one step on; `ok`: if that is a constructor, it returns -/
  | go (i : Nat) (ok : Bool)
deriving DecidableEq

def DW.at (w : DW) (i : Nat) (pc : DwPc) : DW := { w with pc := upd w.pc i pc }

/-- One step of call `i`; `none`: it can't go on. -/
def DW.goOn (w : DW) (i : Nat) (ok : Bool) : Option DW :=
  match w.pc i with
  -- shellous/watcher.py:74-93 `add_child_handler`, 140-152 `_init_strategy`
  | .check => some (w.at i (match w.strategy with | some _ => .read | none => .wantLock))
  | .wantLock => match w.lock with
    | none => some { w.at i .recheck with lock := some i }
    | some _ => none
  | .recheck => some (w.at i (match w.strategy with | some _ => .release | none => .build))
  | .build => some (if ok then { w.at i (.assign w.made) with made := w.made + 1 } else w.at i .releaseFailed)
  | .assign s => some { w.at i .release with strategy := some s }
  | .release => some { w.at i .assertion with lock := none }
  | .releaseFailed => some { w.at i (.raised .constructor) with lock := none }
  | .assertion => some (w.at i (match w.strategy with | some _ => .read | none => .raised .assertionError))
  | .read => some (w.at i (match w.strategy with | some s => .call s | none => .raised .attributeError))
  | .call s => some { w.at i (.watched s) with watches := (i, s) :: w.watches }
  -- shellous/watcher.py:113-123 `close`
  | .closeWant => match w.lock with
    | none => some { w.at i .closeRead with lock := some i }
    | some _ => none
  | .closeRead => some (w.at i (.closeClear w.strategy))
  | .closeClear s => some { w.at i (.closeRelease s) with strategy := none, clears := w.clears + 1 }
  | .closeRelease s => some { w.at i (.closeCall s) with lock := none }
  | .closeCall (some s) => some { w.at i .closed with closes := s :: w.closes }
  | .closeCall none => some (w.at i .closed)
  | .unborn | .watched _ | .raised _ | .closed => none

/-- One step. -/
def DW.step (w : DW) : DwEv → Option DW
  | .add => some { w.at w.nCalls .check with nCalls := w.nCalls + 1, began := upd w.began w.nCalls w.clears }
  | .close => some { w.at w.nCalls .closeWant with nCalls := w.nCalls + 1, began := upd w.began w.nCalls w.clears }
  | .go i ok => w.goOn i ok

end Shellous
