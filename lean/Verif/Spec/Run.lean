import Verif.Model.Run
import Verif.Spec.Async

/-!
# Vocabulary for statements about runs of one command
-/

namespace Shellous

/-- The two ways to run a command. -/
inductive How where
  /-- `await cmd` (the argument: see `runCommand`) -/
  | await (futErr : Option Exc)
  /-- `async with cmd as run: ...`, with any body -/
  | block

/-- Run a command: what the statement gave or raised (`blocked`: it has not ended yet), and the world then. -/
def execute (how : How) (cfg : RCfg) (w : W) (evs : List Ev) : Out (Option Returned) × W :=
  match how with
  | .await f => match runCommand cfg f w evs with
    | (.ok r, w', _) => (.ok (some r), w')
    | (.exc e, w', _) => (.exc e, w')
    | (.blocked, w', _) => (.blocked, w')
  | .block => match withRun cfg userBody w evs with
    | (.ok _, w', _) => (.ok none, w')
    | (.exc e, w', _) => (.exc e, w')
    | (.blocked, w', _) => (.blocked, w')

/-- The phases an audit callback is told. -/
inductive Audit where
  | start
  | signal (sig : Option Nat)
  | stop (failure : Option Exc)
deriving DecidableEq

/-- The calls of the audit callback, in order. -/
def audits : List Obs → List Audit
  | [] => []
  | .auditStart :: t => .start :: audits t
  | .auditSignal _ s :: t => .signal s :: audits t
  | .auditStop f :: t => .stop f :: audits t
  | _ :: t => audits t

/-- The signals announced by the library on its own account, in order (`none`: SIGKILL). -/
def librarySignals : List Obs → List (Option Nat)
  | [] => []
  | .auditSignal false s :: t => s :: librarySignals t
  | _ :: t => librarySignals t

/-- How often a signal was delivered to the child. -/
def delivered : List Obs → Nat
  | [] => 0
  | .kill _ _ :: t => delivered t + 1
  | .closeKill :: t => delivered t + 1
  | _ :: t => delivered t

/-- The child has exited, has been reaped, and its return code is known. -/
def Reaped (w : W) : Prop := ∃ p c, w.proc = some p ∧ p.rc = some c ∧ p.reaped ≠ none ∧ p.exited ≠ none

/-- There is a child and it has exited. -/
def Exited (w : W) : Prop := ∃ p, w.proc = some p ∧ p.exited ≠ none

/-- There is a child and it has not exited. -/
def Running (w : W) : Prop := ∃ p, w.proc = some p ∧ p.exited = none

/-- What was logged since the body of the `async with` ended (for `await cmd`: since the launch). If the
launch failed, everything. -/
def cleanupLog (t : List Obs) : List Obs :=
  if t.any (fun o => match o with | .bodyEnd _ => true | _ => false) then
    t.dropWhile fun o => match o with | .bodyEnd _ => false | _ => true
  else t

/-- How often the caller received `CancelledError` in this part of the log. -/
def throwsIn (t : List Obs) : Nat := t.count .thrown

/-- After a SIGKILL of the library, the wait for the end of the child was neither interrupted nor given up. -/
def KillUndisturbed (t : List Obs) : Prop :=
  ∀ l1 l2, t = l1 ++ .auditSignal false none :: l2 → .thrown ∉ l2 ∧ .gaveUp ∉ l2

/-- The reasons for a second signal: the `cancel_timeout` may have expired, the cleanup was interrupted, or given
up, or a background task failed. -/
def Disturbed (cfg : RCfg) (w : W) : Prop :=
  cfg.cancelTimed = true ∨ .thrown ∈ w.trace ∨ .gaveUp ∈ w.trace ∨ ∃ i e, w.outOf i = some (.err e)

/-- The background copies of a run: process substitutions, then stream copies. The spawn is task 0. -/
def copies (cfg : RCfg) : List Nat := List.range' 1 (cfg.procsubs + cfg.ioTasks)

/-- The exceptions the preparations of a launch may raise by themselves. -/
def RCfg.mayRaise (cfg : RCfg) (e : Exc) : Prop :=
  cfg.setupErr = some e ∨ cfg.ptyErr = some e ∨ cfg.exitErr true = some e ∨ cfg.exitErr false = some e ∨
    cfg.wireErr = some e

/-- `cfg` is a command all of whose own preparations succeed. -/
structure Prepared (cfg : RCfg) : Prop where
  setup : cfg.setupErr = none
  pty : cfg.ptyErr = none
  exit : ∀ b, cfg.exitErr b = none
  wire : cfg.wireErr = none

/-- The possible explanations of an exception `e` raised by a run that has ended in the world `w`:
- the caller was cancelled (or a preparation or the body raised `CancelledError`);
- the run's timer fired;
- the library gave up on its background tasks, or on the child;
- a background task failed with `e`;
- a preparation of the launch raised `e`;
- the body raised `e`;
- the result does not pass the check: an exit code that is not allowed, or a cancellation;
- the child survived its SIGKILL, so there is no result;
- the output cannot be decoded. -/
inductive Explained (cfg : RCfg) (w : W) : Exc → Prop
  | cancelled : .thrown ∈ w.trace ∨ cfg.mayRaise .cancelled ∨ .bodyEnd (some .cancelled) ∈ w.trace →
      Explained cfg w .cancelled
  | timeout : w.timedOut = true → cfg.opts.timeout ≠ none → cfg.opts.catchCancelled = false → Explained cfg w .timeout
  | surrender : .gaveUp ∈ w.trace ∨ .unableToKill ∈ w.trace → Explained cfg w .runtimeError
  | task (i : Nat) (e : Exc) : w.outOf i = some (.err e) → Explained cfg w e
  | launch (e : Exc) : cfg.mayRaise e → Explained cfg w e
  | body (e : Exc) : .bodyEnd (some e) ∈ w.trace → Explained cfg w e
  | exitCode (r : Result) : exitCodeAllowed cfg.opts.exitCodes r.exitCode = false → Explained cfg w (.resultError r)
  | caught (r : Result) : r.cancelled = true → cfg.opts.catchCancelled = true →
      .thrown ∈ w.trace ∨ cfg.mayRaise .cancelled ∨ .bodyEnd (some .cancelled) ∈ w.trace →
      Explained cfg w (.resultError r)
  | undead : ¬ Reaped w → .auditSignal false none ∈ w.trace → Explained cfg w .typeError
  | decode (b : Bytes) (enc : Text) (e : Exc) : cfg.decode b enc = .error e → Explained cfg w e

end Shellous
