import Verif.Model.Options

/-!
# Results (shellous/result.py, shellous/util.py wait_pid, Runner.returncode/result)
-/

namespace Shellous

/-- What a finished awaitable contributes to a result list: a `Result` or an exception object
(shellous/harvest.py:204-214 `_to_result`). -/
inductive Item where
  | res (r : Result)
  | exc (e : Exc)
deriving DecidableEq

/-- shellous/result.py:144-148 `_get_result`. -/
def getResult : Item → Except Exc Result
  | .exc (.resultError r) => .ok r
  | .res r => .ok r
  | .exc _ => .error .assertionError

/-- Python's `(a1, a2) >= (b1, b2)` on pairs of bools (`False < True`, lexicographic). -/
def pairGe (a b : Bool × Bool) : Bool :=
  if a.1 == b.1 then (a.2 || !b.2) else a.1

/-- shellous/result.py:134-141 `_compare_result`. Note `acc.exit_code` in *both* keys (line 138). -/
def compareResult (acc : Option Result) (item : Result) : Result :=
  match acc with
  | none => item
  | some acc =>
    let accKey := (!acc.cancelled, acc.exitCode != 0)
    let itemKey := (!item.cancelled, acc.exitCode != 0)
    if pairGe itemKey accKey then item else acc

/-- shellous/result.py:117-131 `_find_key_result`, with the accumulator made explicit. -/
def findKeyLoop (acc : Option Result) : List Item → Except Exc Result
  | [] => match acc with
    | none => .error .runtimeError
    | some r => .ok r
  | item :: rest => do
    let item ← getResult item
    let acc := compareResult acc item
    if !acc.cancelled && acc.exitCode != 0 then .ok acc else findKeyLoop (some acc) rest

/-- shellous/result.py:117-131 `_find_key_result`. -/
def findKeyResult (l : List Item) : Except Exc Result := findKeyLoop none l

/-- shellous/result.py:74-78: exceptions in the list that are `Exception`s but not `ResultError`s. -/
def otherEx (l : List Item) : List Exc :=
  l.filterMap fun
    | .exc (.resultError _) => none
    | .exc e => if e.isException then some e else none
    | .res _ => none

/-- shellous/result.py:66-94 `convert_result_list`. -/
def convertResultList (l : List Item) (cancelled : Bool) : Except Exc Result :=
  match otherEx l with
  | e :: _ => .error e
  | [] => do
    let key ← findKeyResult l
    match l.getLast? with
    | none => .error .valueError      -- IndexError; unreachable, findKeyResult raised before
    | some lastItem =>
      let last ← getResult lastItem
      return { exitCode := key.exitCode, outputBytes := last.outputBytes,
               errorBytes := key.errorBytes, cancelled := cancelled, encoding := last.encoding }

/-- shellous/result.py:110 `options.exit_codes or {0}` and the membership test of line 111. -/
def exitCodeAllowed (exitCodes : Option Container) (code : Int) : Bool :=
  match exitCodes with
  | some c => if c.truthy then c.mem code else code == 0
  | none => code == 0

/-- shellous/result.py:97-114 `check_result`. -/
def checkResult (result : Result) (o : Options) (cancelled timedOut : Bool) : Except Exc Result :=
  if cancelled && !o.catchCancelled then .error .cancelled
  else if (cancelled && !timedOut) || !exitCodeAllowed o.exitCodes result.exitCode then
    .error (.resultError result)
  else .ok result

/-! ## Exit status -/

/-- Possible outcomes of `os.waitpid(pid, options)`: `ChildProcessError`, `(0, 0)` (still running
under `WNOHANG`), or `(pid, status)`. -/
inductive WaitOutcome where
  | childProcessError
  | running
  | status (s : Nat)
deriving DecidableEq, Repr

/-- `os.waitstatus_to_exitcode` (CPython Modules/posixmodule.c) with the Linux/glibc encoding:
low 7 bits zero: exited; low 7 bits 0x7f: stopped, continued or invalid (ValueError); otherwise killed by signal (bit 7 is the
core flag). -/
def waitstatusToExitcode (s : Nat) : Except Exc Int :=
  if s % 128 = 0 then .ok ((s / 256 % 256 : Nat) : Int)
  else if s % 128 = 127 then .error .valueError
  else .ok (-((s % 128 : Nat) : Int))

/-- shellous/util.py:86-117 `wait_pid` (`pid > 0`), as a function of what `os.waitpid` did. -/
def waitPid : WaitOutcome → Option Int
  | .childProcessError => some 255
  | .running => none
  | .status s =>
    match waitstatusToExitcode s with
    | .ok c => some c
    | .error _ => some (s : Int)

/-- shellous/util.py:120-138 `poll_wait_pid`: new `proc.returncode` and the boolean returned. The
outcome of `waitpid` is only consulted when the return code is unknown. -/
def pollWaitPid (returncode : Option Int) (w : WaitOutcome) : Option Int × Bool :=
  match returncode with
  | some c => (some c, true)
  | none =>
    match waitPid w with
    | none => (none, false)
    | some s => (some s, true)

/-- Members of the `signal.Signals` enum on Linux: 1..31, SIGRTMIN (34) and SIGRTMAX (64). -/
def isSignalsMember (n : Int) : Bool :=
  (1 ≤ n && n ≤ 31) || n == 34 || n == 64

/-- shellous/result.py:54-59 `Result.exit_signal`: `none` for no signal; `signal.Signals(x)` raises
ValueError when `x` is not a member. -/
def Result.exitSignal (r : Result) : Except Exc (Option Int) :=
  if r.exitCode ≥ 0 then .ok none
  else if isSignalsMember (-r.exitCode) then .ok (some (-r.exitCode)) else .error .valueError

/-- shellous/result.py:61-63 `Result.__bool__`. -/
def Result.toBool (r : Result) : Bool := r.exitCode == 0

/-! ## Runner.returncode and Runner.result -/

/-- shellous/runner.py:33 `_UNKNOWN_EXIT_CODE`. -/
def unknownExitCode : Int := 255

/-- shellous/runner.py:40 `CANCELLED_EXIT_CODE`. -/
def cancelledExitCode : Int := -1000

/-- shellous/runner.py:434-448 `Runner.returncode`. `proc = none`: not launched; otherwise the
asyncio process's `returncode`. -/
def runnerReturncode (proc : Option (Option Int)) (cancelled : Bool) (lastSignal : Option Nat) :
    Option Int :=
  match proc with
  | none => if cancelled then some cancelledExitCode else none
  | some code =>
    match lastSignal with
    | some s => if code = some unknownExitCode then some (-(s : Int)) else code
    | none => code

/-- The state of a `Runner` that `Runner.result` reads. -/
structure RunEnd where
  proc : Option (Option Int)
  cancelled : Bool
  timedOut : Bool
  lastSignal : Option Nat
  outputBytes : Option Bytes
  errorBytes : Option Bytes

/-- shellous/runner.py:477-499 `Runner.result`. -/
def runnerResult (s : RunEnd) (o : Options) (check : Bool := true) : Except Exc Result :=
  match runnerReturncode s.proc s.cancelled s.lastSignal with
  | none => .error .typeError
  | some code =>
    let result : Result :=
      { exitCode := code, outputBytes := s.outputBytes.getD [], errorBytes := s.errorBytes.getD [],
        cancelled := s.cancelled, encoding := o.encoding }
    if !check then .ok result
    else checkResult result o s.cancelled s.timedOut

/-- What `await cmd` returns. -/
inductive Returned where
  | result (r : Result)
  | text (t : Text)
deriving DecidableEq

/-- shellous/runner.py:985-988: the end of `Runner.run_command`. `decode` is `decode_bytes`. -/
def runCommandEnd (decode : Bytes → Text → Except Exc Text) (s : RunEnd) (o : Options) :
    Except Exc Returned := do
  let r ← runnerResult s o
  if o.returnResult then return .result r
  else return .text (← decode r.outputBytes r.encoding)

/-- shellous/runner.py:1053-1061 `PipeRunner.result`; `o` are the last command's options. -/
def pipeResult (results : List Item) (cancelled : Bool) (o : Options) (check : Bool := true) :
    Except Exc Result := do
  let r ← convertResultList results cancelled
  if !check then return r else checkResult r o cancelled false

end Shellous
