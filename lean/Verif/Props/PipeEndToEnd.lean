import Verif.Spec.PipeEndToEnd
import Verif.Props.PipeEnter
import Verif.Props.EndToEnd

/-!
# C71: `await pipeline`, end to end
-/

namespace Shellous.Props

theorem Prepared.mayRaise {cfg : RCfg} (h : Prepared cfg) (e : Exc) : ¬ cfg.mayRaise e := by
  rintro (h' | h' | h' | h' | h')
  · rw [h.setup] at h'; cases h'
  · rw [h.pty] at h'; cases h'
  · rw [h.exit] at h'; cases h'
  · rw [h.exit] at h'; cases h'
  · rw [h.wire] at h'; cases h'

theorem why_not_result {w0 w1 : W} {ids : List Nat} {r : Result} (h : Why w0 ids (.resultError r) w1) :
    ∃ i, w1.outOf i = some (.err (.resultError r)) := by
  rcases h with ⟨h, _⟩ | ⟨h, _⟩ | ⟨_, h⟩
  · cases h
  · cases h
  · obtain ⟨i, _, hi⟩ := firstFailure_mem h
    exact ⟨i, hi⟩

/-- The `ResultError` of an `await cmd`. -/
theorem await_resultError {cfg : RCfg} {w w' : W} {evs : List Ev} {r : Result} (hf : w.Fresh)
    (h : execute (.await none) cfg w evs = (.exc (.resultError r), w')) (hret : cfg.opts.returnResult = true) (hp : Prepared cfg)
    (ht : ∀ i r, w'.outOf i ≠ some (.err (.resultError r))) :
    (r.cancelled = true → .thrown ∈ w'.trace) ∧
      (r.cancelled = true ∨ exitCodeAllowed cfg.opts.exitCodes r.exitCode = false) := by
  have fromResult : ∀ w1 : W, ∀ f, (runResult cfg true (w1.stopTimer.log (.auditStop f)) []).1 = .exc (.resultError r) →
      (w1.cancelled = true → .thrown ∈ w1.trace) → (r.cancelled = true → .thrown ∈ (w1.stopTimer.log (.auditStop f)).trace) ∧
      (r.cancelled = true ∨ exitCodeAllowed cfg.opts.exitCodes r.exitCode = false) := by
    intro w1 f hr hc
    rcases runResult_exc hr with ⟨h, _⟩ | ⟨h, _⟩ | ⟨r', h, h1, h2⟩ | ⟨h, _⟩ <;> cases h
    change r.cancelled = w1.cancelled at h1
    refine ⟨fun h => ?_, ?_⟩
    · simp [W.log, W.stopTimer, hc (h1 ▸ h)]
    · rcases h2 with h2 | ⟨h2, _⟩
      · exact .inr h2
      · exact .inl (h1.trans h2)
  generalize hoe : Out.exc (.resultError r) = oe at h
  cases execute_ended hf h (by rw [← hoe]; simp) with
  | failed e1 _ w1 hl hc =>
    cases hoe
    rcases hc with rfl | ⟨hc, _, hr⟩
    · exfalso
      rcases hl.why with h | h | h
      · obtain ⟨i, hi⟩ := why_not_result h
        exact ht i r hi
      · exact ht 0 r h
      · exact Prepared.mayRaise hp _ h
    · refine fromResult w1 _ hr fun hc => ?_
      rcases hl.cancelled hc with h | h
      · exact mem_of_throws h
      · exact absurd h (Prepared.mayRaise hp _)
  | ended w1 w2 w3 ex ob _ hl hr hbr x ho fin =>
    obtain ⟨_, rfl⟩ := body_await hr
    have hthrow : w3.cancelled = true → .thrown ∈ w3.trace := by
      intro hc
      rcases x.cancelled hc with h | h | h
      · have : w2.cancelled = w1.cancelled := hbr.ext.cancelled
        change w2.cancelled = true at h
        rw [this, hl.cancelled] at h; cases h
      · exact mem_of_throws h
      · cases h
    cases hcomb : combine none ob with
    | blocked => rw [hcomb] at fin; cases fin; cases hoe
    | exc e' =>
      rw [hcomb] at fin
      cases fin
      cases hoe
      exfalso
      cases ob with
      | blocked => exact ho rfl
      | ok b => cases hcomb
      | exc e'' =>
        cases hcomb
        rcases x.why _ rfl with h | h | ⟨h, _⟩
        · obtain ⟨i, hi⟩ := why_not_result h
          exact ht i r hi
        · obtain ⟨i, t, hti, _, ho⟩ := h
          refine ht i r ?_
          change w3.outOf i = _
          unfold W.outOf
          rw [hti]
          exact ho
        · cases h
    | ok u =>
      rw [hcomb] at fin
      cases fin with
      | block => cases hoe
      | result => cases hoe
      | resultErr f e _ he => cases hoe; exact fromResult w3 _ he hthrow
      | decodeErr f r e _ _ hx => rw [hret] at hx; cases hx

/-- The value of an `await cmd` with `return_result`. -/
theorem await_result {cfg : RCfg} {w w' : W} {evs : List Ev} {v : Option Returned} (hf : w.Fresh)
    (h : execute (.await none) cfg w evs = (.ok v, w')) (hret : cfg.opts.returnResult = true) :
    ∃ r, v = some (.result r) ∧ (r.cancelled = true → w'.timedOut = true) := by
  rcases hk : await_ok hf h with ⟨_, _, ht⟩ | ⟨hc, _⟩
  all_goals clear hk
  · obtain ⟨r, _, _, _, ⟨_, hv⟩ | ⟨hx, _⟩⟩ := final_value hf h
    · exact ⟨r, hv, fun _ => ht⟩
    · rw [hret] at hx; cases hx
  · cases execute_ended hf h (by simp) with
    | ended w1 w2 w3 ex ob _ hl hr hbr x ho fin =>
      have hat : w3.attached = true := x.ext.attached (hl.atExit ex hbr).attached
      generalize combine ex ob = oc at fin
      generalize hh : How.await none = how at fin
      cases fin with
      | block h' => rw [h'] at hh; cases hh
      | result f r' v' _ hres hv =>
        have := (runResult_ok hres hat).2.1
        rcases hv with ⟨_, rfl⟩ | ⟨hx, _⟩
        · refine ⟨r', rfl, fun h => ?_⟩
          rw [this] at h
          change w3.cancelled = true at h
          change w3.cancelled = false at hc
          rw [hc] at h; cases h
        · rw [hret] at hx; cases hx

theorem taskOutcome_val {o : Out (Option Returned)} {r : Result} (h : taskOutcome o = some (.val (some r))) :
    o = .ok (some (.result r)) := by
  unfold taskOutcome at h
  split at h <;> cases h
  rfl

theorem taskOutcome_err {o : Out (Option Returned)} {e : Exc} (h : taskOutcome o = some (.err e)) : o = .exc e := by
  unfold taskOutcome at h
  split at h <;> cases h
  rfl

/-- **C71.** If `await (a | … | z)` returns, then - with the default exit codes, and if no command's timer went off -
every command returned normally with exit code 0 and was not cancelled. Neither was the caller, and the library has asked no
command to cancel. -/
theorem C71_all_succeeded (cfg : PRCfg) (hn : 0 < cfg.n) (hd : cfg.opts.exitCodes = none) (w : W) (hf : w.Fresh) (evs : List Ev)
    (v : Option Returned) (w' : W) (h : pipeExecute .await cfg w evs = (.ok v, w'))
    (run : Nat → CmdRun) (hr : ∀ i ∈ commands .await cfg, RunBy w' i (run i)) (hp : ∀ i ∈ commands .await cfg, (run i).Plain)
    (h0 : ∀ i ∈ commands .await cfg, Allowed (run i).cfg.opts.exitCodes 0)
    (ht : ∀ i ∈ commands .await cfg, (run i).after.timedOut = false) :
    (∀ i ∈ commands .await cfg, ∃ r, (run i).out = .ok (some (.result r)) ∧ r.exitCode = 0 ∧ r.cancelled = false) ∧
      .thrown ∉ w'.trace ∧ ∀ i ∈ commands .await cfg, ¬ CancelRequested w' i := by
  have gave := C62_success_partial cfg hn hd w hf evs v w' h
  have each : ∀ i ∈ commands .await cfg,
      (∃ r, (run i).out = .ok (some (.result r)) ∧ r.exitCode = 0 ∧ r.cancelled = false) ∨
      ((∃ e, (run i).out = .exc e) ∧ CancelRequested w' i) := by
    intro i hi
    obtain ⟨r, hg, hnf⟩ := gave i hi
    have hri := hr i hi
    have hran := hri.ran
    rcases hg with hg | hg
    · have ho := taskOutcome_val (hri.outcome.symm.trans hg)
      rw [ho] at hran
      obtain ⟨r', hv, hc⟩ := await_result hri.fresh hran hri.result
      cases hv
      have hc : r.cancelled = false := by
        cases hx : r.cancelled with
        | false => rfl
        | true => have := hc hx; rw [ht i hi] at this; cases this
      refine .inl ⟨r, ho, ?_, hc⟩
      exact Decidable.byContradiction fun h => hnf ⟨h, hc⟩
    · have ho := taskOutcome_err (hri.outcome.symm.trans hg)
      rw [ho] at hran
      obtain ⟨h1, h2⟩ := await_resultError hri.fresh hran hri.result (hp i hi).prepared (hp i hi).tasks
      refine .inr ⟨⟨_, ho⟩, ?_⟩
      cases hx : r.cancelled with
      | true =>
        rcases hri.asked (h1 hx) with h | h
        · exact h
        · rw [ht i hi] at h; cases h
      | false =>
        exfalso
        rcases h2 with h2 | h2
        · rw [hx] at h2; cases h2
        · have h3 : r.exitCode = 0 := Decidable.byContradiction fun h => hnf ⟨h, hx⟩
          have := (exitCodeAllowed_iff _ _).2 (h0 i hi)
          rw [h3, this] at h2; cases h2
  have calm : Undisturbed w' (commands .await cfg) := by
    have main : (Undisturbed w' (commands .await cfg) ∨ ∃ i ∈ commands .await cfg, FailedUnasked w' i) →
        Undisturbed w' (commands .await cfg) := by
      rintro (hu | ⟨i, hi, ⟨e, he⟩, hnr⟩)
      · exact hu
      · exfalso
        rcases each i hi with ⟨r, ho, _⟩ | ⟨_, hc⟩
        · rw [(hr i hi).outcome, ho] at he; cases he
        · exact hnr hc
    cases C46_await_outcome cfg hn w hf evs _ w' h (by simp) with
    | result r _ _ _ hu => exact main hu
    | text r t _ _ _ _ hu => exact main hu
  refine ⟨fun i hi => ?_, calm.1, calm.2⟩
  rcases each i hi with h | ⟨_, hc⟩
  · exact h
  · exact absurd hc (calm.2 i hi)

/-- What `await pipeline` gives, if it has the exit code 0 and this output: a `Result`, or the decoded output. -/
def PipeGives (cfg : PRCfg) (v : Option Returned) (out : Bytes) (enc : Text) : Prop :=
  if cfg.opts.returnResult then
    ∃ r, v = some (.result r) ∧ r.exitCode = 0 ∧ r.cancelled = false ∧ r.outputBytes = out ∧ r.encoding = enc
  else ∃ t, v = some (.text t) ∧ cfg.decode out enc = .ok t

/-- **C71: the output.** If `await (a | … | z)` returns (as above), the standard output of `z` has ended, and the value is
everything `z` wrote there. -/
theorem C71_output (cfg : PRCfg) (hn : 0 < cfg.n) (hd : cfg.opts.exitCodes = none) (w : W) (hf : w.Fresh) (evs : List Ev)
    (v : Option Returned) (w' : W) (h : pipeExecute .await cfg w evs = (.ok v, w'))
    (run : Nat → CmdRun) (hr : ∀ i ∈ commands .await cfg, RunBy w' i (run i)) (hp : ∀ i ∈ commands .await cfg, (run i).Plain)
    (h0 : ∀ i ∈ commands .await cfg, Allowed (run i).cfg.opts.exitCodes 0)
    (ht : ∀ i ∈ commands .await cfg, (run i).after.timedOut = false)
    (z : Nat) (hz : (commands .await cfg).getLast? = some z)
    (sys : Sys) (c : Command) (s0 s : LS) (wd : Wired) (vz : Option Returned) (seen : Stream → List SEv) (wrote : Stream → List WEv)
    (before after : Objects)
    (ha : Awaited sys c s0 s wd (run z).cfg none (run z).before (run z).evs vz (run z).after seen wrote before after)
    (ho : c.options.output = .redirect .default ∨ c.options.output = .redirect .buffer) :
    s.stdout = (outEnds s.pty).child ∧ ended (seen (outEnds s.pty).lib) = true ∧
      PipeGives cfg v (written (seen (outEnds s.pty).lib)) c.options.encoding := by
  have hzm : z ∈ commands .await cfg := List.mem_of_getLast? hz
  obtain ⟨hall, _⟩ := C71_all_succeeded cfg hn hd w hf evs v w' h run hr hp h0 ht
  obtain ⟨h1, h2, h3⟩ := C69_stdout ha (.inr (ht z hzm)) ho
  refine ⟨h1, h2, ?_⟩
  have hvz : (run z).out = .ok vz := by
    have := (hr z hzm).ran.symm.trans ha.ended
    exact congrArg Prod.fst this
  obtain ⟨rz, hrz, _⟩ := hall z hzm
  rw [hvz] at hrz
  cases hrz
  have hret : c.options.returnResult = true := by rw [← ha.opts]; exact (hr z hzm).result
  unfold Gives at h3
  rw [if_pos hret] at h3
  obtain ⟨r, hv, hb, he⟩ := h3
  cases hv
  have gz : Gave w' z rz := .inl ((hr z hzm).outcome.trans (by rw [hvz]; rfl))
  have key : ∀ r, Combined w' (commands .await cfg) false r → Allowed cfg.opts.exitCodes r.exitCode →
      r.exitCode = 0 ∧ r.cancelled = false ∧ r.outputBytes = written (seen (outEnds s.pty).lib) ∧ r.encoding = c.options.encoding := by
    rintro r ⟨k, l, i, hk, hl, hg, rfl⟩ hal
    rw [hz] at hl
    cases hl
    rw [gave_unique hg gz]
    rw [hd] at hal
    exact ⟨hal, rfl, hb, he⟩
  unfold PipeGives
  cases C46_await_outcome cfg hn w hf evs _ w' h (by simp) with
  | result r hc hal hret' =>
    rw [if_pos hret']
    exact ⟨r, rfl, key r hc hal⟩
  | text r t hc hal hret' hdec =>
    rw [if_neg (by rw [hret']; simp)]
    obtain ⟨_, _, h4, h5⟩ := key r hc hal
    rw [h4, h5] at hdec
    exact ⟨t, rfl, hdec⟩

/-! ## Executions -/

/-- `echo hi`, as the last command of a pipeline. -/
def pipedHi : Command := exCmd "echo" [.str "hi".toList] { returnResult := true, catchCancelled := true }

/-- The state after its launch. -/
def pipedLaunched : LS := (launch (exSys []) pipedHi { tab := [0, 1, 2] }).2

/-- The run of a command with this configuration and schedule. -/
def runOf (cfg : RCfg) (evs : List Ev) : CmdRun :=
  { cfg := cfg, before := {}, evs := evs, out := (execute (.await none) cfg {} evs).1, after := (execute (.await none) cfg {} evs).2 }

theorem runOf_ran (cfg : RCfg) (evs : List Ev) :
    execute (.await none) (runOf cfg evs).cfg (runOf cfg evs).before (runOf cfg evs).evs = ((runOf cfg evs).out, (runOf cfg evs).after) := rfl

/-- Its run. -/
def pipedRun : CmdRun := runOf { echoCfg with opts := { returnResult := true, catchCancelled := true } } echoEvents

theorem pipedRun_out : pipedRun.out = .ok (some (.result hiResult)) := by decide +kernel

theorem piped_awaited : Awaited (exSys []) pipedHi { tab := [0, 1, 2] } pipedLaunched echoWired pipedRun.cfg none pipedRun.before
    pipedRun.evs (some (.result hiResult)) pipedRun.after echoSeen (fun _ => [.go]) noObjects noObjects where
  launched := by
    have : (launch (exSys []) pipedHi { tab := [0, 1, 2] }).1 = .ok () := rfl
    unfold pipedLaunched
    rw [← this]
  wired := rfl
  opts := rfl
  ioTasks := rfl
  fresh := fresh_default false 0
  ended := by
    rw [← pipedRun_out]
    exact runOf_ran _ _
  output k src limit h := by
    rcases k with _ | _ | _ | k <;> simp [echoWired] at h
    obtain ⟨rfl, rfl⟩ := h
    refine ⟨by decide +kernel, ?_⟩
    have : (bufferCopy none (echoSeen .procStdout)).2 = .done := by decide +kernel
    rw [this]
    exact reports_done _ _ ⟨none, by decide +kernel⟩
  error k src limit h := by
    rcases k with _ | _ | _ | k <;> simp [echoWired] at h
    obtain ⟨rfl, rfl⟩ := h
    refine ⟨by decide +kernel, ?_⟩
    have : (bufferCopy (some 1024) (echoSeen .procStderr)).2 = .done := by decide +kernel
    rw [this]
    exact reports_done _ _ ⟨none, by decide +kernel⟩
  noOutput h := by cases h
  noError h := by cases h
  bytesIO k src id limit h := by rcases k with _ | _ | _ | k <;> simp [echoWired] at h
  bytearray k src id limit h := by rcases k with _ | _ | _ | k <;> simp [echoWired] at h
  stringIO k src id limit h := by rcases k with _ | _ | _ | k <;> simp [echoWired] at h
  input k b dst eof h := by
    rcases k with _ | _ | _ | k <;> simp [echoWired] at h
    obtain ⟨rfl, rfl, rfl⟩ := h
    have : (writeStream [] none [.go]).pc.status = .done := by decide +kernel
    rw [this]
    exact reports_done _ _ ⟨none, by decide +kernel⟩

/-- Two commands that go well. -/
def pipedEvents : List Ev :=
  [.resume, .taskDone 1 (.val (some hiResult)), .taskDone 0 (.val (some hiResult)), .resume]

/-- A pipeline of two commands. -/
def pipedCfg : PRCfg := { n := 2, opts := { returnResult := true } }

theorem mem_two {i : Nat} (h : i ∈ commands .await pipedCfg) : i = 0 ∨ i = 1 := by
  revert h; simp [commands, pipedCfg, List.range']

theorem plain_run (run : CmdRun) (hp : Prepared run.cfg) (ht : run.after.tasks.all (fun t => match t.out with
    | some (.err (.resultError _)) => false | _ => true) = true) : run.Plain := by
  refine ⟨hp, fun i r h => ?_⟩
  unfold W.outOf at h
  cases hi : run.after.tasks[i]? with
  | none => rw [hi] at h; cases h
  | some t =>
    rw [hi] at h
    have := List.all_eq_true.1 ht t (List.mem_of_getElem? hi)
    have h : t.out = _ := h
    rw [h] at this
    cases this

/-- C71: there are executions as in the theorems. -/
example : ∃ v w', pipeExecute .await pipedCfg {} pipedEvents = (.ok v, w') ∧
    (∀ i ∈ commands .await pipedCfg, RunBy w' i pipedRun ∧ pipedRun.Plain ∧ Allowed pipedRun.cfg.opts.exitCodes 0 ∧
      pipedRun.after.timedOut = false) ∧
    PipeGives pipedCfg v [104, 105, 10] "utf-8".toList := by
  refine ⟨some (.result hiResult), (pipeExecute .await pipedCfg {} pipedEvents).2, ?_, ?_, ?_⟩
  · have : (pipeExecute .await pipedCfg {} pipedEvents).1 = .ok (some (.result hiResult)) := by decide +kernel
    rw [← this]
  · intro i hi
    have hw : (pipeExecute .await pipedCfg {} pipedEvents).2.outOf i = some (.val (some hiResult)) := by
      rcases mem_two hi with rfl | rfl <;> decide +kernel
    refine ⟨⟨fresh_default false 0, runOf_ran _ _, rfl, rfl, hw.trans (by decide +kernel), fun h => absurd h (by decide +kernel)⟩,
      plain_run _ ⟨rfl, rfl, fun _ => rfl, rfl⟩ (by decide +kernel), rfl, by decide +kernel⟩
  · exact ⟨hiResult, rfl, rfl, rfl, rfl, rfl⟩

/-- `echo hi` with a timeout, as the last command of a pipeline: it times out when only "h" has been copied. -/
def timedRun : CmdRun :=
  runOf { ioTasks := 3, outBytes := some [104], errBytes := some [],
          opts := { returnResult := true, catchCancelled := true, timeout := some 1 } }
    [.resume, .fork, .taskDone 0 (.val none), .resume, .taskDone 3 (.val none), .timer, .resume,
    .taskDone 1 .cancelled, .taskDone 2 .cancelled, .taskDone 4 .cancelled, .resume, .exit (-15), .reap, .deliver,
    .taskDone 5 (.val none), .resume, .taskDone 6 (.val none), .resume]

/-- What it gave. -/
def timedResult : Result := { exitCode := -15, outputBytes := [104], errorBytes := [], cancelled := true, encoding := "utf-8".toList }

/-- The end of the pipeline. -/
def timedEvents : List Ev :=
  [.resume, .taskDone 0 (.val (some hiResult)), .taskDone 1 (.err (.resultError timedResult)), .resume]

/-- **C71 is false of a pipeline whose last command has a `timeout`**: when the timer goes off (and the other commands have
ended with exit code 0), `await pipeline` returns normally, without `TimeoutError`, with the part of the output that had been
copied until then. -/
theorem C71_timeout_false : ∃ w', pipeExecute .await pipedCfg {} timedEvents =
      (.ok (some (.result { exitCode := 0, outputBytes := [104], errorBytes := [], cancelled := false, encoding := "utf-8".toList })), w') ∧
    RunBy w' 0 pipedRun ∧ RunBy w' 1 timedRun ∧ pipedRun.Plain ∧ timedRun.Plain ∧
    timedRun.out = .exc (.resultError timedResult) ∧ timedRun.after.timedOut = true ∧ timedRun.after.outOf 2 = some .cancelled := by
  refine ⟨(pipeExecute .await pipedCfg {} timedEvents).2, ?_, ?_, ?_, ?_, ?_, ?_, ?_, ?_⟩
  · have : (pipeExecute .await pipedCfg {} timedEvents).1 = .ok (some (.result
      { exitCode := 0, outputBytes := [104], errorBytes := [], cancelled := false, encoding := "utf-8".toList })) := by decide +kernel
    rw [← this]
  · exact ⟨fresh_default false 0, runOf_ran _ _, rfl, rfl, by decide +kernel, fun h => absurd h (by decide +kernel)⟩
  · exact ⟨fresh_default false 0, runOf_ran _ _, rfl, rfl, by decide +kernel, fun _ => .inr (by decide +kernel)⟩
  · exact plain_run _ ⟨rfl, rfl, fun _ => rfl, rfl⟩ (by decide +kernel)
  · exact plain_run _ ⟨rfl, rfl, fun _ => rfl, rfl⟩ (by decide +kernel)
  all_goals decide +kernel

/-- A command that is cancelled when only "h" has been copied. -/
def killedRun : CmdRun :=
  runOf { ioTasks := 3, outBytes := some [104], errBytes := some [],
          opts := { returnResult := true, catchCancelled := true } }
    [.resume, .fork, .taskDone 0 (.val none), .resume, .taskDone 3 (.val none), .cancel, .resume,
    .taskDone 1 .cancelled, .taskDone 2 .cancelled, .taskDone 4 .cancelled, .resume, .exit (-15), .reap, .deliver,
    .taskDone 5 (.val none), .resume, .taskDone 6 (.val none), .resume]

/-- A command with `exit_codes={1}` that exits with code 0. -/
def zeroRun : CmdRun :=
  runOf { echoCfg with opts := { returnResult := true, catchCancelled := true, exitCodes := some ⟨true, (· == 1)⟩ } } echoEvents

/-- The end of the pipeline: the library cancels the last command. -/
def zeroEvents : List Ev :=
  [.resume, .taskDone 0 (.err (.resultError hiResult)), .resume, .taskDone 1 (.err (.resultError timedResult)), .resume]

/-- **C71 is false of a pipeline in which a command does not accept the exit code 0**: `a.set(exit_codes={1}) | b`, and `a`
exits with code 0. This is an error for `a`, hence the library cancels `b`; but the pipeline reports the exit code of `a`, 0, and
`await` returns normally with the part of the output of `b` that had been copied until then. -/
theorem C71_exit_codes_false : ∃ w', pipeExecute .await pipedCfg {} zeroEvents =
      (.ok (some (.result { exitCode := 0, outputBytes := [104], errorBytes := [], cancelled := false, encoding := "utf-8".toList })), w') ∧
    RunBy w' 0 zeroRun ∧ RunBy w' 1 killedRun ∧ zeroRun.Plain ∧ killedRun.Plain ∧
    CancelRequested w' 1 ∧ killedRun.after.outOf 2 = some .cancelled ∧ killedRun.after.timedOut = false := by
  refine ⟨(pipeExecute .await pipedCfg {} zeroEvents).2, ?_, ?_, ?_, ?_, ?_, ?_, ?_, ?_⟩
  · have : (pipeExecute .await pipedCfg {} zeroEvents).1 = .ok (some (.result
      { exitCode := 0, outputBytes := [104], errorBytes := [], cancelled := false, encoding := "utf-8".toList })) := by decide +kernel
    rw [← this]
  · exact ⟨fresh_default false 0, runOf_ran _ _, rfl, rfl, by decide +kernel, fun h => absurd h (by decide +kernel)⟩
  · exact ⟨fresh_default false 0, runOf_ran _ _, rfl, rfl, by decide +kernel, fun _ => .inl ⟨⟨.io, some (.err (.resultError timedResult)), 1⟩, by decide +kernel, by decide⟩⟩
  · exact plain_run _ ⟨rfl, rfl, fun _ => rfl, rfl⟩ (by decide +kernel)
  · exact plain_run _ ⟨rfl, rfl, fun _ => rfl, rfl⟩ (by decide +kernel)
  · exact ⟨⟨.io, some (.err (.resultError timedResult)), 1⟩, by decide +kernel, by decide⟩
  all_goals decide +kernel

end Shellous.Props
