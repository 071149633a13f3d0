import Verif.Props.Iter

/-!
# C83: the exception of the body of an `async with` block

`async with cmd as run: body` and `async with pipeline as run: body`, where the body raises an exception other than
CancelledError.
-/

namespace Shellous.Props

open Shellous

/-- **C83, a command.** The body raised `e`, and no cancellation reached the caller during the cleanup. Then the block
raises: `e` itself; or the exception of a background task of the run (a copy of its input or output, or the closing of
its standard input); or the RuntimeError that tells that the child, or a background task, could not be ended. In
particular the block never ends normally. Missing from the full claim (the block raises `e`, whatever happens): see
`C83_swallowed_false` and `C83_replaced_false`. -/
theorem C83_block_partial (cfg : RCfg) (w : W) (hf : w.Fresh) (evs : List Ev) (o : Out (Option Returned)) (w' : W)
    (h : execute .block cfg w evs = (o, w')) (hb : o ≠ .blocked) (e : Exc) (hbe : .bodyEnd (some e) ∈ w'.trace)
    (he : e ≠ .cancelled) (ht : .thrown ∉ cleanupLog w'.trace) :
    o = .exc e ∨ (∃ e' i, o = .exc e' ∧ w'.outOf i = some (.err e')) ∨
      (o = .exc .runtimeError ∧ (.gaveUp ∈ w'.trace ∨ .unableToKill ∈ w'.trace)) := by
  cases execute_ended hf h hb with
  | failed e1 _ w1 hl hc =>
    exact absurd hbe ((hl.noBody hf).2 _)
  | ended w1 w2 w3 ex ob _ hl hrel hbr x ho fin =>
    obtain ⟨l, sp⟩ := hl.split hf hbr x
    have hex : ex = some e := (sp.bodyEnd hbe).symm
    subst hex
    have ht0 : throwsIn (cleanupLog (w3.stopTimer.log (.auditStop none)).trace) = 0 := List.count_eq_zero.2 ht
    have hth : w3.throws = (w2.log (.bodyEnd (some e))).throws := by
      have := sp.throwsIn
      have := sp.throws
      omega
    have hcan := not_cancelled hl hbr x hth (by simpa using he)
    cases ob with
    | blocked => exact absurd rfl ho
    | ok b =>
      cases b with
      | true => rw [(x.ok true rfl).2.1 rfl] at hcan; cases hcan
      | false =>
        generalize hoc : combine (some e) (Out.ok false) = oc at fin; cases hoc; cases fin
        exact .inl rfl
    | exc e' =>
      generalize hoc : combine _ (Out.exc e') = oc at fin; cases hoc; cases fin
      rcases x.why e' rfl with hw | ⟨i, t, h1, _, h2⟩ | ⟨_, hc, _⟩
      · rcases hw with ⟨_, hlt⟩ | ⟨rfl, hg⟩ | ⟨_, hff⟩
        · omega
        · refine .inr (.inr ⟨rfl, ?_⟩)
          rcases hg with hg | hg
          · exact .inl (by simp [W.log, W.stopTimer, mem_of_gaveUps hg])
          · exact .inr (by simp [W.log, W.stopTimer, hg])
        · obtain ⟨i, _, hi⟩ := firstFailure_mem hff
          exact .inr (.inl ⟨e', i, rfl, hi⟩)
      · refine .inr (.inl ⟨e', i, rfl, ?_⟩)
        change w3.outOf i = _
        unfold W.outOf
        rw [h1]; exact h2
      · rw [hc] at hcan; cases hcan

/-- **C83, a command.** If moreover no background task has failed, and the child and the background tasks could be
ended, the block raises exactly what the body raised. -/
theorem C83_block (cfg : RCfg) (w : W) (hf : w.Fresh) (evs : List Ev) (o : Out (Option Returned)) (w' : W)
    (h : execute .block cfg w evs = (o, w')) (hb : o ≠ .blocked) (e : Exc) (hbe : .bodyEnd (some e) ∈ w'.trace)
    (he : e ≠ .cancelled) (ht : .thrown ∉ cleanupLog w'.trace) (hg : .gaveUp ∉ w'.trace)
    (hu : .unableToKill ∉ w'.trace) (hok : ∀ i e', w'.outOf i ≠ some (.err e')) : o = .exc e := by
  rcases C83_block_partial cfg w hf evs o w' h hb e hbe he ht with h | ⟨e', i, _, h⟩ | ⟨_, h | h⟩
  · exact h
  · exact absurd h (hok i e')
  · exact absurd h hg
  · exact absurd h hu

/-- **C83, a command.** A CancelledError of the body does not come out of the block as such: the block ends normally (a
CancelledError is raised when `run.result()` is asked for, C36), or raises TimeoutError if the timer of the option
`timeout` has fired, or the exception of a background task, or RuntimeError, or it was cancelled again. -/
theorem C83_block_cancelled (cfg : RCfg) (w : W) (hf : w.Fresh) (evs : List Ev) (o : Out (Option Returned)) (w' : W)
    (h : execute .block cfg w evs = (o, w')) (hb : o ≠ .blocked) (hbe : .bodyEnd (some .cancelled) ∈ w'.trace)
    (ht : .thrown ∉ cleanupLog w'.trace) :
    o = .ok none ∨ (o = .exc .timeout ∧ w'.timedOut = true ∧ cfg.opts.catchCancelled = false) ∨
      (∃ e' i, o = .exc e' ∧ w'.outOf i = some (.err e')) ∨
      (o = .exc .runtimeError ∧ (.gaveUp ∈ w'.trace ∨ .unableToKill ∈ w'.trace)) := by
  cases execute_ended hf h hb with
  | failed e1 _ w1 hl hc =>
    exact absurd hbe ((hl.noBody hf).2 _)
  | ended w1 w2 w3 ex ob _ hl hrel hbr x ho fin =>
    obtain ⟨l, sp⟩ := hl.split hf hbr x
    have hex : ex = some .cancelled := (sp.bodyEnd hbe).symm
    subst hex
    have ht0 : throwsIn (cleanupLog (w3.stopTimer.log (.auditStop none)).trace) = 0 := List.count_eq_zero.2 ht
    have hth : w3.throws = (w2.log (.bodyEnd (some .cancelled))).throws := by
      have := sp.throwsIn
      have := sp.throws
      omega
    cases ob with
    | blocked => exact absurd rfl ho
    | ok b =>
      cases b with
      | true =>
        generalize hoc : combine (some Exc.cancelled) (Out.ok true) = oc at fin; cases hoc
        cases fin <;> first | exact .inl rfl | contradiction
      | false => have := x.supp rfl rfl; omega
    | exc e' =>
      generalize hoc : combine _ (Out.exc e') = oc at fin; cases hoc; cases fin
      rcases x.why e' rfl with hw | ⟨i, t, h1, _, h2⟩ | ⟨rfl, hc, h1, h2⟩
      · rcases hw with ⟨_, hlt⟩ | ⟨rfl, hg⟩ | ⟨_, hff⟩
        · omega
        · refine .inr (.inr (.inr ⟨rfl, ?_⟩))
          rcases hg with hg | hg
          · exact .inl (by simp [W.log, W.stopTimer, mem_of_gaveUps hg])
          · exact .inr (by simp [W.log, W.stopTimer, hg])
        · obtain ⟨i, _, hi⟩ := firstFailure_mem hff
          exact .inr (.inr (.inl ⟨e', i, rfl, hi⟩))
      · refine .inr (.inr (.inl ⟨e', i, rfl, ?_⟩))
        change w3.outOf i = _
        unfold W.outOf
        rw [h1]; exact h2
      · exact .inr (.inl ⟨rfl, h1, h2⟩)

/-! ## Pipelines -/

/-- A body that has ended was started, and then the pipes had been created. -/
theorem pipe_bodyEnd_started {cfg : PRCfg} {w w' : W} (hf : w.Fresh) {evs : List Ev} {o : Out (Option Returned)}
    (h : pipeExecute .block cfg w evs = (o, w')) (hb : o ≠ .blocked) {a : Option Exc} (ha : .bodyEnd a ∈ w'.trace) :
    .bodyStart ∈ w'.trace ∧ cfg.setupErr = none := by
  cases phase .block cfg w hf evs with
  | setup e hs hx =>
    have := hx []
    rw [List.append_nil, h] at this
    cases this
    rw [show ({ w with cancelled := decide (e = .cancelled) } : W).trace = w.trace from rfl, hf.trace] at ha
    cases ha
  | launching w1 _ _ _ hx => rw [h] at hx; cases hx; exact absurd rfl hb
  | body w1 w2 _ _ _ _ _ hx => rw [h] at hx; cases hx; exact absurd rfl hb
  | interrupted w1 rest hs hh q hm hx =>
    have := hx []
    rw [List.append_nil, List.append_nil, h] at this
    have hp := harvestResults_spec (commands .block cfg) false true w1.interrupted rest
    rcases hr : harvestResults (commands .block cfg) false true w1.interrupted rest with ⟨oh, w3, r⟩
    rw [hr] at this hp
    have same := (pipeFail_same this).1
    rw [same.trace] at ha
    exact absurd ha ((interrupted_trace hf q hp.ext).1 a)
  | exiting w1 w2 ex rest hs q _ hrd br hx =>
    have := hx []
    rw [List.append_nil, List.append_nil, h] at this
    have hp := harvestResults_spec (commands .block cfg) false true ((w2.log (.bodyEnd ex)).atExit ex) rest
    rcases hr : harvestResults (commands .block cfg) false true ((w2.log (.bodyEnd ex)).atExit ex) rest with ⟨oh, w3, r⟩
    rw [hr] at this hp
    have same := (pipeEnd_same this).1
    obtain ⟨l, hl, hu⟩ := hp.ext.trace
    have ht : ((w2.log (.bodyEnd ex)).atExit ex).trace = w2.trace ++ [.bodyEnd ex] := (atExit_ext _ _).2
    obtain ⟨l2, hl2, _⟩ := br.ext.trace
    refine ⟨?_, hs⟩
    rw [same.trace, hl, ht, hl2]
    simp [W.log]

/-- **C83, a pipeline.** The body raised `e`, and no cancellation reached the caller during the cleanup. Then the block
raises: `e` itself, or an internal error of one of its commands (see `FirstSerious`), or the RuntimeError that tells that a
command could not be ended. The commands' own exceptions never replace `e`. -/
theorem C83_pipe_partial (cfg : PRCfg) (hn : 0 < cfg.n) (w : W) (hf : w.Fresh) (evs : List Ev)
    (o : Out (Option Returned)) (w' : W) (h : pipeExecute .block cfg w evs = (o, w')) (hb : o ≠ .blocked) (e : Exc)
    (hbe : .bodyEnd (some e) ∈ w'.trace) (he : e ≠ .cancelled) (ht : .thrown ∉ cleanupLog w'.trace) :
    o = .exc e ∨ (∃ e', o = .exc e' ∧ FirstSerious w' (commands .block cfg) e') ∨
      (o = .exc .runtimeError ∧ .gaveUp ∈ w'.trace) := by
  have uniq := fun x => pipe_bodyEnd_unique hf h hb (a := x) (b := some e)
  cases C46_block_outcome cfg hn w hf evs o w' h hb with
  | ended hm _ => cases uniq _ hm hbe
  | suppressed e' hm _ hc =>
    cases uniq _ hm hbe
    rcases hc with hc | hc
    · exact absurd hc he
    · exact absurd hc ht
  | body e' hm => cases uniq _ hm hbe; exact .inl rfl
  | launch hs hth => exact absurd (pipe_bodyEnd_started hf h hb hbe).1 hs
  | serious e' hs => exact .inr (.inl ⟨e', rfl, hs⟩)
  | gaveUp hg => exact .inr (.inr ⟨rfl, hg⟩)
  | twice e' h2 => have : throwsIn (cleanupLog w'.trace) = 0 := List.count_eq_zero.2 ht; omega
  | setup e' hs => rw [(pipe_bodyEnd_started hf h hb hbe).2] at hs; cases hs

/-! ## What is false, and non-vacuity -/

/-- Events of a block whose body raises; then the child exits after the library's signal. -/
def raisingBody : List Ev :=
  [.resume, .fork, .taskDone 0 (.val none), .resume, .bodyDone (some (.user 1)), .exit (-15), .reap, .deliver,
    .taskDone 1 (.val none), .taskDone 2 (.val none), .taskDone 3 (.val none), .resume, .taskDone 4 (.val none), .resume]

/-- The hypotheses of `C83_block` are met. -/
example : (execute .block twoCopies {} raisingBody).1 = .exc (.user 1) ∧
    (execute .block twoCopies {} raisingBody).2.trace = [.auditStart, .bodyStart, .bodyEnd (some (.user 1)),
      .auditSignal false (some 15), .kill false (some 15), .auditStop none] := by decide +kernel

/-- C83 is false if a cancellation arrives while the block stops the child: the block ends normally. The exception of the
body is lost, and so is the cancellation. -/
theorem C83_swallowed_false :
    ∃ evs, (execute .block twoCopies {} evs).1 = .ok none ∧
      (execute .block twoCopies {} evs).2.trace = [.auditStart, .bodyStart, .bodyEnd (some (.user 1)),
        .auditSignal false (some 15), .kill false (some 15), .thrown, .auditSignal false none, .kill false none, .auditStop none] :=
  ⟨[.resume, .fork, .taskDone 0 (.val none), .resume, .bodyDone (some (.user 1)), .cancel, .resume, .taskDone 1 .cancelled,
    .taskDone 2 .cancelled, .taskDone 3 .cancelled, .resume, .exit (-9), .reap, .deliver, .taskDone 4 (.val none),
    .resume, .taskDone 5 (.val none), .resume], by decide +kernel⟩

/-- C83 is false if a background task of the run fails: here, closing the child's standard input fails with
BrokenPipeError (input was left over when the child was stopped), and that is what the block raises. -/
theorem C83_replaced_false :
    ∃ evs, (execute .block twoCopies {} evs).1 = .exc .brokenPipe ∧
      (execute .block twoCopies {} evs).2.trace = [.auditStart, .bodyStart, .bodyEnd (some (.user 1)),
        .auditSignal false (some 15), .kill false (some 15), .auditStop none] :=
  ⟨raisingBody.take 12 ++ [.taskDone 4 (.err .brokenPipe), .resume], by decide +kernel⟩

/-- The hypotheses of `C83_pipe_partial` are met: a command fails too, but the exception of the body is raised. -/
example : ∃ evs, (pipeExecute .block { n := 2 } {} evs).1 = .exc (.user 1) ∧
    .bodyEnd (some (.user 1)) ∈ (pipeExecute .block { n := 2 } {} evs).2.trace ∧
    .thrown ∉ cleanupLog (pipeExecute .block { n := 2 } {} evs).2.trace ∧
    .gaveUp ∉ (pipeExecute .block { n := 2 } {} evs).2.trace :=
  ⟨[.taskDone 0 (.val none), .taskDone 1 (.val none), .resume, .bodyDone (some (.user 1)), .taskDone 2 (.err .brokenPipe),
    .taskDone 3 .cancelled, .resume], by decide +kernel⟩

/-- The same for a pipeline: cancelled while it stops its commands, the block swallows both exceptions. -/
theorem C83_pipe_swallowed_false :
    ∃ evs, (pipeExecute .block { n := 2 } {} evs).1 = .ok none ∧
      .bodyEnd (some (.user 1)) ∈ (pipeExecute .block { n := 2 } {} evs).2.trace ∧
      .thrown ∈ cleanupLog (pipeExecute .block { n := 2 } {} evs).2.trace :=
  ⟨[.taskDone 0 (.val none), .taskDone 1 (.val none), .resume, .bodyDone (some (.user 1)), .cancel, .resume,
    .taskDone 2 .cancelled, .taskDone 3 .cancelled, .resume], by decide +kernel⟩

end Shellous.Props
