import Verif.Props.RunKill

/-!
# C35-C38: how a run ends
-/

namespace Shellous.Props
open Shellous

theorem body_await {f ex : Option Exc} {w w' : W} (h : bodyR (.await f) w (bodyOut ex) w') : w' = w ∧ ex = f := by
  obtain ⟨h1, h2⟩ := h.2 f rfl
  refine ⟨h1, ?_⟩
  cases ex <;> cases f <;> simp_all [bodyOut]

theorem not_cancelled {cfg : RCfg} {w w1 w2 w3 : W} {ex : Option Exc} {o : Out Bool} (hl : Launched cfg w w1)
    (hbr : BodyRel (w1.log .bodyStart) w2) (x : XPost cfg ex (w2.log (.bodyEnd ex)) o w3)
    (hth : w3.throws = (w2.log (.bodyEnd ex)).throws) (he : ex ≠ some .cancelled) : w3.cancelled = false := by
  cases hc : w3.cancelled with
  | false => rfl
  | true =>
    rcases x.cancelled hc with h | h | h
    · have : w2.cancelled = w1.cancelled := hbr.ext.cancelled
      change w2.cancelled = true at h
      rw [this, hl.cancelled] at h; cases h
    · omega
    · exact absurd h he

/-- The end of an `await` that returned. -/
theorem await_ok {f : Option Exc} {cfg : RCfg} {w w' : W} {evs : List Ev} {v : Option Returned} (hf : w.Fresh)
    (h : execute (.await f) cfg w evs = (.ok v, w')) :
    (w'.cancelled = true ∧ cfg.opts.catchCancelled = true ∧ w'.timedOut = true) ∨
    (w'.cancelled = false ∧ w'.timedOut = false ∧ f = none ∧
      (w'.cancels = w.cancels ∧ w.mustCancel = false ∨ .closeTimeout ∈ w'.trace)) := by
  cases execute_ended hf h (by simp) with
  | ended w1 w2 w3 ex ob _ hl hr hbr x ho fin =>
    obtain ⟨hcm, r, hres⟩ := fin.await_ok
    have hat : w3.attached = true := x.ext.attached (hl.atExit ex hbr).attached
    obtain ⟨_, _, _, hcc⟩ := runResult_ok hres hat
    obtain ⟨hw2, hex⟩ := body_await hr
    cases hc : w3.cancelled with
    | true => exact .inl ⟨hc, hcc hc⟩
    | false =>
      right
      subst hex
      cases ob with
      | blocked => exact absurd rfl ho
      | exc e => cases hcm
      | ok b =>
        cases ex with
        | some e =>
          exfalso
          unfold combine at hcm
          simp only [] at hcm
          split at hcm
          · rename_i hb
            rw [(x.ok b rfl).2.1 hb] at hc; cases hc
          · cases hcm
        | none =>
          have hy : cfg.Yields (w2.log (.bodyEnd none)) :=
            .inr (.inr (by change w2.mustCancel = false; rw [hw2]; exact hl.pending))
          obtain ⟨_, _, _, hcalm⟩ := x.calm b rfl rfl hc
          obtain ⟨ht, hcs⟩ := hcalm hy
          refine ⟨hc, ?_, rfl, ?_⟩
          · change w3.timedOut = false
            rw [ht]
            change w2.timedOut = false
            rw [hw2]
            exact hl.timedOut
          · rcases hcs with ⟨h1, _⟩ | h1
            · left
              refine ⟨?_, hl.initial⟩
              change w3.cancels = w.cancels
              rw [h1]
              change w2.cancels = w.cancels
              rw [hw2]
              exact hl.cancels
            · right
              simp [W.log, W.stopTimer, h1]

/-! ## C35 -/

/-- C35: when a run has ended its timer is off, for good: it can no longer do anything. -/
theorem C35_disarmed (how : How) (cfg : RCfg) (w : W) (hf : w.Fresh) (evs : List Ev) (o : Out (Option Returned)) (w' : W)
    (h : execute how cfg w evs = (o, w')) (hb : o ≠ .blocked) (later : List Ev) :
    (w'.after later).env none .timer = w'.after later := by
  have ht : w'.timer = false := by
    cases execute_ended hf h hb with
    | failed => rfl
    | ended => rfl
  have : (w'.after later).timer = false := by
    cases hx : (w'.after later).timer with
    | false => rfl
    | true => rw [(after_ext w' later).timer hx] at ht; cases ht
  simp [W.env, this]

/-- C35: without the `timeout` option the timer never fires. -/
theorem C35_no_timeout (how : How) (cfg : RCfg) (w : W) (hf : w.Fresh) (evs : List Ev)
    (hn : cfg.opts.timeout = none) : (execute how cfg w evs).2.timedOut = false := by
  obtain ⟨o1, rp, _⟩ := execute_spec how cfg w hf evs
  generalize (execute how cfg w evs).2 = wE at rp
  have base : ∀ w1 w2, Launched cfg (w.log .auditStart) w1 → BodyRel (w1.log .bodyStart) w2 →
      w2.timedOut = false ∧ w2.timer = false := by
    intro w1 w2 hl hb
    refine hb.ext.toRExt.offTimer hl.timedOut ?_
    change w1.timer = false
    rw [hl.timer, hn]; rfl
  cases rp with
  | launching w' h => exact h.timedOut
  | failed e1 e w1 h _ => exact h.timedOut
  | inBody w1 w2 hl _ hb => exact (base w1 _ hl hb).1
  | exiting w1 w2 w3 ex hl _ hb x =>
    obtain ⟨h1, h2⟩ := base w1 w2 hl hb
    exact (x.ext.offTimer h1 h2).1
  | ended w1 w2 w3 ex o hl _ hb x ho =>
    obtain ⟨h1, h2⟩ := base w1 w2 hl hb
    exact (x.ext.offTimer h1 h2).1

/-- C35: if the timer fired (`timedOut`), `await cmd` returns only if `catch_cancelled` is set, and then the result
says "cancelled". Also C36. -/
theorem C35_fired (f : Option Exc) (cfg : RCfg) (w : W) (hf : w.Fresh) (evs : List Ev) (v : Option Returned) (w' : W)
    (h : execute (.await f) cfg w evs = (.ok v, w')) (hd : w'.timedOut = true) :
    cfg.opts.catchCancelled = true ∧ ∀ r, v = some (.result r) → r.cancelled = true := by
  have hk := await_ok hf h
  rcases hk with ⟨hc, h1, _⟩ | ⟨_, h1, _⟩
  · refine ⟨h1, ?_⟩
    rintro r rfl
    cases execute_ended hf h (by simp) with
    | ended w1 w2 w3 ex ob _ hl hr hbr x ho fin =>
      have hat : w3.attached = true := x.ext.attached (hl.atExit ex hbr).attached
      generalize hh : How.await f = how at fin
      generalize combine ex ob = oc at fin
      cases fin with
      | result f r' v' _ hres hv =>
        have := (runResult_ok hres hat).2.1
        rcases hv with ⟨_, h⟩ | ⟨_, t, _, h⟩
        · cases h; rw [this]; exact hc
        · cases h
  · rw [hd] at h1; cases h1

/-- With `async with`, the body may swallow the cancellation that the timer causes. Then the run ends normally. -/
theorem C35_swallowed_false :
    ∃ evs, (execute .block { twoCopies with opts := { timeout := some 1 } } {} evs).1 = .ok none ∧
      (execute .block { twoCopies with opts := { timeout := some 1 } } {} evs).2.timedOut = true :=
  ⟨[.resume, .fork, .taskDone 0 (.val none), .resume, .timer, .bodyGotCancel, .bodyDone none,
    .taskDone 1 (.val none), .taskDone 2 (.val none), .exit 0, .reap, .deliver, .taskDone 3 (.val none), .resume,
    .taskDone 4 (.val none), .resume], by decide +kernel⟩

/-! ## C36 -/

theorem why_explained {cfg : RCfg} {w0 w1 : W} {ids : List Nat} {e : Exc} {f : Option Exc} (h : Why w0 ids e w1) :
    Explained cfg (w1.stopTimer.log (.auditStop f)) e := by
  rcases h with ⟨rfl, h⟩ | ⟨rfl, h⟩ | ⟨_, h⟩
  · exact .cancelled (.inl (by simp [W.log, W.stopTimer, mem_of_throws h]))
  · refine .surrender ?_
    rcases h with h | h
    · exact .inl (by simp [W.log, W.stopTimer, mem_of_gaveUps h])
    · exact .inr (by simp [W.log, W.stopTimer, h])
  · obtain ⟨i, _, hi⟩ := firstFailure_mem h
    exact .task i e hi

theorem closer_explained {cfg : RCfg} {w1 : W} {e : Exc} {f : Option Exc} (h : CloserFailed w1 e) :
    Explained cfg (w1.stopTimer.log (.auditStop f)) e := by
  obtain ⟨i, t, ht, _, ho⟩ := h
  refine .task i e ?_
  change w1.outOf i = _
  unfold W.outOf
  rw [ht]
  exact ho

theorem result_explained {cfg : RCfg} {w1 : W} {e : Exc} {f : Option Exc} (hok : w1.Ok)
    (h : (runResult cfg true (w1.stopTimer.log (.auditStop f)) []).1 = .exc e)
    (hc : w1.cancelled = true → .thrown ∈ w1.trace ∨ cfg.mayRaise .cancelled ∨ .bodyEnd (some .cancelled) ∈ w1.trace)
    (hk : w1.attached = true ∧ w1.rcKnown = false → .auditSignal false none ∈ w1.trace)
    (ha : w1.attached = false → w1.cancelled = true) :
    Explained cfg (w1.stopTimer.log (.auditStop f)) e := by
  have hc' : w1.cancelled = true → .thrown ∈ (w1.stopTimer.log (.auditStop f)).trace ∨ cfg.mayRaise .cancelled ∨
      .bodyEnd (some .cancelled) ∈ (w1.stopTimer.log (.auditStop f)).trace := by
    intro h
    rcases hc h with h | h | h
    · exact .inl (by simp [W.log, W.stopTimer, h])
    · exact .inr (.inl h)
    · exact .inr (.inr (by simp [W.log, W.stopTimer, h]))
  rcases runResult_exc h with ⟨rfl, h1, h2⟩ | ⟨rfl, h1, _⟩ | ⟨r, rfl, h1, h2⟩ | ⟨rfl, h1, h2⟩
  · have hat : w1.attached = true := by
      cases h : w1.attached with
      | true => rfl
      | false =>
        have h' := h2 h
        change w1.cancelled = false at h'
        rw [ha h] at h'; cases h'
    refine .undead ?_ (by simp [W.log, W.stopTimer, hk ⟨hat, h1⟩])
    intro hr
    rw [hr.rcKnown] at h1; cases h1
  · exact .cancelled (hc' h1)
  · rcases h2 with h2 | ⟨h2, _, h3⟩
    · exact .exitCode r h2
    · exact .caught r (by rw [h1]; exact h2) h3 (hc' h2)
  · have h2 : w1.cancelled = false := h2
    rw [ha h1] at h2; cases h2

theorem cancelled_reason {cfg : RCfg} {w w1 w2 w3 : W} {ex : Option Exc} {o : Out Bool} (hl : Launched cfg w w1)
    (hbr : BodyRel (w1.log .bodyStart) w2) (x : XPost cfg ex (w2.log (.bodyEnd ex)) o w3) (hc : w3.cancelled = true) :
    .thrown ∈ w3.trace ∨ cfg.mayRaise .cancelled ∨ .bodyEnd (some .cancelled) ∈ w3.trace := by
  rcases x.cancelled hc with h | h | h
  · have : w2.cancelled = w1.cancelled := hbr.ext.cancelled
    change w2.cancelled = true at h
    rw [this, hl.cancelled] at h; cases h
  · exact .inl (mem_of_throws h)
  · obtain ⟨l, hl, _⟩ := x.ext.trace
    refine .inr (.inr ?_)
    rw [hl, W.log, h]; simp

theorem timedOut_option {cfg : RCfg} {w w1 w2 w3 : W} {ex : Option Exc} {o : Out Bool} (hl : Launched cfg w w1)
    (hbr : BodyRel (w1.log .bodyStart) w2) (x : XPost cfg ex (w2.log (.bodyEnd ex)) o w3) (ht : w3.timedOut = true) :
    cfg.opts.timeout ≠ none := by
  intro hn
  have h1 := hbr.ext.toRExt.offTimer hl.timedOut (by change w1.timer = false; rw [hl.timer, hn]; rfl)
  rw [(x.ext.offTimer h1.1 h1.2).1] at ht; cases ht

/-- C36 (and C35, C38): whatever a run raises has one of the explanations that the specification lists. -/
theorem C36_explained (how : How) (cfg : RCfg) (w : W) (hf : w.Fresh) (evs : List Ev) (e : Exc) (w' : W)
    (h : execute how cfg w evs = (.exc e, w')) : Explained cfg w' e := by
  cases execute_ended hf h (by simp) with
  | failed e1 _ w1 hl hc =>
    rcases hc with rfl | ⟨hc, _, hr⟩
    · rcases hl.why with h | h | h
      · exact why_explained h
      · exact .task 0 _ h
      · exact .launch _ h
    · refine result_explained hl.good hr ?_ ?_ (fun _ => hc)
      · intro _
        rcases hl.cancelled hc with h | h
        · exact .inl (mem_of_throws h)
        · exact .inr (.inl h)
      · rintro ⟨ha, hk⟩
        rcases hl.attached ha with h | h
        · rw [hk] at h; cases h
        · exact h.killed
  | ended w1 w2 w3 ex ob _ hl hr hbr x ho fin =>
    have hat : w3.attached = true := x.ext.attached (hl.atExit ex hbr).attached
    have hres : ∀ e', (runResult cfg true (w3.stopTimer.log (.auditStop none)) []).1 = .exc e' →
        Explained cfg (w3.stopTimer.log (.auditStop none)) e' := by
      intro e' he'
      refine result_explained x.good he' (fun hc => cancelled_reason hl hbr x hc) ?_ (fun h => by rw [hat] at h; cases h)
      rintro ⟨_, hk⟩
      rcases x.ended ho with h | ⟨_, h, _⟩
      · rw [hk] at h; cases h
      · exact h.killed
    cases hcomb : combine ex ob with
    | blocked => rw [hcomb] at fin; cases fin
    | exc e' =>
      rw [hcomb] at fin
      cases fin
      cases ob with
      | blocked => exact absurd rfl ho
      | exc e'' =>
        cases hcomb
        rcases x.why e rfl with h | h | ⟨rfl, _, h1, h2⟩
        · exact why_explained h
        · exact closer_explained h
        · exact .timeout h1 (timedOut_option hl hbr x h1) h2
      | ok b =>
        cases ex with
        | none => cases hcomb
        | some ex =>
          unfold combine at hcomb
          simp only [] at hcomb
          split at hcomb
          · cases hcomb
          · cases hcomb
            obtain ⟨l, hl, _⟩ := x.ext.trace
            refine .body _ ?_
            rw [W.log, W.stopTimer]
            simp only []
            rw [hl, W.log]; simp
    | ok u =>
      rw [hcomb] at fin
      generalize hoe : Out.exc e = oe at fin
      cases fin with
      | block => cases hoe
      | result => cases hoe
      | resultErr f e _ he => cases hoe; exact hres _ he
      | decodeErr f r e _ _ _ hd => cases hoe; exact .decode _ _ _ hd

/-- C36: if `await cmd` returns although the caller was cancelled (by whomever, also by the timer) at any point
before, then the option `catch_cancelled` is set and the timer fired, or the wait for the closing of the child's
standard input timed out at that very moment. -/
theorem C36_await_partial (f : Option Exc) (cfg : RCfg) (w : W) (hf : w.Fresh) (evs : List Ev) (v : Option Returned) (w' : W)
    (h : execute (.await f) cfg w evs = (.ok v, w'))
    (hc : w.cancels < w'.cancels ∨ w.mustCancel = true) :
    (cfg.opts.catchCancelled = true ∧ w'.timedOut = true) ∨ .closeTimeout ∈ w'.trace := by
  rcases await_ok hf h with ⟨_, h1, h2⟩ | ⟨_, _, _, ⟨h1, h2⟩ | h1⟩
  · exact .inl ⟨h1, h2⟩
  · rcases hc with hc | hc
    · omega
    · rw [h2] at hc; cases hc
  · exact .inr h1

/-- C36: with `catch_cancelled` too, a cancellation by somebody else than the timer is not lost: the result then says
so. -/
theorem C36_catch (f : Option Exc) (cfg : RCfg) (w : W) (hf : w.Fresh) (evs : List Ev) (r : Result) (w' : W)
    (h : execute (.await f) cfg w evs = (.ok (some (.result r)), w'))
    (hc : w.cancels < w'.cancels ∨ w.mustCancel = true) : r.cancelled = true ∨ .closeTimeout ∈ w'.trace := by
  rcases C36_await_partial f cfg w hf evs _ w' h hc with ⟨_, h2⟩ | h1
  · exact .inl ((C35_fired f cfg w hf evs _ w' h h2).2 r rfl)
  · exact .inr h1

/-- Events of a command that runs and ends without any trouble, up to the closing of the standard input. -/
def smoothEvents : List Ev :=
  [.resume, .fork, .taskDone 0 (.val none), .resume, .taskDone 1 (.val none), .taskDone 2 (.val none), .exit 0, .reap,
    .deliver, .taskDone 3 (.val none), .resume]

/-- C36 is false without the exception made for `closeTimeout`: the closing of standard input times out, the caller
is cancelled while the library waits for the end of the cancelled closing, and `await cmd` returns normally. -/
theorem C36_close_timeout_false :
    ∃ evs, (execute (.await none) twoCopies {} evs).1 =
        .ok (some (.result { exitCode := 0, outputBytes := [], errorBytes := [], cancelled := false, encoding := "utf-8".toList })) ∧
      (execute (.await none) twoCopies {} evs).2.cancels = 1 ∧
      (execute (.await none) twoCopies {} evs).2.trace = [.auditStart, .bodyStart, .bodyEnd none, .thrown,
        .cleanupCancelled, .closeTimeout, .auditStop none] :=
  ⟨smoothEvents ++ [.timeout, .resume, .cancel, .resume, .taskDone 4 .cancelled, .resume], by decide +kernel⟩

/-- C36 is false of an `async with` block whose result is not asked for: a cancellation that arrives after the body,
while the block waits for the end of the command, is suppressed, and the block ends normally. -/
theorem C36_with_block_false :
    ∃ evs, (execute .block twoCopies {} evs).1 = .ok none ∧
      (execute .block twoCopies {} evs).2.cancels = 1 ∧
      (execute .block twoCopies {} evs).2.trace = [.auditStart, .bodyStart, .bodyEnd none, .thrown,
        .auditSignal false (some 15), .kill false (some 15), .auditStop none] :=
  ⟨[.resume, .fork, .taskDone 0 (.val none), .resume, .bodyDone none, .cancel, .resume, .taskDone 1 .cancelled,
    .taskDone 2 .cancelled, .taskDone 3 .cancelled, .resume, .exit (-15), .reap, .deliver, .taskDone 4 (.val none),
    .resume, .taskDone 5 (.val none), .resume], by decide +kernel⟩

/-- C35: a run that is ended by its timer. -/
example : ∃ evs, (execute (.await none) { twoCopies with opts := { timeout := some 1 } } {} evs).1 = .exc .timeout ∧
    (execute (.await none) { twoCopies with opts := { timeout := some 1 } } {} evs).2.timedOut = true ∧
    (execute (.await none) { twoCopies with opts := { timeout := some 1 } } {} evs).2.proc =
      some ⟨some (-15), some (-15), some (-15)⟩ :=
  ⟨[.resume, .fork, .taskDone 0 (.val none), .resume, .timer, .resume, .taskDone 1 .cancelled,
    .taskDone 2 .cancelled, .taskDone 3 .cancelled, .resume, .exit (-15), .reap, .deliver, .taskDone 4 (.val none),
    .resume, .taskDone 5 (.val none), .resume], by decide +kernel⟩

/-- C35: where a `TimeoutError` of a run comes from: the timer fired, and the command has the option `timeout`; or a
background task (say, a user's own sink), a preparation, the user's body or the decoder raised it. -/
theorem C35_source (how : How) (cfg : RCfg) (w : W) (hf : w.Fresh) (evs : List Ev) (w' : W)
    (h : execute how cfg w evs = (.exc .timeout, w')) :
    (w'.timedOut = true ∧ cfg.opts.timeout ≠ none ∧ cfg.opts.catchCancelled = false) ∨
    (∃ i, w'.outOf i = some (.err .timeout)) ∨ cfg.mayRaise .timeout ∨ .bodyEnd (some .timeout) ∈ w'.trace ∨
    ∃ b enc, cfg.decode b enc = .error .timeout := by
  generalize hx : Exc.timeout = e at h
  have := C36_explained how cfg w hf evs e w' h
  cases this with
  | timeout h1 h2 h3 => exact .inl ⟨h1, h2, h3⟩
  | task i _ h1 => exact .inr (.inl ⟨i, hx ▸ h1⟩)
  | launch _ h1 => exact .inr (.inr (.inl (hx ▸ h1)))
  | body _ h1 => exact .inr (.inr (.inr (.inl (hx ▸ h1))))
  | decode b enc _ h1 => exact .inr (.inr (.inr (.inr ⟨b, enc, hx ▸ h1⟩)))
  | cancelled => cases hx
  | surrender => cases hx
  | exitCode => cases hx
  | caught => cases hx
  | undead => cases hx

/-! ## C37 -/

/-- C37, if at most one `CancelledError` reached the caller during the cleanup (after the body; during the launch, if it
failed) and the library did not log that it gave up on tasks that ignore their cancellation: no background task is
left. Missing, and false: any number of cancellations, and tasks that ignore cancellation. -/
theorem C37_partial (how : How) (cfg : RCfg) (w : W) (hf : w.Fresh) (evs : List Ev) (o : Out (Option Returned)) (w' : W)
    (h : execute how cfg w evs = (o, w')) (hb : o ≠ .blocked) (h1 : throwsIn (cleanupLog w'.trace) ≤ 1)
    (h2 : .gaveUp ∉ cleanupLog w'.trace) (i : Nat) (t : TaskSt) (ht : w'.tasks[i]? = some t) : t.out ≠ none := by
  have all : w'.AllTasksDone := by
    cases execute_ended hf h hb with
    | failed e1 e w1 hl hc =>
      rw [cleanupLog_none (hl.noBody hf).2] at h1 h2
      refine hl.done ⟨?_, ?_⟩
      · have : .gaveUp ∉ w1.trace := fun hm => h2 (by simp [W.log, W.stopTimer, hm])
        rw [fresh_gaveUps hf]
        exact List.count_eq_zero.2 this
      · rw [fresh_throws hf]
        have : w1.throws = throwsIn (w1.stopTimer.log (.auditStop (some e1))).trace := by
          simp [W.throws, throwsIn, W.log, W.stopTimer, List.count_append, List.count_cons]
        omega
    | ended w1 w2 w3 ex ob _ hl hr hbr x ho fin =>
      obtain ⟨l, sp⟩ := hl.split hf hbr x
      exact x.done ho (sp.few h1 h2) (hl.atExit ex hbr).owned
  intro hn
  have := all i (List.getElem?_eq_some_iff.1 ht).1
  unfold W.isDone at this
  rw [ht] at this
  simp [hn] at this

/-- The hypotheses are met by a run that was cancelled once. -/
example : ∃ evs, (execute (.await none) twoCopies {} evs).1 = .exc .cancelled ∧
    throwsIn (cleanupLog (execute (.await none) twoCopies {} evs).2.trace) = 1 ∧
    .gaveUp ∉ (execute (.await none) twoCopies {} evs).2.trace ∧
    (execute (.await none) twoCopies {} evs).2.tasks.length = 6 :=
  ⟨[.resume, .fork, .taskDone 0 (.val none), .resume, .cancel, .resume, .taskDone 1 .cancelled,
    .taskDone 2 .cancelled, .taskDone 3 .cancelled, .resume, .exit (-15), .reap, .deliver, .taskDone 4 (.val none),
    .resume, .taskDone 5 (.val none), .resume], by decide +kernel⟩

/-- C37 is false with three cancellations: a copy is still running when `await cmd` has raised. -/
theorem C37_cancels_false :
    ∃ evs, (execute (.await none) twoCopies {} evs).1 = .exc .cancelled ∧
      (execute (.await none) twoCopies {} evs).2.outOf 1 = none ∧
      (execute (.await none) twoCopies {} evs).2.cancels = 3 ∧
      .gaveUp ∉ (execute (.await none) twoCopies {} evs).2.trace :=
  ⟨[.resume, .fork, .taskDone 0 (.val none), .resume, .cancel, .resume, .cancel, .resume, .cancel, .resume,
    .exit (-15), .reap, .deliver, .taskDone 4 (.val none), .resume, .taskDone 5 (.val none), .resume], by decide +kernel⟩

/-- C37 is false of a copy that ignores its cancellation: the library gives up. -/
theorem C37_gave_up_false :
    ∃ evs, (execute (.await none) twoCopies {} evs).1 = .exc .runtimeError ∧
      (execute (.await none) twoCopies {} evs).2.outOf 1 = none ∧
      (execute (.await none) twoCopies {} evs).2.cancels = 0 :=
  ⟨[.resume, .fork, .taskDone 0 (.val none), .resume, .taskDone 2 (.err (.user 1)), .resume, .timeout, .resume,
    .exit 0, .reap, .deliver, .taskDone 4 (.val none), .resume, .taskDone 5 (.val none), .resume], by decide +kernel⟩

end Shellous.Props
