import Verif.Lemmas.RunCleanup
import Verif.Props.RunAudit

/-!
# C33, C34: no child is left running; which signals the library sends
-/

namespace Shellous.Props
open Shellous

theorem exited_exitedBy {w : W} (h : Exited w) : w.exitedBy = true := by
  obtain ⟨p, hp, hx⟩ := h
  exact (exitedBy_iff hp).2 hx

/-! ## C33 -/

/-- C33: when a run has ended, the child does not exist, or has exited and been reaped, or the run raised
RuntimeError after it had failed to kill it (a failed launch may instead raise what `catch_cancelled` makes of the
unknown return code). Missing (and false, see below): cancellations that interrupt the wait after SIGKILL, and more than
two cancellations during the launch. -/
theorem C33_partial (how : How) (cfg : RCfg) (w : W) (hf : w.Fresh) (evs : List Ev) (o : Out (Option Returned)) (w' : W)
    (h : execute how cfg w evs = (o, w')) (hb : o ≠ .blocked) (hk : KillUndisturbed w'.trace)
    (hc : .bodyStart ∈ w'.trace ∨ w'.cancels ≤ w.cancels + 2) :
    w'.proc = none ∨ Reaped w' ∨ (.unableToKill ∈ w'.trace ∧ ∃ e, o = .exc e ∧
      (e = .runtimeError ∨ (.bodyStart ∉ w'.trace ∧ cfg.opts.catchCancelled = true))) := by
  cases execute_ended hf h hb with
  | failed e1 e w1 hl hc' =>
    have nb := (hl.noBody hf).1
    have hc : w1.cancels ≤ w.cancels + 2 := by
      rcases hc with h | h
      · exact absurd h nb
      · exact h
    cases ha : w1.attached with
    | false =>
      rcases (hl.single ha).2.2.2 with h | h | ⟨t, _, _, h2, h3⟩
      · exact .inl h
      · exact .inr (.inl (stopped_reaped hl.good h))
      · change w.cancels + _ + 1 ≤ _ at h3
        omega
    | true =>
      rcases hl.attached ha with h | h
      · exact .inr (.inl (stopped_reaped hl.good h))
      · obtain ⟨k1, k2⟩ := h.undisturbed hk
        subst k2
        refine .inr (.inr ⟨by simp [W.log, W.stopTimer, k1], e, rfl, ?_⟩)
        rcases hc' with h | h
        · exact .inl h
        · exact .inr ⟨nb, h.2.1⟩
  | ended w1 w2 w3 ex ob _ hl hr hbr x ho fin =>
    rcases x.ended ho with h | ⟨e, h, he⟩
    · exact .inr (.inl (stopped_reaped x.good h))
    · obtain ⟨k1, k2⟩ := h.undisturbed hk
      subst k2
      rw [he (by simp)] at fin
      cases fin
      exact .inr (.inr ⟨by simp [W.log, W.stopTimer, k1], _, rfl, .inl rfl⟩)

/-- C33, without any assumption on cancellations after the launch: a child that has not exited when the run ends
has been sent SIGKILL. -/
theorem C33_killed_partial (how : How) (cfg : RCfg) (w : W) (hf : w.Fresh) (evs : List Ev) (o : Out (Option Returned))
    (w' : W) (h : execute how cfg w evs = (o, w')) (hb : o ≠ .blocked)
    (hc : .bodyStart ∈ w'.trace ∨ w'.cancels ≤ w.cancels + 2) :
    w'.proc = none ∨ Exited w' ∨ .kill false none ∈ w'.trace := by
  have ofR : Reaped w' → Exited w' := fun ⟨p, _, hp, _, _, hx⟩ => ⟨p, hp, hx⟩
  have ofX : ∀ {w1 : W} {f : Option Exc}, w1.exitedBy = true → Exited (w1.stopTimer.log (.auditStop f)) := by
    intro w1 f hx
    unfold W.exitedBy at hx
    split at hx
    · rename_i p hp
      exact ⟨p, hp, (exitedBy_iff (w := w1) hp).1 (by unfold W.exitedBy; rw [hp]; exact hx)⟩
    · cases hx
  have ofS : ∀ {w0 w1 : W} {e : Exc} {f : Option Exc}, Survived w0 e w1 →
      Exited (w1.stopTimer.log (.auditStop f)) ∨ .kill false none ∈ (w1.stopTimer.log (.auditStop f)).trace := by
    rintro w0 w1 e f ⟨_, h | h⟩
    · exact .inl (ofX h)
    · exact .inr (by simp [W.log, W.stopTimer, h])
  cases execute_ended hf h hb with
  | failed e1 e w1 hl hc' =>
    have hc : w1.cancels ≤ w.cancels + 2 := by
      rcases hc with h | h
      · exact absurd h (hl.noBody hf).1
      · exact h
    cases ha : w1.attached with
    | false =>
      rcases (hl.single ha).2.2.2 with h | h | ⟨t, _, _, h2, h3⟩
      · exact .inl h
      · exact .inr (.inl (ofR (stopped_reaped hl.good h)))
      · change w.cancels + _ + 1 ≤ _ at h3
        omega
    | true =>
      rcases hl.attached ha with h | h
      · exact .inr (.inl (ofR (stopped_reaped hl.good h)))
      · exact .inr (ofS h)
  | ended w1 w2 w3 ex ob _ hl hr hbr x ho fin =>
    rcases x.ended ho with h | ⟨e, h, _⟩
    · exact .inr (.inl (ofR (stopped_reaped x.good h)))
    · exact .inr (ofS h)

/-- C33: a run that returns a result has reaped its child, whatever happened. -/
theorem C33_result (cfg : RCfg) (f : Option Exc) (w : W) (hf : w.Fresh) (evs : List Ev) (v : Option Returned) (w' : W)
    (h : execute (.await f) cfg w evs = (.ok v, w')) : Reaped w' := by
  cases execute_ended hf h (by simp) with
  | ended w1 w2 w3 ex ob _ hl hr hbr x ho fin =>
    obtain ⟨_, r, hr⟩ := fin.await_ok
    have hat : w3.attached = true := x.ext.attached (hl.atExit ex hbr).attached
    exact rcKnown_reaped (x.good.same rfl rfl rfl) (runResult_ok hr hat).1

/-- Events of a run whose body raises, whose child does not react, and which is cancelled while it waits for the
effect of SIGKILL. -/
def killDisturbed : List Ev :=
  [.resume, .fork, .taskDone 0 (.val none), .resume, .bodyDone (some (.user 1)),
   .timeout, .resume, .taskDrop 1, .taskDrop 2, .taskDrop 3, .resume,
   .cancel, .resume, .taskDrop 4, .resume]

/-- C33 is false if the wait after SIGKILL is interrupted: the block ends with the exception of its body, and
the child has not exited. -/
theorem C33_kill_cancelled_false : (execute .block twoCopies {} killDisturbed).1 = .exc (.user 1) ∧
    (execute .block twoCopies {} killDisturbed).2.proc = some {} ∧
    (execute .block twoCopies {} killDisturbed).2.cancels = 1 ∧
    .unableToKill ∉ (execute .block twoCopies {} killDisturbed).2.trace := by
  decide +kernel

/-- Events of a run that is cancelled three times while its child is being started. -/
def tripleCancel : List Ev :=
  [.resume, .fork, .cancel, .resume, .cancel, .cancel, .taskDone 0 .cancelled, .resume]

/-- C33 is false if the caller is cancelled three times during the launch: the child is abandoned, and has not
even been sent a signal. -/
theorem C33_launch_cancelled_false : (execute (.await none) twoCopies {} tripleCancel).1 = .exc .cancelled ∧
    (execute (.await none) twoCopies {} tripleCancel).2.proc = some {} ∧
    (execute (.await none) twoCopies {} tripleCancel).2.trace = [.auditStart, .thrown, .thrown, .auditStop (some .cancelled)] ∧
    (execute (.await none) twoCopies {} tripleCancel).2.cancels = 3 := by
  decide +kernel

/-- The hypotheses of C33 are met, with a child that has to be killed. -/
example : (execute .block twoCopies {} (killDisturbed.take 11 ++ [.exit (-9), .reap, .deliver, .taskDone 4 (.val none), .resume,
      .taskDone 5 (.val none), .resume])).1 = .exc (.user 1) ∧
    (execute .block twoCopies {} (killDisturbed.take 11 ++ [.exit (-9), .reap, .deliver, .taskDone 4 (.val none), .resume,
      .taskDone 5 (.val none), .resume])).2.trace =
      [.auditStart, .bodyStart, .bodyEnd (some (.user 1)), .auditSignal false (some 15), .kill false (some 15),
        .auditSignal false none, .kill false none, .auditStop none] := by
  decide +kernel

/-! ## C34 -/

/-- C34, at every point of a run: the library has announced nothing, or its cancel signal once, or that and then
SIGKILL once; SIGKILL only because a wait reached the `cancel_timeout`, or was interrupted by a cancellation or
given up, or a background task failed. -/
theorem C34_escalation (how : How) (cfg : RCfg) (w : W) (hf : w.Fresh) (evs : List Ev) :
    librarySignals (execute how cfg w evs).2.trace = [] ∨
    librarySignals (execute how cfg w evs).2.trace = [cfg.opts.cancelSignal] ∨
    (librarySignals (execute how cfg w evs).2.trace = [cfg.opts.cancelSignal, none] ∧
      ((cfg.cancelTimed = true ∧ .timeout ∈ evs) ∨ .thrown ∈ (execute how cfg w evs).2.trace ∨
        .gaveUp ∈ (execute how cfg w evs).2.trace ∨ ∃ i e, (execute how cfg w evs).2.outOf i = some (.err e))) := by
  have key : ∀ cfg : RCfg, SigsOk cfg (w.log .auditStart) (execute how cfg w evs).2 := by
    intro cfg
    obtain ⟨o1, rp, _⟩ := execute_spec how cfg w hf evs
    generalize (execute how cfg w evs).2 = wE at rp
    have base : ∀ w1 w2, Launched cfg (w.log .auditStart) w1 → BodyRel (w1.log .bodyStart) w2 →
        libSigs w2.trace = libSigs (w.log .auditStart).trace := by
      intro w1 w2 hl hb
      obtain ⟨l1, l2, ht, q1, q2⟩ : ∃ l1 l2, w2.trace = (w.log .auditStart).trace ++ l1 ++ .bodyStart :: l2 ∧
          (∀ o ∈ l1, o.quiet = true) ∧ ∀ o ∈ l2, o.quiet = true := by
        obtain ⟨l1, h1, q1⟩ := hl.quiet
        obtain ⟨l2, h2, q2⟩ := hb.ext.trace
        refine ⟨l1, l2, ?_, q1, q2⟩
        rw [h2, W.log, h1]; simp
      rw [ht, List.append_assoc, libSigs_append, libSigs_append, libSigs_quiet q1,
        show Obs.bodyStart :: l2 = [.bodyStart] ++ l2 from rfl, libSigs_append, libSigs_quiet q2]
      simp [libSigs]
    have stop : ∀ (w1 : W) f, SigsOk cfg (w.log .auditStart) w1 →
        SigsOk cfg (w.log .auditStart) (w1.stopTimer.log (.auditStop f)) := by
      rintro w1 f ⟨s, h1, h2, h3, h4⟩
      refine ⟨s, ?_, h2, h3, ?_⟩
      · rw [W.log, W.stopTimer, libSigs_append, h1]; simp [libSigs]
      · intro hs
        rcases h4 hs with h | h | h | h
        · exact .inl h
        · exact .inr (.inl (by simp [W.log, W.stopTimer, h]))
        · exact .inr (.inr (.inl (by simp [W.log, W.stopTimer, h])))
        · exact .inr (.inr (.inr h))
    have exits : ∀ w1 w2 w3 ex o, Launched cfg (w.log .auditStart) w1 → BodyRel (w1.log .bodyStart) w2 →
        XPost cfg ex (w2.log (.bodyEnd ex)) o w3 → SigsOk cfg (w.log .auditStart) w3 := by
      intro w1 w2 w3 ex o hl hb x
      obtain ⟨s, h1, h2, h3, h4⟩ := x.sigs
      refine ⟨s, ?_, h2, ?_, h4⟩
      · rw [h1]
        congr 1
        rw [W.log, libSigs_append, base w1 w2 hl hb]
        simp [libSigs]
      · intro hr
        have : (w.log .auditStart).rcKnown = false := by
          simp [W.rcKnown, W.log, hf.proc]
        rw [this] at hr; cases hr
    cases rp with
    | launching w' h => exact h.sigs
    | failed e1 e w1 h _ => exact stop _ _ h.sigs
    | inBody w1 w2 hl _ hb => exact .same (base w1 _ hl hb)
    | exiting w1 w2 w3 ex hl _ hb x => exact exits w1 w2 _ ex _ hl hb x
    | ended w1 w2 w3 ex o hl _ hb x ho => exact stop _ _ (exits w1 w2 _ ex _ hl hb x)
  rw [librarySignals_eq]
  have nil : libSigs (w.log .auditStart).trace = [] := by simp [W.log, hf.trace, libSigs]
  by_cases ht : .timeout ∈ evs
  · obtain ⟨s, h1, h2, _, h4⟩ := key cfg
    rw [nil, List.nil_append] at h1
    rw [h1]
    rcases h2 with h | h | h
    · exact .inl h
    · exact .inr (.inl h)
    · refine .inr (.inr ⟨h, ?_⟩)
      rcases h4 h with h | h
      · exact .inl ⟨h, ht⟩
      · exact .inr h
  · have e := execute_untimed cfg false how w evs ht
    obtain ⟨s, h1, h2, _, h4⟩ := key { cfg with cancelTimed := false }
    rw [← e, nil, List.nil_append] at h1
    rw [← e] at h4
    rw [h1]
    rcases h2 with h | h | h
    · exact .inl h
    · exact .inr (.inl h)
    · refine .inr (.inr ⟨h, ?_⟩)
      rcases h4 h with h | h
      · cases h
      · exact .inr h

/-- C34, at every point of a run: each signal delivered to the child, by the library or by the user, was announced
to the audit callback immediately before. -/
theorem C34_announced (how : How) (cfg : RCfg) (w : W) (hf : w.Fresh) (evs : List Ev) (l1 l2 : List Obs) (byUser : Bool)
    (s : Option Nat) (h : (execute how cfg w evs).2.trace = l1 ++ .kill byUser s :: l2) :
    ∃ l0, l1 = l0 ++ [.auditSignal byUser s] := by
  have h0 : Announced w.trace := by
    intro l1 l2 b s h
    rw [hf.trace] at h
    simp at h
  exact execute_pres fstable_announced how cfg w evs h0 l1 l2 byUser s h

/-- C34: once the child has exited, no signal is delivered any more, neither during the rest of the run nor
afterwards. -/
theorem C34_not_after_exit (how : How) (cfg : RCfg) (w : W) (evs more : List Ev)
    (hx : Exited (execute how cfg w evs).2) :
    delivered (execute how cfg w (evs ++ more)).2.trace = delivered (execute how cfg w evs).2.trace := by
  by_cases hb : (execute how cfg w evs).1 = .blocked
  · exact (execute_resume (fstable_delivered _) how cfg w evs more hb ⟨exited_exitedBy hx, rfl⟩).2
  · rw [execute_det how cfg w evs more hb]

@[inherit_doc C34_not_after_exit]
theorem C34_not_after_exit_later (w : W) (later : List Ev) (hx : Exited w) :
    delivered (w.after later).trace = delivered w.trace := by
  have h0 := exited_exitedBy hx
  clear hx
  unfold W.after
  suffices h : ∀ n, w.exitedBy = true ∧ delivered w.trace = n →
      (later.foldl (W.env none) w).exitedBy = true ∧ delivered (later.foldl (W.env none) w).trace = n from
    (h _ ⟨h0, rfl⟩).2
  clear h0
  intro n
  induction later generalizing w with
  | nil => exact id
  | cons ev evs ih => exact fun h => ih _ ((fstable_delivered n).env none w ev h)

/-- C34: a run that ends normally (its body ended without exception, and no cancellation reached it afterwards)
sends no signal on its own account. -/
theorem C34_normal_end (how : How) (cfg : RCfg) (w : W) (hf : w.Fresh) (evs : List Ev) (v : Option Returned) (w' : W)
    (h : execute how cfg w evs = (.ok v, w')) (hn : .bodyEnd none ∈ w'.trace) (ht : throwsIn (cleanupLog w'.trace) = 0) :
    librarySignals w'.trace = [] ∧ (∀ s, .kill false s ∉ w'.trace) ∧ .closeKill ∉ w'.trace := by
  have hd := execute_ended hf h (by simp)
  cases hd with
  | ended w1 w2 w3 ex ob _ hl hr hbr x ho fin =>
    obtain ⟨l, sp⟩ := hl.split hf hbr x
    have hex : ex = none := (sp.bodyEnd hn).symm
    subst hex
    have hob : ∃ b, ob = .ok b := by
      have : combine none ob = .ok () := by
        generalize combine none ob = oc at fin
        cases fin <;> rfl
      cases ob with
      | ok b => exact ⟨b, rfl⟩
      | exc e => cases this
      | blocked => cases this
    obtain ⟨b, rfl⟩ := hob
    have hth : w3.throws = (w2.log (.bodyEnd none)).throws := by
      have := sp.throwsIn
      have := sp.throws
      omega
    have hcan : w3.cancelled = false := by
      cases hc : w3.cancelled with
      | false => rfl
      | true =>
        rcases x.cancelled hc with h | h | h
        · have : w2.cancelled = w1.cancelled := hbr.ext.cancelled
          change w2.cancelled = true at h
          rw [this, hl.cancelled] at h; cases h
        · omega
        · cases h
    obtain ⟨hrc, _, hs, _⟩ := x.calm b rfl rfl hcan
    have hls : librarySignals (w3.stopTimer.log (.auditStop none)).trace = [] := by
      rw [librarySignals_eq, W.log, W.stopTimer, libSigs_append, hs, W.log, libSigs_append]
      have : libSigs w2.trace = [] := by
        obtain ⟨l1, h1, q1⟩ := hl.quiet
        obtain ⟨l2, h2, q2⟩ := hbr.ext.trace
        rw [h2, W.log, h1, W.log, hf.trace, libSigs_append, libSigs_append, libSigs_append, libSigs_quiet q1,
          libSigs_quiet q2]
        rfl
      rw [this]; rfl
    refine ⟨hls, ?_, ?_⟩
    · intro s hm
      obtain ⟨l1, l2, hl12⟩ := List.append_of_mem hm
      have hann := C34_announced how cfg w hf evs l1 l2 false s (by rw [h]; exact hl12)
      obtain ⟨l0, hl0⟩ := hann
      rw [hl12, hl0, librarySignals_eq, libSigs_append, libSigs_append] at hls
      simp [libSigs] at hls
    · intro hm
      have := execute_late how cfg w hf evs
      rw [h] at this
      have h2 := (this hm).1
      change w3.rcKnown = false at h2
      rw [hrc] at h2; cases h2

/-- C34: the only signal that is not announced, the SIGKILL of asyncio's `transport.close()`, is sent only to a
child that has survived an announced SIGKILL and that is not reaped when the run ends. -/
theorem C34_close_kill (how : How) (cfg : RCfg) (w : W) (hf : w.Fresh) (evs : List Ev) (o : Out (Option Returned)) (w' : W)
    (h : execute how cfg w evs = (o, w')) (hb : o ≠ .blocked) (hm : .closeKill ∈ w'.trace) :
    ¬ Reaped w' ∧ .auditSignal false none ∈ w'.trace := by
  have hl := execute_late how cfg w hf evs
  rw [h] at hl
  obtain ⟨hr, ex0, hbe⟩ := hl hm
  refine ⟨(fun hd => by rw [hd.rcKnown] at hr; cases hr), ?_⟩
  cases execute_ended hf h hb with
  | failed e1 e w1 hl' hc' => exact absurd hbe ((hl'.noBody hf).2 ex0)
  | ended w1 w2 w3 ex ob _ hl hr' hbr x ho fin =>
    rcases x.ended ho with h | ⟨e, h, _⟩
    · change w3.rcKnown = false at hr
      rw [h] at hr; cases hr
    · have := h.killed
      simp [W.log, W.stopTimer, this]

/-- C34 is false for asyncio's own kill: a child that survives SIGKILL gets another one, unannounced, from
`transport.close()`. -/
theorem C34_close_kill_false : (execute (.await none) twoCopies {} undeadRun).2.trace =
    [.auditStart, .bodyStart, .bodyEnd none, .thrown, .auditSignal false (some 15), .kill false (some 15),
      .auditSignal false none, .kill false none, .unableToKill, .closeKill, .stillRunning, .auditStop none] := by
  decide +kernel

end Shellous.Props
