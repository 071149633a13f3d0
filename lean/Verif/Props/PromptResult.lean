import Verif.Lemmas.Session
import Verif.Props.RunStatus
import Verif.Spec.Session

/-!
# C56: the result of a prompt session
-/

namespace Shellous.Props

/-- `Runner.result(check=False)` in the world `w`, if the child was started. -/
theorem unchecked_result (cfg : RCfg) (w : W) (evs : List Ev) (ha : w.attached = true) :
    (w.rcKnown = true ∧ ∃ r, runResult cfg false w evs = (.ok r, w, evs) ∧ r.cancelled = w.cancelled ∧
      r.outputBytes = cfg.outBytes.getD [] ∧ r.errorBytes = cfg.errBytes.getD [] ∧ r.encoding = cfg.opts.encoding) ∨
    (w.rcKnown = false ∧ runResult cfg false w evs = (.exc .typeError, w, evs)) := by
  have key : runResult cfg false w evs = (match runnerResult
      { proc := if w.attached then some (w.proc.bind (·.rc)) else none
        cancelled := w.cancelled
        timedOut := w.timedOut
        lastSignal := w.lastSignal
        outputBytes := cfg.outBytes
        errorBytes := cfg.errBytes } cfg.opts false with
      | .ok r => (.ok r, w, evs)
      | .error e => (.exc e, w, evs)) := by
    unfold runResult
    rw [bind_ok (a := w) (w' := w) (evs' := evs) rfl]
    cases runnerResult _ cfg.opts false <;> rfl
  rw [key]
  unfold runnerResult
  rw [ha]
  simp only [if_true, Bool.not_false]
  cases hp : w.proc with
  | none =>
    simp only [Option.bind_none, returncode_unknown]
    exact .inr ⟨by simp [W.rcKnown, hp], trivial⟩
  | some q =>
    cases hc : q.rc with
    | none =>
      simp only [Option.bind_some, hc, returncode_unknown]
      exact .inr ⟨by simp [W.rcKnown, hp, hc], trivial⟩
    | some c =>
      simp only [Option.bind_some, hc]
      cases hr : runnerReturncode (some (some c)) w.cancelled w.lastSignal with
      | none =>
        exfalso
        unfold runnerReturncode at hr
        simp only [] at hr
        split at hr
        · split at hr <;> cases hr
        · cases hr
      | some code =>
        exact .inl ⟨by simp [W.rcKnown, hp, hc], _, rfl, rfl, rfl, rfl, rfl⟩

/-- How a session relates to an `async with` block, and the `cli` to the session. -/
theorem session_facts (cfg : RCfg) (p : PromptCfg) (w : W) (hf : w.Fresh) (evs : List Ev) :
    ∃ evs', ApartFromCli (execute .block cfg w evs').2 (promptSession cfg p w evs).2 ∧
      (((promptSession cfg p w evs).1 = (execute .block cfg w evs').1 ∧ (promptSession cfg p w evs).2.cli = none ∧
          (.bodyStart ∈ (promptSession cfg p w evs).2.trace → p.ctorErr ≠ none)) ∨
        (p.ctorErr = none ∧ .bodyStart ∈ (promptSession cfg p w evs).2.trace ∧
          (((promptSession cfg p w evs).1 = .blocked ∧ (execute .block cfg w evs').1 = .blocked ∧
              (promptSession cfg p w evs).2.cli = some none) ∨
            ((execute .block cfg w evs').1 ≠ .blocked ∧
              ((∃ r, (promptSession cfg p w evs).2.cli = some (some r) ∧
                (promptSession cfg p w evs).1 = (execute .block cfg w evs').1 ∧ Reaped (promptSession cfg p w evs).2 ∧
                (execute .block cfg w evs').2.attached = true ∧
                (runResult cfg false (execute .block cfg w evs').2 []).1 = .ok r ∧
                r.cancelled = (promptSession cfg p w evs).2.cancelled ∧ r.outputBytes = cfg.outBytes.getD [] ∧
                r.errorBytes = cfg.errBytes.getD [] ∧ r.encoding = cfg.opts.encoding) ∨
              ((promptSession cfg p w evs).2.cli = some none ∧ (promptSession cfg p w evs).1 = .exc .typeError ∧
                ¬ Reaped (promptSession cfg p w evs).2 ∧ .auditSignal false none ∈ (promptSession cfg p w evs).2.trace)))))) := by
  obtain ⟨⟨evs', he, hen⟩, hcli⟩ := withRun_prompt cfg p w evs
  refine ⟨evs', ?_⟩
  rcases hr : withRun cfg (promptBody p) w evs with ⟨o, w1, r⟩
  rw [hr] at he hcli
  rw [hf.cli] at he hcli
  dsimp only [withCli] at he hcli
  have hx : execute .block cfg w evs' = (o.asBlock, w1.setCli none) := by
    unfold execute
    simp only [he]
    cases o <;> rfl
  have hs : ∀ k, withPrompt cfg p w evs = k → promptSession cfg p w evs = (k.1.asBlock, k.2.1) := by
    rintro k rfl; rfl
  have hs1 : o = .blocked → withPrompt cfg p w evs = (.blocked, w1, r) := by
    rintro rfl
    unfold withPrompt Coro.finally_
    rw [hr]
  have hs2 : ∀ a, o = .ok a → withPrompt cfg p w evs = ((finishCli (runResult cfg false)).bind fun _ => Coro.pure a) w1 r := by
    rintro a rfl
    unfold withPrompt Coro.finally_
    rw [hr]
  have hs3 : ∀ e, o = .exc e → withPrompt cfg p w evs = ((finishCli (runResult cfg false)).bind fun _ => Coro.raise e) w1 r := by
    rintro e rfl
    unfold withPrompt Coro.finally_
    rw [hr]
  rcases hcli with ⟨hc, hwhy⟩ | ⟨hc, hctor, hok⟩
  · -- no `cli`
    have hfin : finishCli (runResult cfg false) w1 r = (.ok (), w1, r) := by
      unfold finishCli
      rw [bind_ok (a := w1) (w' := w1) (evs' := r) rfl]
      rw [hc]
      rfl
    have hsess : promptSession cfg p w evs = (o.asBlock, w1) := by
      cases ho : o with
      | blocked => exact hs _ (hs1 ho)
      | ok a => exact hs _ ((hs2 a ho).trans (bind_ok hfin))
      | exc e => exact hs _ ((hs3 e ho).trans (bind_ok hfin))
    rw [hx, hsess]
    refine ⟨rfl, .inl ⟨rfl, hc, ?_⟩⟩
    intro hb
    rcases hwhy with h | ⟨hne, heq⟩
    · exact h
    · exfalso
      have ha := aenter_spec cfg w hf evs
      have h1 : (aenter cfg w evs).2.1 = w1 := by
        have := congrArg (fun x => x.2.1) heq
        exact this.symm
      rw [h1] at ha
      generalize hq : (aenter cfg w evs).1 = q at ha hne
      have hb : .bodyStart ∈ w1.trace := hb
      cases ha with
      | launching h =>
        rename_i hm
        obtain ⟨l, hl, hi⟩ := hm.ext.trace
        rw [hl, W.log, hf.trace] at hb
        simp at hb
        exact absurd (hi _ hb) (by simp [Obs.inner])
      | failed e1 e w1 hl _ => exact (hl.noBody hf).1 hb
      | ok => exact hne rfl
  · -- there is a `cli`
    obtain ⟨we, re, hen⟩ := hen hok
    have hbs : .bodyStart ∈ w1.trace := by
      have := withRun_started hf hen
      rw [he] at this
      exact this
    have mid : ∀ o', o = o' → o' ≠ .blocked → w1.attached = true ∧ (w1.rcKnown = true → Reaped w1) ∧
        (w1.rcKnown = false → ¬ Reaped w1 ∧ .auditSignal false none ∈ w1.trace) := by
      rintro o' rfl hne
      have hend : execute .block cfg w evs' = ((execute .block cfg w evs').1, w1.setCli none) := by rw [hx]
      have hnb : (execute .block cfg w evs').1 ≠ .blocked := by rw [hx]; cases o <;> first | exact absurd rfl hne | simp [Out.asBlock]
      generalize (execute .block cfg w evs').1 = oo at hend hnb
      generalize hw : w1.setCli none = wx at hend
      have t1 : w1.trace = wx.trace := by rw [← hw]; rfl
      have t2 : w1.attached = wx.attached := by rw [← hw]; rfl
      have t3 : w1.rcKnown = wx.rcKnown := by rw [← hw]; rfl
      have t4 : Reaped w1 ↔ Reaped wx := by rw [← hw]; rfl
      rw [t2, t3, t4, t1]
      rw [t1] at hbs
      have notR : wx.rcKnown = false → ¬ Reaped wx := by
        rintro hk ⟨q, c, hq, hc, _⟩
        simp [W.rcKnown, hq, hc] at hk
      cases execute_ended hf hend hnb with
      | failed e1 e w1 hl hc' => exact absurd hbs (hl.noBody hf).1
      | ended w1 w2 w3 ex ob _ hl hr hbr x ho fin =>
        refine ⟨x.ext.attached (hl.atExit ex hbr).attached, fun h => rcKnown_reaped (x.good.same rfl rfl rfl) h,
          fun h => ⟨notR h, ?_⟩⟩
        rcases x.ended ho with h' | ⟨e, h', he⟩
        · exact absurd (h'.symm.trans h) (by simp)
        · simp [W.log, W.stopTimer, h'.killed]
    have hfin : (finishCli (runResult cfg false)) w1 r =
        match runResult cfg false w1 r with
        | (.ok q, w2, r2) => (.ok (), w2.setCli (some (some q)), r2)
        | (.exc e, w2, r2) => (.exc e, w2, r2)
        | (.blocked, w2, r2) => (.blocked, w2, r2) := by
      unfold finishCli
      rw [bind_ok (a := w1) (w' := w1) (evs' := r) rfl]
      simp only [hc, Option.isSome, Coro.when, if_true]
      change Coro.bind _ _ _ _ = _
      unfold Coro.bind
      rcases runResult cfg false w1 r with ⟨o, w2, r2⟩
      cases o <;> rfl
    have conv : ∀ q, runResult cfg false w1 r = (.ok q, w1, r) →
        (runResult cfg false (w1.setCli none) []).1 = .ok q := by
      intro q h
      have h1 := (Frame.runResult cfg false).cli w1 none []
      rw [h1]
      have h2 : (runResult cfg false w1 r).1 = (runResult cfg false w1 []).1 := by
        unfold runResult
        rw [bind_ok (a := w1) (w' := w1) (evs' := r) rfl, bind_ok (a := w1) (w' := w1) (evs' := []) rfl]
        generalize runnerResult _ cfg.opts false = z
        cases z <;> rfl
      rw [h] at h2
      exact h2.symm
    by_cases hob : o = .blocked
    · subst hob
      have hsess : promptSession cfg p w evs = (.blocked, w1) := hs _ (hs1 rfl)
      rw [hx, hsess]
      exact ⟨rfl, .inr ⟨hctor, hbs, .inl ⟨rfl, rfl, hc⟩⟩⟩
    · obtain ⟨hat, hk1, hk2⟩ := mid o rfl hob
      rcases unchecked_result cfg w1 r hat with ⟨hk, q, hq, q1, q2, q3, q4⟩ | ⟨hk, hq⟩
      · rw [hq] at hfin
        dsimp only at hfin
        have hsess : promptSession cfg p w evs = (o.asBlock, w1.setCli (some (some q))) := by
          cases ho : o with
          | blocked => exact absurd ho hob
          | ok a => exact hs _ ((hs2 a ho).trans (bind_ok hfin))
          | exc e => exact hs _ ((hs3 e ho).trans (bind_ok hfin))
        rw [hx, hsess]
        refine ⟨rfl, .inr ⟨hctor, hbs, .inr ⟨?_, .inl ⟨q, rfl, rfl, hk1 hk, hat, conv q hq, q1, q2, q3, q4⟩⟩⟩⟩
        cases o <;> first | exact absurd rfl hob | simp [Out.asBlock]
      · rw [hq] at hfin
        dsimp only at hfin
        have hsess : promptSession cfg p w evs = (.exc .typeError, w1) := by
          cases ho : o with
          | blocked => exact absurd ho hob
          | ok a => exact hs _ ((hs2 a ho).trans (bind_exc hfin))
          | exc e => exact hs _ ((hs3 e ho).trans (bind_exc hfin))
        rw [hx, hsess]
        refine ⟨rfl, .inr ⟨hctor, hbs, .inr ⟨?_, .inr ⟨hc, rfl, hk2 hk⟩⟩⟩⟩
        cases o <;> first | exact absurd rfl hob | simp [Out.asBlock]

/-- `r` is the unchecked result of a run that has ended in the world `w`: the flag, the output and the encoding are those
of the run, and the exit code is the true exit status of the child; or, if somebody else collected the status (then `asyncio`
only knows 255) or it really was 255, minus the last signal sent to the child other than SIGKILL, and 255 if there was none. -/
structure ResultOf (cfg : RCfg) (w : W) (r : Result) : Prop where
  cancelled : r.cancelled = w.cancelled
  output : r.outputBytes = cfg.outBytes.getD []
  error : r.errorBytes = cfg.errBytes.getD []
  encoding : r.encoding = cfg.opts.encoding
  code : ∃ p status known, w.proc = some p ∧ p.exited = some status ∧ p.rc = some known ∧
    (known = status ∨ known = 255) ∧
    (known ≠ 255 → r.exitCode = status) ∧
    (known = 255 → lastSent w.trace = none → r.exitCode = 255) ∧
    (known = 255 → ∀ s, lastSent w.trace = some s → r.exitCode = -(s : Int))

/-- **C56.** A prompt session is an `async with` block of the same command, with some body: it leaves the same world (but
for what `cli.result` gives) and ends in the same way, whatever the exit code. So everything proved of `async with`
blocks holds for prompt sessions. The only exception is a child that the library has killed and that has not been reaped. -/
theorem C56_session (cfg : RCfg) (p : PromptCfg) (w : W) (hf : w.Fresh) (evs : List Ev) :
    ∃ evs', ApartFromCli (execute .block cfg w evs').2 (promptSession cfg p w evs).2 ∧
      ((promptSession cfg p w evs).1 = (execute .block cfg w evs').1 ∨
        ((execute .block cfg w evs').1 ≠ .blocked ∧ (promptSession cfg p w evs).1 = .exc .typeError ∧
          .bodyStart ∈ (promptSession cfg p w evs).2.trace ∧ ¬ Reaped (promptSession cfg p w evs).2 ∧
          .auditSignal false none ∈ (promptSession cfg p w evs).2.trace)) := by
  obtain ⟨evs', h1, h⟩ := session_facts cfg p w hf evs
  refine ⟨evs', h1, ?_⟩
  rcases h with ⟨h, _⟩ | ⟨_, hb, ⟨h, h', _⟩ | ⟨hn, ⟨r, _, h, _⟩ | ⟨_, h, hr, hk⟩⟩⟩
  · exact .inl h
  · exact .inl (h.trans h'.symm)
  · exact .inl h
  · exact .inr ⟨hn, h, hb, hr, hk⟩

/-- **C56.** Before the end of the session (inside the block, and while it is being left) `cli.result` raises
RuntimeError. There is a `cli` as soon as the block has been entered, unless the `Prompt` could not be made. -/
theorem C56_inside (cfg : RCfg) (p : PromptCfg) (w : W) (hf : w.Fresh) (evs : List Ev)
    (hb : (promptSession cfg p w evs).1 = .blocked) :
    (promptSession cfg p w evs).2.cliResult = if .bodyStart ∈ (promptSession cfg p w evs).2.trace ∧ p.ctorErr = none
      then some (.error .runtimeError) else none := by
  obtain ⟨evs', h1, h⟩ := session_facts cfg p w hf evs
  rcases h with ⟨_, hc, hn⟩ | ⟨hp, hbs, ⟨_, _, hc⟩ | ⟨hne, ⟨r, _, h', hh⟩ | ⟨_, h', _⟩⟩⟩
  · rw [if_neg (fun ⟨x, y⟩ => hn x y), W.cliResult, hc]
  · rw [if_pos ⟨hbs, hp⟩, W.cliResult, hc]
  · exact absurd (h'.symm.trans hb) hne
  · rw [h'] at hb; cases hb

/-- **C56, partial.** After a session whose block was entered, however it was left, `cli.result` is the result of the
run, not checked: neither the exit code nor a cancellation makes it raise. Missing: a child that the library has killed and
that has not been reaped; there is no result then, the session raises TypeError (`C56_undead_false`). -/
theorem C56_after_partial (cfg : RCfg) (p : PromptCfg) (w : W) (hf : w.Fresh) (evs : List Ev)
    (hb : (promptSession cfg p w evs).1 ≠ .blocked) (hs : .bodyStart ∈ (promptSession cfg p w evs).2.trace)
    (hc : p.ctorErr = none) :
    (∃ r, (promptSession cfg p w evs).2.cliResult = some (.ok r) ∧ ResultOf cfg (promptSession cfg p w evs).2 r ∧
      Reaped (promptSession cfg p w evs).2) ∨
    ((promptSession cfg p w evs).2.cliResult = some (.error .runtimeError) ∧ (promptSession cfg p w evs).1 = .exc .typeError ∧
      ¬ Reaped (promptSession cfg p w evs).2 ∧ .auditSignal false none ∈ (promptSession cfg p w evs).2.trace) := by
  obtain ⟨evs', h1, h⟩ := session_facts cfg p w hf evs
  rcases h with ⟨_, _, hn⟩ | ⟨hp, hbs, ⟨hbl, _⟩ | ⟨_, ⟨r, hcl, h', hre, hat, hres, q1, q2, q3, q4⟩ | ⟨hcl, h', hh⟩⟩⟩
  · exact absurd hc (hn hs)
  · exact absurd hbl hb
  · refine .inl ⟨r, by rw [W.cliResult, hcl], ⟨q1, q2, q3, q4, ?_⟩, hre⟩
    have key := C26_reported_partial .block cfg w hf evs' false r hat (.inl hres)
    have e1 : (execute .block cfg w evs').2.proc = (promptSession cfg p w evs).2.proc := by
      have := congrArg W.proc h1; exact this
    have e2 : (execute .block cfg w evs').2.trace = (promptSession cfg p w evs).2.trace := by
      have := congrArg W.trace h1; exact this
    rw [e1, e2] at key
    exact key
  · exact .inr ⟨by rw [W.cliResult, hcl], h', hh⟩

/-- **C56.** If the body of the block was never entered, or the `Prompt` could not be made, nobody has a `cli`. -/
theorem C56_no_cli (cfg : RCfg) (p : PromptCfg) (w : W) (hf : w.Fresh) (evs : List Ev)
    (h : .bodyStart ∉ (promptSession cfg p w evs).2.trace ∨ p.ctorErr ≠ none) : (promptSession cfg p w evs).2.cliResult = none := by
  obtain ⟨evs', h1, h'⟩ := session_facts cfg p w hf evs
  rcases h' with ⟨_, hc, _⟩ | ⟨hp, hbs, _⟩
  · rw [W.cliResult, hc]
  · rcases h with h | h
    · exact absurd hbs h
    · exact absurd hp h

/-- A session whose block ends normally; the child exits with 3. -/
def ownExit : List Ev :=
  [.resume, .fork, .taskDone 0 (.val none), .resume, .bodyDone none, .exit 3, .reap, .deliver, .taskDone 1 (.val none),
   .taskDone 2 (.val none), .taskDone 3 (.val none), .resume, .taskDone 4 (.val none), .resume]

/-- The hypotheses are met: exit code 3, which is not allowed, is no error; the result is there afterwards and not inside. -/
example : (promptSession twoCopies {} {} ownExit).1 = .ok none ∧
    (promptSession twoCopies {} {} ownExit).2.cli = some (some ⟨3, [], [], false, "utf-8".toList⟩) ∧
    .bodyStart ∈ (promptSession twoCopies {} {} ownExit).2.trace ∧
    (promptSession twoCopies {} {} (ownExit.take 4)).1 = .blocked ∧
    (promptSession twoCopies {} {} (ownExit.take 4)).2.cli = some none := by
  decide +kernel

/-- C56 is false if the child is not reaped after SIGKILL (here the wait for it is interrupted): the exception of the
body is replaced by TypeError, and `cli.result` raises RuntimeError for ever. -/
theorem C56_undead_false : (promptSession twoCopies {} {} killDisturbed).1 = .exc .typeError ∧
    (promptSession twoCopies {} {} killDisturbed).2.cli = some none ∧
    .bodyEnd (some (.user 1)) ∈ (promptSession twoCopies {} {} killDisturbed).2.trace ∧
    (promptSession twoCopies {} {} killDisturbed).2.proc = some {} := by
  decide +kernel

end Shellous.Props
