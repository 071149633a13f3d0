import Verif.Lemmas.RunSpawned
import Verif.Props.RunOutcome

/-!
# C38: failures of background copies; C39, C40: the launch
-/

namespace Shellous.Props
open Shellous

/-! ## C38 -/

theorem firstFailure_copies {cfg : RCfg} {w : W} {e : Exc} (hok : w.Ok)
    (hl : cfg.bsdPty = false → ∃ t, w.tasks[cfg.procsubs + cfg.ioTasks + 1]? = some t ∧ t.kind = .waiter)
    (h : w.firstFailure (List.range' 1 (cfg.procsubs + cfg.ioTasks + cfg.waiters)) = some e) : FirstFailure w (copies cfg) e := by
  obtain ⟨l, i, l', hi, ho, hn⟩ := firstFailure_some.1 h
  cases hb : cfg.bsdPty with
  | true => exact ⟨l, i, l', by rw [copies, ← hi]; simp [RCfg.waiters, hb], ho, hn⟩
  | false =>
  have hl := hl hb
  simp only [RCfg.waiters, hb, Bool.false_eq_true, if_false] at hi
  rw [List.range'_1_concat] at hi
  obtain ⟨t, ht, hk⟩ := hl
  have hne : i ≠ 1 + (cfg.procsubs + cfg.ioTasks) := by
    rintro rfl
    have := hok.task _ t ht
    unfold W.outOf at ho
    rw [show 1 + (cfg.procsubs + cfg.ioTasks) = cfg.procsubs + cfg.ioTasks + 1 by omega, ht] at ho
    simp only [] at ho
    unfold TaskOk at this
    rw [ho, hk] at this
    exact this.2
  rcases List.eq_nil_or_concat l' with rfl | ⟨l'', j, rfl⟩
  · have := List.append_inj_right' hi rfl
    simp at this
    exact absurd this.symm hne
  · refine ⟨l, i, l'', ?_, ho, hn⟩
    have h2 : copies cfg ++ [1 + (cfg.procsubs + cfg.ioTasks)] = (l ++ i :: l'') ++ [j] := by
      rw [copies, hi]; simp
    exact List.append_inj_left' h2 rfl

/-- C38: a run whose body ended without exception, and whose cleanup was not interrupted or given up. Either no
background copy failed, or the run raised the exception of the first copy (in order) that failed, or that of the closing
of standard input, which comes last. In all cases every copy is done and the child is reaped. -/
theorem C38_reported (how : How) (cfg : RCfg) (w : W) (hf : w.Fresh) (evs : List Ev) (o : Out (Option Returned)) (w' : W)
    (h : execute how cfg w evs = (o, w')) (hb : o ≠ .blocked) (hn : .bodyEnd none ∈ w'.trace)
    (ht : .thrown ∉ cleanupLog w'.trace) (hg : .gaveUp ∉ cleanupLog w'.trace) (hu : .unableToKill ∉ w'.trace) :
    AllDone w' (copies cfg) ∧ Reaped w' ∧
    (NoFailure w' (copies cfg) ∨ ∃ e, o = .exc e ∧ (FirstFailure w' (copies cfg) e ∨
      ∃ (i : Nat) (t : TaskSt), w'.tasks[i]? = some t ∧ t.kind = .closer ∧ t.out = some (.err e))) := by
  have hd := execute_ended hf h hb
  cases hd with
  | failed e1 e w1 hl hc => exact absurd hn ((hl.noBody hf).2 none)
  | ended w1 w2 w3 ex ob _ hl hr hbr x ho fin =>
    obtain ⟨l, sp⟩ := hl.split hf hbr x
    have hex : ex = none := (sp.bodyEnd hn).symm
    subst hex
    have ht0 : throwsIn (cleanupLog (w3.stopTimer.log (.auditStop none)).trace) = 0 := List.count_eq_zero.2 ht
    have hth : w3.throws = (w2.log (.bodyEnd none)).throws := by
      have := sp.throwsIn
      have := sp.throws
      omega
    have hgv : w3.gaveUps = (w2.log (.bodyEnd none)).gaveUps := (sp.few (by omega) hg).1
    have hcan := not_cancelled hl hbr x hth (by simp)
    have hmine : (w2.log (.bodyEnd none)).mine = List.range' 1 (cfg.procsubs + cfg.ioTasks + cfg.waiters) := by
      rw [← hl.mine]; exact hbr.ext.mine
    have all := x.done ho (sp.few (by omega) hg) (hl.atExit none hbr).owned
    have hlast : cfg.bsdPty = false → ∃ t, w3.tasks[cfg.procsubs + cfg.ioTasks + 1]? = some t ∧ t.kind = .waiter := by
      intro hb
      obtain ⟨t, h1, h2⟩ := hl.last hb
      obtain ⟨t', h1', e⟩ := hbr.ext.task _ t h1
      obtain ⟨t'', h1'', e'⟩ := x.ext.task _ t' h1'
      exact ⟨t'', h1'', (e'.kind.trans e.kind).trans h2⟩
    have hcop : ∀ i ∈ copies cfg, i < w3.tasks.length := by
      intro i hi
      obtain ⟨t', h1', _⟩ := hbr.ext.task _ _ (hl.copy i hi)
      obtain ⟨t'', h1'', _⟩ := x.ext.task _ t' h1'
      exact (List.getElem?_eq_some_iff.1 h1'').1
    refine ⟨?_, ?_, ?_⟩
    · intro i hi
      exact W.isDone_iff.1 (all i (hcop i hi))
    · refine stopped_reaped x.good ?_
      rcases x.ended ho with h | ⟨e, hs, _⟩
      · exact h
      · exfalso
        obtain ⟨⟨l1, l2, htr, hc⟩, _⟩ := hs
        have hll : l = l1 ++ .auditSignal false none :: l2 := by
          have := sp.tail
          rw [htr, W.log] at this
          simpa using this.symm
        rw [sp.cleanup] at ht hg
        rcases hc with h | h | ⟨h, _⟩
        · exact ht (by rw [hll]; simp [h])
        · exact hg (by rw [hll]; simp [h])
        · exact hu (by rw [sp.full, hll]; simp [h])
    · cases ob with
      | blocked => exact absurd rfl ho
      | ok b =>
        left
        obtain ⟨_, hff, _⟩ := x.calm b rfl rfl hcan
        rw [hmine] at hff
        have := noFailure_iff.1 hff
        intro i hi
        refine this i ?_
        rw [copies] at hi
        simp only [List.mem_range'_1] at hi ⊢
        omega
      | exc e =>
        right
        have this : o = .exc e := by
          generalize hoc : combine none (Out.exc e) = oc at fin
          cases hoc
          cases fin
          rfl
        refine ⟨e, this, ?_⟩
        rcases x.why e rfl with (⟨_, h⟩ | ⟨_, h | h⟩ | ⟨_, h⟩) | h | ⟨_, h, _⟩
        · omega
        · omega
        · exact absurd (by simp [W.log, W.stopTimer, h]) hu
        · rw [hmine] at h
          exact .inl (firstFailure_copies (w := w3) x.good hlast h)
        · exact .inr h
        · rw [hcan] at h; cases h

/-- C38: a run returns a value, or its block ends normally, only if no copy failed, provided that its body ended without
exception and that the caller was not cancelled afterwards. -/
theorem C38_no_failure (how : How) (cfg : RCfg) (w : W) (hf : w.Fresh) (evs : List Ev) (v : Option Returned) (w' : W)
    (h : execute how cfg w evs = (.ok v, w')) (hn : .bodyEnd none ∈ w'.trace)
    (ht : .thrown ∉ cleanupLog w'.trace) : NoFailure w' (copies cfg) := by
  cases execute_ended hf h (by simp) with
  | ended w1 w2 w3 ex ob _ hl hr hbr x ho fin =>
    obtain ⟨l, sp⟩ := hl.split hf hbr x
    have hex : ex = none := (sp.bodyEnd hn).symm
    subst hex
    have ht0 : throwsIn (cleanupLog (w3.stopTimer.log (.auditStop none)).trace) = 0 := List.count_eq_zero.2 ht
    have hth : w3.throws = (w2.log (.bodyEnd none)).throws := by
      have := sp.throwsIn
      have := sp.throws
      omega
    have hcan := not_cancelled hl hbr x hth (by simp)
    have hmine : (w2.log (.bodyEnd none)).mine = List.range' 1 (cfg.procsubs + cfg.ioTasks + cfg.waiters) := by
      rw [← hl.mine]; exact hbr.ext.mine
    cases ob with
    | blocked => exact absurd rfl ho
    | exc e => generalize hoc : combine none (Out.exc e) = oc at fin; cases hoc; cases fin
    | ok b =>
      obtain ⟨_, hff, _⟩ := x.calm b rfl rfl hcan
      rw [hmine] at hff
      have := noFailure_iff.1 hff
      intro i hi
      refine this i ?_
      rw [copies] at hi
      simp only [List.mem_range'_1] at hi ⊢
      omega

/-- Two copies, the second of which fails. The first is cancelled, the child ended with SIGTERM, and the failure
reported. -/
def failedCopy : List Ev :=
  [.resume, .fork, .taskDone 0 (.val none), .resume, .taskDone 2 (.err (.user 1)), .resume, .taskDone 1 .cancelled,
    .taskDone 3 .cancelled, .resume, .exit (-15), .reap, .deliver, .taskDone 4 (.val none), .resume,
    .taskDone 5 (.val none), .resume]

example : (execute (.await none) twoCopies {} failedCopy).1 = .exc (.user 1) ∧
    (execute (.await none) twoCopies {} failedCopy).2.trace = [.auditStart, .bodyStart, .bodyEnd none,
      .auditSignal false (some 15), .kill false (some 15), .auditStop none] := by
  decide +kernel

/-! ## C39 -/

theorem spawn_val {w : W} (hok : w.Ok) (hs : w.Spawned) (ha : w.attached = true) {t : TaskSt} (ht : w.tasks[0]? = some t)
    (hk : t.kind = .spawn) : ∃ r, w.outOf 0 = some (.val r) := by
  obtain ⟨i, t', r, hi, hk', ho⟩ := hs ha
  have := hok.one 0 i t t' ht hi hk hk'
  subst this
  rw [ht] at hi; cases hi
  exact ⟨r, by unfold W.outOf; rw [ht]; exact ho⟩

theorem spawned_fail {cfg : RCfg} {w w1 : W} {e1 : Exc} (hl : LFail cfg w e1 w1) (hs : w1.Spawned)
    (hns : ∀ r, w1.outOf 0 ≠ some (.val r)) : w1.attached = false := by
  cases ha : w1.attached with
  | false => rfl
  | true =>
    exfalso
    obtain ⟨i, t', r, hi, hk', ho⟩ := hs ha
    have h0 : 0 < w1.tasks.length := Nat.lt_of_le_of_lt (Nat.zero_le i) (List.getElem?_eq_some_iff.1 hi).1
    have ht : w1.tasks[0]? = some w1.tasks[0] := List.getElem?_eq_getElem h0
    obtain ⟨r, hr⟩ := spawn_val hl.good hs ha ht (hl.spawn _ ht).1
    exact hns r hr

theorem ended_val {cfg : RCfg} {w w1 w2 w3 : W} {ex : Option Exc} {o : Out Bool} (hl : Launched cfg w w1)
    (hbr : BodyRel (w1.log .bodyStart) w2) (x : XPost cfg ex (w2.log (.bodyEnd ex)) o w3) (hs : w3.Spawned) :
    ∃ r, w3.outOf 0 = some (.val r) := by
  obtain ⟨t, h1, h2, _⟩ := hl.first
  obtain ⟨t', h1', e⟩ := hbr.ext.task _ t h1
  obtain ⟨t'', h1'', e'⟩ := x.ext.task _ t' h1'
  exact spawn_val x.good hs (x.ext.attached (hl.atExit ex hbr).attached) h1'' ((e'.kind.trans e.kind).trans h2)

/-- C39: if the program was not launched (the spawn, task 0, did not return a process) the run raises; there is no
background task except that spawn, and it is done; the audit callback was told "start" and "stop" with the exception, and
nothing else; the body was not run; and no signal was sent. -/
theorem C39_nothing (how : How) (cfg : RCfg) (w : W) (hf : w.Fresh) (evs : List Ev) (o : Out (Option Returned)) (w' : W)
    (h : execute how cfg w evs = (o, w')) (hb : o ≠ .blocked) (hs : ∀ r, w'.outOf 0 ≠ some (.val r)) :
    ∃ e e1, o = .exc e ∧ audits w'.trace = [.start, .stop (some e1)] ∧
      (e = e1 ∨ (cfg.opts.catchCancelled = true ∧ ∃ r, e = .resultError r ∧ r.cancelled = true)) ∧
      w'.tasks.length ≤ 1 ∧ (∀ (i : Nat) (t : TaskSt), w'.tasks[i]? = some t → t.out ≠ none) ∧
      .bodyStart ∉ w'.trace ∧ delivered w'.trace = 0 := by
  have sp := execute_spawned how cfg w hf evs
  rw [h] at sp
  cases execute_ended hf h hb with
  | ended w1 w2 w3 ex ob _ hl hr hbr x ho fin =>
    obtain ⟨r, hr⟩ := ended_val hl hbr x sp
    exact absurd hr (hs r)
  | failed e1 e w1 hl hc =>
    have ha : w1.attached = false := spawned_fail hl sp hs
    obtain ⟨h1, h2, h3, _⟩ := hl.single ha
    obtain ⟨l, ht1, ht2, hin⟩ := hl.log hf
    have us := execute_userSignals how cfg w hf evs
    rw [h] at us
    have nosig : ∀ b s, .auditSignal b s ∉ (w1.stopTimer.log (.auditStop (some e1))).trace := by
      intro b s hm
      cases b with
      | true =>
        have := us s hm
        change w1.attached = true at this
        rw [ha] at this; cases this
      | false =>
        have : .auditSignal false s ∈ w1.trace := by simpa [W.log, W.stopTimer] using hm
        have := libSigs_mem this
        rw [h2, W.log, hf.trace] at this
        cases this
    refine ⟨e, e1, rfl, ?_, ?_, h1, ?_, (hl.noBody hf).1, ?_⟩
    · rw [ht1, audits_append, audits]
      have : audits l = [] := audits_none (fun b s hm => nosig b s (by rw [ht1]; simp [hm])) hin
      rw [this]; rfl
    · rcases hc with h | ⟨h4, h5, h6⟩
      · exact .inl h
      · refine .inr ⟨h5, ?_⟩
        rcases runResult_exc h6 with ⟨_, _, h⟩ | ⟨_, _, h⟩ | ⟨r, h7, h8, _⟩ | ⟨_, _, h⟩
        · have := h ha
          change w1.cancelled = false at this
          rw [h4] at this; cases this
        · rw [h5] at h; cases h
        · exact ⟨r, h7, h8.trans h4⟩
        · change w1.cancelled = false at h
          rw [h4] at h; cases h
    · intro i t ht hn
      have := h3 i (List.getElem?_eq_some_iff.1 ht).1
      unfold W.isDone at this
      change w1.tasks[i]? = some t at ht
      rw [ht] at this
      simp [hn] at this
    · refine delivered_zero ?_ ?_
      · intro b s hm
        obtain ⟨l1, l2, hl12⟩ := List.append_of_mem hm
        obtain ⟨l0, hl0⟩ := C34_announced how cfg w hf evs l1 l2 b s (by rw [h]; exact hl12)
        exact nosig b s (by rw [hl12, hl0]; simp)
      · intro hm
        have := execute_late how cfg w hf evs
        rw [h] at this
        obtain ⟨_, ex, hbe⟩ := this hm
        exact (hl.noBody hf).2 ex hbe

/-- C39: if the preparations succeed, the spawn fails with `e` and the caller is not cancelled, then the run raises `e`,
and the audit callback was told `e`. -/
theorem C39_error (how : How) (cfg : RCfg) (hp : Prepared cfg) (w : W) (hf : w.Fresh) (evs : List Ev)
    (o : Out (Option Returned)) (w' : W) (h : execute how cfg w evs = (o, w')) (hb : o ≠ .blocked) (e : Exc)
    (he : w'.outOf 0 = some (.err e)) (ht : .thrown ∉ w'.trace) :
    o = .exc e ∧ audits w'.trace = [.start, .stop (some e)] := by
  have nm : ∀ e', ¬ cfg.mayRaise e' := by
    rintro e' (h | h | h | h | h)
    · rw [hp.setup] at h; cases h
    · rw [hp.pty] at h; cases h
    · rw [hp.exit] at h; cases h
    · rw [hp.exit] at h; cases h
    · rw [hp.wire] at h; cases h
  obtain ⟨e', e1, ho, ha, _⟩ := C39_nothing how cfg w hf evs o w' h hb (fun r hr => by rw [he] at hr; cases hr)
  have sp := execute_spawned how cfg w hf evs
  rw [h] at sp
  cases execute_ended hf h hb with
  | ended w1 w2 w3 ex ob _ hl hr hbr x ho fin =>
    obtain ⟨r, hr⟩ := ended_val hl hbr x sp
    change w3.outOf 0 = _ at he
    rw [he] at hr; cases hr
  | failed e2 e3 w1 hl hc =>
    have hat : w1.attached = false := spawned_fail hl sp fun r hr => by
      change w1.outOf 0 = _ at he
      rw [he] at hr; cases hr
    have nt : ∀ n, ¬ n < w1.throws := fun n hn => ht (by simp [W.log, W.stopTimer, mem_of_throws hn])
    have h2 : e2 = e := by
      rcases hl.alone hat with ⟨_, h⟩ | h | h
      · exact absurd h (nt _)
      · change w1.outOf 0 = _ at he
        rw [he] at h; cases h; rfl
      · exact absurd h (nm _)
    have hcan : w1.cancelled = false := by
      cases hcc : w1.cancelled with
      | false => rfl
      | true =>
        rcases hl.cancelled hcc with h | h
        · exact absurd h (nt _)
        · exact absurd h (nm _)
    have h3 : e3 = e2 := by
      rcases hc with h | ⟨h, _⟩
      · exact h
      · rw [hcan] at h; cases h
    subst h3 h2
    refine ⟨rfl, ?_⟩
    obtain ⟨l, ht1, _, _⟩ := hl.log hf
    rw [ht1, audits_append] at ha ⊢
    have : e1 = e3 := by
      simp only [audits, List.cons_append, List.cons.injEq, true_and] at ha
      cases hal : audits l with
      | nil => rw [hal] at ha; simpa using ha.symm
      | cons a t => rw [hal] at ha; simp at ha
    rw [this] at ha
    exact ha

theorem finally_exc {α : Type} {c : Coro α} {f : Coro Unit} {w w1 w2 : W} {evs evs1 evs2 : List Ev} {e : Exc}
    (h : c w evs = (.exc e, w1, evs1)) (hf : f w1 evs1 = (.ok (), w2, evs2)) :
    Coro.finally_ c f w evs = (.exc e, w2, evs2) := by
  unfold Coro.finally_
  rw [h]
  simp only []
  unfold Coro.bind
  rw [hf]
  rfl

/-- C39: an exception of the setup of the redirections, before anything is started, is raised at once: there is no
suspension, no task and no process, and the audit callback is told the exception. -/
theorem C39_setup (how : How) (cfg : RCfg) (w : W) (hf : w.Fresh) (evs : List Ev) (e : Exc) (he : cfg.setupErr = some e)
    (hne : e ≠ .cancelled) : (execute how cfg w evs).1 = .exc e ∧ (execute how cfg w evs).2.tasks = [] ∧
      (execute how cfg w evs).2.proc = none ∧ (execute how cfg w evs).2.trace = [.auditStart, .auditStop (some e)] := by
  have key : ∀ body, withRun cfg body w evs = (.exc e, (w.log .auditStart).stopTimer.log (.auditStop (some e)), evs) := by
    intro body
    have h1 : startRun cfg (w.log .auditStart) evs = (.exc e, w.log .auditStart, evs) := by
      have : startTry cfg (w.log .auditStart) evs = (.exc e, w.log .auditStart, evs) := by
        unfold startTry
        rw [he]
        rfl
      unfold startRun
      refine bind_exc ?_
      refine (catch_exc this).trans ?_
      have ha : (w.log .auditStart).attached = false := hf.attached
      change (Coro.bind (Coro.when (decide (e = .cancelled)) _) _ _ _) = _
      rw [show decide (e = .cancelled) = false by simpa using hne]
      change (Coro.bind (Coro.when (w.log .auditStart).attached (kill cfg)) _ _ _) = _
      rw [ha]
      rfl
    have hc : ((w.log .auditStart).stopTimer.log (.auditStop (some e))).cancelled = false := hf.cancelled
    unfold withRun
    refine bind_exc ?_
    unfold aenter
    change Coro.bind (Coro.upd (·.log .auditStart)) _ w evs = _
    unfold Coro.bind Coro.upd
    simp only []
    refine finally_exc (w1 := (w.log .auditStart).stopTimer.log (.auditStop (some e))) (evs1 := evs)
      ((catch_exc h1).trans rfl) ?_
    change Coro.when (((w.log .auditStart).stopTimer.log (.auditStop (some e))).cancelled && cfg.opts.catchCancelled) _
      ((w.log .auditStart).stopTimer.log (.auditStop (some e))) evs = _
    rw [hc]
    rfl
  have fin : ((w.log .auditStart).stopTimer.log (.auditStop (some e))).trace = [.auditStart, .auditStop (some e)] := by
    simp [W.log, W.stopTimer, hf.trace]
  cases how with
  | block =>
    unfold execute
    simp only [key]
    exact ⟨trivial, hf.tasks, hf.proc, fin⟩
  | await f =>
    have h2 : runCommand cfg f w evs = (.exc e, (w.log .auditStart).stopTimer.log (.auditStop (some e)), evs) := by
      unfold runCommand
      exact bind_exc (key _)
    unfold execute
    simp only [h2]
    exact ⟨trivial, hf.tasks, hf.proc, fin⟩

/-- The program does not exist. -/
example : ∃ evs, (execute (.await none) twoCopies {} evs).1 = .exc .fileNotFound ∧
    (execute (.await none) twoCopies {} evs).2.outOf 0 = some (.err .fileNotFound) ∧
    (execute (.await none) twoCopies {} evs).2.trace = [.auditStart, .auditStop (some .fileNotFound)] :=
  ⟨[.resume, .taskDone 0 (.err .fileNotFound), .resume], by decide +kernel⟩

/-! ## C40 -/

/-- C40: whatever happened, and however often the caller was cancelled: when a run has ended the spawn, if it was begun,
is not still going on. -/
theorem C40_over (how : How) (cfg : RCfg) (w : W) (hf : w.Fresh) (evs : List Ev) (o : Out (Option Returned)) (w' : W)
    (h : execute how cfg w evs = (o, w')) (hb : o ≠ .blocked) (t : TaskSt) (ht : w'.tasks[0]? = some t) :
    t.kind = .spawn ∧ t.out ≠ none := by
  have sp := execute_spawned how cfg w hf evs
  rw [h] at sp
  cases execute_ended hf h hb with
  | failed e1 e w1 hl hc =>
    obtain ⟨h1, h2⟩ := hl.spawn t ht
    refine ⟨h1, fun hn => ?_⟩
    unfold W.isDone at h2
    change w1.tasks[0]? = _ at ht
    rw [ht] at h2
    simp [hn] at h2
  | ended w1 w2 w3 ex ob _ hl hr hbr x ho fin =>
    obtain ⟨r, hr⟩ := ended_val hl hbr x sp
    obtain ⟨t0, h1, h2, _⟩ := hl.first
    obtain ⟨t', h1', e⟩ := hbr.ext.task _ t0 h1
    obtain ⟨t'', h1'', e'⟩ := x.ext.task _ t' h1'
    change w3.tasks[0]? = _ at ht
    rw [h1''] at ht
    cases ht
    refine ⟨(e'.kind.trans e.kind).trans h2, fun hn => ?_⟩
    unfold W.outOf at hr
    rw [h1''] at hr
    simp [hn] at hr

/-- C40: a single cancellation of the caller does not cancel the spawn: it succeeds or fails by itself.
Missing, and false: more cancellations. -/
theorem C40_completes_partial (how : How) (cfg : RCfg) (w : W) (hf : w.Fresh) (evs : List Ev) (o : Out (Option Returned)) (w' : W)
    (h : execute how cfg w evs = (o, w')) (hb : o ≠ .blocked) (hc : w'.cancels ≤ w.cancels + 1) :
    w'.outOf 0 ≠ some .cancelled := by
  have sp := execute_spawned how cfg w hf evs
  rw [h] at sp
  cases execute_ended hf h hb with
  | failed e1 e w1 hl _ =>
    intro hn
    have := hl.spawnOut hn
    change w1.cancels ≤ _ at hc
    change w.cancels + 2 ≤ _ at this
    omega
  | ended w1 w2 w3 ex ob _ hl hr hbr x ho fin =>
    obtain ⟨r, hr⟩ := ended_val hl hbr x sp
    intro hn
    change w3.outOf 0 = _ at hn
    rw [hn] at hr; cases hr

/-- C40: if the launch was not completed (the body was not reached) and the caller was cancelled at most twice, then there
is no child, or it has exited and been reaped, or it was sent SIGKILL. Missing, and false: more cancellations. -/
theorem C40_ended_partial (how : How) (cfg : RCfg) (w : W) (hf : w.Fresh) (evs : List Ev) (o : Out (Option Returned)) (w' : W)
    (h : execute how cfg w evs = (o, w')) (hb : o ≠ .blocked) (hn : .bodyStart ∉ w'.trace)
    (hc : w'.cancels ≤ w.cancels + 2) :
    w'.proc = none ∨ Reaped w' ∨ .auditSignal false none ∈ w'.trace := by
  cases execute_ended hf h hb with
  | failed e1 e w1 hl _ =>
    cases ha : w1.attached with
    | true =>
      rcases hl.attached ha with h | h
      · exact .inr (.inl (stopped_reaped hl.good h))
      · exact .inr (.inr (by simp [W.log, W.stopTimer, h.killed]))
    | false =>
      obtain ⟨_, _, _, h | h | ⟨t, _, _, h1, h2⟩⟩ := hl.single ha
      · exact .inl h
      · exact .inr (.inl (stopped_reaped hl.good h))
      · change w1.cancels ≤ _ at hc
        change w.cancels + _ + 1 ≤ _ at h2
        omega
  | ended w1 w2 w3 ex ob _ hl hr hbr x ho fin =>
    obtain ⟨l, sp⟩ := hl.split hf hbr x
    exact absurd (by rw [sp.full]; simp [sp.start]) hn

/-- A cancellation during the spawn: the spawn completes, then the child is ended and the cancellation reported. -/
example : ∃ evs, (execute (.await none) twoCopies {} evs).1 = .exc .cancelled ∧
    (execute (.await none) twoCopies {} evs).2.outOf 0 = some (.val none) ∧
    (execute (.await none) twoCopies {} evs).2.proc = some ⟨some (-15), some (-15), some (-15)⟩ ∧
    (execute (.await none) twoCopies {} evs).2.trace = [.auditStart, .thrown, .auditSignal false (some 15),
      .kill false (some 15), .auditStop (some .cancelled)] :=
  ⟨[.resume, .cancel, .resume, .fork, .taskDone 0 (.val none), .resume, .exit (-15), .reap, .deliver,
    .taskDone 1 (.val none), .resume], by decide +kernel⟩

/-- Two cancellations abandon the spawn half way. -/
theorem C40_completes_false :
    ∃ evs, (execute (.await none) twoCopies {} evs).1 = .exc .cancelled ∧
      (execute (.await none) twoCopies {} evs).2.outOf 0 = some .cancelled ∧
      (execute (.await none) twoCopies {} evs).2.cancels = 2 :=
  ⟨[.resume, .cancel, .resume, .cancel, .taskDone 0 .cancelled, .resume], by decide +kernel⟩

/-- Three cancellations abandon a child that is running. -/
theorem C40_ended_false : (execute (.await none) twoCopies {} tripleCancel).1 = .exc .cancelled ∧
    (execute (.await none) twoCopies {} tripleCancel).2.proc = some {} ∧
    (execute (.await none) twoCopies {} tripleCancel).2.cancels = 3 := by
  decide +kernel

end Shellous.Props
