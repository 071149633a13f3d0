import Verif.Lemmas.PipeRun
import Verif.Model.PromptRun

/-!
# The `Prompt` object does not matter to the runner

A run neither reads nor writes `cli`. And a coroutine that has ended has only looked at the events it consumed.
-/

namespace Shellous

variable {α β : Type}

/-- The same world with another `Prompt` object. -/
def W.setCli (x : Option (Option Result)) (w : W) : W := { w with cli := x }

/-- The same outcome with another `Prompt` object. -/
def withCli (x : Option (Option Result)) (r : Out α × W × List Ev) : Out α × W × List Ev := (r.1, r.2.1.setCli x, r.2.2)

structure Frame (c : Coro α) : Prop where
  cli : ∀ w x evs, c (w.setCli x) evs = withCli x (c w evs)
  pre : ∀ w evs, (c w evs).1 ≠ .blocked → ∃ pre, evs = pre ++ (c w evs).2.2 ∧
    ∀ more, c w (pre ++ more) = ((c w evs).1, (c w evs).2.1, more)

theorem Frame.same {c : Coro α} (h : Frame c) (w : W) (evs : List Ev) : (c w evs).2.1.cli = w.cli := by
  have := h.cli w w.cli evs
  have e : w.setCli w.cli = w := rfl
  rw [e] at this
  rw [this]
  rfl

theorem Frame.atomic {c : Coro α} (f : W → Out α × W) (hc : ∀ w evs, c w evs = ((f w).1, (f w).2, evs))
    (hf : ∀ w x, f (w.setCli x) = ((f w).1, (f w).2.setCli x)) : Frame c where
  cli w x evs := by rw [hc, hc, hf]; rfl
  pre w evs _ := ⟨[], by rw [hc]; rfl, fun more => by rw [hc, hc]; rfl⟩

theorem Frame.pure (a : α) : Frame (Coro.pure a) := .atomic (fun w => (.ok a, w)) (fun _ _ => rfl) fun _ _ => rfl
theorem Frame.raise (e : Exc) : Frame (Coro.raise e : Coro α) := .atomic (fun w => (.exc e, w)) (fun _ _ => rfl) fun _ _ => rfl
theorem Frame.upd {f : W → W} (hf : ∀ w x, f (w.setCli x) = (f w).setCli x) : Frame (Coro.upd f) :=
  .atomic (fun w => (.ok (), f w)) (fun _ _ => rfl) fun w x => by rw [hf]
theorem Frame.createTask (k : TaskKind) : Frame (createTask k) :=
  .atomic (fun w => (.ok w.tasks.length, { w with tasks := w.tasks ++ [{ kind := k }] })) (fun _ _ => rfl) fun _ _ => rfl

theorem Frame.when {b : Bool} {c : Coro Unit} (h : Frame c) : Frame (Coro.when b c) := by
  cases b
  · exact .pure ()
  · exact h

theorem Frame.ite {p : Prop} [Decidable p] {c d : Coro α} (h : Frame c) (h' : Frame d) : Frame (if p then c else d) := by
  split
  · exact h
  · exact h'

theorem Frame.bind {c : Coro α} {f : α → Coro β} (hc : Frame c) (hf : ∀ a, Frame (f a)) : Frame (c >>= f) where
  cli w x evs := by
    change Coro.bind c f _ evs = withCli x (Coro.bind c f w evs)
    unfold Coro.bind
    rw [hc.cli]
    rcases c w evs with ⟨o, w', r⟩
    cases o with
    | ok a => exact (hf a).cli w' x r
    | exc e => rfl
    | blocked => rfl
  pre w evs := by
    change (Coro.bind c f w evs).1 ≠ .blocked → ∃ pre, evs = pre ++ (Coro.bind c f w evs).2.2 ∧ ∀ more,
      Coro.bind c f w (pre ++ more) = ((Coro.bind c f w evs).1, (Coro.bind c f w evs).2.1, more)
    unfold Coro.bind
    have h1 := hc.pre w evs
    rcases hr : c w evs with ⟨o, w', r⟩
    rw [hr] at h1
    cases o with
    | blocked => intro h; exact absurd rfl h
    | exc e =>
      obtain ⟨p, h1, h2⟩ := h1 (by simp)
      exact fun _ => ⟨p, h1, fun more => by rw [h2 more]⟩
    | ok a =>
      obtain ⟨p, h1, h2⟩ := h1 (by simp)
      intro hb
      obtain ⟨q, h3, h4⟩ := (hf a).pre w' r hb
      refine ⟨p ++ q, ?_, fun more => ?_⟩
      · dsimp only at h1 ⊢
        rw [h1, List.append_assoc, ← h3]
      · rw [List.append_assoc, h2]
        exact h4 more

theorem Frame.get {f : W → Coro β} (hx : ∀ w x, f (w.setCli x) = f w) (hf : ∀ w, Frame (f w)) : Frame (Coro.get >>= f) where
  cli w x evs := by
    change f (w.setCli x) (w.setCli x) evs = withCli x (f w w evs)
    rw [hx]
    exact (hf w).cli w x evs
  pre w evs hb := (hf w).pre w evs hb

theorem Frame.catch {c : Coro α} {f : Exc → Coro α} (hc : Frame c) (hf : ∀ a, Frame (f a)) : Frame (Coro.catch_ c f) where
  cli w x evs := by
    unfold Coro.catch_
    rw [hc.cli]
    rcases c w evs with ⟨o, w', r⟩
    cases o with
    | ok a => rfl
    | exc e => exact (hf e).cli w' x r
    | blocked => rfl
  pre w evs := by
    unfold Coro.catch_
    have h1 := hc.pre w evs
    rcases hr : c w evs with ⟨o, w', r⟩
    rw [hr] at h1
    cases o with
    | blocked => intro h; exact absurd rfl h
    | ok a =>
      obtain ⟨p, h1, h2⟩ := h1 (by simp)
      exact fun _ => ⟨p, h1, fun more => by rw [h2 more]⟩
    | exc a =>
      obtain ⟨p, h1, h2⟩ := h1 (by simp)
      intro hb
      obtain ⟨q, h3, h4⟩ := (hf a).pre w' r hb
      refine ⟨p ++ q, ?_, fun more => ?_⟩
      · dsimp only at h1 ⊢
        rw [h1, List.append_assoc, ← h3]
      · rw [List.append_assoc, h2]
        exact h4 more

theorem Frame.finally {c : Coro α} {f : Coro Unit} (hc : Frame c) (hf : Frame f) : Frame (Coro.finally_ c f) := by
  rw [finally_eq]
  refine .bind (.catch (.bind hc fun _ => .pure _) fun e => .pure _) fun r => ?_
  cases r with
  | inl a => exact Frame.bind hf fun _ => .pure a
  | inr e => exact Frame.bind hf fun _ => .raise e

theorem signal_setCli (w : W) (x : Option (Option Result)) (b : Bool) (s : Option Nat) :
    (w.setCli x).signal b s = (w.signal b s).setCli x := by
  unfold W.signal
  change (match w.proc with | none => _ | some p => _) = _
  cases w.proc with
  | none => rfl
  | some p => obtain ⟨e, r, c⟩ := p; cases e <;> rfl

theorem cancelCaller_setCli (fwd : Option Nat) (w : W) (x : Option (Option Result)) :
    (w.setCli x).cancelCaller fwd = (w.cancelCaller fwd).setCli x := by
  unfold W.cancelCaller
  split
  · change (if w.isDone _ then _ else _) = _
    split <;> rfl
  · rfl

theorem env_setCli (fwd : Option Nat) (w : W) (x : Option (Option Result)) (ev : Ev) :
    (w.setCli x).env fwd ev = (w.env fwd ev).setCli x := by
  cases ev with
  | taskDone i out =>
    simp only [W.env]
    change (match w.tasks[i]? with | none => _ | some t => _) = _
    cases w.tasks[i]? with
    | none => rfl
    | some t =>
      simp only []
      change (if t.out.isNone && w.mayEnd t out.norm then _ else _) = _
      split
      · unfold W.endEffect
        repeat' split
        all_goals rfl
      · rfl
  | taskDrop i =>
    simp only [W.env]
    change (match w.tasks[i]? with | none => _ | some t => _) = _
    cases w.tasks[i]? with
    | none => rfl
    | some t =>
      simp only []
      change (if t.out.isNone && 0 < t.cancels && (t.kind != .spawn || w.proc.isNone) then _ else _) = _
      split <;> rfl
  | fork =>
    simp only [W.env]
    change (if w.spawning && w.proc.isNone then _ else _) = _
    split <;> rfl
  | cancel => exact cancelCaller_setCli fwd w x
  | timer =>
    simp only [W.env]
    change (if w.timer then _ else _) = _
    split
    · exact cancelCaller_setCli fwd { w with timedOut := true, timer := false } x
    · rfl
  | userSignal s =>
    simp only [W.env]
    change (if w.attached && !w.rcKnown then _ else _) = _
    split
    · exact signal_setCli w x true s
    · rfl
  | timeout => rfl
  | resume => rfl
  | bodyGotCancel => rfl
  | bodyDone e => rfl
  | exit c =>
    simp only [W.env]
    rw [show (w.setCli x).proc = w.proc from rfl]
    rcases w.proc with _ | ⟨e, r, c⟩
    · rfl
    · cases e <;> cases r <;> cases c <;> rfl
  | reap =>
    simp only [W.env]
    rw [show (w.setCli x).proc = w.proc from rfl]
    rcases w.proc with _ | ⟨e, r, c⟩
    · rfl
    · cases e <;> cases r <;> cases c <;> rfl
  | reapLost =>
    simp only [W.env]
    rw [show (w.setCli x).proc = w.proc from rfl]
    rcases w.proc with _ | ⟨e, r, c⟩
    · rfl
    · cases e <;> cases r <;> cases c <;> rfl
  | deliver =>
    simp only [W.env]
    rw [show (w.setCli x).proc = w.proc from rfl]
    rcases w.proc with _ | ⟨e, r, c⟩
    · rfl
    · cases e <;> cases r <;> cases c <;> rfl

theorem Frame.wait {ready : W → Bool} {timed : Bool} {fwd : Option Nat} (hr : ∀ w x, ready (w.setCli x) = ready w) :
    Frame (wait ready timed fwd) where
  cli w x evs := by
    unfold Shellous.wait
    generalize false = exp
    induction evs generalizing exp w with
    | nil => rfl
    | cons ev evs ih =>
      cases ev
      case resume =>
        unfold waitLoop
        change (if w.mustCancel then _ else _) = _
        split
        · rfl
        · rw [hr]
          split
          · rfl
          · exact ih w exp
      case timeout => exact ih w _
      all_goals (simp only [waitLoop]; rw [env_setCli]; exact ih _ exp)
  pre w evs := by
    unfold Shellous.wait
    generalize false = exp
    induction evs generalizing exp w with
    | nil => intro h; exact absurd rfl h
    | cons ev evs ih =>
      have step : ∀ ev (exp' : Bool) (w' : W), (∀ l, waitLoop fwd ready timed exp w (ev :: l) = waitLoop fwd ready timed exp' w' l) →
          (waitLoop fwd ready timed exp w (ev :: evs)).1 ≠ .blocked →
          ∃ pre, ev :: evs = pre ++ (waitLoop fwd ready timed exp w (ev :: evs)).2.2 ∧ ∀ more,
            waitLoop fwd ready timed exp w (pre ++ more) = ((waitLoop fwd ready timed exp w (ev :: evs)).1,
              (waitLoop fwd ready timed exp w (ev :: evs)).2.1, more) := by
        intro ev exp' w' h hb
        rw [h] at hb ⊢
        obtain ⟨p, h1, h2⟩ := ih w' exp' hb
        exact ⟨ev :: p, by rw [List.cons_append, ← h1], fun more => by rw [List.cons_append, h, h2]⟩
      cases ev
      case resume =>
        by_cases hm : w.mustCancel = true
        · exact fun _ => ⟨[.resume], by simp [waitLoop, hm], fun more => by simp [waitLoop, hm]⟩
        · by_cases hq : (ready w || exp) = true
          · exact fun _ => ⟨[.resume], by simp only [waitLoop, hm, hq]; rfl, fun more => by
              simp only [waitLoop, hm, hq, List.cons_append, List.nil_append]; rfl⟩
          · exact step _ exp w (fun l => by simp only [waitLoop, hm, hq]; rfl)
      case timeout => exact step _ _ w (fun l => rfl)
      all_goals exact step _ exp _ (fun l => rfl)

theorem Frame.taskResult (i : Nat) : Frame (taskResult i) := by
  refine .atomic (fun w => match w.outOf i with
    | some (.val r) => (.ok r, w)
    | some (.err e) => (.exc e, w)
    | some .cancelled => (.exc .cancelled, w)
    | none => (.exc .invalidState, w)) (fun w evs => ?_) fun w x => ?_
  · unfold Shellous.taskResult
    rcases w.outOf i with _ | _ | _ | _ <;> rfl
  · simp only [show (w.setCli x).outOf i = w.outOf i from rfl]
    rcases w.outOf i with _ | _ | _ | _ <;> rfl

theorem Frame.raiseOpt (e : Option Exc) : Frame (raiseOpt e) := by
  cases e with
  | none => exact .pure _
  | some e => exact .raise e

theorem Frame.asyncWait (ids : List Nat) (t fe : Bool) : Frame (asyncWait ids t fe) :=
  .ite (.raise _) (.wait fun _ _ => rfl)

theorem cancelAll_setCli (ids : List Nat) (w : W) (x : Option (Option Result)) :
    (w.setCli x).cancelAll ids = (w.cancelAll ids).setCli x := by
  unfold W.cancelAll
  induction ids generalizing w with
  | nil => rfl
  | cons i ids ih => exact ih (w.cancelTask i)

theorem Frame.cancelWaiter (ids : List Nat) (t : Bool) : Frame (cancelWaiter ids t) :=
  .bind (.asyncWait _ _ _) fun _ => .get (fun _ _ => rfl) fun _ =>
    .ite (.bind (.upd fun w x => cancelAll_setCli _ (w.log .gaveUp) x) fun _ => .raise _) (.pure _)

theorem Frame.cancelWait (ids : List Nat) (t cf : Bool) : Frame (cancelWait ids t cf) :=
  .catch (.bind (.when (.upd (cancelAll_setCli ids))) fun _ => .cancelWaiter _ _) fun _ =>
    .ite (.bind (.upd fun _ _ => rfl) fun _ => .cancelWaiter _ _) (.raise _)

theorem Frame.consume (ids : List Nat) : Frame (consumeExceptions ids) :=
  .get (fun _ _ => rfl) fun _ => .ite (.pure _) (.raise _)

theorem Frame.harvestWait (ids : List Nat) (t ct cf : Bool) : Frame (harvestWait ids t ct cf) :=
  .bind (.catch (.bind (.asyncWait _ _ _) fun _ => .get (fun _ _ => rfl) fun _ => .pure _) fun _ =>
    .ite (.bind (.cancelWait _ _ _) fun _ => .bind (.consume _) fun _ => .raise _) (.raise _)) fun _ =>
  .bind (.when (.cancelWait _ _ _)) fun _ => .get (fun _ _ => rfl) fun _ =>
    .ite (.raise _) (.ite (.bind (.consume _) fun _ => .raise _) (.pure _))

theorem Frame.raiseFirst (ids : List Nat) : Frame (raiseFirst ids) := by
  induction ids with
  | nil => exact .pure _
  | cons i ids ih =>
    exact .get (fun _ _ => rfl) fun _ => .ite ih (.bind (.taskResult _) fun _ => ih)

theorem Frame.harvest (ids : List Nat) (t ct cf : Bool) : Frame (harvest ids t ct cf) :=
  .bind (.harvestWait _ _ _ _) fun _ => .bind (.consume _) fun _ => .raiseFirst ids

theorem pollWaitPid_setCli (w : W) (x : Option (Option Result)) :
    (w.setCli x).pollWaitPid = (w.pollWaitPid.1, w.pollWaitPid.2.setCli x) := by
  unfold W.pollWaitPid
  change (match w.proc with | none => _ | some p => _) = _
  cases w.proc with
  | none => rfl
  | some p =>
    simp only []
    split
    · rfl
    · split <;> rfl

theorem transportClose_setCli (w : W) (x : Option (Option Result)) :
    (w.setCli x).transportClose = w.transportClose.setCli x := by
  unfold W.transportClose
  change (match w.proc with | none => _ | some p => _) = _
  cases w.proc with
  | none => rfl
  | some p =>
    simp only []
    split
    · rfl
    · obtain ⟨e, r, c⟩ := p; cases e <;> rfl

theorem Frame.killWait : Frame killWait :=
  .get (fun _ _ => rfl) fun _ => .when (.catch (.bind (.upd fun w x => signal_setCli w x _ _) fun _ =>
      .bind (.createTask _) fun _ => .harvest _ _ _ _)
    fun _ => .ite (.get (fun w x => by rw [pollWaitPid_setCli]) fun _ =>
      .ite (.upd fun w x => by rw [pollWaitPid_setCli]) (.bind (.upd fun _ _ => rfl) fun _ => .raise _)) (.raise _))

section
variable (cfg : RCfg)

theorem Frame.kill : Frame (kill cfg) :=
  .catch (.get (fun _ _ => rfl) fun _ => .bind (.when (.upd fun w x => signal_setCli w x _ _)) fun _ =>
      .bind (.when (.harvest _ _ _ _)) fun _ =>
      .get (fun _ _ => rfl) fun _ => .when (.bind (.createTask _) fun _ => .harvest _ _ _ _)) fun _ =>
    .ite (.bind (.when (.upd fun _ _ => rfl)) fun _ => .killWait) (.bind .killWait fun _ => .raise _)

theorem Frame.waitTry : Frame (waitTry cfg) :=
  .get (fun _ _ => rfl) fun _ => .bind (.when (.harvest _ _ _ _)) fun _ => .when (.finally
    (.bind (.upd fun w x => by simp only [W.pollOnce, env_setCli]) fun _ => .get (fun _ _ => rfl) fun _ => .when (.wait fun _ _ => rfl))
    (.upd fun _ _ => rfl))

theorem Frame.waitRun : Frame (waitRun cfg) :=
  .catch (.waitTry cfg) fun _ =>
    .ite (.bind (.upd fun _ _ => rfl) fun _ => .kill cfg) (.bind (.upd fun _ _ => rfl) fun _ => .bind (.kill cfg) fun _ => .raise _)

theorem Frame.closeRun : Frame (closeRun cfg) :=
  .bind (.upd transportClose_setCli) fun _ => .get (fun _ _ => rfl) fun _ => .ite (.upd fun _ _ => rfl)
    (.when (.catch (.bind (.createTask _) fun _ => .harvest _ _ _ _) fun _ => .ite (.upd fun _ _ => rfl) (.raise _)))

theorem Frame.finishTry (ex : Option Exc) : Frame (finishTry cfg ex) := by
  cases ex with
  | none => exact .bind (.waitRun cfg) fun _ => .pure _
  | some e =>
    exact .bind (.when (.upd fun _ _ => rfl)) fun _ => .bind (.kill cfg) fun _ => .get (fun _ _ => rfl) fun _ => .pure _

theorem Frame.aexit (ex : Option Exc) : Frame (aexit cfg ex) :=
  .bind (.finally (.catch (.finally (.finishTry cfg ex) (.closeRun cfg)) fun _ =>
    .ite (.bind (.upd fun _ _ => rfl) fun _ => .pure _) (.raise _)) (.upd fun _ _ => rfl)) fun _ =>
    .get (fun _ _ => rfl) fun _ => .ite (.raise _) (.pure _)

theorem Frame.runResult (check : Bool) : Frame (runResult cfg check) :=
  .get (fun _ _ => rfl) fun w => by
    generalize runnerResult _ _ _ = r
    cases r with
    | ok r => exact .pure _
    | error e => exact .raise _

theorem Frame.addTask (k : TaskKind) : Frame (addTask k) := .bind (.createTask _) fun _ => .upd fun _ _ => rfl

theorem Frame.addTasks (n : Nat) : Frame (addTasks n) := by
  induction n with
  | zero => exact .pure _
  | succ n ih => exact .bind (.addTask _) fun _ => ih

theorem Frame.awaitTask (i : Nat) : Frame (awaitTask i) :=
  .get (fun _ _ => rfl) fun _ => .bind (.when (.wait fun _ _ => rfl)) fun _ => .get (fun _ _ => rfl) fun _ =>
    .bind (.when (.upd fun _ _ => rfl)) fun _ => .taskResult i

theorem Frame.uninterruptedSpawn : Frame uninterruptedSpawn :=
  .bind (.createTask _) fun _ => .catch (.bind (.wait fun _ _ => rfl) fun _ => .bind (.taskResult _) fun _ => .pure _) fun _ =>
    .ite (.get (fun _ _ => rfl) fun _ => .bind (.when (.bind (.awaitTask _) fun _ => .pure _)) fun _ => .raise _) (.raise _)

theorem Frame.sleep0 : Frame sleep0 := .wait fun _ _ => rfl

theorem Frame.spawnStage : Frame (spawnStage cfg) :=
  .bind (.when (.bind .sleep0 fun _ => .bind .sleep0 fun _ => .raiseOpt _)) fun _ =>
    .bind .sleep0 fun _ => .bind .uninterruptedSpawn fun _ => .addTasks _

theorem Frame.startTry : Frame (startTry cfg) :=
  .bind (.raiseOpt _) fun _ => .bind (.catch (.spawnStage cfg) fun _ => .raise _) fun _ => .bind (.raiseOpt _) fun _ =>
    .bind (.addTasks _) fun _ => .raiseOpt _

theorem Frame.startRun : Frame (startRun cfg) :=
  .bind (.catch (.startTry cfg) fun _ => .bind (.when (.upd fun _ _ => rfl)) fun _ => .get (fun _ _ => rfl) fun _ =>
    .bind (.when (.kill cfg)) fun _ => .raise _) fun _ => .bind (.when (.addTask _)) fun _ => .when (.upd fun _ _ => rfl)

theorem Frame.aenter : Frame (aenter cfg) :=
  .bind (.upd fun _ _ => rfl) fun _ => .finally (.catch (.startRun cfg) fun _ => .bind (.upd fun _ _ => rfl) fun _ => .raise _)
    (.get (fun _ _ => rfl) fun _ => .when (.bind (.runResult cfg true) fun _ => .pure _))

theorem userBody_step (w : W) (ev : Ev) : (∃ e, ev = .bodyDone e) ∨ ∃ w' : W, ∀ l, userBodyLoop w (ev :: l) = userBodyLoop w' l := by
  cases ev
  case bodyDone e => exact .inl ⟨e, rfl⟩
  case bodyGotCancel =>
    by_cases hm : w.mustCancel = true
    · exact .inr ⟨w.throwCancel, fun l => by rw [userBodyLoop, if_pos hm]⟩
    · exact .inr ⟨w, fun l => by rw [userBodyLoop, if_neg hm]⟩
  all_goals exact .inr ⟨_, fun l => rfl⟩

theorem Frame.userBody : Frame userBody where
  cli w x evs := by
    change userBodyLoop _ _ = withCli x (userBodyLoop _ _)
    induction evs generalizing w with
    | nil => rfl
    | cons ev evs ih =>
      cases ev
      case bodyDone e => cases e <;> rfl
      case bodyGotCancel =>
        rw [userBodyLoop, userBodyLoop]
        change (if w.mustCancel then _ else _) = _
        split
        · exact ih w.throwCancel
        · exact ih w
      all_goals (simp only [userBodyLoop]; rw [env_setCli]; exact ih _)
  pre w evs := by
    change (userBodyLoop w evs).1 ≠ _ → ∃ pre, evs = pre ++ (userBodyLoop w evs).2.2 ∧ ∀ more, userBodyLoop w (pre ++ more) = _
    induction evs generalizing w with
    | nil => intro h; exact absurd rfl h
    | cons ev evs ih =>
      rcases userBody_step w ev with ⟨e, rfl⟩ | ⟨w', h⟩
      · cases e <;> exact fun _ => ⟨[.bodyDone _], rfl, fun more => rfl⟩
      · rw [h]
        intro hb
        obtain ⟨p, h1, h2⟩ := ih w' hb
        exact ⟨ev :: p, by rw [List.cons_append, ← h1], fun more => by
          rw [List.cons_append, h, h2]
          change (_, _, _) = ((userBodyLoop w (ev :: evs)).1, (userBodyLoop w (ev :: evs)).2.1, more)
          rw [h]
          rfl⟩

end

/-! ## Pipelines -/

theorem Frame.harvestResults (ids : List Nat) (t ct : Bool) : Frame (harvestResults ids t ct) :=
  .bind (.catch (.bind (.harvestWait _ _ _ _) fun _ => .pure _) fun _ => .ite (.pure _) (.raise _)) fun _ =>
    .get (fun w x => by
      have : toResults (w.setCli x) ids = toResults w ids := by
        induction ids with
        | nil => rfl
        | cons i ids ih => rw [toResults, toResults, ih]; rfl
      rw [this]) fun w => by
      cases toResults w ids with
      | ok l => exact .pure _
      | error e => exact .raise _

theorem Frame.pipeWait (kill : Bool) : Frame (pipeWait kill) :=
  .get (fun _ _ => rfl) fun w => .bind (.when (.upd (cancelAll_setCli w.mine))) fun _ =>
    .bind (.harvestResults _ _ _) fun _ => .bind (.when (.upd fun _ _ => rfl)) fun _ => .bind (.upd fun _ _ => rfl) fun _ => .pure _

theorem Frame.setupCapturing (n : Nat) : Frame (setupCapturing n) :=
  .get (fun _ _ => rfl) fun _ => .bind (.createTask _) fun _ => .bind (.createTask _) fun _ => .bind (.addTasks _) fun _ =>
    .wait fun _ _ => rfl

theorem Frame.pipeAenter (cfg : PRCfg) (b : Bool) : Frame (pipeAenter cfg b) :=
  .catch (.bind (.raiseOpt _) fun _ => .ite (.setupCapturing _) (.addTasks _)) fun _ =>
    .bind (.when (.upd fun _ _ => rfl)) fun _ => .bind (.pipeWait _) fun _ => .raise _

theorem Frame.pipeFinish (ex : Option Exc) : Frame (pipeFinish ex) := by
  cases ex with
  | none => exact .bind (.pipeWait _) fun _ => .pure _
  | some e =>
    exact .bind (.when (.upd fun _ _ => rfl)) fun _ => .bind (.pipeWait _) fun _ => .get (fun _ _ => rfl) fun _ => .pure _

theorem Frame.pipeAexit (ex : Option Exc) : Frame (pipeAexit ex) :=
  .catch (.bind (.pipeFinish ex) fun _ => .pure _) fun _ =>
    .ite (.bind (.upd fun _ _ => rfl) fun _ => .pure _) (.raise _)

end Shellous
