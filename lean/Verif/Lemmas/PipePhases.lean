import Verif.Lemmas.PipeRun

/-!
# Where a pipeline run is
-/

namespace Shellous

theorem toResults_error_kind {w : W} {ids : List Nat} {e : Exc} (h : toResults w ids = .error e) :
    e = .invalidState ∨ e = .assertionError ∨ e = .runtimeError := by
  induction ids with
  | nil => cases h
  | cons i ids ih =>
    unfold toResults at h
    cases h1 : toResult w i with
    | error e' =>
      rw [h1] at h; cases h
      unfold toResult at h1
      split at h1 <;> cases h1 <;> simp
    | ok o =>
      rw [h1] at h
      simp only [] at h
      cases h2 : toResults w ids with
      | error e' => rw [h2] at h; cases h; exact ih h2
      | ok l => rw [h2] at h; cases h

theorem harvestResults_exc_ne (ids : List Nat) (timed ct : Bool) (w : W) :
    wp (harvestResults ids timed ct) (fun o _ => o ≠ .exc .cancelled) w := by
  unfold harvestResults
  have tail : ∀ (c : Bool) (w' : W), wp (do
        let w ← Coro.get
        match toResults w ids with
          | .ok l => Coro.pure (c, l)
          | .error e => Coro.raise e) (fun o _ => o ≠ .exc .cancelled) w' := by
    intro c w'
    refine wp_bind (wp_get ?_)
    simp only []
    cases h : toResults w' ids with
    | ok l => exact wp_pure (by simp)
    | error e =>
      refine wp_raise ?_
      rcases toResults_error_kind h with rfl | rfl | rfl <;> simp
  refine wp_bind (wp_catch (wp_bind ?_))
  intro evs
  rcases harvestWait ids timed ct false w evs with ⟨o, w', r⟩
  cases o with
  | ok _ => exact wp_pure (tail _ _)
  | exc e =>
    simp only []
    split
    · exact wp_pure (tail _ _)
    · rename_i h
      exact wp_raise (by simpa using h)
  | blocked => simp

/-- `PipeRunner._results`, `_cancelled` and `_tasks` after `harvest_results` has returned. -/
def W.afterWait (w : W) (c : Bool) : W := { w with cancelled := w.cancelled || c, mine := [] }

theorem pipeWait_eq (kill : Bool) (w : W) (evs : List Ev) : pipeWait kill w evs =
    match harvestResults w.mine false true (if kill then w.cancelAll w.mine else w) evs with
    | (.ok (c, l), w1, r) => (.ok l, w1.afterWait c, r)
    | (.exc e, w1, r) => (.exc e, w1, r)
    | (.blocked, w1, r) => (.blocked, w1, r) := by
  unfold pipeWait
  rw [bind_ok (a := w) (w' := w) (evs' := evs) rfl]
  have h1 : Coro.when kill (Coro.upd (·.cancelAll w.mine)) w evs =
      (.ok (), if kill then w.cancelAll w.mine else w, evs) := by
    cases kill <;> rfl
  rw [bind_ok h1]
  rcases h : harvestResults w.mine false true (if kill then w.cancelAll w.mine else w) evs with ⟨o, w1, r⟩
  cases o with
  | ok x =>
    obtain ⟨c, l⟩ := x
    rw [bind_ok h]
    cases c
    · show (_, _, _) = (_, _, _)
      simp [W.afterWait, Coro.when, Coro.pure, Coro.upd]
    · show (_, _, _) = (_, _, _)
      simp [W.afterWait, Coro.when, Coro.pure, Coro.upd]
  | exc e => rw [bind_exc h]
  | blocked => rw [bind_blocked h]


/-- The world in which `harvest_results` starts, when the body of the `async with` has ended (with `ex`). -/
def W.atExit (w : W) : Option Exc → W
  | none => w
  | some e => ({ w with cancelled := w.cancelled || decide (e = .cancelled) } : W).cancelAll w.mine

theorem cancelAll_mine (ids : List Nat) (w : W) : (w.cancelAll ids).mine = w.mine := (cancelAll_ext ids w).mine

theorem pipeAexit_eq (ex : Option Exc) (w : W) (evs : List Ev) : pipeAexit ex w evs =
    match harvestResults w.mine false true (w.atExit ex) evs with
    | (.ok (c, l), w1, r) => (.ok (ex.isSome && (w1.afterWait c).cancelled, some l), w1.afterWait c, r)
    | (.exc e, w1, r) => (.exc e, w1, r)
    | (.blocked, w1, r) => (.blocked, w1, r) := by
  have hne := harvestResults_exc_ne w.mine false true (w.atExit ex) evs
  rcases h : harvestResults w.mine false true (w.atExit ex) evs with ⟨o, w1, r⟩
  rw [h] at hne
  unfold pipeAexit
  cases ex with
  | none =>
    have hp := pipeWait_eq false w evs
    simp only [Bool.false_eq_true, if_false] at hp
    rw [show w.atExit none = w from rfl] at h
    rw [h] at hp
    cases o with
    | ok x =>
      obtain ⟨c, l⟩ := x
      have hf : pipeFinish none w evs = (.ok (false, l), w1.afterWait c, r) := (bind_ok hp).trans rfl
      exact catch_ok ((bind_ok hf).trans rfl)
    | exc e =>
      have hf : pipeFinish none w evs = (.exc e, w1, r) := bind_exc hp
      rw [catch_exc (bind_exc hf), if_neg (by simpa using hne)]
      rfl
    | blocked =>
      have hf : pipeFinish none w evs = (.blocked, w1, r) := bind_blocked hp
      exact catch_blocked (bind_blocked hf)
  | some e0 =>
    have hw : Coro.when (e0 = .cancelled) (Coro.upd fun w => { w with cancelled := true }) w evs =
        (.ok (), { w with cancelled := w.cancelled || decide (e0 = .cancelled) }, evs) := by
      by_cases he : e0 = .cancelled
      · subst he; simp [Coro.when, Coro.upd]
      · simp [Coro.when, Coro.pure, he]
    have hp := pipeWait_eq true { w with cancelled := w.cancelled || decide (e0 = .cancelled) } evs
    simp only [if_true] at hp
    rw [show w.atExit (some e0) = W.cancelAll w.mine { w with cancelled := w.cancelled || decide (e0 = .cancelled) } from rfl] at h
    rw [h] at hp
    cases o with
    | ok x =>
      obtain ⟨c, l⟩ := x
      have hf : pipeFinish (some e0) w evs = (.ok ((w1.afterWait c).cancelled, l), w1.afterWait c, r) :=
        (bind_ok hw).trans ((bind_ok hp).trans rfl)
      exact catch_ok ((bind_ok hf).trans rfl)
    | exc e =>
      have hf : pipeFinish (some e0) w evs = (.exc e, w1, r) := (bind_ok hw).trans (bind_exc hp)
      rw [catch_exc (bind_exc hf), if_neg (by simpa using hne)]
      rfl
    | blocked =>
      have hf : pipeFinish (some e0) w evs = (.blocked, w1, r) := (bind_ok hw).trans (bind_blocked hp)
      exact catch_blocked (bind_blocked hf)

/-- The futures of a captured pipeline. -/
def readyFutures (how : PHow) (cfg : PRCfg) : List TaskSt :=
  match how with
  | .await => []
  | .block => [{ kind := .ready 2 }, { kind := .ready (1 + cfg.n) }]

/-- The world when the tasks of the commands have just been created. -/
def W.piped (how : PHow) (cfg : PRCfg) (w : W) : W :=
  { w with
    tasks := readyFutures how cfg ++ List.replicate cfg.n { kind := .io }
    mine := commands how cfg }

/-- The world when `_start` was interrupted and `__aenter__` starts `harvest_results`. -/
def W.interrupted (w : W) : W := ({ w.throwCancel with cancelled := true } : W).cancelAll w.mine

/-- `pipeAenter`. -/
inductive PEnter (how : PHow) (cfg : PRCfg) (w : W) (evs : List Ev) : Prop
  | setup (e : Exc) : cfg.setupErr = some e →
      (∀ more, pipeAenter cfg (decide (how = .block)) w (evs ++ more) =
        (.exc .valueError, { w with cancelled := decide (e = .cancelled) }, evs ++ more)) → PEnter how cfg w evs
  | launching (w1 : W) : cfg.setupErr = none → how = .block → Quiet (w.piped how cfg) w1 →
      pipeAenter cfg (decide (how = .block)) w evs = (.blocked, w1, []) →
      waitLoop none (fun w => w.isDone 0 && w.isDone 1) false false (w.piped .block cfg) evs = (.blocked, w1, []) →
      PEnter how cfg w evs
  | ok (w1 : W) (rest : List Ev) : cfg.setupErr = none → Quiet (w.piped how cfg) w1 →
      (how = .await → w1 = w.piped how cfg) →
      (how = .block → w1.isDone 0 = true ∧ w1.isDone 1 = true ∧ w1.mustCancel = false) →
      (∀ more, pipeAenter cfg (decide (how = .block)) w (evs ++ more) = (.ok (), w1, rest ++ more)) → PEnter how cfg w evs
  | interrupted (w1 : W) (rest : List Ev) : cfg.setupErr = none → how = .block → Quiet (w.piped how cfg) w1 →
      w1.mustCancel = true →
      (∀ more, pipeAenter cfg (decide (how = .block)) w (evs ++ more) =
        match harvestResults (commands how cfg) false true w1.interrupted (rest ++ more) with
        | (.ok (c, _), w2, r) => (.exc .cancelled, w2.afterWait c, r)
        | (.exc e, w2, r) => (.exc e, w2, r)
        | (.blocked, w2, r) => (.blocked, w2, r)) → PEnter how cfg w evs

theorem setupCapturing_eq (cfg : PRCfg) (w : W) (hf : w.Fresh) (evs : List Ev) : setupCapturing cfg.n w evs =
    waitLoop none (fun w => w.isDone 0 && w.isDone 1) false false (w.piped .block cfg) evs := by
  unfold setupCapturing
  rw [bind_ok (a := w) (w' := w) (evs' := evs) rfl]
  rw [bind_ok (a := 0) (w' := { w with tasks := [{ kind := .ready 2 }] }) (evs' := evs)
    (by simp [createTask, hf.tasks])]
  rw [bind_ok (a := 1) (w' := { w with tasks := [{ kind := .ready 2 }, { kind := .ready (1 + cfg.n) }] }) (evs' := evs)
    (by simp [createTask, hf.tasks])]
  rw [bind_ok (addTasks_eq cfg.n _ evs)]
  simp [hf.mine, W.piped, readyFutures, commands, wait]

theorem pipeAenter_phase (how : PHow) (cfg : PRCfg) (w : W) (hf : w.Fresh) (evs : List Ev) : PEnter how cfg w evs := by
  cases hs : cfg.setupErr with
  | some e =>
    refine .setup e hs fun more => ?_
    unfold pipeAenter pipeStartRun
    rw [catch_exc (bind_exc (e := e) (w' := w) (evs' := evs ++ more) (by rw [hs]; rfl))]
    have hw : Coro.when (e = .cancelled) (Coro.upd fun w => { w with cancelled := true }) w (evs ++ more) =
        (.ok (), { w with cancelled := decide (e = .cancelled) }, (evs ++ more)) := by
      by_cases he : e = .cancelled
      · subst he; simp [Coro.when, Coro.upd]
      · have := hf.cancelled
        simp only [Coro.when, Coro.pure, he, decide_false, Bool.false_eq_true, if_false]
        rw [← this]
    rw [bind_ok hw]
    have hp : pipeWait true { w with cancelled := decide (e = .cancelled) } (evs ++ more) =
        (.exc .valueError, { w with cancelled := decide (e = .cancelled) }, evs ++ more) := by
      rw [pipeWait_eq]
      simp only [if_true, hf.mine]
      rfl
    rw [bind_exc hp]
  | none =>
    have hr : ∀ evs, raiseOpt cfg.setupErr w evs = (.ok (), w, evs) := by intro evs; rw [hs]; rfl
    cases how with
    | await =>
      refine .ok (w.piped .await cfg) evs hs (.refl _) (fun _ => rfl) (by simp) fun more => ?_
      have : pipeStartRun cfg (decide (PHow.await = .block)) w (evs ++ more) = (.ok (), w.piped .await cfg, evs ++ more) := by
        unfold pipeStartRun
        rw [bind_ok (hr _)]
        simp only [reduceCtorEq, decide_false, Bool.false_eq_true, if_false]
        rw [addTasks_eq]
        simp [W.piped, hf.tasks, hf.mine, readyFutures, commands]
      exact catch_ok this
    | block =>
      have heq : ∀ evs, pipeStartRun cfg (decide (PHow.block = .block)) w evs =
          waitLoop none (fun w => w.isDone 0 && w.isDone 1) false false (w.piped .block cfg) evs := by
        intro evs
        unfold pipeStartRun
        rw [bind_ok (hr _)]
        simp only [decide_true, if_true]
        exact setupCapturing_eq cfg w hf evs
      rcases h : waitLoop none (fun w => w.isDone 0 && w.isDone 1) false false (w.piped .block cfg) evs with ⟨o, w1, r⟩
      have go := fun more => waitLoop_goOn none (fun w => w.isDone 0 && w.isDone 1) false false (w.piped .block cfg) evs more
      by_cases hb : o = .blocked
      · subst hb
        have hq : Quiet (w.piped .block cfg) w1 := by
          have := wp_waitLoop (fwd := none) (ready := fun w => w.isDone 0 && w.isDone 1) (timed := false) (expired := false)
            (R := fun o w' => o = .blocked → Quiet (w.piped .block cfg) w') (w := w.piped .block cfg) (by simp)
            (by intros; simp_all) (by intros; simp_all) (fun w' h _ => h.quiet) evs
          rw [h] at this
          exact this rfl
        have hr' : r = [] := by
          have := ((go []).1 (by rw [h])).1
          rw [h] at this; exact this
        subst hr'
        exact .launching w1 hs rfl hq (catch_blocked ((heq evs).trans h)) h
      · obtain ⟨evs₁, he, hx⟩ := waitLoop_ends _ _ _ _ _ _ _ _ h hb
        have hgo := fun more => (go more).2 (by rw [h]; exact hb)
        rw [h] at hgo
        have q := after_quiet (w.piped .block cfg) evs₁
        split at hx
        · rename_i hm
          obtain ⟨rfl, rfl⟩ := hx
          refine .interrupted _ r hs rfl q hm fun more => ?_
          unfold pipeAenter
          rw [catch_exc ((heq _).trans (hgo more))]
          rw [bind_ok (a := ()) (w' := { ((w.piped .block cfg).after evs₁).throwCancel with cancelled := true })
            (evs' := r ++ more) rfl]
          have hmine : ({ ((w.piped .block cfg).after evs₁).throwCancel with cancelled := true } : W).mine =
              commands .block cfg := q.toExt.mine
          have hi : W.cancelAll (commands .block cfg) { ((w.piped .block cfg).after evs₁).throwCancel with cancelled := true } =
              ((w.piped .block cfg).after evs₁).interrupted := by
            unfold W.interrupted; rw [q.toExt.mine]; rfl
          have hp := pipeWait_eq true { ((w.piped .block cfg).after evs₁).throwCancel with cancelled := true } (r ++ more)
          rw [hmine, if_pos rfl, hi] at hp
          rcases hh : harvestResults (commands .block cfg) false true ((w.piped .block cfg).after evs₁).interrupted (r ++ more) with ⟨o2, w2, r2⟩
          rw [hh] at hp
          cases o2 with
          | ok x => obtain ⟨c, l⟩ := x; rw [bind_ok hp]; rfl
          | exc e => rw [bind_exc hp]
          | blocked => rw [bind_blocked hp]
        · rename_i hm
          obtain ⟨rfl, rfl, hrd⟩ := hx
          simp only [Bool.and_eq_true, Bool.false_eq_true, false_and, or_false] at hrd
          refine .ok _ r hs q (by simp) (fun _ => ⟨hrd.1, hrd.2, by simpa using hm⟩) fun more => ?_
          exact catch_ok ((heq _).trans (hgo more))

/-- What the statement gives when `harvest_results` has returned `l` after the end of the body. -/
def conclude (how : PHow) (cfg : PRCfg) (l : List TOut) (w : W) : Out (Option Returned) :=
  match how with
  | .block => .ok none
  | .await =>
    match pipeResult (l.map TOut.item) w.cancelled cfg.opts with
    | .error e => .exc e
    | .ok r =>
      if cfg.opts.returnResult then .ok (some (.result r))
      else match cfg.decode r.outputBytes r.encoding with
        | .ok t => .ok (some (.text t))
        | .error e => .exc e

/-- What the statement gives, from what `harvest_results` gives after the end of the body. -/
def pipeEnd (how : PHow) (cfg : PRCfg) (ex : Option Exc) (x : Out (Bool × List TOut) × W × List Ev) :
    Out (Option Returned) × W :=
  match x with
  | (.blocked, w1, _) => (.blocked, w1)
  | (.exc e, w1, _) => (.exc e, w1)
  | (.ok (c, l), w1, _) =>
    match ex with
    | none => (conclude how cfg l (w1.afterWait c), w1.afterWait c)
    | some e =>
      if w1.cancelled || c then (conclude how cfg l (w1.afterWait c), w1.afterWait c) else (.exc e, w1.afterWait c)

/-- What the statement gives, from what `harvest_results` gives when the launch was interrupted. -/
def pipeFail (x : Out (Bool × List TOut) × W × List Ev) : Out (Option Returned) × W :=
  match x with
  | (.blocked, w1, _) => (.blocked, w1)
  | (.exc e, w1, _) => (.exc e, w1)
  | (.ok (c, _), w1, _) => (.exc .cancelled, w1.afterWait c)

/-- Where a pipeline run is after the events `evs`. -/
inductive Phase (how : PHow) (cfg : PRCfg) (w : W) (evs : List Ev) : Prop
  /-- `_setup_pipeline` raised -/
  | setup (e : Exc) : cfg.setupErr = some e →
      (∀ more, pipeExecute how cfg w (evs ++ more) = (.exc .valueError, { w with cancelled := decide (e = .cancelled) })) →
      Phase how cfg w evs
  /-- waiting for the first and last command -/
  | launching (w1 : W) : cfg.setupErr = none → how = .block → Quiet (w.piped how cfg) w1 →
      pipeExecute how cfg w evs = (.blocked, w1) →
      waitLoop none (fun w => w.isDone 0 && w.isDone 1) false false (w.piped .block cfg) evs = (.blocked, w1, []) →
      Phase how cfg w evs
  /-- `CancelledError` was thrown while waiting for them -/
  | interrupted (w1 : W) (rest : List Ev) : cfg.setupErr = none → how = .block → Quiet (w.piped how cfg) w1 →
      w1.mustCancel = true →
      (∀ more, pipeExecute how cfg w (evs ++ more) =
        pipeFail (harvestResults (commands how cfg) false true w1.interrupted (rest ++ more))) → Phase how cfg w evs
  /-- in the body -/
  | body (w1 w2 : W) : cfg.setupErr = none → how = .block → Quiet (w.piped how cfg) w1 →
      w1.isDone 0 = true ∧ w1.isDone 1 = true → BodyRel (w1.log .bodyStart) w2 →
      pipeExecute how cfg w evs = (.blocked, w2) → Phase how cfg w evs
  /-- the body has ended -/
  | exiting (w1 w2 : W) (ex : Option Exc) (rest : List Ev) : cfg.setupErr = none → Quiet (w.piped how cfg) w1 →
      (how = .await → w1 = w.piped how cfg ∧ w2 = w1.log .bodyStart ∧ ex = none ∧ rest = evs) →
      (how = .block → w1.isDone 0 = true ∧ w1.isDone 1 = true) →
      BodyRel (w1.log .bodyStart) w2 →
      (∀ more, pipeExecute how cfg w (evs ++ more) =
        pipeEnd how cfg ex (harvestResults (commands how cfg) false true ((w2.log (.bodyEnd ex)).atExit ex) (rest ++ more))) →
      Phase how cfg w evs

theorem withPipe_enter_exc {cfg : PRCfg} {b : Bool} {body : Coro Unit} {w w1 : W} {evs r : List Ev} {e : Exc}
    (h : pipeAenter cfg b w evs = (.exc e, w1, r)) : withPipe cfg b body w evs = (.exc e, w1, r) := bind_exc h

theorem withPipe_enter_blocked {cfg : PRCfg} {b : Bool} {body : Coro Unit} {w w1 : W} {evs r : List Ev}
    (h : pipeAenter cfg b w evs = (.blocked, w1, r)) : withPipe cfg b body w evs = (.blocked, w1, r) := bind_blocked h

theorem withPipe_body {cfg : PRCfg} {b : Bool} {body : Coro Unit} {w w1 w2 : W} {evs r r2 : List Ev} {ex : Option Exc}
    (h : pipeAenter cfg b w evs = (.ok (), w1, r)) (hb : attempt body (w1.log .bodyStart) r = (.ok ex, w2, r2)) :
    withPipe cfg b body w evs =
      match harvestResults w2.mine false true ((w2.log (.bodyEnd ex)).atExit ex) r2 with
      | (.ok (c, l), w3, r3) =>
        (match ex with
          | none => .ok (some l)
          | some e => if w3.cancelled || c then .ok (some l) else .exc e, w3.afterWait c, r3)
      | (.exc e, w3, r3) => (.exc e, w3, r3)
      | (.blocked, w3, r3) => (.blocked, w3, r3) := by
  have hx := pipeAexit_eq ex (w2.log (.bodyEnd ex)) r2
  rw [show (w2.log (.bodyEnd ex)).mine = w2.mine from rfl] at hx
  unfold withPipe
  rw [bind_ok h, bind_ok (a := ()) (w' := w1.log .bodyStart) (evs' := r) rfl, bind_ok hb,
    bind_ok (a := ()) (w' := w2.log (.bodyEnd ex)) (evs' := r2) rfl]
  rcases hh : harvestResults w2.mine false true ((w2.log (.bodyEnd ex)).atExit ex) r2 with ⟨o, w3, r3⟩
  rw [hh] at hx
  cases o with
  | ok x =>
    obtain ⟨c, l⟩ := x
    refine (bind_ok hx).trans ?_
    cases ex with
    | none => rfl
    | some e =>
      simp only [Option.isSome_some, Bool.true_and, W.afterWait]
      split <;> rfl
  | exc e => exact bind_exc hx
  | blocked => exact bind_blocked hx

theorem withPipe_body_blocked {cfg : PRCfg} {b : Bool} {body : Coro Unit} {w w1 w2 : W} {evs r r2 : List Ev}
    (h : pipeAenter cfg b w evs = (.ok (), w1, r)) (hb : attempt body (w1.log .bodyStart) r = (.blocked, w2, r2)) :
    withPipe cfg b body w evs = (.blocked, w2, r2) := by
  unfold withPipe
  rw [bind_ok h, bind_ok (a := ()) (w' := w1.log .bodyStart) (evs' := r) rfl, bind_blocked hb]

/-- From the outcome of the `async with` to that of the statement. -/
def pipeOutcome (how : PHow) (cfg : PRCfg) (x : Out (Option (List TOut)) × W × List Ev) : Out (Option Returned) × W :=
  match x with
  | (.blocked, w, _) => (.blocked, w)
  | (.exc e, w, _) => (.exc e, w)
  | (.ok none, w, _) => (match how with | .block => .ok none | .await => .exc .assertionError, w)
  | (.ok (some l), w, _) => (conclude how cfg l w, w)

/-- The body of the statement. -/
def pipeBody : PHow → Coro Unit
  | .await => Coro.pure ()
  | .block => userBody

theorem pipeExecute_eq (how : PHow) (cfg : PRCfg) (w : W) (evs : List Ev) : pipeExecute how cfg w evs =
    pipeOutcome how cfg (withPipe cfg (decide (how = .block)) (pipeBody how) w evs) := by
  cases how with
  | block =>
    unfold pipeExecute pipeBlock
    simp only [decide_true, pipeBody]
    rcases withPipe cfg true userBody w evs with ⟨o, w1, r⟩
    cases o with
    | ok x => cases x <;> rfl
    | exc e => rfl
    | blocked => rfl
  | await =>
    unfold pipeExecute
    simp only [reduceCtorEq, decide_false, pipeBody]
    rcases h : withPipe cfg false (Coro.pure ()) w evs with ⟨o, w1, r⟩
    unfold runPipeline
    cases o with
    | exc e => rw [bind_exc h]; rfl
    | blocked => rw [bind_blocked h]; rfl
    | ok x =>
      rw [bind_ok h]
      cases x with
      | none => rfl
      | some l =>
        unfold pipeOutcome conclude
        cases hp : pipeResult (l.map TOut.item) w1.cancelled cfg.opts with
        | error e =>
          have : pipeRunResult cfg (some l) true w1 r = (.exc e, w1, r) := by
            refine (bind_ok (a := w1) (w' := w1) (evs' := r) rfl).trans ?_
            simp only [hp]; rfl
          rw [bind_exc this]
          simp only [hp]
        | ok res =>
          have : pipeRunResult cfg (some l) true w1 r = (.ok res, w1, r) := by
            refine (bind_ok (a := w1) (w' := w1) (evs' := r) rfl).trans ?_
            simp only [hp]; rfl
          rw [bind_ok this]
          by_cases hr : cfg.opts.returnResult = true
          · simp only [hp, hr, if_true]; rfl
          · simp only [hp, if_neg hr]
            cases cfg.decode res.outputBytes res.encoding <;> rfl

theorem pstable_true : PStable fun _ => True where
  env _ _ _ _ := trivial
  throw _ _ := trivial
  log _ _ _ _ := trivial
  cancelTask _ _ _ := trivial
  create _ _ _ _ := trivial
  mine _ _ _ := trivial
  setCancelled _ _ := trivial
  mark _ _ _ _ := trivial

theorem phase (how : PHow) (cfg : PRCfg) (w : W) (hf : w.Fresh) (evs : List Ev) : Phase how cfg w evs := by
  cases pipeAenter_phase how cfg w hf evs with
  | setup e hs h =>
    refine .setup e hs fun more => ?_
    rw [pipeExecute_eq, withPipe_enter_exc (h more)]
    rfl
  | launching w1 hs hh q h hw =>
    refine .launching w1 hs hh q ?_ hw
    rw [pipeExecute_eq, withPipe_enter_blocked h]
    rfl
  | interrupted w1 rest hs hh q hm h =>
    refine .interrupted w1 rest hs hh q hm fun more => ?_
    rw [pipeExecute_eq]
    have := h more
    rcases hx : harvestResults (commands how cfg) false true w1.interrupted (rest ++ more) with ⟨o, w2, r⟩
    rw [hx] at this
    cases o with
    | ok x => obtain ⟨c, l⟩ := x; rw [withPipe_enter_exc this]; rfl
    | exc e => rw [withPipe_enter_exc this]; rfl
    | blocked => rw [withPipe_enter_blocked this]; rfl
  | ok w1 rest hs q ha hb h =>
    have hbody : ∀ evs, BodyRel (w1.log .bodyStart) (pipeBody how (w1.log .bodyStart) evs).2.1 := by
      intro evs
      cases how with
      | await => exact .refl _
      | block => exact userBody_bodyRel _ evs
    have hdet : Det (attempt (pipeBody how)) := by
      cases how with
      | await => exact (Pres.attempt (I := fun _ => True) (.pure _)).det
      | block => exact (Pres.attempt (pstable_true.userBody)).det
    have hrel : BodyRel (w1.log .bodyStart) (attempt (pipeBody how) (w1.log .bodyStart) rest).2.1 := by
      have := hbody rest
      unfold attempt
      rcases hy : pipeBody how (w1.log .bodyStart) rest with ⟨o, w2, r⟩
      rw [hy] at this
      cases o <;> exact this
    have hawait : how = .await → attempt (pipeBody how) (w1.log .bodyStart) rest = (.ok none, w1.log .bodyStart, rest) := by
      intro h; subst h; rfl
    have hd := hdet (w1.log .bodyStart) rest
    rcases hx : attempt (pipeBody how) (w1.log .bodyStart) rest with ⟨o, w2, r⟩
    rw [hx] at hrel hd hawait
    have hne : ∀ e, o ≠ .exc e := by
      intro e he
      subst he
      unfold attempt at hx
      rcases hy : pipeBody how (w1.log .bodyStart) rest with ⟨o, w2, r⟩
      rw [hy] at hx
      cases o <;> cases hx
    cases o with
    | exc e => exact absurd rfl (hne e)
    | blocked =>
      cases how with
      | await => have := hawait rfl; cases this
      | block =>
        refine .body w1 w2 hs rfl q ⟨(hb rfl).1, (hb rfl).2.1⟩ hrel ?_
        have h0 := h []
        rw [List.append_nil, List.append_nil] at h0
        rw [pipeExecute_eq, withPipe_body_blocked h0 hx]
        rfl
    | ok ex =>
      refine .exiting w1 w2 ex r hs q ?_ (fun hh => ⟨(hb hh).1, (hb hh).2.1⟩) hrel fun more => ?_
      · intro hh
        have := hawait hh
        cases this
        refine ⟨ha hh, rfl, rfl, ?_⟩
        subst hh
        have := h []
        rw [ha rfl] at this
        have hs' : pipeAenter cfg false w (evs ++ []) = (.ok (), w.piped .await cfg, evs ++ []) := by
          unfold pipeAenter
          refine catch_ok ?_
          unfold pipeStartRun
          rw [bind_ok (a := ()) (w' := w) (evs' := evs ++ []) (by rw [hs]; rfl)]
          simp only [Bool.false_eq_true, if_false]
          rw [addTasks_eq]
          simp [W.piped, hf.tasks, hf.mine, readyFutures, commands]
        simp only [reduceCtorEq, decide_false] at this
        rw [hs'] at this
        simpa using (congrArg (fun x => x.2.2) this).symm
      · rw [pipeExecute_eq, withPipe_body (h more) (hd.2 (by simp) more)]
        have hmine : w2.mine = commands how cfg := hrel.ext.mine.trans q.toExt.mine
        rw [hmine]
        rcases harvestResults (commands how cfg) false true ((w2.log (.bodyEnd ex)).atExit ex) (r ++ more) with ⟨o, w3, r3⟩
        cases o with
        | ok x =>
          obtain ⟨c, l⟩ := x
          cases ex with
          | none => rfl
          | some e =>
            simp only [pipeEnd]
            split <;> rfl
        | exc e => rfl
        | blocked => rfl

end Shellous
