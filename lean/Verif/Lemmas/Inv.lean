import Verif.Lemmas.Harvest
import Verif.Model.Run

/-!
# Invariants of the world
-/

namespace Shellous

variable {α β : Type}

/-- Log items of the inside of a run: neither the audit brackets nor the marks of the with-body. -/
def Obs.inner : Obs → Bool
  | .auditStart => false
  | .auditStop _ => false
  | .bodyStart => false
  | .bodyEnd _ => false
  | _ => true

theorem Obs.inner_of_quiet {o : Obs} (h : o.quiet = true) : o.inner = true := by
  cases o <;> simp_all [quiet, inner]

/-- Log messages: neither audit callbacks, nor signals, nor marks. -/
def Obs.note : Obs → Bool
  | .thrown => true
  | .gaveUp => true
  | .cleanupCancelled => true
  | .unableToKill => true
  | .stillRunning => true
  | .closeTimeout => true
  | _ => false

theorem Obs.inner_of_note {o : Obs} (h : o.note = true) : o.inner = true := by
  cases o <;> simp_all [note, inner]

/-- How a coroutine uses its events: it is suspended only when they have run out, and once it has ended
further events do not change what it did. -/
def Det (c : Coro α) : Prop := ∀ w evs,
  ((c w evs).1 = .blocked → (c w evs).2.2 = []) ∧
    ((c w evs).1 ≠ .blocked → ∀ more, c w (evs ++ more) = ((c w evs).1, (c w evs).2.1, (c w evs).2.2 ++ more))

/-- Running `c` keeps `I`, from its start (`run`) and from every point where it is suspended
(`resume`). -/
structure Pres (I : W → Prop) (c : Coro α) : Prop where
  run : ∀ w, I w → wp c (fun _ w' => I w') w
  det : Det c
  resume : ∀ w evs more, (c w evs).1 = .blocked → I (c w evs).2.1 → I (c w (evs ++ more)).2.1

instance {I : W → Prop} {c : Coro α} : CoeFun (Pres I c) (fun _ => ∀ w, I w → wp c (fun _ w' => I w') w) :=
  ⟨Pres.run⟩

/-- A coroutine that never suspends. -/
theorem Pres.atomic {I : W → Prop} {c : Coro α} (f : W → Out α × W) (hf : ∀ w, (f w).1 ≠ .blocked)
    (hc : ∀ w evs, c w evs = ((f w).1, (f w).2, evs)) (hI : ∀ w, I w → I (f w).2) : Pres I c where
  run w h evs := by rw [hc]; exact hI w h
  det w evs := by
    constructor
    · rw [hc]; intro h; exact absurd h (hf w)
    · intro _ more; rw [hc, hc]
  resume w evs more h := by rw [hc] at h; exact absurd h (hf w)

section rules
variable {I : W → Prop}

theorem Pres.pure (a : α) : Pres I (Coro.pure a) :=
  .atomic (fun w => (.ok a, w)) (by simp) (fun _ _ => rfl) fun _ h => h
theorem Pres.raise (e : Exc) : Pres I (Coro.raise e : Coro α) :=
  .atomic (fun w => (.exc e, w)) (by simp) (fun _ _ => rfl) fun _ h => h
theorem Pres.get : Pres I Coro.get :=
  .atomic (fun w => (.ok w, w)) (by simp) (fun _ _ => rfl) fun _ h => h
theorem Pres.upd {f : W → W} (hf : ∀ w, I w → I (f w)) : Pres I (Coro.upd f) :=
  .atomic (fun w => (.ok (), f w)) (by simp) (fun _ _ => rfl) hf
theorem Pres.when {b : Bool} {c : Coro Unit} (hc : Pres I c) : Pres I (Coro.when b c) := by
  unfold Coro.when; split
  · exact hc
  · exact .pure _
theorem Pres.ite {p : Prop} [Decidable p] {c d : Coro α} (hc : Pres I c) (hd : Pres I d) :
    Pres I (if p then c else d) := by split <;> assumption

theorem Pres.bind {c : Coro α} {f : α → Coro β} (hc : Pres I c) (hf : ∀ a, Pres I (f a)) :
    Pres I (c >>= f) where
  run w h := wp_bind (wp_mono (hc w h) fun o w' h' => by
    cases o with
    | ok a => exact hf a w' h'
    | exc e => exact h'
    | blocked => exact h')
  det w evs := by
    obtain ⟨h1, h2⟩ := hc.det w evs
    change ((Coro.bind c f w evs).1 = _ → (Coro.bind c f w evs).2.2 = _) ∧
      ((Coro.bind c f w evs).1 ≠ _ → ∀ more, Coro.bind c f w (evs ++ more) =
        ((Coro.bind c f w evs).1, (Coro.bind c f w evs).2.1, (Coro.bind c f w evs).2.2 ++ more))
    unfold Coro.bind
    rcases hr : c w evs with ⟨o, w', r⟩
    rw [hr] at h1 h2
    cases o with
    | blocked => exact ⟨fun _ => h1 rfl, fun h => absurd rfl h⟩
    | exc e =>
      refine ⟨fun h => (by cases h), fun _ more => ?_⟩
      have := h2 (by simp) more
      simp only [] at this
      rw [this]
    | ok a =>
      obtain ⟨g1, g2⟩ := (hf a).det w' r
      refine ⟨g1, fun h more => ?_⟩
      have := h2 (by simp) more
      simp only [] at this
      rw [this]
      exact g2 h more
  resume w evs more := by
    have h2 := hc.det w evs
    change (Coro.bind c f w evs).1 = _ → I (Coro.bind c f w evs).2.1 → I (Coro.bind c f w (evs ++ more)).2.1
    unfold Coro.bind
    have hres := hc.resume w evs more
    rcases hr : c w evs with ⟨o, w', r⟩
    rw [hr] at h2 hres
    cases o with
    | blocked =>
      intro _ hi
      have := hres rfl hi
      rcases hr2 : c w (evs ++ more) with ⟨o2, w2, r2⟩
      rw [hr2] at this
      cases o2 with
      | ok a => exact (hf a).run w2 this r2
      | exc e => exact this
      | blocked => exact this
    | exc e => intro h; cases h
    | ok a =>
      intro h hi
      have := h2.2 (by simp) more
      simp only [] at this
      rw [this]
      exact (hf a).resume w' r more h hi

theorem Pres.catch {c : Coro α} {f : Exc → Coro α} (hc : Pres I c) (hf : ∀ e, Pres I (f e)) :
    Pres I (Coro.catch_ c f) where
  run w h := wp_catch (wp_mono (hc w h) fun o w' h' => by
    cases o with
    | ok a => exact h'
    | exc e => exact hf e w' h'
    | blocked => exact h')
  det w evs := by
    obtain ⟨h1, h2⟩ := hc.det w evs
    unfold Coro.catch_
    rcases hr : c w evs with ⟨o, w', r⟩
    rw [hr] at h1 h2
    cases o with
    | blocked => exact ⟨fun _ => h1 rfl, fun h => absurd rfl h⟩
    | ok a =>
      refine ⟨fun h => (by cases h), fun _ more => ?_⟩
      have := h2 (by simp) more
      simp only [] at this
      rw [this]
    | exc e =>
      obtain ⟨g1, g2⟩ := (hf e).det w' r
      refine ⟨g1, fun h more => ?_⟩
      have := h2 (by simp) more
      simp only [] at this
      rw [this]
      exact g2 h more
  resume w evs more := by
    have h2 := hc.det w evs
    unfold Coro.catch_
    have hres := hc.resume w evs more
    rcases hr : c w evs with ⟨o, w', r⟩
    rw [hr] at h2 hres
    cases o with
    | blocked =>
      intro _ hi
      have := hres rfl hi
      rcases hr2 : c w (evs ++ more) with ⟨o2, w2, r2⟩
      rw [hr2] at this
      cases o2 with
      | ok a => exact this
      | exc e => exact (hf e).run w2 this r2
      | blocked => exact this
    | ok a => intro h; cases h
    | exc e =>
      intro h hi
      have := h2.2 (by simp) more
      simp only [] at this
      rw [this]
      exact (hf e).resume w' r more h hi

/-- A `finally` is a catch. -/
theorem finally_eq (c : Coro α) (f : Coro Unit) : Coro.finally_ c f =
    (Coro.bind (Coro.catch_ (Coro.bind c fun a => Coro.pure (Sum.inl a)) fun e => Coro.pure (Sum.inr e))
      fun s => match s with
        | .inl a => f.bind fun _ => Coro.pure a
        | .inr e => f.bind fun _ => Coro.raise e) := by
  funext w evs
  unfold Coro.finally_ Coro.bind Coro.catch_
  simp only []
  rcases c w evs with ⟨o, w', r⟩
  cases o <;> rfl

theorem Pres.finally {c : Coro α} {f : Coro Unit} (hc : Pres I c) (hf : Pres I f) :
    Pres I (Coro.finally_ c f) := by
  rw [finally_eq]
  refine Pres.bind (.catch (Pres.bind hc fun a => .pure _) fun e => .pure _) fun s => ?_
  cases s with
  | inl a => exact Pres.bind hf fun _ => .pure _
  | inr e => exact Pres.bind hf fun _ => .raise _

/-- A suspended `await` goes on from where it is. -/
theorem waitLoop_goOn (fwd : Option Nat) (ready : W → Bool) (timed exp : Bool) (w : W) (evs more : List Ev) :
    ((waitLoop fwd ready timed exp w evs).1 = .blocked → (waitLoop fwd ready timed exp w evs).2.2 = [] ∧
      ∃ exp', waitLoop fwd ready timed exp w (evs ++ more) =
        waitLoop fwd ready timed exp' (waitLoop fwd ready timed exp w evs).2.1 more) ∧
    ((waitLoop fwd ready timed exp w evs).1 ≠ .blocked → waitLoop fwd ready timed exp w (evs ++ more) =
      ((waitLoop fwd ready timed exp w evs).1, (waitLoop fwd ready timed exp w evs).2.1,
        (waitLoop fwd ready timed exp w evs).2.2 ++ more)) := by
  induction evs generalizing w exp with
  | nil => exact ⟨fun _ => ⟨rfl, exp, rfl⟩, fun h => absurd rfl h⟩
  | cons ev evs ih =>
    rw [List.cons_append]
    cases ev
    case resume =>
      have eq : ∀ evs, waitLoop fwd ready timed exp w (.resume :: evs) =
          if w.mustCancel then (.exc .cancelled, w.throwCancel, evs)
          else if ready w || exp then (.ok (), w, evs)
          else waitLoop fwd ready timed exp w evs := fun _ => rfl
      rw [eq, eq]
      split
      · exact ⟨fun h => (by cases h), fun _ => rfl⟩
      · split
        · exact ⟨fun h => (by cases h), fun _ => rfl⟩
        · exact ih _ w
    case timeout => exact ih _ w
    all_goals exact ih _ _

/-- Invariants that no event and no step of `harvest` can break. -/
structure Stable (I : W → Prop) : Prop where
  env : ∀ fwd w ev, I w → I (w.env fwd ev)
  throw : ∀ w, I w → I w.throwCancel
  log : ∀ w o, o.note = true → I w → I (w.log o)
  cancelTask : ∀ w i, I w → I (w.cancelTask i)

variable (hI : Stable I)
include hI

theorem Stable.envs {fwd : Option Nat} {w w' : W} (h : Envs fwd w w') (hw : I w) : I w' := by
  induction h with
  | refl => exact hw
  | step w ev w' _ ih => exact ih (hI.env _ _ _ hw)

theorem Stable.cancelAll (ids : List Nat) (w : W) (hw : I w) : I (w.cancelAll ids) := by
  unfold W.cancelAll
  induction ids generalizing w with
  | nil => exact hw
  | cons i ids ih => exact ih _ (hI.cancelTask _ _ hw)

theorem Stable.wait (ready : W → Bool) (timed : Bool) (fwd : Option Nat) :
    Pres I (wait ready timed fwd) where
  run _ h :=
    wp_wait (fun _ e _ => hI.throw _ (hI.envs e h)) (fun _ e _ _ => hI.envs e h) (fun _ e => hI.envs e h)
  det w evs :=
    ⟨fun h => ((waitLoop_goOn fwd ready timed false w evs []).1 h).1,
      fun h more => (waitLoop_goOn fwd ready timed false w evs more).2 h⟩
  resume w evs more hb hi := by
    obtain ⟨exp', he⟩ := ((waitLoop_goOn fwd ready timed false w evs more).1 hb).2
    have key : ∀ exp w evs, I w → I (waitLoop fwd ready timed exp w evs).2.1 := by
      intro exp w evs
      induction evs generalizing exp w with
      | nil => exact id
      | cons ev evs ih =>
        intro h
        cases ev
        case resume =>
          unfold waitLoop
          split
          · exact hI.throw _ h
          · split
            · exact h
            · exact ih _ _ h
        case timeout => exact ih _ _ h
        all_goals exact ih _ _ (hI.env _ _ _ h)
    change I (waitLoop fwd ready timed false w (evs ++ more)).2.1
    rw [he]
    exact key _ _ _ hi

theorem Stable.sleep0 : Pres I sleep0 := hI.wait _ _ _

theorem Stable.taskResult (i : Nat) : Pres I (taskResult i) := by
  refine .atomic (fun w => ((Shellous.taskResult i w []).1, w)) ?_ ?_ fun _ h => h
  · intro w; unfold Shellous.taskResult; split <;> simp
  · intro w evs; unfold Shellous.taskResult; split <;> rfl

theorem Stable.awaitTask (i : Nat) : Pres I (awaitTask i) :=
  .bind .get fun _ => .bind (.when (hI.wait _ _ _)) fun _ => .bind .get fun _ =>
    .bind (.when (.upd fun w h => hI.log w _ rfl h)) fun _ => hI.taskResult i

theorem Stable.asyncWait (ids : List Nat) (timed fe : Bool) : Pres I (asyncWait ids timed fe) := by
  unfold Shellous.asyncWait
  exact .ite (.raise _) (hI.wait _ _ _)

theorem Stable.cancelWaiter (ids : List Nat) (timed : Bool) : Pres I (cancelWaiter ids timed) :=
  .bind (hI.asyncWait _ _ _) fun _ => .bind .get fun _ => .ite
    (.bind (.upd fun w h => hI.cancelAll _ _ (hI.log w _ rfl h)) fun _ => .raise _) (.pure _)

theorem Stable.cancelWait (ids : List Nat) (timed cf : Bool) : Pres I (cancelWait ids timed cf) :=
  .catch (.bind (.when (.upd fun w h => hI.cancelAll _ _ h)) fun _ => hI.cancelWaiter _ _) fun _ =>
    .ite (.bind (.upd fun w h => hI.log w _ rfl h) fun _ => hI.cancelWaiter _ _) (.raise _)

omit hI in
theorem Pres.consume (ids : List Nat) : Pres I (consumeExceptions ids) :=
  .bind .get fun _ => .ite (.pure _) (.raise _)

theorem Stable.harvestWait (ids : List Nat) (timed ct cf : Bool) :
    Pres I (harvestWait ids timed ct cf) := by
  refine .bind (.catch (.bind (hI.asyncWait _ _ _) fun _ => .bind .get fun _ => .pure _) fun e => .ite
    (.bind (hI.cancelWait _ _ _) fun _ => .bind (.consume _) fun _ => .raise _) (.raise _)) fun p => ?_
  exact .bind (.when (hI.cancelWait _ _ _)) fun _ => .bind .get fun _ => .ite (.raise _)
    (.ite (.bind (.consume _) fun _ => .raise _) (.pure _))

theorem Stable.raiseFirst (ids : List Nat) : Pres I (raiseFirst ids) := by
  induction ids with
  | nil => exact .pure _
  | cons i ids ih =>
    exact .bind .get fun _ => .ite ih (.bind (hI.taskResult i) fun _ => ih)

theorem Stable.harvest (ids : List Nat) (timed ct cf : Bool) : Pres I (harvest ids timed ct cf) :=
  .bind (hI.harvestWait _ _ _ _) fun _ => .bind (.consume _) fun _ => hI.raiseFirst ids

end rules

/-- Invariants that no step of `Runner._wait` and `Runner._kill` can break. -/
structure KStable (I : W → Prop) : Prop extends Stable I where
  create : ∀ (w : W) k, k ≠ .spawn → I w → I { w with tasks := w.tasks ++ [{ kind := k }] }
  signal : ∀ w s, I w → I (w.signal false s)
  setCancelled : ∀ w, I w → I w.setCancelled
  stop : ∀ w, I w → I w.stopTimer
  mine : ∀ (w : W) m, I w → I { w with mine := m }
  poll : ∀ w, I w → I w.pollWaitPid.2

/-- Invariants that no step of `Runner` after the launch can break. -/
structure RStable (I : W → Prop) : Prop extends KStable I where
  close : ∀ w, I w → I w.transportClose

section rrules
variable {I : W → Prop} (hI : KStable I)
include hI

theorem KStable.createTask {k : TaskKind} (hk : k ≠ .spawn) : Pres I (createTask k) := 
  .atomic (fun w => (.ok w.tasks.length, { w with tasks := w.tasks ++ [{ kind := k }] })) (by simp) (fun _ _ => rfl)
    fun w h => hI.create w k hk h

theorem KStable.addTask {k : TaskKind} (hk : k ≠ .spawn) : Pres I (addTask k) :=
  .bind (hI.createTask hk) fun _ => .upd fun w h => hI.mine w _ h

theorem KStable.addTasks (n : Nat) : Pres I (addTasks n) := by
  induction n with
  | zero => exact .pure _
  | succ n ih => exact .bind (hI.addTask (by simp)) fun _ => ih

omit hI in
theorem Pres.raiseOpt (e : Option Exc) : Pres I (raiseOpt e) := by
  cases e
  · exact .pure _
  · exact .raise _

omit hI in
theorem Pres.runResult (cfg : RCfg) (check : Bool) : Pres I (runResult cfg check) := by
  refine .bind .get fun w => ?_
  split
  · exact .pure _
  · exact .raise _

theorem KStable.killWaitExpired : Pres I killWaitExpired :=
  .bind .get fun _ => .ite (.upd fun w h => hI.poll w h)
    (.bind (.upd fun w h => hI.log w _ rfl h) fun _ => .raise _)

theorem KStable.killWait : Pres I killWait := by
  refine .bind .get fun _ => .when (.catch ?_ fun e => .ite hI.killWaitExpired (.raise _))
  exact .bind (.upd fun w h => hI.signal w _ h) fun _ => .bind (hI.createTask (by simp)) fun _ =>
    hI.harvest _ _ _ _

theorem KStable.killTry (cfg : RCfg) : Pres I (killTry cfg) :=
  .bind .get fun _ => .bind (.when (.upd fun w h => hI.signal w _ h)) fun _ =>
    .bind (.when (hI.harvest _ _ _ _)) fun _ => .bind .get fun _ =>
      .when (.bind (hI.createTask (by simp)) fun _ => hI.harvest _ _ _ _)

theorem KStable.kill (cfg : RCfg) : Pres I (kill cfg) :=
  .catch (hI.killTry cfg) fun _ => .ite
    (.bind (.when (.upd fun w h => hI.setCancelled w h)) fun _ => hI.killWait)
    (.bind hI.killWait fun _ => .raise _)

theorem KStable.waitTry (cfg : RCfg) : Pres I (waitTry cfg) :=
  .bind .get fun _ => .bind (.when (hI.harvest _ _ _ _)) fun _ => .when (.finally
    (.bind (.upd fun _ h => hI.env _ _ _ (hI.env _ _ _ h)) fun _ => .bind .get fun _ => .when (hI.wait _ _ _))
    (.upd fun w h => hI.stop w h))

theorem KStable.waitRun (cfg : RCfg) : Pres I (waitRun cfg) :=
  .catch (hI.waitTry cfg) fun _ => .ite
    (.bind (.upd fun w h => hI.mine _ _ (hI.setCancelled w h)) fun _ => hI.kill cfg)
    (.bind (.upd fun w h => hI.mine _ _ h) fun _ => .bind (hI.kill cfg) fun _ => .raise _)

theorem KStable.finishTry (cfg : RCfg) (ex : Option Exc) : Pres I (finishTry cfg ex) := by
  cases ex with
  | none => exact .bind (hI.waitRun cfg) fun _ => .pure _
  | some e =>
    exact .bind (.when (.upd fun w h => hI.setCancelled w h)) fun _ => .bind (hI.kill cfg) fun _ =>
      .bind .get fun _ => .pure _

omit hI in
theorem RStable.closeRun (hI : RStable I) (cfg : RCfg) : Pres I (closeRun cfg) :=
  .bind (.upd fun w h => hI.close w h) fun _ => .bind .get fun _ => .ite
    (.upd fun w h => hI.log w _ rfl h)
    (.when (.catch (.bind (hI.createTask (by simp)) fun _ => hI.harvest _ _ _ _) fun _ =>
      .ite (.upd fun w h => hI.log w _ rfl h) (.raise _)))

omit hI in
theorem RStable.finish (hI : RStable I) (cfg : RCfg) (ex : Option Exc) : Pres I (finish cfg ex) :=
  .finally (hI.finishTry cfg ex) (hI.closeRun cfg)

end rrules

/-! ## The basic invariant -/

/-- What the outcome of a task of each kind tells about the world. -/
def TaskOk (w : W) (t : TaskSt) : Prop :=
  match t.out with
  | none => True
  | some (.val _) => match t.kind with
    | .waiter => w.rcKnown = true
    | .spawn => w.attached = true
    | _ => True
  | some (.err e) => e ≠ .cancelled ∧ match t.kind with
    | .waiter => False
    | .spawn => w.proc = none ∨ w.rcKnown = true
    | _ => True
  | some .cancelled => match t.kind with
    | .waiter => 0 < t.cancels
    | .spawn => 0 < t.cancels ∧ (w.proc = none ∨ w.rcKnown = true ∨ 1 < t.cancels)
    | _ => True

structure W.Ok (w : W) : Prop where
  task : ∀ (i : Nat) (t : TaskSt), w.tasks[i]? = some t → TaskOk w t
  one : ∀ (i j : Nat) (t u : TaskSt), w.tasks[i]? = some t → w.tasks[j]? = some u → t.kind = .spawn → u.kind = .spawn → i = j
  attached : w.attached = true → ∃ p, w.proc = some p
  proc : ∀ p, w.proc = some p → (p.rc.isSome = true → p.reaped.isSome = true) ∧
    (p.reaped.isSome = true → p.exited.isSome = true)

/-- What `TaskOk` depends on only grows. -/
theorem TaskOk.mono {w w' : W} {t : TaskSt} (h : TaskOk w t) (hr : w.rcKnown = true → w'.rcKnown = true)
    (ha : w.attached = true → w'.attached = true)
    (hp : t.kind = .spawn → t.out.isSome = true → w.proc = none → w'.proc = none) : TaskOk w' t := by
  unfold TaskOk at *
  split at h
  · trivial
  · split at h
    · exact hr h
    · exact ha h
    · trivial
  · rename_i ho
    refine ⟨h.1, ?_⟩
    have h := h.2
    split at h
    · exact h
    · rename_i hk
      exact h.imp (hp hk (by rw [ho]; rfl)) hr
    · trivial
  · split at h
    · exact h
    · rename_i ho _ hk
      exact ⟨h.1, h.2.imp (hp hk (by rw [ho]; rfl)) (Or.imp_left hr)⟩
    · trivial

/-- Changes that leave tasks, process and attachment alone. -/
theorem W.Ok.same {w w' : W} (h : w.Ok) (ht : w'.tasks = w.tasks) (hp : w'.proc = w.proc)
    (ha : w'.attached = w.attached) : w'.Ok where
  task i t hi := by
    rw [ht] at hi
    exact (h.task i t hi).mono (by unfold W.rcKnown; rw [hp]; exact id) (by rw [ha]; exact id)
      (fun _ _ hn => by rw [hp]; exact hn)
  one := by rw [ht]; exact h.one
  attached := by rw [ha, hp]; exact h.attached
  proc := by rw [hp]; exact h.proc

/-- Changes of the process that keep what is known. -/
theorem W.Ok.procUpd {w w' : W} {p p' : Proc} (h : w.Ok) (ht : w'.tasks = w.tasks) (hp : w.proc = some p)
    (hp' : w'.proc = some p') (ha : w'.attached = w.attached) (hr : p.rc.isSome = true → p'.rc.isSome = true)
    (h1 : p'.rc.isSome = true → p'.reaped.isSome = true)
    (h2 : p'.reaped.isSome = true → p'.exited.isSome = true) : w'.Ok where
  task i t hi := by
    rw [ht] at hi
    refine (h.task i t hi).mono (by unfold W.rcKnown; rw [hp, hp']; exact hr) (by rw [ha]; exact id) ?_
    intro _ _ hn; rw [hp] at hn; cases hn
  one := by rw [ht]; exact h.one
  attached _ := ⟨p', hp'⟩
  proc q hq := by rw [hp'] at hq; cases hq; exact ⟨h1, h2⟩

theorem TaskOk.cancel {w : W} {t : TaskSt} (h : TaskOk w t) : TaskOk w t.cancel := by
  unfold TaskSt.cancel
  split
  · exact h
  · rename_i hn
    unfold TaskOk
    simp only [Option.not_isSome_iff_eq_none] at hn
    simp [hn]

theorem W.Ok.modify {w : W} (h : w.Ok) (i : Nat) (f : TaskSt → TaskSt)
    (hk : ∀ t, (f t).kind = t.kind) (hf : ∀ t, w.tasks[i]? = some t → TaskOk w (f t)) :
    W.Ok { w with tasks := w.tasks.modify i f } where
  task j t hj := by
    simp only [List.getElem?_modify] at hj
    cases ht : w.tasks[j]? with
    | none => rw [ht] at hj; simp at hj
    | some u =>
      rw [ht] at hj
      simp only [Option.map_eq_map, Option.map_some, Option.some.injEq] at hj
      subst hj
      have : TaskOk w (if i = j then f u else u) := by
        split
        · rename_i hij; subst hij; exact hf u ht
        · exact h.task j u ht
      exact this
  one a b t u ha hb hta hub := by
    simp only [List.getElem?_modify] at ha hb
    cases hta' : w.tasks[a]? with
    | none => rw [hta'] at ha; simp at ha
    | some t' =>
      cases hub' : w.tasks[b]? with
      | none => rw [hub'] at hb; simp at hb
      | some u' =>
        rw [hta'] at ha
        rw [hub'] at hb
        simp only [Option.map_eq_map, Option.map_some, Option.some.injEq] at ha hb
        refine h.one a b t' u' hta' hub' ?_ ?_
        · rw [← hta, ← ha]; split <;> simp [hk]
        · rw [← hub, ← hb]; split <;> simp [hk]
  attached := h.attached
  proc := h.proc

theorem W.Ok.append {w : W} (h : w.Ok) (k : TaskKind)
    (hk : k = .spawn → ∀ (i : Nat) (t : TaskSt), w.tasks[i]? = some t → t.kind ≠ .spawn) :
    W.Ok { w with tasks := w.tasks ++ [{ kind := k }] } where
  task j t hj := by
    simp only [List.getElem?_append] at hj
    split at hj
    · exact h.task j t hj
    · have ht : t = { kind := k } := by
        cases hn : j - w.tasks.length with
        | zero => rw [hn] at hj; simpa using hj.symm
        | succ n => rw [hn] at hj; simp at hj
      subst ht
      unfold TaskOk
      simp
  one a b t u ha hb hta hub := by
    have key : ∀ j (v : TaskSt), (w.tasks ++ [({ kind := k } : TaskSt)])[j]? = some v →
        w.tasks[j]? = some v ∨ (j = w.tasks.length ∧ v.kind = k) := by
      intro j v hj
      rw [List.getElem?_append] at hj
      split at hj
      · exact .inl hj
      · rename_i hlt
        cases hn : j - w.tasks.length with
        | zero => rw [hn] at hj; simp at hj; exact .inr ⟨by omega, by rw [← hj]⟩
        | succ n => rw [hn] at hj; simp at hj
    rcases key a t ha with h1 | ⟨h1, h1'⟩ <;> rcases key b u hb with h2 | ⟨h2, h2'⟩
    · exact h.one a b t u h1 h2 hta hub
    · exact absurd hta (hk (h2' ▸ hub) a t h1)
    · exact absurd hub (hk (h1' ▸ hta) b u h2)
    · omega
  attached := h.attached
  proc := h.proc

theorem signalReaps_ok {p : Proc} (h1 : p.rc.isSome = true → p.reaped.isSome = true)
    (h2 : p.reaped.isSome = true → p.exited.isSome = true) :
    (p.signalReaps.rc = p.rc) ∧ (p.signalReaps.rc.isSome = true → p.signalReaps.reaped.isSome = true) ∧
    (p.signalReaps.reaped.isSome = true → p.signalReaps.exited.isSome = true) ∧
    (p.signalReaps.exited = p.exited) := by
  unfold Proc.signalReaps
  split <;> simp_all

theorem signal_ok {w : W} (h : w.Ok) (b : Bool) (s : Option Nat) : (w.signal b s).Ok := by
  unfold W.signal
  split
  · exact h
  · rename_i p hp
    obtain ⟨h1, h2⟩ := h.proc p hp
    obtain ⟨e1, e2, e3, _⟩ := signalReaps_ok h1 h2
    refine h.procUpd (p := p) (p' := p.signalReaps) ?_ hp rfl ?_ (by rw [e1]; exact id) e2 e3
    · simp only []; split <;> rfl
    · simp only []; split <;> rfl

theorem transportClose_ok {w : W} (h : w.Ok) : w.transportClose.Ok := by
  unfold W.transportClose
  split
  · exact h
  · rename_i p hp
    split
    · exact h
    · obtain ⟨h1, h2⟩ := h.proc p hp
      obtain ⟨e1, e2, e3, _⟩ := signalReaps_ok h1 h2
      refine h.procUpd (p := p) (p' := p.signalReaps) ?_ hp rfl ?_ (by rw [e1]; exact id) e2 e3
      · simp only []; split <;> rfl
      · simp only []; split <;> rfl

theorem pollWaitPid_ok {w : W} (h : w.Ok) : w.pollWaitPid.2.Ok := by
  unfold W.pollWaitPid
  split
  · exact h
  · rename_i p hp
    split
    · exact h
    · split
      · exact h
      · rename_i he hr
        refine h.procUpd (p := p) rfl hp rfl rfl ?_ ?_ ?_ <;> simp [he]
      · rename_i he hr
        refine h.procUpd (p := p) rfl hp rfl rfl ?_ ?_ ?_ <;> simp [he, hr]

theorem cancelTask_ok {w : W} (h : w.Ok) (i : Nat) : (w.cancelTask i).Ok :=
  h.modify i _ (fun t => by unfold TaskSt.cancel; split <;> rfl) fun t ht => (h.task i t ht).cancel

theorem cancelCaller_ok {w : W} (h : w.Ok) (fwd : Option Nat) : (w.cancelCaller fwd).Ok := by
  unfold W.cancelCaller
  split
  · split
    · exact h.same rfl rfl rfl
    · exact cancelTask_ok (w := { w with cancels := w.cancels + 1 }) (h.same rfl rfl rfl) _
  · exact h.same rfl rfl rfl

theorem TOut.norm_ne (o : TOut) : o.norm ≠ .err .cancelled := by
  unfold TOut.norm
  split
  · simp
  · rename_i h; intro he; exact h he

theorem env_ok {w : W} (h : w.Ok) (fwd : Option Nat) (ev : Ev) : (w.env fwd ev).Ok := by
  unfold W.env
  split
  · -- taskDone
    rename_i i out
    split
    · exact h
    · rename_i t ht
      split
      · rename_i hc
        rw [Bool.and_eq_true] at hc
        obtain ⟨hn, hm⟩ := hc
        have hne := out.norm_ne
        generalize out.norm = out at *
        -- the effect of a task's end
        have hE : (w.endEffect t.kind out).Ok := by
          unfold W.endEffect
          split
          · exact h.same rfl rfl rfl
          · split
            · rename_i hk _ r
              unfold W.mayEnd at hm
              rw [hk] at hm
              simp only [Option.isSome_iff_exists] at hm
              refine ⟨fun j u hj => (h.task j u hj).mono id (fun _ => rfl) (fun _ _ hp => hp), h.one,
                fun _ => hm, h.proc⟩
            · exact h
          · exact h
        unfold W.setOut
        refine hE.modify i _ (fun _ => rfl) ?_
        intro u hu
        rw [endEffect_tasks, ht] at hu
        cases hu
        unfold W.mayEnd at hm
        unfold TaskOk W.endEffect
        cases out with
        | val r => cases hk : t.kind <;> simp_all [W.rcKnown, W.stopTimer]
        | err e =>
          have he : e ≠ .cancelled := fun he => hne (by rw [he])
          cases hk : t.kind <;> simp_all
        | cancelled => cases hk : t.kind <;> simp_all [or_assoc]
      · exact h
  · -- taskDrop
    rename_i i
    split
    · exact h
    · rename_i t ht
      split
      · rename_i hc
        simp only [Bool.and_eq_true, Bool.or_eq_true, decide_eq_true_eq, bne_iff_ne] at hc
        refine h.modify i _ (fun _ => rfl) ?_
        intro u hu
        rw [ht] at hu
        cases hu
        unfold TaskOk
        simp only []
        split
        · exact hc.1.2
        · rename_i hk
          refine ⟨hc.1.2, ?_⟩
          rcases hc.2 with h | h
          · exact absurd hk h
          · exact .inl (by simpa using h)
        · trivial
      · exact h
  · -- fork
    split
    · rename_i hc
      rw [Bool.and_eq_true] at hc
      obtain ⟨hs, hn⟩ := hc
      unfold W.spawning at hs
      rw [List.any_eq_true] at hs
      obtain ⟨t, ht, hs⟩ := hs
      rw [Bool.and_eq_true] at hs
      obtain ⟨k, hk⟩ := List.mem_iff_getElem?.1 ht
      refine ⟨?_, h.one, fun _ => ⟨_, rfl⟩, ?_⟩
      · intro j u hj
        refine (h.task j u hj).mono ?_ id ?_
        · intro hr; unfold W.rcKnown at hr; simp_all
        · intro hks ho _
          exfalso
          have := h.one j k u t hj hk hks (by simpa using hs.1)
          subst this
          rw [hj] at hk
          cases hk
          simp_all
      · intro p hp; cases hp; simp
    · exact h
  · -- exit
    split
    · rename_i p hp
      split
      · refine h.procUpd (p := p) rfl hp rfl rfl id (h.proc p hp).1 (by simp)
      · exact h
    · exact h
  · -- reap
    split
    · rename_i p hp
      split
      · rename_i he hr
        refine h.procUpd (p := p) rfl hp rfl rfl id (by simp) (by simp [he])
      · exact h
    · exact h
  · -- reapLost
    split
    · rename_i p hp
      split
      · rename_i he hr
        refine h.procUpd (p := p) rfl hp rfl rfl id (by simp) (by simp [he])
      · exact h
    · exact h
  · -- deliver
    split
    · rename_i p hp
      split
      · rename_i he hr
        refine h.procUpd (p := p) rfl hp rfl rfl (by simp) (by simp [he]) (h.proc p hp).2
      · exact h
    · exact h
  · exact cancelCaller_ok h fwd
  · split
    · exact cancelCaller_ok (w := { w with timedOut := true, timer := false }) (h.same rfl rfl rfl) fwd
    · exact h
  · split
    · exact signal_ok h _ _
    · exact h
  · exact h
  · exact h
  · exact h
  · exact h

theorem stable_ok : Stable W.Ok where
  env fwd w ev h := env_ok h fwd ev
  throw _ h := h.same rfl rfl rfl
  log _ o _ h := h.same rfl rfl rfl
  cancelTask _ i h := cancelTask_ok h i

theorem rstable_ok : RStable W.Ok :=
  { stable_ok with
    create := fun _ k hk h => h.append k fun hs => absurd hs hk
    signal := fun _ s h => signal_ok h _ s
    setCancelled := fun _ h => h.same rfl rfl rfl
    stop := fun _ h => h.same rfl rfl rfl
    mine := fun _ _ h => h.same rfl rfl rfl
    close := fun _ h => transportClose_ok h
    poll := fun _ h => pollWaitPid_ok h }

end Shellous
