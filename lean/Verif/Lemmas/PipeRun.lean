import Verif.Spec.Pipe
import Verif.Lemmas.RunTrace

/-!
# Facts about running a pipeline
-/

namespace Shellous

variable {α β : Type}

/-! ## harvest_results: what remains unfinished was asked to cancel -/

/-- Every unfinished task of `ids` was asked to cancel. -/
def AskedRest (ids : List Nat) (w w' : W) : Prop := ∀ i ∈ ids, w'.outOf i = none → AskedToCancel w w' i

theorem Ext.outOf_none {w w' : W} (h : Ext w w') {i : Nat} (hn : w'.outOf i = none) : w.outOf i = none := by
  cases ho : w.outOf i with
  | none => rfl
  | some o => rw [h.outOf ho] at hn; cases hn

theorem AskedRest.ext {ids : List Nat} {w w' w'' : W} (h : AskedRest ids w w') (e : Ext w' w'') : AskedRest ids w w'' :=
  fun i hi hn => (h i hi (e.outOf_none hn)).ext e

theorem AskedRest.ext_left {ids : List Nat} {w w' w'' : W} (h : AskedRest ids w' w'') (e : Ext w w')
    (hk : Known w ids) : AskedRest ids w w'' :=
  fun i hi hn => (h i hi hn).ext_left e (hk i hi)

theorem cancelAll_askedRest {ids ids' : List Nat} {w w' : W} (hk : Known w ids) (e : Ext (w.cancelAll ids') w')
    (hs : ∀ i ∈ ids, w.isDone i = false → i ∈ ids') : AskedRest ids w w' := by
  intro i hi hn
  have hd : w.isDone i = false := Shellous.outOf_none.1 (((cancelAll_ext ids' w).trans e).outOf_none hn)
  exact (cancelAll_asked (hs i hi hd) (hk i hi) hd).ext e

/-- `harvest_wait`: if it was interrupted, or gave up, what remains unfinished was asked to cancel. -/
theorem harvestWait_asked (ids : List Nat) (timed ct : Bool) (w : W) (hk : Known w ids) :
    wp (harvestWait ids timed ct false) (fun o w' =>
      (o = .blocked ∧ Quiet w w') ∨ (o = .exc .valueError ∧ ids = []) ∨ AskedRest ids w w') w := by
  unfold harvestWait
  refine wp_bind (wp_catch (wp_bind (wp_asyncWait ?_ ?_ ?_ ?_)))
  · intro h
    simp only [reduceCtorEq, if_false]
    exact wp_raise (.inr (.inl ⟨rfl, h⟩))
  · intro w1 hne q hm
    simp only [if_true]
    have hk1 : Known w1.throwCancel ids := fun i hi => by
      have := hk i hi
      show i < w1.tasks.length
      rw [q.lenEq]; exact this
    have e0 : Ext w w1.throwCancel := q.toExt.trans (throwCancel_ext w1)
    refine wp_bind (wp_mono (cancelWait_spec ids ct false w1.throwCancel) ?_)
    intro o w2 post
    simp only [Bool.false_eq_true, if_false] at post
    have ar : AskedRest ids w w2 :=
      (cancelAll_askedRest hk1 post.ext fun i hi _ => hi).ext_left e0 hk
    cases o with
    | ok _ => exact wp_bind (wp_consume (post.ok rfl).1 (wp_raise (.inr (.inr ar))))
    | exc e => exact .inr (.inr ar)
    | blocked => exact .inr (.inr ar)
  · intro w1 hne q hm ho
    refine wp_bind (wp_get ?_)
    refine wp_pure ?_
    simp only []
    have hk1 : Known w1 ids := fun i hi => by rw [q.lenEq]; exact hk i hi
    by_cases hp : w1.pending ids = []
    · have hd : ids.all w1.isDone = true := pending_eq_nil.1 hp
      unfold harvestRest
      have ar : AskedRest ids w w1 := fun i hi hn => by
        have := List.all_eq_true.1 hd i hi
        rw [outOf_none] at hn; rw [hn] at this; cases this
      refine wp_bind (wp_when (fun h => absurd hp (of_decide_eq_true h)) (fun _ => ?_))
      refine wp_bind (wp_get ?_)
      simp only [hd, Bool.not_true, Bool.false_eq_true, if_false]
      split
      · exact wp_bind (wp_consume hd (wp_raise (.inr (.inr ar))))
      · exact wp_pure (.inr (.inr ar))
    · refine wp_mono (harvestRest_spec ids ct w1 hp (timeExpired w1 ids)) ?_
      intro o w2 h
      refine .inr (.inr ?_)
      exact (cancelAll_askedRest hk1 h.1 fun i hi hd => mem_pending.2 ⟨hi, hd⟩).ext_left q.toExt hk
  · intro w1 q
    exact .inl ⟨rfl, q⟩

theorem harvestResults_asked (ids : List Nat) (timed ct : Bool) (w : W) (hk : Known w ids) :
    wp (harvestResults ids timed ct) (fun o w' =>
      (o = .blocked ∧ Quiet w w') ∨ (o = .exc .valueError ∧ ids = []) ∨ AskedRest ids w w') w := by
  unfold harvestResults
  refine wp_bind (wp_catch (wp_bind (wp_mono (harvestWait_asked ids timed ct w hk) ?_)))
  intro o w' h
  have tail : ∀ c : Bool, AskedRest ids w w' → wp (do
        let w ← Coro.get
        match toResults w ids with
          | .ok l => Coro.pure (c, l)
          | .error e => Coro.raise e) (fun o w' =>
      (o = .blocked ∧ Quiet w w') ∨ (o = .exc .valueError ∧ ids = []) ∨ AskedRest ids w w') w' := by
    intro c ar
    refine wp_bind (wp_get ?_)
    simp only []
    cases toResults w' ids with
    | ok l => exact wp_pure (.inr (.inr ar))
    | error e => exact wp_raise (.inr (.inr ar))
  cases o with
  | ok _ =>
    rcases h with ⟨h, _⟩ | ⟨h, _⟩ | h
    · cases h
    · cases h
    · exact wp_pure (tail false h)
  | exc e =>
    simp only []
    rcases h with ⟨h, _⟩ | ⟨h, h'⟩ | h
    · cases h
    · cases h
      simp only [reduceCtorEq, if_false]
      exact wp_raise (.inr (.inl ⟨rfl, h'⟩))
    · split
      · exact wp_pure (tail true h)
      · exact wp_raise (.inr (.inr h))
  | blocked =>
    rcases h with ⟨_, h⟩ | ⟨h, _⟩ | h
    · exact .inl ⟨rfl, h⟩
    · cases h
    · exact .inr (.inr h)


/-! ## harvest_results after a failure or a cancellation -/

theorem harvestRest_asked (ids : List Nat) (ct : Bool) (w1 : W) (hk : Known w1 ids) :
    wp (harvestRest ids ct (w1.pending ids) (timeExpired w1 ids)) (fun _ w' => AskedRest ids w1 w') w1 := by
  by_cases hp : w1.pending ids = []
  · have hd : ids.all w1.isDone = true := pending_eq_nil.1 hp
    unfold harvestRest
    have ar : AskedRest ids w1 w1 := fun i hi hn => by
      have := List.all_eq_true.1 hd i hi
      rw [Shellous.outOf_none] at hn; rw [hn] at this; cases this
    refine wp_bind (wp_when (fun h => absurd hp (of_decide_eq_true h)) (fun _ => ?_))
    refine wp_bind (wp_get ?_)
    simp only [hd, Bool.not_true, Bool.false_eq_true, if_false]
    split
    · exact wp_bind (wp_consume hd (wp_raise ar))
    · exact wp_pure ar
  · refine wp_mono (harvestRest_spec ids ct w1 hp (timeExpired w1 ids)) ?_
    intro o w2 h
    exact cancelAll_askedRest hk h.1 fun i hi hd => mem_pending.2 ⟨hi, hd⟩

theorem harvestCancelled_asked (ids : List Nat) (ct : Bool) (w1 : W) (hk : Known w1 ids) :
    wp (harvestCancelled ids ct false) (fun _ w' => AskedRest ids w1 w') w1 := by
  unfold harvestCancelled
  refine wp_bind (wp_mono (cancelWait_spec ids ct false w1) ?_)
  intro o w2 post
  simp only [Bool.false_eq_true, if_false] at post
  have ar : AskedRest ids w1 w2 := cancelAll_askedRest hk post.ext fun i hi _ => hi
  cases o with
  | ok _ => exact wp_bind (wp_consume (post.ok rfl).1 (wp_raise ar))
  | exc e => exact ar
  | blocked => exact ar

theorem harvestResults_world (ids : List Nat) (timed ct : Bool) (w : W) (evs : List Ev) :
    (harvestResults ids timed ct w evs).2.1 = (harvestWait ids timed ct false w evs).2.1 := by
  unfold harvestResults
  rcases h : harvestWait ids timed ct false w evs with ⟨o, w1, r⟩
  have tail : ∀ c : Bool, ((do
        let w ← Coro.get
        match toResults w ids with
          | .ok l => Coro.pure (c, l)
          | .error e => Coro.raise e : Coro (Bool × List TOut)) w1 r).2.1 = w1 := by
    intro c
    rw [bind_ok (a := w1) (w' := w1) (evs' := r) rfl]
    cases toResults w1 ids <;> rfl
  cases o with
  | ok _ =>
    rw [bind_ok (a := false) (w' := w1) (evs' := r) (catch_ok ((bind_ok h).trans rfl))]
    exact tail false
  | exc e =>
    by_cases he : e = .cancelled
    · subst he
      rw [bind_ok (a := true) (w' := w1) (evs' := r) ((catch_exc (bind_exc h)).trans rfl)]
      exact tail true
    · rw [bind_exc (e := e) (w' := w1) (evs' := r) ((catch_exc (bind_exc h)).trans (by rw [if_neg he]; rfl))]
  | blocked => rw [bind_blocked (catch_blocked (bind_blocked h))]

theorem harvestResults_blocked_iff (ids : List Nat) (timed ct : Bool) (w : W) (evs : List Ev) :
    (harvestResults ids timed ct w evs).1 = .blocked ↔ (harvestWait ids timed ct false w evs).1 = .blocked := by
  unfold harvestResults
  rcases h : harvestWait ids timed ct false w evs with ⟨o, w1, r⟩
  have tail : ∀ c : Bool, ((do
        let w ← Coro.get
        match toResults w ids with
          | .ok l => Coro.pure (c, l)
          | .error e => Coro.raise e : Coro (Bool × List TOut)) w1 r).1 ≠ .blocked := by
    intro c
    rw [bind_ok (a := w1) (w' := w1) (evs' := r) rfl]
    cases toResults w1 ids <;> intro h <;> cases h
  cases o with
  | ok _ =>
    rw [bind_ok (a := false) (w' := w1) (evs' := r) (catch_ok ((bind_ok h).trans rfl))]
    exact ⟨fun h => absurd h (tail false), fun h => (by cases h)⟩
  | exc e =>
    by_cases he : e = .cancelled
    · subst he
      rw [bind_ok (a := true) (w' := w1) (evs' := r) ((catch_exc (bind_exc h)).trans rfl)]
      exact ⟨fun h => absurd h (tail true), fun h => (by cases h)⟩
    · rw [bind_exc (e := e) (w' := w1) (evs' := r) ((catch_exc (bind_exc h)).trans (by rw [if_neg he]; rfl))]
      simp
  | blocked => rw [bind_blocked (catch_blocked (bind_blocked h))]; simp

/-- While `harvest_results` is suspended: the next resumption after a failure or a cancellation asks all that is
unfinished to cancel, or that has been done before. -/
theorem harvestResults_rouse (ids : List Nat) (hne : ids ≠ []) (timed ct : Bool) (w : W) (hk : Known w ids) (evs more : List Ev)
    (hb : (harvestResults ids timed ct w evs).1 = .blocked)
    (hc : (∃ i ∈ ids, (harvestResults ids timed ct w evs).2.1.failed i = true) ∨
      (harvestResults ids timed ct w evs).2.1.mustCancel = true) :
    AskedRest ids w (harvestResults ids timed ct w (evs ++ .resume :: more)).2.1 := by
  rw [harvestResults_blocked_iff] at hb
  rw [harvestResults_world] at hc ⊢
  have key : ∀ evs' o w1 r, asyncWait ids timed true w evs' = (o, w1, r) → o ≠ .blocked →
      AskedRest ids w (harvestWait ids timed ct false w evs').2.1 := by
    intro evs' o w1 r h ho
    obtain ⟨evs₁, _, h1⟩ := waitLoop_ends _ _ _ _ _ _ _ _ (by rw [asyncWait_eq ids hne] at h; exact h) ho
    have q := after_quiet w evs₁
    have hk1 : Known (w.after evs₁) ids := fun i hi => by rw [q.lenEq]; exact hk i hi
    split at h1
    · obtain ⟨rfl, rfl⟩ := h1
      rw [harvestWait_cancelled h]
      exact (harvestCancelled_asked ids ct (w.after evs₁).throwCancel (fun i hi => hk1 i hi) r).ext_left (q.toExt.trans (throwCancel_ext _)) hk
    · obtain ⟨rfl, rfl, _⟩ := h1
      rw [harvestWait_ok h]
      exact (harvestRest_asked ids ct _ hk1 r).ext_left q.toExt hk
  rcases h : asyncWait ids timed true w evs with ⟨o, w1, r⟩
  have go := waitLoop_goOn none (fun w => ids.all w.isDone || (true && ids.any w.failed)) timed false w evs (.resume :: more)
  rw [← asyncWait_eq ids hne, h] at go
  by_cases ho : o = .blocked
  · subst ho
    rw [harvestWait_blocked h] at hc
    obtain ⟨_, exp', h2⟩ := go.1 rfl
    rw [waitLoop_resume] at h2
    dsimp only at hc h2
    by_cases hm : w1.mustCancel = true
    · rw [if_pos hm] at h2
      exact key _ _ _ _ h2 (by simp)
    · rw [if_neg hm] at h2
      have hf : ids.any w1.failed = true := by
        rcases hc with ⟨i, hi, hf⟩ | hc
        · exact List.any_eq_true.2 ⟨i, hi, hf⟩
        · exact absurd hc hm
      rw [if_pos (by simp [hf])] at h2
      exact key _ _ _ _ h2 (by simp)
  · exact key _ _ _ _ (go.2 ho) ho

/-! ## Invariants of a pipeline run -/

/-- Invariants that no step of a pipeline run can break. -/
structure PStable (I : W → Prop) : Prop extends Stable I where
  create : ∀ (w : W) k, k ≠ .spawn → I w → I { w with tasks := w.tasks ++ [{ kind := k }] }
  mine : ∀ (w : W) m, I w → I { w with mine := m }
  setCancelled : ∀ (w : W), I w → I { w with cancelled := true }
  mark : ∀ w o, o.inner = false → I w → I (w.log o)

section
variable {I : W → Prop}

theorem Stable.harvestResults (hI : Stable I) (ids : List Nat) (timed ct : Bool) : Pres I (harvestResults ids timed ct) := by
  refine .bind (.catch (.bind (hI.harvestWait _ _ _ _) fun _ => .pure _) fun _ => .ite (.pure _) (.raise _)) fun _ =>
    .bind .get fun _ => ?_
  split
  · exact .pure _
  · exact .raise _

variable (hI : PStable I)
include hI

theorem PStable.createTask {k : TaskKind} (hk : k ≠ .spawn) : Pres I (createTask k) :=
  .atomic (fun w => (.ok w.tasks.length, { w with tasks := w.tasks ++ [{ kind := k }] })) (by simp) (fun _ _ => rfl)
    fun w h => hI.create w k hk h

theorem PStable.addTasks (n : Nat) : Pres I (addTasks n) := by
  induction n with
  | zero => exact .pure _
  | succ n ih => exact .bind (.bind (hI.createTask (by simp)) fun _ => .upd fun w h => hI.mine w _ h) fun _ => ih

theorem PStable.pipeStartRun (cfg : PRCfg) (b : Bool) : Pres I (pipeStartRun cfg b) :=
  .bind (.raiseOpt _) fun _ => .ite
    (.bind .get fun _ => .bind (hI.createTask (by simp)) fun _ => .bind (hI.createTask (by simp)) fun _ =>
      .bind (hI.addTasks _) fun _ => hI.wait _ _ _) (hI.addTasks _)

theorem PStable.pipeWait (b : Bool) : Pres I (pipeWait b) := by
  refine .bind .get fun _ => .bind (.when (.upd fun w h => hI.cancelAll _ _ h)) fun _ =>
    .bind (hI.harvestResults _ _ _) fun x => ?_
  exact .bind (.when (.upd fun w h => hI.setCancelled w h)) fun _ => .bind (.upd fun w h => hI.mine w _ h) fun _ => .pure _

theorem PStable.pipeAenter (cfg : PRCfg) (b : Bool) : Pres I (pipeAenter cfg b) :=
  .catch (hI.pipeStartRun cfg b) fun _ => .bind (.when (.upd fun w h => hI.setCancelled w h)) fun _ =>
    .bind (hI.pipeWait _) fun _ => .raise _

theorem PStable.pipeFinish (ex : Option Exc) : Pres I (pipeFinish ex) := by
  cases ex with
  | some e =>
    exact .bind (.when (.upd fun w h => hI.setCancelled w h)) fun _ => .bind (hI.pipeWait _) fun _ =>
      .bind .get fun _ => .pure _
  | none => exact .bind (hI.pipeWait _) fun _ => .pure _

theorem PStable.pipeAexit (ex : Option Exc) : Pres I (pipeAexit ex) :=
  .catch (.bind (hI.pipeFinish ex) fun _ => .pure _) fun _ =>
    .ite (.bind (.upd fun w h => hI.setCancelled w h) fun _ => .pure _) (.raise _)

theorem PStable.userBody : Pres I userBody := by
  have key : ∀ w evs, I w → I (userBodyLoop w evs).2.1 := by
    intro w evs
    induction evs generalizing w with
    | nil => exact id
    | cons ev evs ih =>
      intro h
      cases ev
      case bodyDone e => cases e <;> exact h
      case bodyGotCancel =>
        unfold userBodyLoop
        split
        · exact ih _ (hI.throw _ h)
        · exact ih _ h
      all_goals exact ih _ (hI.env _ _ _ h)
  refine ⟨fun w h evs => key w evs h, fun w evs => ⟨fun h => ((userBodyLoop_goOn w evs []).1 h).1,
    fun h more => (userBodyLoop_goOn w evs more).2 h⟩, fun w evs more hb hi => ?_⟩
  change I (userBodyLoop w (evs ++ more)).2.1
  rw [((userBodyLoop_goOn w evs more).1 hb).2]
  exact key _ _ hi

theorem PStable.withPipe (cfg : PRCfg) (b : Bool) {body : Coro Unit} (hb : Pres I body) : Pres I (withPipe cfg b body) := by
  refine .bind (hI.pipeAenter cfg b) fun _ => .bind (.upd fun w h => hI.mark w _ rfl h) fun _ =>
    .bind (.attempt hb) fun r => .bind (.upd fun w h => hI.mark w _ rfl h) fun _ =>
    .bind (hI.pipeAexit r) fun x => ?_
  cases r with
  | none => exact .pure _
  | some e => exact .ite (.pure _) (.raise _)

omit hI in
theorem Pres.pipeRunResult (cfg : PRCfg) (l : Option (List TOut)) (check : Bool) : Pres I (pipeRunResult cfg l check) := by
  refine .bind .get fun w => ?_
  cases l with
  | none => exact .raise _
  | some l =>
    dsimp only
    split
    · exact .pure _
    · exact .raise _

theorem PStable.runPipeline (cfg : PRCfg) : Pres I (runPipeline cfg) := by
  refine .bind (hI.withPipe cfg false (.pure _)) fun l => .bind (.pipeRunResult _ _ _) fun r => .ite (.pure _) ?_
  split
  · exact .pure _
  · exact .raise _

end

end Shellous
