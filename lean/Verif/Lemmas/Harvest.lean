import Verif.Lemmas.Async

/-!
# What `harvest` does
-/

namespace Shellous

variable {α β : Type}

/-- How many `CancelledError`s have been thrown into the caller. -/
def W.throws (w : W) : Nat := w.trace.count .thrown

/-- How many times a cleanup gave up. -/
def W.gaveUps (w : W) : Nat := w.trace.count .gaveUp

theorem Grew.count_le {p : Obs → Bool} {t t' : List Obs} (h : Grew p t t') (o : Obs) :
    t.count o ≤ t'.count o := by
  obtain ⟨l, rfl, _⟩ := h
  simp [List.count_append]

theorem Grew.count_eq {p : Obs → Bool} {t t' : List Obs} (h : Grew p t t') {o : Obs}
    (ho : p o = false) : t'.count o = t.count o := by
  obtain ⟨l, rfl, hl⟩ := h
  rw [List.count_append]
  have : l.count o = 0 := List.count_eq_zero.2 ?_
  · omega
  intro hm
  rw [hl o hm] at ho; cases ho

theorem Ext.throws {w w' : W} (h : Ext w w') : w.throws ≤ w'.throws := h.trace.count_le _
theorem Ext.gaveUps {w w' : W} (h : Ext w w') : w.gaveUps ≤ w'.gaveUps := h.trace.count_le _
theorem Quiet.throws {w w' : W} (h : Quiet w w') : w'.throws = w.throws := h.user.count_eq rfl
theorem Quiet.gaveUps {w w' : W} (h : Quiet w w') : w'.gaveUps = w.gaveUps := h.user.count_eq rfl

@[simp] theorem throws_throwCancel (w : W) : w.throwCancel.throws = w.throws + 1 := by
  simp [W.throws, W.throwCancel, W.log]

theorem throws_log (w : W) {o : Obs} (h : o ≠ .thrown) : (w.log o).throws = w.throws := by
  simp [W.throws, W.log, h]

@[simp] theorem gaveUps_throwCancel (w : W) : w.throwCancel.gaveUps = w.gaveUps := by
  simp [W.gaveUps, W.throwCancel, W.log]

@[simp] theorem gaveUps_log_gaveUp (w : W) : (w.log .gaveUp).gaveUps = w.gaveUps + 1 := by
  simp [W.gaveUps, W.log]

theorem gaveUps_log (w : W) {o : Obs} (h : o ≠ .gaveUp) : (w.log o).gaveUps = w.gaveUps := by
  simp [W.gaveUps, W.log, h]

@[simp] theorem cancelTask_trace (w : W) (i : Nat) : (w.cancelTask i).trace = w.trace := rfl

@[simp] theorem cancelAll_trace (w : W) (ids : List Nat) : (w.cancelAll ids).trace = w.trace := by
  unfold W.cancelAll
  induction ids generalizing w with
  | nil => rfl
  | cons i ids ih => rw [List.foldl_cons, ih]; rfl

@[simp] theorem cancelAll_mustCancel (w : W) (ids : List Nat) :
    (w.cancelAll ids).mustCancel = w.mustCancel := by
  unfold W.cancelAll
  induction ids generalizing w with
  | nil => rfl
  | cons i ids ih => rw [List.foldl_cons, ih]; rfl

@[simp] theorem cancelAll_throws (w : W) (ids : List Nat) : (w.cancelAll ids).throws = w.throws := by
  simp [W.throws]

@[simp] theorem cancelAll_gaveUps (w : W) (ids : List Nat) : (w.cancelAll ids).gaveUps = w.gaveUps := by
  simp [W.gaveUps]

theorem pending_eq_nil {w : W} {ids : List Nat} :
    w.pending ids = [] ↔ ids.all w.isDone = true := by
  simp [W.pending, List.filter_eq_nil_iff]

theorem mem_pending {w : W} {ids : List Nat} {i : Nat} :
    i ∈ w.pending ids ↔ i ∈ ids ∧ w.isDone i = false := by
  simp [W.pending]

theorem Ext.allDone {w w' : W} (h : Ext w w') {ids : List Nat} (hd : ids.all w.isDone = true) :
    ids.all w'.isDone = true := by
  rw [List.all_eq_true] at *
  exact fun i hi => h.isDone (hd i hi)

theorem Ext.failed {w w' : W} (h : Ext w w') {i : Nat} (hf : w.failed i = true) :
    w'.failed i = true := by
  unfold W.failed at *
  split at hf
  · rename_i e he
    rw [h.outOf he]
  · cases hf

/-- Done tasks keep their outcome and are the same in an extended world. -/
theorem Ext.failed_eq {w w' : W} (h : Ext w w') {i : Nat} (hd : w.isDone i = true) :
    w'.failed i = w.failed i := by
  obtain ⟨o, ho⟩ := W.isDone_iff.1 hd
  unfold W.failed
  rw [ho, h.outOf ho]

theorem failed_isDone {w : W} {i : Nat} (h : w.failed i = true) : w.isDone i = true := by
  unfold W.failed at h
  split at h
  · rename_i e he
    exact W.isDone_iff.2 ⟨_, he⟩
  · cases h

/-! ## asyncio.wait -/

/-- `asyncio.wait` by symbolic execution. -/
theorem wp_asyncWait {ids : List Nat} {timed fe : Bool} {R : Out Unit → W → Prop} {w : W}
    (he : ids = [] → R (.exc .valueError) w)
    (hc : ∀ w', ids ≠ [] → Quiet w w' → w'.mustCancel = true → R (.exc .cancelled) w'.throwCancel)
    (hr : ∀ w', ids ≠ [] → Quiet w w' → w'.mustCancel = false →
      ids.all w'.isDone = true ∨ (fe = true ∧ ids.any w'.failed = true) ∨ timed = true → R (.ok ()) w')
    (hb : ∀ w', Quiet w w' → R .blocked w') : wp (asyncWait ids timed fe) R w := by
  unfold asyncWait
  split
  · exact wp_raise (he ‹_›)
  · rename_i hne
    refine wp_wait (fun w' h => hc w' hne h.quiet) (fun w' h hm ho => hr w' hne h.quiet hm ?_)
      (fun w' h => hb w' h.quiet)
    simp only [Bool.or_eq_true, Bool.and_eq_true] at ho
    rcases ho with (h | h) | h
    · exact .inl h
    · exact .inr (.inl h)
    · exact .inr (.inr h)

/-- `_cancel_waiter` by symbolic execution. -/
theorem wp_cancelWaiter {ids : List Nat} {timed : Bool} {R : Out Unit → W → Prop} {w : W}
    (he : ids = [] → R (.exc .valueError) w)
    (hc : ∀ w', ids ≠ [] → Quiet w w' → w'.mustCancel = true → R (.exc .cancelled) w'.throwCancel)
    (hr : ∀ w', ids ≠ [] → Quiet w w' → w'.mustCancel = false → ids.all w'.isDone = true → R (.ok ()) w')
    (hg : ∀ w', Quiet w w' → w'.mustCancel = false → timed = true → w'.pending ids ≠ [] →
      R (.exc .runtimeError) ((w'.log .gaveUp).cancelAll (w'.pending ids)))
    (hb : ∀ w', Quiet w w' → R .blocked w') : wp (cancelWaiter ids timed) R w := by
  unfold cancelWaiter
  refine wp_bind (wp_asyncWait he hc ?_ hb)
  intro w' hne q hm ho
  refine wp_bind (wp_get ?_)
  simp only []
  split
  · rename_i hp
    refine wp_bind (wp_upd ?_)
    refine wp_raise (hg w' q hm ?_ hp)
    rcases ho with h | ⟨h, _⟩ | h
    · exact absurd (pending_eq_nil.2 h) hp
    · cases h
    · exact h
  · rename_i hp
    exact wp_pure (hr w' hne q hm (pending_eq_nil.1 (Classical.not_not.1 hp)))

/-- Facts about `_cancel_wait`, relative to the world `w0` after the cancel requests. -/
structure CWPost (ids : List Nat) (w0 : W) (o : Out Unit) (w' : W) : Prop where
  ext : Ext w0 w'
  ok : o = .ok () → ids.all w'.isDone = true ∧ w'.mustCancel = false ∧ w'.gaveUps = w0.gaveUps ∧
    (w'.throws = w0.throws ∧ Quiet w0 w' ∨ w'.throws = w0.throws + 1)
  exc : ∀ e, o = .exc e →
    (e = .cancelled ∧ w'.throws = w0.throws + 2 ∧ w'.mustCancel = false ∧ w'.gaveUps = w0.gaveUps) ∨
    (e = .runtimeError ∧ w0.gaveUps < w'.gaveUps ∧ w'.mustCancel = false) ∨ (e = .valueError ∧ ids = [])

theorem cancelWait_spec (ids : List Nat) (timed cf : Bool) (w : W) :
    wp (cancelWait ids timed cf) (CWPost ids (if cf then w else w.cancelAll ids)) w := by
  unfold cancelWait
  refine wp_catch (wp_bind ?_)
  have hstart : ∀ R : Out Unit → W → Prop, R (.ok ()) (if cf then w else w.cancelAll ids) →
      wp (Coro.when (!cf) (Coro.upd (·.cancelAll ids))) R w := by
    intro R h
    cases cf
    · exact wp_upd h
    · exact wp_pure h
  refine hstart _ ?_
  generalize (if cf then w else w.cancelAll ids) = w0
  simp only []
  have gu : ∀ (w1 w' : W), w0.gaveUps ≤ w1.gaveUps → Quiet w1 w' →
      w0.gaveUps < ((w'.log .gaveUp).cancelAll (w'.pending ids)).gaveUps := by
    intro w1 w' h1 q
    rw [cancelAll_gaveUps, gaveUps_log_gaveUp, q.gaveUps]; omega
  refine wp_cancelWaiter ?_ ?_ ?_ ?_ ?_
  · intro h
    simp only [reduceCtorEq, if_false]
    exact wp_raise ⟨.refl w0, by simp, by simp [h]⟩
  · intro w1 hne q hm
    simp only [if_true]
    refine wp_bind (wp_upd ?_)
    simp only []
    have e1 : Ext w0 (w1.throwCancel.log .cleanupCancelled) :=
      (q.toExt.trans (throwCancel_ext w1)).trans (log_ext rfl)
    have t1 : (w1.throwCancel.log .cleanupCancelled).throws = w0.throws + 1 := by
      rw [throws_log _ (by simp), throws_throwCancel, q.throws]
    have g1 : (w1.throwCancel.log .cleanupCancelled).gaveUps = w0.gaveUps := by
      rw [gaveUps_log _ (by simp), gaveUps_throwCancel, q.gaveUps]
    refine wp_cancelWaiter (fun h => absurd h hne) ?_ ?_ ?_ ?_
    · intro w2 _ q2 hm2
      refine ⟨e1.trans (q2.toExt.trans (throwCancel_ext w2)), by simp, ?_⟩
      intro e h
      cases h
      refine .inl ⟨rfl, ?_, rfl, ?_⟩
      · rw [throws_throwCancel, q2.throws, t1]
      · rw [gaveUps_throwCancel, q2.gaveUps, g1]
    · intro w2 _ q2 hm2 hd
      refine ⟨e1.trans q2.toExt, fun _ => ⟨hd, hm2, ?_, .inr ?_⟩, by simp⟩
      · rw [q2.gaveUps, g1]
      · rw [q2.throws, t1]
    · intro w2 q2 hm2 _ _
      refine ⟨e1.trans ((q2.toExt.trans (log_ext rfl)).trans (cancelAll_ext _ _)), by simp, ?_⟩
      intro e h
      cases h
      exact .inr (.inl ⟨rfl, gu _ _ (by omega) q2, by simpa [W.log] using hm2⟩)
    · intro w2 q2
      exact ⟨e1.trans q2.toExt, by simp, by simp⟩
  · intro w1 _ q hm hd
    exact ⟨q.toExt, fun _ => ⟨hd, hm, q.gaveUps, .inl ⟨q.throws, q⟩⟩, by simp⟩
  · intro w1 q hm1 _ _
    simp only [reduceCtorEq, if_false]
    refine wp_raise ⟨(q.toExt.trans (log_ext rfl)).trans (cancelAll_ext _ _), by simp, ?_⟩
    intro e h
    cases h
    exact .inr (.inl ⟨rfl, gu _ _ (Nat.le_refl _) q, by simpa [W.log] using hm1⟩)
  · intro w1 q
    exact ⟨q.toExt, by simp, by simp⟩

/-! ## harvest_wait -/

/-- From `w` to `w'` nobody has asked task `i` to cancel. -/
def NotAsked (w w' : W) (i : Nat) : Prop :=
  ∀ t, w.tasks[i]? = some t → ∃ t', w'.tasks[i]? = some t' ∧ t'.cancels = t.cancels

theorem Quiet.notAskedOf {w w1 w2 : W} {i : Nat} (q : Quiet w w1) (hd : w1.isDone i = true) (e : Ext w1 w2) :
    NotAsked w w2 i := by
  intro t ht
  obtain ⟨t1, ht1, hc⟩ := q.same i t ht
  unfold W.isDone at hd
  rw [ht1] at hd
  obtain ⟨t2, ht2, e⟩ := e.task i t1 ht1
  have := e.out hd
  subst this
  exact ⟨t2, ht2, hc⟩

/-- Facts about `harvest_wait`. -/
structure HWPost (ids : List Nat) (timed : Bool) (w : W) (o : Out Unit) (w' : W) : Prop where
  ext : Ext w w'
  ok : o = .ok () → ids.all w'.isDone = true ∧ w'.mustCancel = false ∧ w'.gaveUps = w.gaveUps ∧
    w'.throws ≤ w.throws + 1 ∧ (Quiet w w' ∨ ∃ i ∈ ids, w'.failed i = true ∧ NotAsked w w' i)
  exc : ∀ e, o = .exc e →
    (e = .cancelled ∧ w.throws < w'.throws ∧ w'.mustCancel = false ∧
      (ids.all w'.isDone = true ∨ w.throws + 1 < w'.throws)) ∨
    (e = .timeout ∧ timed = true ∧ ids.all w'.isDone = true ∧ w'.mustCancel = false ∧
      w'.gaveUps = w.gaveUps ∧ w'.throws ≤ w.throws + 1) ∨
    (e = .runtimeError ∧ w.gaveUps < w'.gaveUps ∧ w'.mustCancel = false) ∨ (e = .valueError ∧ ids = [] ∧ w' = w)

theorem wp_consume {ids : List Nat} {R : Out Unit → W → Prop} {w : W}
    (hd : ids.all w.isDone = true) (h : R (.ok ()) w) : wp (consumeExceptions ids) R w := by
  unfold consumeExceptions
  refine wp_bind (wp_get ?_)
  simp only [hd, if_true]
  exact wp_pure h

theorem harvestWait_spec (ids : List Nat) (timed ct cf : Bool) (w : W) :
    wp (harvestWait ids timed ct cf) (HWPost ids timed w) w := by
  unfold harvestWait
  refine wp_bind (wp_catch (wp_bind (wp_asyncWait ?_ ?_ ?_ ?_)))
  · intro h
    simp only [reduceCtorEq, if_false]
    exact wp_raise ⟨.refl w, by simp, by simp [h]⟩
  · intro w1 hne q hm
    simp only [if_true]
    refine wp_bind (wp_mono (cancelWait_spec ids ct cf w1.throwCancel) ?_)
    intro o w2 post
    have e0 : Ext w (if cf = true then w1.throwCancel else w1.throwCancel.cancelAll ids) := by
      cases cf
      · exact (q.toExt.trans (throwCancel_ext w1)).trans (cancelAll_ext ids _)
      · exact q.toExt.trans (throwCancel_ext w1)
    have t0 : (if cf = true then w1.throwCancel else w1.throwCancel.cancelAll ids).throws
        = w.throws + 1 := by
      cases cf <;> simp [q.throws]
    have g0 : (if cf = true then w1.throwCancel else w1.throwCancel.cancelAll ids).gaveUps
        = w.gaveUps := by
      cases cf <;> simp [q.gaveUps]
    have ex := e0.trans post.ext
    cases o with
    | ok _ =>
      obtain ⟨hd, hmm, hg, ht⟩ := post.ok rfl
      simp only []
      refine wp_bind (wp_consume hd (wp_raise ⟨ex, by simp, ?_⟩))
      intro e h
      cases h
      refine .inl ⟨rfl, ?_, hmm, .inl hd⟩
      have := post.ext.throws
      omega
    | exc e =>
      simp only []
      refine ⟨ex, by simp, ?_⟩
      intro e' h
      cases h
      rcases post.exc e rfl with ⟨rfl, ht, hmm, hg⟩ | ⟨rfl, hg, hmm⟩ | ⟨_, h⟩
      · exact .inl ⟨rfl, by omega, hmm, .inr (by omega)⟩
      · exact .inr (.inr (.inl ⟨rfl, by omega, hmm⟩))
      · exact absurd h hne
    | blocked => exact ⟨ex, by simp, by simp⟩
  · intro w1 hne q hm ho
    refine wp_bind (wp_get ?_)
    refine wp_pure ?_
    simp only []
    -- the rest
    unfold harvestRest
    have hrest : ∀ w2, Ext w1 w2 → ids.all w2.isDone = true → w2.mustCancel = false →
        w2.gaveUps = w.gaveUps → w2.throws ≤ w.throws + 1 →
        (Quiet w w2 ∨ w1.pending ids ≠ []) →
        wp (do
          let w ← Coro.get
          if (!ids.all w.isDone) = true then Coro.raise .assertionError
          else if timeExpired w1 ids = true then do
            consumeExceptions ids
            Coro.raise .timeout
          else Coro.pure ()) (HWPost ids timed w) w2 := by
      intro w2 e2 hd2 hm2 hg2 ht2 hq
      have ex := q.toExt.trans e2
      refine wp_bind (wp_get ?_)
      simp only [hd2, Bool.not_true, Bool.false_eq_true, if_false]
      split
      · rename_i hte
        refine wp_bind (wp_consume hd2 (wp_raise ⟨ex, by simp, ?_⟩))
        intro e h
        cases h
        refine .inr (.inl ⟨rfl, ?_, hd2, hm2, hg2, ht2⟩)
        -- the wait was released by its timer
        rcases ho with h | ⟨_, h⟩ | h
        · exfalso
          unfold timeExpired at hte
          rw [pending_eq_nil.2 h] at hte
          obtain ⟨i, hi⟩ := List.exists_mem_of_ne_nil ids hne
          have : ids.any w1.isDone = true :=
            List.any_eq_true.2 ⟨i, hi, (List.all_eq_true.1 h) i hi⟩
          simp [this] at hte
        · exfalso
          obtain ⟨i, hi, hf⟩ := List.any_eq_true.1 h
          unfold timeExpired at hte
          have : ids.any w1.isDone = true := List.any_eq_true.2 ⟨i, hi, failed_isDone hf⟩
          simp only [this, if_true, h, Bool.not_true] at hte
          split at hte <;> cases hte
        · exact h
      · rename_i hte
        refine wp_pure ⟨ex, fun _ => ⟨hd2, hm2, hg2, ht2, ?_⟩, by simp⟩
        rcases hq with h | h
        · exact .inl h
        · refine .inr ?_
          unfold timeExpired at hte
          split at hte
          · simp only [if_pos h, Bool.not_eq_true, Bool.not_eq_false'] at hte
            obtain ⟨i, hi, hf⟩ := List.any_eq_true.1 hte
            exact ⟨i, hi, e2.failed hf, q.notAskedOf (failed_isDone hf) e2⟩
          · simp at hte
    refine wp_bind (wp_when ?_ ?_)
    · intro hp
      replace hp : w1.pending ids ≠ [] := of_decide_eq_true hp
      refine wp_mono (cancelWait_spec (w1.pending ids) ct false w1) ?_
      intro o w2 post
      simp only [Bool.false_eq_true, if_false] at post
      have e2 := (cancelAll_ext (w1.pending ids) w1).trans post.ext
      have ex := q.toExt.trans e2
      cases o with
      | ok _ =>
        obtain ⟨hd, hmm, hg, ht⟩ := post.ok rfl
        refine hrest w2 e2 ?_ hmm ?_ ?_ (.inr hp)
        · rw [List.all_eq_true]
          intro i hi
          by_cases hdi : w1.isDone i = true
          · exact e2.isDone hdi
          · exact (List.all_eq_true.1 hd) i (mem_pending.2 ⟨hi, by simpa using hdi⟩)
        · rw [hg, cancelAll_gaveUps, q.gaveUps]
        · rw [cancelAll_throws, q.throws] at ht
          omega
      | exc e =>
        refine ⟨ex, by simp, ?_⟩
        intro e' h
        cases h
        have hx := post.exc e rfl
        rw [cancelAll_throws, cancelAll_gaveUps, q.throws, q.gaveUps] at hx
        rcases hx with ⟨rfl, ht, hmm, hg⟩ | ⟨rfl, hg, hmm⟩ | ⟨_, h⟩
        · exact .inl ⟨rfl, by omega, hmm, .inr (by omega)⟩
        · exact .inr (.inr (.inl ⟨rfl, by omega, hmm⟩))
        · exact absurd h hp
      | blocked => exact ⟨ex, by simp, by simp⟩
    · intro hp
      replace hp := of_decide_eq_false hp
      refine hrest w1 (.refl _) (pending_eq_nil.1 (Classical.not_not.1 hp)) hm q.gaveUps ?_ (.inl q)
      have := q.throws
      omega
  · intro w1 q
    exact ⟨q.toExt, by simp, by simp⟩

/-! ## harvest -/

/-- The exception of the first task in the list that failed. -/
def W.firstFailure (w : W) (ids : List Nat) : Option Exc :=
  ids.findSome? fun i => match w.outOf i with
    | some (.err e) => some e
    | _ => none

theorem wp_raiseFirst {ids : List Nat} {R : Out Unit → W → Prop} {w : W}
    (hd : ids.all w.isDone = true)
    (h0 : w.firstFailure ids = none → R (.ok ()) w)
    (h1 : ∀ e, w.firstFailure ids = some e → R (.exc e) w) : wp (raiseFirst ids) R w := by
  induction ids with
  | nil => exact wp_pure (h0 rfl)
  | cons i ids ih =>
    rw [List.all_cons, Bool.and_eq_true] at hd
    obtain ⟨o, ho⟩ := W.isDone_iff.1 hd.1
    unfold raiseFirst
    refine wp_bind (wp_get ?_)
    simp only []
    have ff : w.firstFailure (i :: ids) = (match o with | .err e => some e | _ => w.firstFailure ids) := by
      unfold W.firstFailure
      rw [List.findSome?_cons]
      cases o <;> simp only [ho]
    rw [ff] at h0 h1
    cases o with
    | cancelled =>
      simp only [ho, if_true]
      exact ih hd.2 h0 h1
    | val r =>
      simp only [ho, Option.some.injEq, reduceCtorEq, if_false]
      refine wp_bind ?_
      intro evs
      simp only [taskResult, ho]
      exact ih hd.2 h0 h1
    | err e =>
      simp only [ho, Option.some.injEq, reduceCtorEq, if_false]
      refine wp_bind ?_
      intro evs
      simp only [taskResult, ho]
      exact h1 e rfl

theorem firstFailure_none {w : W} {ids : List Nat} :
    w.firstFailure ids = none ↔ ∀ i ∈ ids, w.failed i = false := by
  unfold W.firstFailure
  rw [List.findSome?_eq_none_iff]
  refine forall_congr' fun i => forall_congr' fun _ => ?_
  unfold W.failed
  cases w.outOf i with
  | none => simp
  | some o => cases o <;> simp

/-- Facts about `harvest`. -/
structure HPost (ids : List Nat) (timed : Bool) (w : W) (o : Out Unit) (w' : W) : Prop where
  ext : Ext w w'
  ok : o = .ok () → ids.all w'.isDone = true ∧ w'.mustCancel = false ∧ Quiet w w' ∧
    w'.firstFailure ids = none
  exc : ∀ e, o = .exc e →
    (e = .cancelled ∧ w.throws < w'.throws ∧ w'.mustCancel = false ∧
      (ids.all w'.isDone = true ∨ w.throws + 1 < w'.throws)) ∨
    (e = .timeout ∧ timed = true ∧ ids.all w'.isDone = true ∧ w'.mustCancel = false ∧
      w'.gaveUps = w.gaveUps ∧ w'.throws ≤ w.throws + 1) ∨
    (e = .runtimeError ∧ w.gaveUps < w'.gaveUps ∧ w'.mustCancel = false) ∨ (e = .valueError ∧ ids = [] ∧ w' = w) ∨
    (ids.all w'.isDone = true ∧ w'.firstFailure ids = some e ∧ w'.mustCancel = false ∧
      w'.gaveUps = w.gaveUps ∧ w'.throws ≤ w.throws + 1)

theorem harvest_spec (ids : List Nat) (timed ct cf : Bool) (w : W) :
    wp (harvest ids timed ct cf) (HPost ids timed w) w := by
  unfold harvest
  refine wp_bind (wp_mono (harvestWait_spec ids timed ct cf w) ?_)
  intro o w' post
  cases o with
  | ok _ =>
    obtain ⟨hd, hm, hg, ht, hq⟩ := post.ok rfl
    simp only []
    refine wp_bind (wp_consume hd (wp_raiseFirst hd ?_ ?_))
    · intro hn
      refine ⟨post.ext, fun _ => ⟨hd, hm, ?_, hn⟩, by simp⟩
      rcases hq with h | ⟨i, hi, hf, _⟩
      · exact h
      · rw [firstFailure_none.1 hn i hi] at hf; cases hf
    · intro e he
      refine ⟨post.ext, by simp, ?_⟩
      intro e' h
      cases h
      exact .inr (.inr (.inr (.inr ⟨hd, he, hm, hg, ht⟩)))
  | exc e =>
    refine ⟨post.ext, by simp, ?_⟩
    intro e' h
    cases h
    rcases post.exc e rfl with h | h | h | h
    · exact .inl h
    · exact .inr (.inl h)
    · exact .inr (.inr (.inl h))
    · exact .inr (.inr (.inr (.inl h)))
  | blocked => exact ⟨post.ext, by simp, by simp⟩

end Shellous
