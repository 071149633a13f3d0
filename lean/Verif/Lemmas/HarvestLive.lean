import Verif.Lemmas.PipePhases

/-!
# `harvest_results` returns when everything it waits for has ended
-/

namespace Shellous

/-- Everything in `ids` has ended, and no cancellation is pending. -/
def Settled (ids : List Nat) (w : W) : Prop := w.mustCancel = false ∧ ids.all w.isDone = true

/-- Wherever `c` is suspended: when all is settled, it goes on to its end as soon as the event loop resumes it, and that
leaves the world settled. -/
def Live {α : Type} (ids : List Nat) (c : Coro α) : Prop :=
  ∀ w evs, (c w evs).1 = .blocked → Settled ids (c w evs).2.1 →
    (c w (evs ++ [.resume])).1 ≠ .blocked ∧ Settled ids (c w (evs ++ [.resume])).2.1 ∧ (c w (evs ++ [.resume])).2.2 = []

/-- In a settled world, `c` does not suspend, and leaves it settled. -/
def Straight {α : Type} (ids : List Nat) (c : Coro α) : Prop :=
  ∀ w evs, Settled ids w → (c w evs).1 ≠ .blocked ∧ Settled ids (c w evs).2.1 ∧ (c w evs).2.2 = evs

section
variable {α β : Type} {ids : List Nat}

theorem Live.bind {c : Coro α} {f : α → Coro β} (hc : Live ids c) (dc : Det c) (hf : ∀ a, Live ids (f a))
    (sf : ∀ a, Straight ids (f a)) : Live ids (c >>= f) := by
  intro w evs hb hs
  rcases h : c w evs with ⟨o, w1, r⟩
  have dd := dc w evs
  rw [h] at dd
  cases o with
  | ok a =>
    rw [bind_ok h] at hb hs
    rw [bind_ok (dd.2 (by simp) [.resume])]
    exact hf a w1 r hb hs
  | exc e => rw [bind_exc h] at hb; cases hb
  | blocked =>
    rw [bind_blocked h] at hs
    have := hc w evs (by rw [h]) (by rw [h]; exact hs)
    rcases h2 : c w (evs ++ [.resume]) with ⟨o2, w2, r2⟩
    rw [h2] at this
    obtain ⟨t1, t2, t3⟩ := this
    dsimp only at t1 t2 t3
    subst t3
    cases o2 with
    | ok a => rw [bind_ok h2]; exact sf a w2 [] t2
    | exc e => rw [bind_exc h2]; exact ⟨by simp, t2, rfl⟩
    | blocked => exact absurd rfl t1

theorem Straight.bind {c : Coro α} {f : α → Coro β} (hc : Straight ids c) (sf : ∀ a, Straight ids (f a)) :
    Straight ids (c >>= f) := by
  intro w evs hs
  have := hc w evs hs
  rcases h : c w evs with ⟨o, w1, r⟩
  rw [h] at this
  obtain ⟨t1, t2, t3⟩ := this
  dsimp only at t1 t2 t3
  subst t3
  cases o with
  | ok a => rw [bind_ok h]; exact sf a w1 _ t2
  | exc e => rw [bind_exc h]; exact ⟨by simp, t2, rfl⟩
  | blocked => exact absurd rfl t1

theorem Straight.live {c : Coro α} (h : ∀ w evs, (c w evs).1 ≠ .blocked) : Live ids c := fun w evs hb => absurd hb (h w evs)

theorem waitLoop_live {ready : W → Bool} (hr : ∀ w, Settled ids w → ready w = true) (timed exp : Bool) (w : W) (evs : List Ev)
    (hb : (waitLoop none ready timed exp w evs).1 = .blocked) (hs : Settled ids (waitLoop none ready timed exp w evs).2.1) :
    waitLoop none ready timed exp w (evs ++ [.resume]) = (.ok (), (waitLoop none ready timed exp w evs).2.1, []) := by
  obtain ⟨_, exp', he⟩ := (waitLoop_goOn none ready timed exp w evs [.resume]).1 hb
  rw [he]
  generalize (waitLoop none ready timed exp w evs).2.1 = w1 at hs
  unfold waitLoop
  rw [if_neg (by rw [hs.1]; simp), if_pos (by rw [hr _ hs]; simp)]

/-- `asyncio.wait` for some of `ids`. -/
theorem asyncWait_live {ids' : List Nat} (hsub : ∀ i ∈ ids', i ∈ ids) (timed fe : Bool) (w : W) (evs : List Ev)
    (hb : (asyncWait ids' timed fe w evs).1 = .blocked) (hs : Settled ids (asyncWait ids' timed fe w evs).2.1) :
    asyncWait ids' timed fe w (evs ++ [.resume]) = (.ok (), (asyncWait ids' timed fe w evs).2.1, []) := by
  by_cases hne : ids' = []
  · subst hne; cases hb
  · rw [asyncWait_eq _ hne] at *
    refine waitLoop_live (ids := ids) (fun w hw => ?_) timed false w evs hb hs
    have : ids'.all w.isDone = true := by
      rw [List.all_eq_true]
      intro i hi
      exact (List.all_eq_true.1 hw.2) i (hsub i hi)
    simp [this]

theorem settled_pending {ids' : List Nat} (hsub : ∀ i ∈ ids', i ∈ ids) {w : W} (hs : Settled ids w) : w.pending ids' = [] := by
  unfold W.pending
  rw [List.filter_eq_nil_iff]
  intro i hi
  have := (List.all_eq_true.1 hs.2) i (hsub i hi)
  simp [this]

theorem cancelWaiter_live {ids' : List Nat} (hsub : ∀ i ∈ ids', i ∈ ids) (timed : Bool) (w : W) (evs : List Ev)
    (hb : (cancelWaiter ids' timed w evs).1 = .blocked) (hs : Settled ids (cancelWaiter ids' timed w evs).2.1) :
    cancelWaiter ids' timed w (evs ++ [.resume]) = (.ok (), (cancelWaiter ids' timed w evs).2.1, []) := by
  rcases h : asyncWait ids' timed false w evs with ⟨o, w1, r⟩
  unfold cancelWaiter at hb hs ⊢
  cases o with
  | ok a =>
    exfalso
    rw [bind_ok h, bind_ok (a := w1) (w' := w1) (evs' := r) rfl] at hb
    split at hb <;> cases hb
  | exc e => rw [bind_exc h] at hb; cases hb
  | blocked =>
    rw [bind_blocked h] at hs ⊢
    have := asyncWait_live hsub timed false w evs (by rw [h]) (by rw [h]; exact hs)
    rw [h] at this
    dsimp only at this
    rw [bind_ok this, bind_ok (a := w1) (w' := w1) (evs' := []) rfl, if_neg (by rw [settled_pending hsub hs]; simp)]
    rfl

theorem cancelWait_live {ids' : List Nat} (hsub : ∀ i ∈ ids', i ∈ ids) (timed cf : Bool) (w : W) (evs : List Ev)
    (hb : (cancelWait ids' timed cf w evs).1 = .blocked) (hs : Settled ids (cancelWait ids' timed cf w evs).2.1) :
    cancelWait ids' timed cf w (evs ++ [.resume]) = (.ok (), (cancelWait ids' timed cf w evs).2.1, []) := by
  have hwhen : ∀ evs, Coro.when (!cf) (Coro.upd (·.cancelAll ids')) w evs = (.ok (), (if cf then w else w.cancelAll ids'), evs) := by
    intro evs
    cases cf <;> rfl
  generalize hw0 : (if cf then w else w.cancelAll ids') = w0 at hwhen
  have det := (pstable_true.toStable.cancelWaiter ids' timed).det w0 evs
  rcases h : cancelWaiter ids' timed w0 evs with ⟨o, w1, r⟩
  unfold cancelWait at hb hs ⊢
  rw [h] at det
  cases o with
  | ok a => rw [catch_ok ((bind_ok (hwhen evs)).trans h)] at hb; cases hb
  | exc e =>
    rw [catch_exc ((bind_ok (hwhen evs)).trans h)] at hb hs ⊢
    rw [catch_exc ((bind_ok (hwhen _)).trans (det.2 (by simp) [.resume]))]
    split at hb
    · rename_i he
      rw [if_pos he] at hs ⊢
      dsimp only
      rw [bind_ok (a := ()) (w' := w1.log .cleanupCancelled) (evs' := r) rfl] at hb hs
      refine (bind_ok (a := ()) (w' := w1.log .cleanupCancelled) (evs' := r ++ [.resume]) rfl).trans ?_
      rw [bind_ok (a := ()) (w' := w1.log .cleanupCancelled) (evs' := r) rfl]
      exact cancelWaiter_live hsub timed _ r hb hs
    · cases hb
  | blocked =>
    rw [catch_blocked ((bind_ok (hwhen evs)).trans h)] at hs ⊢
    have := cancelWaiter_live hsub timed w0 evs (by rw [h]) (by rw [h]; exact hs)
    rw [h] at this
    exact catch_ok ((bind_ok (hwhen _)).trans this)

theorem consume_straight (ids : List Nat) : Straight ids (consumeExceptions ids) := by
  intro w evs hs
  unfold consumeExceptions
  rw [bind_ok (a := w) (w' := w) (evs' := evs) rfl, if_pos hs.2]
  exact ⟨by simp [Coro.pure], hs, rfl⟩

theorem consume_ne (ids : List Nat) (w : W) (evs : List Ev) : (consumeExceptions ids w evs).1 ≠ .blocked := by
  unfold consumeExceptions
  rw [bind_ok (a := w) (w' := w) (evs' := evs) rfl]
  split <;> simp [Coro.pure, Coro.raise]

/-- A coroutine that, when suspended, is suspended in its first part, `cancelWait`. -/
theorem afterCancelWait_live {ids' : List Nat} (hsub : ∀ i ∈ ids', i ∈ ids) (timed cf : Bool) {f : Unit → Coro α}
    (hf : ∀ a w evs, (f a w evs).1 ≠ .blocked) (sf : ∀ a, Straight ids (f a)) : Live ids (cancelWait ids' timed cf >>= f) := by
  intro w evs hb hs
  rcases h : cancelWait ids' timed cf w evs with ⟨o, w1, r⟩
  cases o with
  | ok a => rw [bind_ok h] at hb; exact absurd hb (hf _ _ _)
  | exc e => rw [bind_exc h] at hb; cases hb
  | blocked =>
    rw [bind_blocked h] at hs
    have := cancelWait_live hsub timed cf w evs (by rw [h]) (by rw [h]; exact hs)
    rw [h] at this
    rw [bind_ok this]
    exact sf _ _ _ hs

theorem restEnd_straight (ids : List Nat) (expired : Bool) : Straight ids (do
    let w ← Coro.get
    if !ids.all w.isDone then Coro.raise .assertionError
    else if expired then do
      consumeExceptions ids
      Coro.raise .timeout
    else Coro.pure () : Coro Unit) := by
  intro w evs hs
  rw [bind_ok (a := w) (w' := w) (evs' := evs) rfl, if_neg (by rw [hs.2]; simp)]
  split
  · exact (consume_straight ids).bind (fun _ => fun w evs hs => ⟨by simp [Coro.raise], hs, rfl⟩) w evs hs
  · exact ⟨by simp [Coro.pure], hs, rfl⟩

theorem restEnd_ne (ids : List Nat) (expired : Bool) (w : W) (evs : List Ev) : ((do
    let w ← Coro.get
    if !ids.all w.isDone then Coro.raise .assertionError
    else if expired then do
      consumeExceptions ids
      Coro.raise .timeout
    else Coro.pure () : Coro Unit) w evs).1 ≠ .blocked := by
  rw [bind_ok (a := w) (w' := w) (evs' := evs) rfl]
  split
  · simp [Coro.raise]
  · split
    · rcases h : consumeExceptions ids w evs with ⟨o, w1, r⟩
      have := consume_ne ids w evs
      rw [h] at this
      cases o with
      | ok a => rw [bind_ok h]; simp [Coro.raise]
      | exc e => rw [bind_exc h]; simp
      | blocked => exact absurd rfl this
    · simp [Coro.pure]

theorem harvestRest_live (ids : List Nat) (ct : Bool) (pending : List Nat) (hsub : ∀ i ∈ pending, i ∈ ids) (expired : Bool) :
    Live ids (harvestRest ids ct pending expired) := by
  unfold harvestRest
  by_cases hp : pending = []
  · subst hp
    exact Straight.live fun w evs => restEnd_ne ids expired w evs
  · have : Coro.when (decide (pending ≠ [])) (cancelWait pending ct false) = cancelWait pending ct false := by
      simp [Coro.when, hp]
    rw [this]
    exact afterCancelWait_live hsub ct false (fun _ => restEnd_ne ids expired) fun _ => restEnd_straight ids expired

theorem harvestCancelled_live (ids : List Nat) (ct cf : Bool) : Live ids (harvestCancelled ids ct cf) := by
  unfold harvestCancelled
  refine afterCancelWait_live (fun _ h => h) ct cf (fun _ w evs => ?_) fun _ => (consume_straight ids).bind fun _ => fun w evs hs => ⟨by simp [Coro.raise], hs, rfl⟩
  rcases h : consumeExceptions ids w evs with ⟨o, w1, r⟩
  have := consume_ne ids w evs
  rw [h] at this
  cases o with
  | ok a => rw [bind_ok h]; simp [Coro.raise]
  | exc e => rw [bind_exc h]; simp
  | blocked => exact absurd rfl this

theorem asyncWait_excs (ids : List Nat) (hne : ids ≠ []) (timed fe : Bool) (w : W) (evs : List Ev) (e : Exc) (w1 : W) (r : List Ev)
    (h : asyncWait ids timed fe w evs = (.exc e, w1, r)) : e = .cancelled := by
  rw [asyncWait_eq ids hne] at h
  obtain ⟨evs₁, _, hx⟩ := waitLoop_ends _ _ _ _ _ _ _ _ h (by simp)
  split at hx
  · obtain ⟨hx, _⟩ := hx; cases hx; rfl
  · obtain ⟨hx, _⟩ := hx; cases hx

theorem harvestWait_live (ids : List Nat) (hne : ids ≠ []) (timed ct cf : Bool) : Live ids (harvestWait ids timed ct cf) := by
  intro w evs hb hs
  have det := (pstable_true.toStable.asyncWait ids timed true).det w evs
  rcases h : asyncWait ids timed true w evs with ⟨o, w1, r⟩
  rw [h] at det
  cases o with
  | ok a =>
    rw [harvestWait_ok h] at hb hs
    rw [harvestWait_ok (det.2 (by simp) [.resume])]
    exact harvestRest_live ids ct _ (fun i hi => (List.mem_filter.1 hi).1) _ w1 r hb hs
  | exc e =>
    have := asyncWait_excs ids hne timed true w evs e w1 r h
    subst this
    rw [harvestWait_cancelled h] at hb hs
    rw [harvestWait_cancelled (det.2 (by simp) [.resume])]
    exact harvestCancelled_live ids ct cf w1 r hb hs
  | blocked =>
    rw [harvestWait_blocked h] at hs
    have := asyncWait_live (fun _ h => h) timed true w evs (by rw [h]) (by rw [h]; exact hs)
    rw [h] at this
    dsimp only at this hs
    rw [harvestWait_ok this, settled_pending (fun _ h => h) hs]
    unfold harvestRest
    exact restEnd_straight ids _ w1 [] hs

/-- `harvest_results` ends as soon as it is resumed after everything has ended. -/
theorem harvestResults_live (ids : List Nat) (hne : ids ≠ []) (timed ct : Bool) (w : W) (evs : List Ev)
    (hb : (harvestResults ids timed ct w evs).1 = .blocked) (hs : Settled ids (harvestResults ids timed ct w evs).2.1) :
    (harvestResults ids timed ct w (evs ++ [.resume])).1 ≠ .blocked := by
  rw [harvestResults_blocked_iff] at hb
  rw [harvestResults_world] at hs
  intro hbb
  rw [harvestResults_blocked_iff] at hbb
  exact (harvestWait_live ids hne timed ct false w evs hb hs).1 hbb

end

end Shellous
