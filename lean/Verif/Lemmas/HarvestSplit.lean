import Verif.Lemmas.Harvest
import Verif.Spec.Async

/-!
# Harvest at a given point of the schedule
-/

namespace Shellous

theorem allDone_iff {w : W} {ids : List Nat} : ids.all w.isDone = true ↔ AllDone w ids := by
  rw [List.all_eq_true]
  exact forall_congr' fun i => forall_congr' fun _ => W.isDone_iff

theorem firstFailure_some {w : W} {ids : List Nat} {e : Exc} :
    w.firstFailure ids = some e ↔ FirstFailure w ids e := by
  unfold W.firstFailure FirstFailure
  rw [List.findSome?_eq_some_iff]
  constructor
  · rintro ⟨l, i, l', h, hi, hl⟩
    refine ⟨l, i, l', h, ?_, ?_⟩
    · split at hi
      · rename_i h; cases hi; exact h
      · cases hi
    · intro j hj e' he
      have := hl j hj
      rw [he] at this
      cases this
  · rintro ⟨l, i, l', h, hi, hl⟩
    refine ⟨l, i, l', h, by simp [hi], ?_⟩
    intro j hj
    split
    · rename_i e' he; exact absurd he (hl j hj e')
    · rfl

theorem noFailure_iff {w : W} {ids : List Nat} :
    w.firstFailure ids = none ↔ NoFailure w ids := by
  rw [firstFailure_none]
  refine forall_congr' fun i => forall_congr' fun _ => ?_
  unfold W.failed
  cases w.outOf i with
  | none => simp
  | some o => cases o <;> simp

/-! ## How the first wait ends -/

theorem after_cons (w : W) (ev : Ev) (evs : List Ev) :
    w.after (ev :: evs) = (w.env none ev).after evs := rfl

theorem waitLoop_nil (fwd : Option Nat) (ready : W → Bool) (timed expired : Bool) (w : W) :
    waitLoop fwd ready timed expired w [] = (.blocked, w, []) := by rw [waitLoop]

theorem waitLoop_resume (fwd : Option Nat) (ready : W → Bool) (timed expired : Bool) (w : W)
    (evs : List Ev) :
    waitLoop fwd ready timed expired w (.resume :: evs) =
      if w.mustCancel then (.exc .cancelled, w.throwCancel, evs)
      else if ready w || expired then (.ok (), w, evs)
      else waitLoop fwd ready timed expired w evs := by rw [waitLoop]

theorem waitLoop_timeout (fwd : Option Nat) (ready : W → Bool) (timed expired : Bool) (w : W)
    (evs : List Ev) :
    waitLoop fwd ready timed expired w (.timeout :: evs) =
      waitLoop fwd ready timed (expired || timed) w evs := by rw [waitLoop]

theorem waitLoop_ev (fwd : Option Nat) (ready : W → Bool) (timed expired : Bool) (w : W)
    (ev : Ev) (evs : List Ev) (h1 : ev ≠ .resume) (h2 : ev ≠ .timeout) :
    waitLoop fwd ready timed expired w (ev :: evs) =
      waitLoop fwd ready timed expired (w.env fwd ev) evs := by
  rw [waitLoop]
  · exact h1
  · exact h2

/-- Events without `resume` are just applied. -/
theorem waitLoop_split (ready : W → Bool) (timed : Bool) (evs evs' : List Ev)
    (hn : Ev.resume ∉ evs) (expired : Bool) (w : W) :
    waitLoop none ready timed expired w (evs ++ evs') =
      waitLoop none ready timed (expired || (timed && decide (Ev.timeout ∈ evs))) (w.after evs) evs' := by
  induction evs generalizing w expired with
  | nil => simp [W.after]
  | cons ev evs ih =>
    rw [List.mem_cons, not_or] at hn
    rw [List.cons_append, after_cons]
    by_cases ht : ev = .timeout
    · subst ht
      rw [waitLoop_timeout, ih hn.2]
      congr 1
      cases timed <;> cases expired <;> simp
    · rw [waitLoop_ev _ _ _ _ _ _ _ (fun h => hn.1 h.symm) ht, ih hn.2]
      congr 2
      simp [Ne.symm ht]

/-- A wait that ends, ends at a `resume`. -/
theorem waitLoop_ends (ready : W → Bool) (timed : Bool) (evs : List Ev) (expired : Bool) (w : W)
    (o : Out Unit) (w' : W) (rest : List Ev)
    (h : waitLoop none ready timed expired w evs = (o, w', rest)) (hb : o ≠ .blocked) :
    ∃ evs₁, evs = evs₁ ++ .resume :: rest ∧
      (if (w.after evs₁).mustCancel then o = .exc .cancelled ∧ w' = (w.after evs₁).throwCancel
       else o = .ok () ∧ w' = w.after evs₁ ∧
        (ready w' = true ∨ expired = true ∨ (timed = true ∧ Ev.timeout ∈ evs₁))) := by
  induction evs generalizing w expired with
  | nil => unfold waitLoop at h; cases h; exact absurd rfl hb
  | cons ev evs ih =>
    have fin : ∀ evs₁ expired', (expired' = true → expired = true ∨ (timed = true ∧ ev = .timeout)) →
        evs = evs₁ ++ .resume :: rest →
        (if ((w.env none ev).after evs₁).mustCancel then
          o = .exc .cancelled ∧ w' = ((w.env none ev).after evs₁).throwCancel
         else o = .ok () ∧ w' = (w.env none ev).after evs₁ ∧
          (ready w' = true ∨ expired' = true ∨ (timed = true ∧ Ev.timeout ∈ evs₁))) →
        ∃ evs₁, ev :: evs = evs₁ ++ .resume :: rest ∧
          (if (w.after evs₁).mustCancel then o = .exc .cancelled ∧ w' = (w.after evs₁).throwCancel
           else o = .ok () ∧ w' = w.after evs₁ ∧
            (ready w' = true ∨ expired = true ∨ (timed = true ∧ Ev.timeout ∈ evs₁))) := by
      intro evs₁ expired' hx he hh
      refine ⟨ev :: evs₁, by rw [he]; rfl, ?_⟩
      rw [after_cons]
      split at hh
      · rename_i hm; rw [if_pos hm]; exact hh
      · rename_i hm
        rw [if_neg hm]
        refine ⟨hh.1, hh.2.1, ?_⟩
        rcases hh.2.2 with h | h | ⟨h, h'⟩
        · exact .inl h
        · rcases hx h with h | ⟨h, h'⟩
          · exact .inr (.inl h)
          · exact .inr (.inr ⟨h, by simp [h']⟩)
        · exact .inr (.inr ⟨h, by simp [h']⟩)
    by_cases hres : ev = .resume
    · subst hres
      rw [waitLoop_resume] at h
      split at h
      · rename_i hm
        cases h
        exact ⟨[], rfl, by simp [W.after, hm]⟩
      · rename_i hm
        split at h
        · rename_i hr
          cases h
          refine ⟨[], rfl, ?_⟩
          rw [if_neg (by simpa [W.after] using hm)]
          rw [Bool.or_eq_true] at hr
          exact ⟨rfl, rfl, hr.elim .inl fun h => .inr (.inl h)⟩
        · obtain ⟨evs₁, he, hh⟩ := ih expired w h
          exact fin evs₁ expired (fun h => .inl h) he hh
    by_cases ht : ev = .timeout
    · subst ht
      rw [waitLoop_timeout] at h
      obtain ⟨evs₁, he, hh⟩ := ih _ _ h
      refine fin evs₁ _ ?_ he hh
      intro h
      rw [Bool.or_eq_true] at h
      exact h.imp id fun h => ⟨h, rfl⟩
    · rw [waitLoop_ev _ _ _ _ _ _ _ hres ht] at h
      obtain ⟨evs₁, he, hh⟩ := ih _ _ h
      exact fin evs₁ expired (fun h => .inl h) he hh


theorem asyncWait_eq (ids : List Nat) (hne : ids ≠ []) (timed fe : Bool) :
    asyncWait ids timed fe =
      waitLoop none (fun w => ids.all w.isDone || (fe && ids.any w.failed)) timed false := by
  unfold asyncWait
  exact if_neg hne

section
variable {α β : Type}

theorem bind_ok {c : Coro α} {f : α → Coro β} {w w' : W} {evs evs' : List Ev} {a : α}
    (h : c w evs = (.ok a, w', evs')) : (c >>= f) w evs = f a w' evs' := by
  show Coro.bind c f w evs = _
  unfold Coro.bind
  rw [h]

theorem bind_exc {c : Coro α} {f : α → Coro β} {w w' : W} {evs evs' : List Ev} {e : Exc}
    (h : c w evs = (.exc e, w', evs')) : (c >>= f) w evs = (.exc e, w', evs') := by
  show Coro.bind c f w evs = _
  unfold Coro.bind
  rw [h]

theorem bind_blocked {c : Coro α} {f : α → Coro β} {w w' : W} {evs evs' : List Ev}
    (h : c w evs = (.blocked, w', evs')) : (c >>= f) w evs = (.blocked, w', evs') := by
  show Coro.bind c f w evs = _
  unfold Coro.bind
  rw [h]

theorem catch_ok {c : Coro α} {f : Exc → Coro α} {w w' : W} {evs evs' : List Ev} {a : α}
    (h : c w evs = (.ok a, w', evs')) : Coro.catch_ c f w evs = (.ok a, w', evs') := by
  unfold Coro.catch_
  rw [h]

theorem catch_exc {c : Coro α} {f : Exc → Coro α} {w w' : W} {evs evs' : List Ev} {e : Exc}
    (h : c w evs = (.exc e, w', evs')) : Coro.catch_ c f w evs = f e w' evs' := by
  unfold Coro.catch_
  rw [h]

theorem catch_blocked {c : Coro α} {f : Exc → Coro α} {w w' : W} {evs evs' : List Ev}
    (h : c w evs = (.blocked, w', evs')) : Coro.catch_ c f w evs = (.blocked, w', evs') := by
  unfold Coro.catch_
  rw [h]
end

/-- What harvest_wait does after `CancelledError` was thrown into its first wait. -/
def harvestCancelled (ids : List Nat) (ct cf : Bool) : Coro Unit := do
  cancelWait ids ct cf
  consumeExceptions ids
  Coro.raise .cancelled

theorem harvestCancelled_not_ok (ids : List Nat) (ct cf : Bool) (w : W) (evs : List Ev) :
    (harvestCancelled ids ct cf w evs).1 ≠ .ok () := by
  refine wp_bind (R := fun o _ => o ≠ .ok ()) ?_ evs
  refine wp_mono (cancelWait_spec ids ct cf w) ?_
  intro o w2 post
  cases o with
  | ok _ => exact wp_bind (wp_consume (post.ok rfl).1 (wp_raise (by simp)))
  | exc e => simp
  | blocked => simp

theorem harvestWait_ok {ids : List Nat} {timed ct cf : Bool} {w w1 : W} {evs evs' : List Ev}
    (h : asyncWait ids timed true w evs = (.ok (), w1, evs')) :
    harvestWait ids timed ct cf w evs =
      harvestRest ids ct (w1.pending ids) (timeExpired w1 ids) w1 evs' := by
  unfold harvestWait
  refine (bind_ok (a := (w1.pending ids, timeExpired w1 ids)) (w' := w1) (evs' := evs')
    (catch_ok ((bind_ok h).trans rfl))).trans rfl

theorem harvestWait_blocked {ids : List Nat} {timed ct cf : Bool} {w w1 : W} {evs evs' : List Ev}
    (h : asyncWait ids timed true w evs = (.blocked, w1, evs')) :
    harvestWait ids timed ct cf w evs = (.blocked, w1, evs') := by
  unfold harvestWait
  exact bind_blocked (catch_blocked (bind_blocked h))

theorem harvestWait_cancelled {ids : List Nat} {timed ct cf : Bool} {w w1 : W} {evs evs' : List Ev}
    (h : asyncWait ids timed true w evs = (.exc .cancelled, w1, evs')) :
    harvestWait ids timed ct cf w evs = harvestCancelled ids ct cf w1 evs' := by
  unfold harvestWait
  show Coro.bind _ _ _ _ = _
  unfold Coro.bind
  rw [catch_exc (bind_exc h)]
  simp only [if_true]
  have hno := harvestCancelled_not_ok ids ct cf w1 evs'
  unfold harvestCancelled at *
  have hcw := cancelWait_spec ids ct cf w1 evs'
  rcases h1 : cancelWait ids ct cf w1 evs' with ⟨o, w2, evs2⟩
  rw [h1] at hcw
  cases o with
  | ok _ =>
    rw [bind_ok h1, bind_ok h1]
    have hd := (hcw.ok rfl).1
    have h2 : consumeExceptions ids w2 evs2 = (.ok (), w2, evs2) := by
      unfold consumeExceptions
      rw [bind_ok (a := w2) (w' := w2) (evs' := evs2) rfl]
      simp only [hd, if_true]
      rfl
    rw [bind_ok h2, bind_ok h2]
    rfl
  | exc e => rw [bind_exc h1, bind_exc h1]
  | blocked => rw [bind_blocked h1, bind_blocked h1]

/-- `harvest_wait` when it is resumed after the events `evs₁`, if that releases it. -/
theorem harvestWait_resume (ids : List Nat) (hne : ids ≠ []) (timed ct cf : Bool) (w : W)
    (evs₁ evs₂ : List Ev) (hn : Ev.resume ∉ evs₁)
    (hrel : (w.after evs₁).mustCancel = true ∨ ids.all (w.after evs₁).isDone = true ∨
      ids.any (w.after evs₁).failed = true ∨ (timed = true ∧ Ev.timeout ∈ evs₁)) :
    harvestWait ids timed ct cf w (evs₁ ++ .resume :: evs₂) =
      (if (w.after evs₁).mustCancel then
        harvestCancelled ids ct cf (w.after evs₁).throwCancel evs₂
       else harvestRest ids ct ((w.after evs₁).pending ids) (timeExpired (w.after evs₁) ids)
          (w.after evs₁) evs₂) := by
  have ha : asyncWait ids timed true w (evs₁ ++ .resume :: evs₂) =
      if (w.after evs₁).mustCancel then (.exc .cancelled, (w.after evs₁).throwCancel, evs₂)
      else (.ok (), w.after evs₁, evs₂) := by
    rw [asyncWait_eq ids hne, waitLoop_split _ _ _ _ hn, waitLoop_resume]
    split
    · rfl
    · rename_i hm
      rw [if_pos]
      rcases hrel with h | h | h | h
      · exact absurd h hm
      · simp [h]
      · simp [h]
      · simp [h]
  split
  · rename_i hm
    rw [if_pos hm] at ha
    exact harvestWait_cancelled ha
  · rename_i hm
    rw [if_neg hm] at ha
    exact harvestWait_ok ha

theorem harvest_exc {ids : List Nat} {timed ct cf : Bool} {w w1 : W} {evs evs' : List Ev} {e : Exc}
    (h : harvestWait ids timed ct cf w evs = (.exc e, w1, evs')) :
    harvest ids timed ct cf w evs = (.exc e, w1, evs') := bind_exc h

theorem harvest_blocked {ids : List Nat} {timed ct cf : Bool} {w w1 : W} {evs evs' : List Ev}
    (h : harvestWait ids timed ct cf w evs = (.blocked, w1, evs')) :
    harvest ids timed ct cf w evs = (.blocked, w1, evs') := bind_blocked h

/-- After a normal `harvest_wait`, harvest raises the first failure. -/
theorem harvest_ok {ids : List Nat} {timed ct cf : Bool} {w w1 : W} {evs evs' : List Ev}
    (h : harvestWait ids timed ct cf w evs = (.ok (), w1, evs')) :
    harvest ids timed ct cf w evs = (match w1.firstFailure ids with
      | none => .ok ()
      | some e => .exc e, w1, evs') := by
  have hd : ids.all w1.isDone = true := by
    have := harvestWait_spec ids timed ct cf w evs
    rw [h] at this
    exact (this.ok rfl).1
  unfold harvest
  rw [bind_ok h]
  have h2 : consumeExceptions ids w1 evs' = (.ok (), w1, evs') := by
    unfold consumeExceptions
    rw [bind_ok (a := w1) (w' := w1) (evs' := evs') rfl]
    simp only [hd, if_true]
    rfl
  rw [bind_ok h2]
  clear h h2
  induction ids with
  | nil => rfl
  | cons i ids ih =>
    rw [List.all_cons, Bool.and_eq_true] at hd
    obtain ⟨o, ho⟩ := W.isDone_iff.1 hd.1
    unfold raiseFirst
    rw [bind_ok (a := w1) (w' := w1) (evs' := evs') rfl]
    have ff : w1.firstFailure (i :: ids) =
        (match o with | .err e => some e | _ => w1.firstFailure ids) := by
      unfold W.firstFailure
      rw [List.findSome?_cons]
      cases o <;> simp only [ho]
    rw [ff]
    cases o with
    | cancelled => simp only [ho, if_true]; exact ih hd.2
    | val r =>
      simp only [ho, Option.some.injEq, reduceCtorEq, if_false]
      rw [bind_ok (a := r) (w' := w1) (evs' := evs') (by simp [taskResult, ho])]
      exact ih hd.2
    | err e =>
      simp only [ho, Option.some.injEq, reduceCtorEq, if_false]
      rw [bind_exc (e := e) (w' := w1) (evs' := evs') (by simp [taskResult, ho])]

theorem cancelTask_asked {w : W} {i : Nat} (hi : i < w.tasks.length) (hd : w.isDone i = false) :
    AskedToCancel w (w.cancelTask i) i := by
  have ht : w.tasks[i]? = some w.tasks[i] := List.getElem?_eq_getElem hi
  refine ⟨w.tasks[i], (w.tasks[i]).cancel, ht, ?_, ?_⟩
  · simp [W.cancelTask, List.getElem?_modify, ht]
  · unfold W.isDone at hd
    rw [ht] at hd
    unfold TaskSt.cancel
    simp only at hd
    simp [hd]

theorem AskedToCancel.ext {w w' w'' : W} {i : Nat} (h : AskedToCancel w w' i) (e : Ext w' w'') :
    AskedToCancel w w'' i := by
  obtain ⟨t, t', ht, ht', hc⟩ := h
  obtain ⟨t'', ht'', x⟩ := e.task i t' ht'
  exact ⟨t, t'', ht, ht'', Nat.lt_of_lt_of_le hc x.cancels⟩

theorem AskedToCancel.ext_left {w w' w'' : W} {i : Nat} (h : AskedToCancel w' w'' i) (e : Ext w w')
    (hi : i < w.tasks.length) : AskedToCancel w w'' i := by
  obtain ⟨t', t'', ht', ht'', hc⟩ := h
  obtain ⟨t1, ht1, x⟩ := e.task i _ (List.getElem?_eq_getElem hi)
  rw [ht'] at ht1
  cases ht1
  exact ⟨_, t'', List.getElem?_eq_getElem hi, ht'', Nat.lt_of_le_of_lt x.cancels hc⟩

theorem cancelAll_asked {w : W} {ids : List Nat} {i : Nat} (hm : i ∈ ids) (hi : i < w.tasks.length)
    (hd : w.isDone i = false) : AskedToCancel w (w.cancelAll ids) i := by
  induction ids generalizing w with
  | nil => cases hm
  | cons j ids ih =>
    rw [show w.cancelAll (j :: ids) = (w.cancelTask j).cancelAll ids from rfl]
    by_cases hj : j = i
    · subst hj
      exact (cancelTask_asked hi hd).ext (cancelAll_ext ids _)
    · have hm' : i ∈ ids := (List.mem_cons.1 hm).resolve_left (fun h => hj h.symm)
      refine AskedToCancel.ext_left (ih hm' ?_ ?_) (cancelTask_ext w j) hi
      · simpa [W.cancelTask] using hi
      · unfold W.isDone W.cancelTask at *
        simp only [List.getElem?_modify, if_neg hj]
        cases h : w.tasks[i]? <;> simp_all

theorem outOf_none {w : W} {i : Nat} : w.outOf i = none ↔ w.isDone i = false := by
  cases h : w.isDone i with
  | true =>
    obtain ⟨o, ho⟩ := W.isDone_iff.1 h
    simp [ho]
  | false =>
    refine ⟨fun _ => rfl, fun _ => ?_⟩
    cases ho : w.outOf i with
    | none => rfl
    | some o => rw [W.isDone_iff.2 ⟨o, ho⟩] at h; cases h

theorem env_tasks_length (w : W) (ev : Ev) : (w.env none ev).tasks.length = w.tasks.length :=
  (env_quiet w ev).lenEq

theorem after_quiet (w : W) (evs : List Ev) : Quiet w (w.after evs) := by
  induction evs generalizing w with
  | nil => exact .refl w
  | cons ev evs ih => exact (env_quiet w ev).trans (ih _)

/-- What `harvestRest` does from the released world `w1`. -/
theorem harvestRest_spec (ids : List Nat) (ct : Bool) (w1 : W) (hp : w1.pending ids ≠ [])
    (expired : Bool) :
    wp (harvestRest ids ct (w1.pending ids) expired) (fun o w' =>
      Ext (w1.cancelAll (w1.pending ids)) w' ∧
      (o = .ok () → expired = false) ∧
      (∀ e, o = .exc e → (e = .timeout ∧ expired = true) ∨ (e = .cancelled ∧ w1.throws + 1 < w'.throws) ∨
        (e = .runtimeError ∧ w1.gaveUps < w'.gaveUps))) w1 := by
  unfold harvestRest
  refine wp_bind (wp_when ?_ ?_)
  · intro _
    refine wp_mono (cancelWait_spec _ ct false w1) ?_
    intro o w2 post
    simp only [Bool.false_eq_true, if_false] at post
    cases o with
    | ok _ =>
      obtain ⟨hd, _⟩ := post.ok rfl
      refine wp_bind (wp_get ?_)
      have hd2 : ids.all w2.isDone = true := by
        rw [List.all_eq_true]
        intro i hi
        by_cases hdi : w1.isDone i = true
        · exact ((cancelAll_ext _ w1).trans post.ext).isDone hdi
        · exact (List.all_eq_true.1 hd) i (mem_pending.2 ⟨hi, by simpa using hdi⟩)
      simp only [hd2, Bool.not_true, Bool.false_eq_true, if_false]
      cases expired with
      | true =>
        simp only [if_true]
        refine wp_bind (wp_consume hd2 (wp_raise ⟨post.ext, by simp, ?_⟩))
        intro e h; cases h; exact .inl ⟨rfl, trivial⟩
      | false =>
        simp only [Bool.false_eq_true, if_false]
        exact wp_pure ⟨post.ext, fun _ => trivial, by simp⟩
    | exc e =>
      refine ⟨post.ext, by simp, ?_⟩
      intro e' h; cases h
      have hx := post.exc e rfl
      rw [cancelAll_throws, cancelAll_gaveUps] at hx
      rcases hx with ⟨rfl, h, _⟩ | ⟨rfl, h, _⟩ | ⟨_, h⟩
      · exact .inr (.inl ⟨rfl, by omega⟩)
      · exact .inr (.inr ⟨rfl, h⟩)
      · exact absurd h hp
    | blocked => exact ⟨post.ext, by simp, by simp⟩
  · intro h
    exact absurd hp (of_decide_eq_false h)

theorem Quiet.notAsked {w w' : W} (q : Quiet w w') {i : Nat} (hi : i < w.tasks.length) :
    NotAskedToCancel w w' i := by
  obtain ⟨t', ht', hc⟩ := q.same i _ (List.getElem?_eq_getElem hi)
  exact ⟨_, t', List.getElem?_eq_getElem hi, ht', hc⟩

theorem NotAskedToCancel.trans {w w' w'' : W} {i : Nat} (h : NotAskedToCancel w w' i)
    (h' : NotAskedToCancel w' w'' i) : NotAskedToCancel w w'' i := by
  obtain ⟨t, t', ht, ht', hc⟩ := h
  obtain ⟨t1, t'', ht1, ht'', hc'⟩ := h'
  rw [ht'] at ht1; cases ht1
  exact ⟨t, t'', ht, ht'', hc'.trans hc⟩

/-! ## harvest_results -/

theorem toResults_ok {w : W} {ids : List Nat} {l : List TOut} (h : toResults w ids = .ok l) :
    l.map some = ids.map w.outOf ∧
      ∀ o ∈ l, o ≠ .err .assertionError ∧ o ≠ .err .runtimeError := by
  induction ids generalizing l with
  | nil => cases h; simp
  | cons i ids ih =>
    unfold toResults at h
    cases h1 : toResult w i with
    | error e => rw [h1] at h; cases h
    | ok o =>
      rw [h1] at h
      simp only [] at h
      cases h2 : toResults w ids with
      | error e => rw [h2] at h; cases h
      | ok os =>
        rw [h2] at h
        cases h
        obtain ⟨hm, ha⟩ := ih h2
        have ho : w.outOf i = some o ∧ o ≠ .err .assertionError ∧ o ≠ .err .runtimeError := by
          unfold toResult at h1
          split at h1
          · cases h1
          · cases h1
          · cases h1
          · rename_i o' ho' h3 h4
            cases h1
            exact ⟨h4, ho', h3⟩
        refine ⟨by simp [hm, ho.1], ?_⟩
        intro o' ho'
        rcases List.mem_cons.1 ho' with rfl | h
        · exact ho.2
        · exact ha o' h

theorem toResults_error {w : W} {ids : List Nat} {e : Exc} (h : toResults w ids = .error e)
    (hd : AllDone w ids) : FirstSerious w ids e := by
  induction ids with
  | nil => cases h
  | cons i ids ih =>
    unfold toResults at h
    obtain ⟨o, ho⟩ := hd i (by simp)
    cases h1 : toResult w i with
    | error e' =>
      rw [h1] at h
      cases h
      refine ⟨[], i, ids, rfl, ?_⟩
      unfold toResult at h1
      split at h1
      · rename_i hn; rw [hn] at ho; cases ho
      · rename_i hn; cases h1; exact ⟨hn, .inl rfl, by simp⟩
      · rename_i hn; cases h1; exact ⟨hn, .inr rfl, by simp⟩
      · cases h1
    | ok o' =>
      rw [h1] at h
      simp only [] at h
      cases h2 : toResults w ids with
      | ok os => rw [h2] at h; cases h
      | error e' =>
        rw [h2] at h
        cases h
        obtain ⟨l, j, l', he, hj, hs, hl⟩ := ih h2 (fun j hj => hd j (by simp [hj]))
        refine ⟨i :: l, j, l', by rw [he]; rfl, hj, hs, ?_⟩
        intro k hk
        rcases List.mem_cons.1 hk with rfl | h
        · constructor <;> intro hc <;> simp [toResult, hc] at h1
        · exact hl k h

/-- Facts about `harvest_results`. -/
structure HRPost (ids : List Nat) (timed : Bool) (w : W) (o : Out (Bool × List TOut)) (w' : W) :
    Prop where
  ext : Ext w w'
  ok : ∀ c l, o = .ok (c, l) → toResults w' ids = .ok l ∧
    (c = true → w.throws < w'.throws) ∧
    (c = false → w'.mustCancel = false ∧ (Quiet w w' ∨ ∃ i ∈ ids, w'.failed i = true ∧ NotAsked w w' i))
  exc : ∀ e, o = .exc e →
    (e = .timeout ∧ timed = true ∧ ids.all w'.isDone = true) ∨
    (e = .runtimeError ∧ w.gaveUps < w'.gaveUps) ∨ (e = .valueError ∧ ids = []) ∨
    (toResults w' ids = .error e ∧ (ids.all w'.isDone = true ∨ w.throws + 1 < w'.throws))

theorem harvestResults_spec (ids : List Nat) (timed ct : Bool) (w : W) :
    wp (harvestResults ids timed ct) (HRPost ids timed w) w := by
  unfold harvestResults
  refine wp_bind (wp_catch (wp_bind (wp_mono (harvestWait_spec ids timed ct false w) ?_)))
  have fin : ∀ (c : Bool) (w' : W), Ext w w' →
      (c = true → w.throws < w'.throws) →
      (c = false → w'.mustCancel = false ∧ (Quiet w w' ∨ ∃ i ∈ ids, w'.failed i = true ∧ NotAsked w w' i)) →
      (ids.all w'.isDone = true ∨ w.throws + 1 < w'.throws) →
      wp (do
        let w ← Coro.get
        match toResults w ids with
          | .ok l => Coro.pure (c, l)
          | .error e => Coro.raise e) (HRPost ids timed w) w' := by
    intro c w' hx h1 h2 h3
    refine wp_bind (wp_get ?_)
    simp only []
    cases hr : toResults w' ids with
    | ok l =>
      refine wp_pure ⟨hx, ?_, by simp⟩
      intro c' l' h; cases h
      exact ⟨hr, h1, h2⟩
    | error e =>
      refine wp_raise ⟨hx, by simp, ?_⟩
      intro e' h; cases h
      exact .inr (.inr (.inr ⟨hr, h3⟩))
  intro o w' post
  cases o with
  | ok _ =>
    obtain ⟨hd, hm, hg, ht, hq⟩ := post.ok rfl
    exact wp_pure (fin false w' post.ext (by simp) (fun _ => ⟨hm, hq⟩) (.inl hd))
  | exc e =>
    simp only []
    rcases post.exc e rfl with ⟨rfl, ht, hm, hd⟩ | ⟨rfl, h1, h2, _⟩ | ⟨rfl, hg, _⟩ | ⟨rfl, h, _⟩
    · simp only [if_true]
      exact wp_pure (fin true w' post.ext (fun _ => ht) (by simp) hd)
    · simp only [reduceCtorEq, if_false]
      refine wp_raise ⟨post.ext, by simp, ?_⟩
      intro e h; cases h
      exact .inl ⟨rfl, h1, h2⟩
    · simp only [reduceCtorEq, if_false]
      refine wp_raise ⟨post.ext, by simp, ?_⟩
      intro e h; cases h
      exact .inr (.inl ⟨rfl, hg⟩)
    · simp only [reduceCtorEq, if_false]
      refine wp_raise ⟨post.ext, by simp, ?_⟩
      intro e h'; cases h'
      exact .inr (.inr (.inl ⟨rfl, h⟩))
  | blocked => exact ⟨post.ext, by simp, by simp⟩

end Shellous
