import Verif.Lemmas.HarvestSplit

/-!
# C27-C31: harvest
-/

namespace Shellous.Props
open Shellous

/-- A world with `n` fresh tasks. -/
def freshTasks (n : Nat) : W := { tasks := List.replicate n { kind := .io } }

/-! ## C27 -/

/-- C27: when `harvest` returns, or raises anything but `CancelledError`, all the awaitables are
done, unless it logged that it gave up on tasks that ignore cancellation. -/
theorem C27_done_unless_cancelled (ids : List Nat) (timed ct cf : Bool) (w : W) (evs : List Ev)
    (o : Out Unit) (w' : W) (rest : List Ev) (h : harvest ids timed ct cf w evs = (o, w', rest))
    (hb : o ≠ .blocked) (hc : o ≠ .exc .cancelled) (hg : ¬ gaveUpBetween w w') : AllDone w' ids := by
  have p := harvest_spec ids timed ct cf w evs
  rw [h] at p
  rw [← allDone_iff]
  cases o with
  | blocked => exact absurd rfl hb
  | ok _ => exact (p.ok rfl).1
  | exc e =>
    rcases p.exc e rfl with ⟨rfl, _⟩ | h | ⟨_, h, _⟩ | ⟨_, rfl, _⟩ | h
    · exact absurd rfl hc
    · exact h.2.2.1
    · exact absurd h hg
    · rfl
    · exact h.1

/-- C27 for `harvest`, with at most one `CancelledError` delivered to the caller while it runs: all
the awaitables are done when it ends, unless it logged that it gave up on tasks that ignore
cancellation. Missing (and false, see `C27_two_cancels_false`): any number of cancellations. -/
theorem C27_harvest_partial (ids : List Nat) (timed ct cf : Bool) (w : W) (evs : List Ev)
    (o : Out Unit) (w' : W) (rest : List Ev) (h : harvest ids timed ct cf w evs = (o, w', rest))
    (hb : o ≠ .blocked) (h1 : interruptions w w' ≤ 1) (hg : ¬ gaveUpBetween w w') :
    AllDone w' ids := by
  have p := harvest_spec ids timed ct cf w evs
  rw [h] at p
  by_cases hc : o = .exc .cancelled
  · subst hc
    rw [← allDone_iff]
    rcases p.exc _ rfl with ⟨_, _, _, h | h⟩ | ⟨h, _⟩ | ⟨h, _⟩ | ⟨h, _⟩ | h
    · exact h
    · simp only [interruptions, W.throws] at h1 h; omega
    · cases h
    · cases h
    · cases h
    · exact h.1
  · exact C27_done_unless_cancelled ids timed ct cf w evs o w' rest h hb hc hg

/-- C27 for `harvest_wait`. -/
theorem C27_harvest_wait_partial (ids : List Nat) (timed ct cf : Bool) (w : W) (evs : List Ev)
    (o : Out Unit) (w' : W) (rest : List Ev) (h : harvestWait ids timed ct cf w evs = (o, w', rest))
    (hb : o ≠ .blocked) (h1 : interruptions w w' ≤ 1) (hg : ¬ gaveUpBetween w w') :
    AllDone w' ids := by
  have p := harvestWait_spec ids timed ct cf w evs
  rw [h] at p
  rw [← allDone_iff]
  cases o with
  | blocked => exact absurd rfl hb
  | ok _ => exact (p.ok rfl).1
  | exc e =>
    rcases p.exc e rfl with ⟨_, _, _, h | h⟩ | h | ⟨_, h, _⟩ | ⟨_, rfl, _⟩
    · exact h
    · simp only [interruptions, W.throws] at h1 h; omega
    · exact h.2.2.1
    · exact absurd h hg
    · rfl

/-- With two cancellations of the caller during the cleanup, harvest ends although an awaitable is
still running. -/
theorem C27_two_cancels_false :
    ∃ evs, (harvest [0, 1] false true false (freshTasks 2) evs).1 = .exc .cancelled ∧
      (harvest [0, 1] false true false (freshTasks 2) evs).2.1.outOf 1 = none ∧
      (harvest [0, 1] false true false (freshTasks 2) evs).2.1.cancels = 2 :=
  ⟨[.taskDone 0 (.err (.user 1)), .resume, .cancel, .resume, .cancel, .resume], by decide +kernel⟩

/-- Giving up happens: a task that ignores its cancellation is still running afterwards. -/
theorem C27_gave_up_false :
    ∃ evs, (harvest [0, 1] false true false (freshTasks 2) evs).1 = .exc .runtimeError ∧
      (harvest [0, 1] false true false (freshTasks 2) evs).2.1.outOf 1 = none ∧
      (harvest [0, 1] false true false (freshTasks 2) evs).2.1.cancels = 0 :=
  ⟨[.taskDone 0 (.err (.user 1)), .resume, .timeout, .resume], by decide +kernel⟩

/-- The hypotheses are met by a run with a failure, a cancellation and a straggler. -/
example : ∃ evs o w' rest, harvest [0, 1] false true false (freshTasks 2) evs = (o, w', rest) ∧
    o = .exc (.user 7) ∧ interruptions (freshTasks 2) w' = 1 ∧ ¬ gaveUpBetween (freshTasks 2) w' := by
  let evs := [Ev.taskDone 0 (.err (.user 7)), .resume, .cancel, .resume, .taskDone 1 .cancelled, .resume]
  exact ⟨evs, _, _, _, rfl, by decide +kernel, by decide +kernel, by
    unfold gaveUpBetween; decide +kernel⟩

/-! ## C28 -/

/-- C28: harvest returns normally only if no awaitable failed (and all are done). -/
theorem C28_normal_means_no_failure (ids : List Nat) (timed ct cf : Bool) (w : W) (evs : List Ev)
    (w' : W) (rest : List Ev) (h : harvest ids timed ct cf w evs = (.ok (), w', rest)) :
    AllDone w' ids ∧ NoFailure w' ids := by
  have p := harvest_spec ids timed ct cf w evs
  rw [h] at p
  obtain ⟨hd, _, _, hf⟩ := p.ok rfl
  exact ⟨allDone_iff.1 hd, noFailure_iff.1 hf⟩

/-- C28: an exception raised by harvest, unless it was interrupted by `CancelledError`, timed out or
gave up, is the exception of the first failed awaitable in argument order. -/
theorem C28_raises_first (ids : List Nat) (hne : ids ≠ []) (timed ct cf : Bool) (w : W)
    (evs : List Ev) (e : Exc) (w' : W) (rest : List Ev)
    (h : harvest ids timed ct cf w evs = (.exc e, w', rest)) :
    FirstFailure w' ids e ∨ (e = .cancelled ∧ 0 < interruptions w w') ∨
      (e = .timeout ∧ timed = true) ∨ (e = .runtimeError ∧ gaveUpBetween w w') := by
  have p := harvest_spec ids timed ct cf w evs
  rw [h] at p
  rcases p.exc e rfl with ⟨h, ht, _⟩ | h | ⟨h, hg, _⟩ | ⟨_, h, _⟩ | h
  · refine .inr (.inl ⟨h, ?_⟩)
    simp only [interruptions, W.throws] at *; omega
  · exact .inr (.inr (.inl ⟨h.1, h.2.1⟩))
  · exact .inr (.inr (.inr ⟨h, hg⟩))
  · exact absurd h hne
  · exact .inl (firstFailure_some.1 h.2.1)

/-- C28, the other direction: if an awaitable failed, harvest does not return normally. -/
theorem C28_failure_is_raised (ids : List Nat) (timed ct cf : Bool) (w : W)
    (evs : List Ev) (o : Out Unit) (w' : W) (rest : List Ev)
    (h : harvest ids timed ct cf w evs = (o, w', rest)) (i : Nat) (hi : i ∈ ids) (e : Exc)
    (hf : w'.outOf i = some (.err e)) : o ≠ .ok () := by
  rintro rfl
  exact (C28_normal_means_no_failure ids timed ct cf w evs w' rest h).2 i hi e hf

/-- The docstring promises the *first exception seen*; the code raises the first in argument order, so
an error during the cleanup of an earlier awaitable hides the error that caused the cleanup. -/
theorem C28_first_seen_false :
    ∃ evs, (harvest [0, 1] false true false (freshTasks 2) evs).1 = .exc (.user 2) ∧
      evs = [.taskDone 1 (.err (.user 1)), .resume, .taskDone 0 (.err (.user 2)), .resume] :=
  ⟨_, by decide +kernel, rfl⟩

example : ∃ evs, (harvest [0, 1, 2] true true false (freshTasks 3) evs).1 = .exc (.user 5) ∧
    (harvest [0, 1, 2] true true false (freshTasks 3) evs).2.1.outOf 1 = some (.err (.user 5)) :=
  ⟨[.taskDone 1 (.err (.user 5)), .resume, .taskDone 0 .cancelled, .taskDone 2 (.val none), .resume],
   by decide +kernel⟩

/-! ## C29 -/

/-- C29: `TimeoutError` comes out of harvest only if an awaitable raised it, or a time limit was
given, it passed, and at that moment some awaitable was pending and none had failed. Then every
pending awaitable has been asked to cancel. -/
theorem C29_timeout_only_when_due (ids : List Nat) (hne : ids ≠ []) (timed ct cf : Bool) (w : W)
    (hk : Known w ids) (evs : List Ev) (w' : W) (rest : List Ev)
    (h : harvest ids timed ct cf w evs = (.exc .timeout, w', rest)) :
    FirstFailure w' ids .timeout ∨
    (timed = true ∧ ∃ evs₁ evs₂, evs = evs₁ ++ .resume :: evs₂ ∧ Ev.timeout ∈ evs₁ ∧
      (∃ i ∈ ids, (w.after evs₁).outOf i = none) ∧ NoFailure (w.after evs₁) ids ∧
      ∀ i ∈ ids, (w.after evs₁).outOf i = none → AskedToCancel (w.after evs₁) w' i) := by
  have hff : ∀ {w1 evs1}, harvestWait ids timed ct cf w evs = (.ok (), w1, evs1) →
      FirstFailure w' ids .timeout := by
    intro w1 evs1 hw
    rw [harvest_ok hw] at h
    cases hff : w1.firstFailure ids with
    | none => rw [hff] at h; cases h
    | some e =>
      rw [hff] at h
      cases h
      exact firstFailure_some.1 hff
  rcases ha : asyncWait ids timed true w evs with ⟨o, w1, evs2⟩
  have ha' := ha
  rw [asyncWait_eq ids hne] at ha
  cases o with
  | blocked =>
    rw [harvest_blocked (harvestWait_blocked ha')] at h
    cases h
  | exc e =>
    obtain ⟨evs₁, he, hh⟩ := waitLoop_ends _ _ _ _ _ _ _ _ ha (by simp)
    split at hh
    · obtain ⟨h1, rfl⟩ := hh
      cases h1
      have hw := harvestWait_cancelled (ct := ct) (cf := cf) ha'
      have sp : wp (harvestCancelled ids ct cf) (fun o _ => o ≠ .exc .timeout)
          (w.after evs₁).throwCancel := by
        refine wp_bind (wp_mono (cancelWait_spec ids ct cf _) ?_)
        intro o w2 post
        cases o with
        | ok _ => exact wp_bind (wp_consume (post.ok rfl).1 (wp_raise (by simp)))
        | exc e =>
          rcases post.exc e rfl with ⟨rfl, _⟩ | ⟨rfl, _⟩ | ⟨rfl, _⟩ <;> simp
        | blocked => simp
      have sp' := sp evs2
      have hno := harvestCancelled_not_ok ids ct cf (w.after evs₁).throwCancel evs2
      rcases hr : harvestCancelled ids ct cf (w.after evs₁).throwCancel evs2 with ⟨o2, w2, evs3⟩
      rw [hr] at hw sp' hno
      cases o2 with
      | ok _ => exact absurd rfl hno
      | exc e => rw [harvest_exc hw] at h; cases h; exact absurd rfl sp'
      | blocked => rw [harvest_blocked hw] at h; cases h
    · cases hh.1
  | ok _ =>
    obtain ⟨evs₁, hevs, hh⟩ := waitLoop_ends _ _ _ _ _ _ _ _ ha (by simp)
    split at hh
    · cases hh.1
    · obtain ⟨_, hw1, hrel⟩ := hh
      have hw := harvestWait_ok (ct := ct) (cf := cf) ha'
      have q : Quiet w w1 := hw1 ▸ after_quiet w evs₁
      have hk1 : ∀ i ∈ ids, i < w1.tasks.length := fun i hi => by rw [q.lenEq]; exact hk i hi
      by_cases hp : w1.pending ids = []
      · have hd := pending_eq_nil.1 hp
        have hex : timeExpired w1 ids = false := by
          obtain ⟨i, hi⟩ := List.exists_mem_of_ne_nil ids hne
          have : ids.any w1.isDone = true := List.any_eq_true.2 ⟨i, hi, (List.all_eq_true.1 hd) i hi⟩
          simp [timeExpired, this, hp]
        rw [hp, hex] at hw
        have hr : harvestRest ids ct [] false w1 evs2 = (.ok (), w1, evs2) := by
          unfold harvestRest
          rw [bind_ok (a := ()) (w' := w1) (evs' := evs2) rfl,
            bind_ok (a := w1) (w' := w1) (evs' := evs2) rfl]
          simp only [hd]
          rfl
        exact .inl (hff (hw.trans hr))
      · have sp := harvestRest_spec ids ct w1 hp (timeExpired w1 ids) evs2
        rcases hr : harvestRest ids ct (w1.pending ids) (timeExpired w1 ids) w1 evs2 with ⟨o, w2, evs3⟩
        rw [hr] at sp hw
        cases o with
        | blocked => rw [harvest_blocked hw] at h; cases h
        | ok _ => exact .inl (hff hw)
        | exc e =>
          rw [harvest_exc hw] at h
          cases h
          obtain ⟨_, hte⟩ | ⟨h, _⟩ | ⟨h, _⟩ := sp.2.2 _ rfl
          · right
            have hnf : ids.any w1.failed = false := by
              unfold timeExpired at hte
              split at hte
              · simpa [hp] using hte
              · rename_i hx
                rw [List.any_eq_false]
                intro i hi hf
                exact hx (List.any_eq_true.2 ⟨i, hi, failed_isDone hf⟩)
            have htm : timed = true ∧ Ev.timeout ∈ evs₁ := by
              rcases hrel with h | h | h
              · rw [Bool.or_eq_true] at h
                rcases h with h | h
                · exact absurd (pending_eq_nil.2 h) hp
                · rw [hnf] at h; simp at h
              · cases h
              · exact h
            refine ⟨htm.1, evs₁, evs2, hevs, htm.2, ?_, ?_, ?_⟩
            · rw [← hw1]
              obtain ⟨i, hi⟩ := List.exists_mem_of_ne_nil _ hp
              exact ⟨i, (mem_pending.1 hi).1, outOf_none.2 (mem_pending.1 hi).2⟩
            · rw [← hw1, ← noFailure_iff, firstFailure_none]
              intro i hi
              have := (List.any_eq_false.1 hnf) i hi
              simpa using this
            · rw [← hw1]
              intro i hi ho
              exact (cancelAll_asked (mem_pending.2 ⟨hi, outOf_none.1 ho⟩) (hk1 i hi)
                (outOf_none.1 ho)).ext sp.1
          · cases h
          · cases h

/-- C29: without a `timeout` argument, `TimeoutError` comes only from an awaitable. -/
theorem C29_no_timeout_argument (ids : List Nat) (hne : ids ≠ []) (ct cf : Bool) (w : W)
    (evs : List Ev) (w' : W) (rest : List Ev)
    (h : harvest ids false ct cf w evs = (.exc .timeout, w', rest)) : FirstFailure w' ids .timeout := by
  rcases C28_raises_first ids hne false ct cf w evs _ w' rest h with h | ⟨h, _⟩ | ⟨_, h⟩ | ⟨h, _⟩
  · exact h
  all_goals cases h

/-- C29: if the time limit passes while an awaitable is pending and none has failed, harvest asks
all pending awaitables to cancel and never returns normally: it raises `TimeoutError`, unless it is
interrupted twice during the cleanup or gives up. -/
theorem C29_timeout_fires (ids : List Nat) (ct cf : Bool) (w : W) (hk : Known w ids)
    (evs₁ evs₂ : List Ev) (hn : Ev.resume ∉ evs₁) (ht : Ev.timeout ∈ evs₁)
    (hm : (w.after evs₁).mustCancel = false) (hf : NoFailure (w.after evs₁) ids)
    (hp : ∃ i ∈ ids, (w.after evs₁).outOf i = none)
    (o : Out Unit) (w' : W) (rest : List Ev)
    (h : harvest ids true ct cf w (evs₁ ++ .resume :: evs₂) = (o, w', rest)) :
    (∀ i ∈ ids, (w.after evs₁).outOf i = none → AskedToCancel (w.after evs₁) w' i) ∧
    (o = .exc .timeout ∨ o = .blocked ∨ (o = .exc .cancelled ∧ 1 < interruptions w w') ∨
      (o = .exc .runtimeError ∧ gaveUpBetween w w')) := by
  obtain ⟨i₀, hi₀, hn₀⟩ := hp
  have hne : ids ≠ [] := List.ne_nil_of_mem hi₀
  have q := after_quiet w evs₁
  have hw := harvestWait_resume ids hne true ct cf w evs₁ evs₂ hn (.inr (.inr (.inr ⟨rfl, ht⟩)))
  rw [hm] at hw
  simp only [Bool.false_eq_true, if_false] at hw
  generalize w.after evs₁ = w1 at *
  have hp : w1.pending ids ≠ [] := List.ne_nil_of_mem (mem_pending.2 ⟨hi₀, outOf_none.1 hn₀⟩)
  have hex : timeExpired w1 ids = true := by
    unfold timeExpired
    split
    · rw [← noFailure_iff, firstFailure_none] at hf
      have : ids.any w1.failed = false := List.any_eq_false.2 fun i hi => by simp [hf i hi]
      simp [this, hp]
    · rfl
  have sp := harvestRest_spec ids ct w1 hp (timeExpired w1 ids) evs₂
  rcases hr : harvestRest ids ct (w1.pending ids) (timeExpired w1 ids) w1 evs₂ with ⟨o2, w2, evs3⟩
  rw [hr] at sp hw
  have asked : ∀ w3, w3 = w2 → ∀ i ∈ ids, w1.outOf i = none → AskedToCancel w1 w3 i := by
    rintro w3 rfl i hi ho
    exact (cancelAll_asked (mem_pending.2 ⟨hi, outOf_none.1 ho⟩) (by rw [q.lenEq]; exact hk i hi)
      (outOf_none.1 ho)).ext sp.1
  cases o2 with
  | ok _ =>
    have := sp.2.1 rfl
    rw [hex] at this; cases this
  | exc e =>
    rw [harvest_exc hw] at h
    cases h
    refine ⟨asked _ rfl, ?_⟩
    rcases sp.2.2 e rfl with ⟨rfl, _⟩ | ⟨rfl, h⟩ | ⟨rfl, h⟩
    · exact .inl rfl
    · refine .inr (.inr (.inl ⟨rfl, ?_⟩))
      have := q.throws
      simp only [interruptions, W.throws] at *
      omega
    · refine .inr (.inr (.inr ⟨rfl, ?_⟩))
      have := q.gaveUps
      unfold gaveUpBetween
      simp only [W.gaveUps] at *
      omega
  | blocked =>
    rw [harvest_blocked hw] at h
    cases h
    exact ⟨asked _ rfl, .inr (.inl rfl)⟩

example : (harvest [0, 1] true true false (freshTasks 2)
      [.taskDone 0 (.val none), .timeout, .resume, .taskDrop 1, .resume]).1 = .exc .timeout := by
  decide +kernel

/-! ## C30 -/

/-- C30: if the caller is cancelled while harvest waits, every unfinished awaitable is asked to
cancel, and harvest raises `CancelledError`, or gives up with RuntimeError. -/
theorem C30_cancel_reaches_all (ids : List Nat) (hne : ids ≠ []) (timed ct : Bool) (w : W)
    (hk : Known w ids) (evs₁ evs₂ : List Ev) (hn : Ev.resume ∉ evs₁)
    (hm : (w.after evs₁).mustCancel = true) (o : Out Unit) (w' : W) (rest : List Ev)
    (h : harvest ids timed ct false w (evs₁ ++ .resume :: evs₂) = (o, w', rest)) :
    (∀ i ∈ ids, (w.after evs₁).outOf i = none → AskedToCancel (w.after evs₁) w' i) ∧
    (o = .exc .cancelled ∨ o = .blocked ∨ (o = .exc .runtimeError ∧ gaveUpBetween w w')) := by
  have q := after_quiet w evs₁
  have hw := harvestWait_resume ids hne timed ct false w evs₁ evs₂ hn (.inl hm)
  rw [hm] at hw
  simp only [if_true] at hw
  generalize w.after evs₁ = w1 at *
  have sp : wp (harvestCancelled ids ct false) (fun o w' => Ext (w1.throwCancel.cancelAll ids) w' ∧
        (o = .exc .cancelled ∨ o = .blocked ∨ (o = .exc .runtimeError ∧ w.gaveUps < w'.gaveUps)))
      w1.throwCancel := by
    refine wp_bind (wp_mono (cancelWait_spec ids ct false _) ?_)
    intro o w2 post
    simp only [Bool.false_eq_true, if_false] at post
    cases o with
    | ok _ => exact wp_bind (wp_consume (post.ok rfl).1 (wp_raise ⟨post.ext, .inl rfl⟩))
    | exc e =>
      refine ⟨post.ext, ?_⟩
      rcases post.exc e rfl with ⟨rfl, _⟩ | ⟨rfl, h, _⟩ | ⟨_, h⟩
      · exact .inl rfl
      · refine .inr (.inr ⟨rfl, ?_⟩)
        rw [cancelAll_gaveUps, gaveUps_throwCancel, q.gaveUps] at h
        exact h
      · exact absurd h hne
    | blocked => exact ⟨post.ext, .inr (.inl rfl)⟩
  have sp' := sp evs₂
  rcases hr : harvestCancelled ids ct false w1.throwCancel evs₂ with ⟨o2, w2, evs3⟩
  rw [hr] at sp' hw
  have fin : o2 ≠ .ok () → (o, w', rest) = (o2, w2, evs3) →
      (∀ i ∈ ids, w1.outOf i = none → AskedToCancel w1 w' i) ∧
      (o = .exc .cancelled ∨ o = .blocked ∨ (o = .exc .runtimeError ∧ gaveUpBetween w w')) := fun _ he => by
    cases he
    refine And.intro ?_ sp'.2
    intro i hi ho
    have hl : i < w1.tasks.length := by rw [q.lenEq]; exact hk i hi
    exact ((cancelAll_asked (w := w1.throwCancel) hi hl (outOf_none.1 ho)).ext sp'.1).ext_left
      (throwCancel_ext w1) hl
  cases o2 with
  | ok _ => rcases sp'.2 with h | h | ⟨h, _⟩ <;> cases h
  | exc e => exact fin (by simp) (h.symm.trans (harvest_exc hw))
  | blocked => exact fin (by simp) (h.symm.trans (harvest_blocked hw))

/-- C30 with `cancel_finish=True`: if the caller is cancelled while harvest waits, no awaitable is
asked to cancel (unless harvest gives up on them), and harvest raises `CancelledError`. -/
theorem C30_cancel_finish (ids : List Nat) (hne : ids ≠ []) (timed ct : Bool) (w : W)
    (hk : Known w ids) (evs₁ evs₂ : List Ev) (hn : Ev.resume ∉ evs₁)
    (hm : (w.after evs₁).mustCancel = true) (o : Out Unit) (w' : W) (rest : List Ev)
    (h : harvest ids timed ct true w (evs₁ ++ .resume :: evs₂) = (o, w', rest))
    (hg : ¬ gaveUpBetween w w') :
    (∀ i ∈ ids, NotAskedToCancel w w' i) ∧ (o = .exc .cancelled ∨ o = .blocked) := by
  have q := after_quiet w evs₁
  have hw := harvestWait_resume ids hne timed ct true w evs₁ evs₂ hn (.inl hm)
  rw [hm] at hw
  simp only [if_true] at hw
  generalize w.after evs₁ = w1 at *
  let Same (a b : W) : Prop := b.tasks.length = a.tasks.length ∧ ∀ i < a.tasks.length, NotAskedToCancel a b i
  have sQ : ∀ {a b}, Quiet a b → Same a b := fun q => ⟨q.lenEq, fun i hi => q.notAsked hi⟩
  have sT : ∀ {a b c}, Same a b → Same b c → Same a c := fun h h' =>
    ⟨h'.1.trans h.1, fun i hi => (h.2 i hi).trans (h'.2 i (by rw [h.1]; exact hi))⟩
  have sTh : ∀ a : W, Same a a.throwCancel := fun a =>
    ⟨rfl, fun i hi => ⟨_, _, List.getElem?_eq_getElem hi, List.getElem?_eq_getElem hi, rfl⟩⟩
  have sLog : ∀ (a : W) (o : Obs), Same a (a.log o) := fun a o =>
    ⟨rfl, fun i hi => ⟨_, _, List.getElem?_eq_getElem hi, List.getElem?_eq_getElem hi, rfl⟩⟩
  have sp : wp (harvestCancelled ids ct true) (fun o w' =>
        (Same w w' ∧ (o = .exc .cancelled ∨ o = .blocked)) ∨
        (o = .exc .runtimeError ∧ w.gaveUps < w'.gaveUps))
      w1.throwCancel := by
    refine wp_bind ?_
    unfold cancelWait
    refine wp_catch (wp_bind (wp_when (fun h => by cases h) (fun _ => ?_)))
    have s1 : Same w w1.throwCancel := sT (sQ q) (sTh w1)
    have g1 : w1.throwCancel.gaveUps = w.gaveUps := by rw [gaveUps_throwCancel, q.gaveUps]
    refine wp_cancelWaiter (fun h => absurd h hne) ?_ ?_ ?_ ?_
    · intro w2 _ q2 hm2
      simp only [if_true]
      refine wp_bind (wp_upd ?_)
      have s2 := sT s1 (sT (sQ q2) (sT (sTh w2) (sLog _ .cleanupCancelled)))
      have g2 : (w2.throwCancel.log .cleanupCancelled).gaveUps = w.gaveUps := by
        rw [gaveUps_log _ (by simp), gaveUps_throwCancel, q2.gaveUps, g1]
      refine wp_cancelWaiter (fun h => absurd h hne) ?_ ?_ ?_ ?_
      · intro w3 _ q3 _
        exact .inl ⟨sT s2 (sT (sQ q3) (sTh w3)), .inl rfl⟩
      · intro w3 _ q3 _ hd
        exact wp_bind (wp_consume hd (wp_raise (.inl ⟨sT s2 (sQ q3), .inl rfl⟩)))
      · intro w3 q3 _ _ _
        refine .inr ⟨rfl, ?_⟩
        rw [cancelAll_gaveUps, gaveUps_log_gaveUp, q3.gaveUps, g2]
        omega
      · intro w3 q3
        exact .inl ⟨sT s2 (sQ q3), .inr trivial⟩
    · intro w2 _ q2 _ hd
      exact wp_bind (wp_consume hd (wp_raise (.inl ⟨sT s1 (sQ q2), .inl rfl⟩)))
    · intro w2 q2 _ _ _
      simp only [reduceCtorEq, if_false]
      refine wp_raise (.inr ⟨rfl, ?_⟩)
      rw [cancelAll_gaveUps, gaveUps_log_gaveUp, q2.gaveUps, g1]
      omega
    · intro w2 q2
      exact .inl ⟨sT s1 (sQ q2), .inr rfl⟩
  have sp' := sp evs₂
  rcases hr : harvestCancelled ids ct true w1.throwCancel evs₂ with ⟨o2, w2, evs3⟩
  rw [hr] at sp' hw
  have fin : (o, w', rest) = (o2, w2, evs3) →
      (∀ i ∈ ids, NotAskedToCancel w w' i) ∧ (o = .exc .cancelled ∨ o = .blocked) := fun he => by
    cases he
    rcases sp' with ⟨hs, ho⟩ | ⟨_, h⟩
    · exact And.intro (fun i hi => hs.2 i (hk i hi)) ho
    · exact absurd h hg
  cases o2 with
  | ok _ =>
    rcases sp' with ⟨_, h | h⟩ | ⟨h, _⟩ <;> cases h
  | exc e => exact fin (h.symm.trans (harvest_exc hw))
  | blocked => exact fin (h.symm.trans (harvest_blocked hw))

/-- C30: a harvest that returns normally has not swallowed a cancellation: `cancel()` was not called on
the caller since it started. -/
theorem C30_normal_means_not_cancelled (ids : List Nat) (timed ct cf : Bool) (w : W) (evs : List Ev)
    (w' : W) (rest : List Ev) (h : harvest ids timed ct cf w evs = (.ok (), w', rest)) :
    w'.cancels = w.cancels ∧ w'.mustCancel = false := by
  have p := harvest_spec ids timed ct cf w evs
  rw [h] at p
  obtain ⟨_, hm, q, _⟩ := p.ok rfl
  exact ⟨q.lost hm, hm⟩

/-- But a cancellation that arrives while harvest cleans up after a failure is swallowed: harvest
raises the failure, and no `CancelledError` is pending any more. -/
theorem C30_swallowed_false :
    ∃ evs, (harvest [0, 1] false true false (freshTasks 2) evs).1 = .exc (.user 7) ∧
      (harvest [0, 1] false true false (freshTasks 2) evs).2.1.cancels = 1 ∧
      (harvest [0, 1] false true false (freshTasks 2) evs).2.1.mustCancel = false :=
  ⟨[.taskDone 0 (.err (.user 7)), .resume, .cancel, .resume, .taskDone 1 .cancelled, .resume],
   by decide +kernel⟩

example : (harvest [0, 1] true true false (freshTasks 2)
      [.taskDone 0 (.val none), .cancel, .resume, .taskDrop 1, .resume]).1 = .exc .cancelled ∧
    (harvest [0, 1] true true true (freshTasks 2)
      [.taskDone 0 (.val none), .cancel, .resume, .taskDone 1 (.val none), .resume]).1
        = .exc .cancelled := by
  decide +kernel

/-! ## C31 -/

/-- C31/C27: `harvest_results` returns one result per awaitable, in argument order, each the
outcome of its awaitable (in particular all are done), none of them a RuntimeError or AssertionError. -/
theorem C31_results_in_order (ids : List Nat) (timed ct : Bool) (w : W) (evs : List Ev)
    (c : Bool) (l : List TOut) (w' : W) (rest : List Ev)
    (h : harvestResults ids timed ct w evs = (.ok (c, l), w', rest)) :
    l.map some = ids.map w'.outOf ∧ ∀ o ∈ l, o ≠ .err .assertionError ∧ o ≠ .err .runtimeError := by
  have p := harvestResults_spec ids timed ct w evs
  rw [h] at p
  exact toResults_ok (p.ok c l rfl).1

/-- C27: after `harvest_results` has returned, all the awaitables are done. -/
theorem C27_harvest_results (ids : List Nat) (timed ct : Bool) (w : W) (evs : List Ev)
    (c : Bool) (l : List TOut) (w' : W) (rest : List Ev)
    (h : harvestResults ids timed ct w evs = (.ok (c, l), w', rest)) : AllDone w' ids := by
  have hm := (C31_results_in_order ids timed ct w evs c l w' rest h).1
  intro i hi
  have : w'.outOf i ∈ l.map some := by rw [hm]; exact List.mem_map.2 ⟨i, hi, rfl⟩
  obtain ⟨o, _, ho⟩ := List.mem_map.1 this
  exact ⟨o, ho.symm⟩

/-- C31: the flag is set only if the caller was interrupted by `CancelledError`; and if it is not
set, the caller was not cancelled, except that a cancellation may have been swallowed while cleaning up
after a failed awaitable (`C31_swallowed_false`). -/
theorem C31_flag_partial (ids : List Nat) (timed ct : Bool) (w : W) (evs : List Ev)
    (c : Bool) (l : List TOut) (w' : W) (rest : List Ev)
    (h : harvestResults ids timed ct w evs = (.ok (c, l), w', rest)) :
    (c = true → 0 < interruptions w w') ∧
    (c = false → NoFailure w' ids → w'.cancels = w.cancels ∧ interruptions w w' = 0) := by
  have p := harvestResults_spec ids timed ct w evs
  rw [h] at p
  obtain ⟨_, h1, h2⟩ := p.ok c l rfl
  constructor
  · intro hc
    have := h1 hc
    simp only [interruptions, W.throws] at *
    omega
  · intro hc hnf
    obtain ⟨hm, hq | ⟨i, hi, hf, _⟩⟩ := h2 hc
    · refine ⟨hq.lost hm, ?_⟩
      have := hq.throws
      simp only [interruptions, W.throws] at *
      omega
    · rw [← noFailure_iff, firstFailure_none] at hnf
      rw [hnf i hi] at hf; cases hf

/-- C31: the caller was cancelled, but `harvest_results` reports `cancelled=False`. -/
theorem C31_swallowed_false :
    ∃ evs, (harvestResults [0, 1] false true (freshTasks 2) evs).1
        = .ok (false, [.err (.user 7), .cancelled]) ∧
      (harvestResults [0, 1] false true (freshTasks 2) evs).2.1.cancels = 1 ∧
      (harvestResults [0, 1] false true (freshTasks 2) evs).2.1.mustCancel = false :=
  ⟨[.taskDone 0 (.err (.user 7)), .resume, .cancel, .resume, .taskDone 1 .cancelled, .resume],
   by decide +kernel⟩

/-- C31: an exception of `harvest_results` is the first RuntimeError or AssertionError of an awaitable
in argument order, unless harvest timed out, gave up, or was interrupted twice. -/
theorem C31_raises_serious (ids : List Nat) (hne : ids ≠ []) (timed ct : Bool) (w : W) (evs : List Ev)
    (e : Exc) (w' : W) (rest : List Ev)
    (h : harvestResults ids timed ct w evs = (.exc e, w', rest)) (h1 : interruptions w w' ≤ 1) :
    FirstSerious w' ids e ∨ (e = .timeout ∧ timed = true) ∨
      (e = .runtimeError ∧ gaveUpBetween w w') := by
  have p := harvestResults_spec ids timed ct w evs
  rw [h] at p
  rcases p.exc e rfl with h | h | ⟨_, h⟩ | ⟨h, hd | hd⟩
  · exact .inr (.inl ⟨h.1, h.2.1⟩)
  · exact .inr (.inr h)
  · exact absurd h hne
  · exact .inl (toResults_error h (allDone_iff.1 hd))
  · simp only [interruptions, W.throws] at *; omega

example : (harvestResults [0, 1, 2] false true (freshTasks 3)
    [.taskDone 2 (.err (.user 4)), .resume, .taskDone 0 .cancelled, .taskDone 1 (.err .runtimeError),
     .resume]).1 = .exc .runtimeError ∧
    (harvestResults [0, 1, 2] false true (freshTasks 3)
    [.taskDone 2 (.val none), .cancel, .resume, .taskDone 0 .cancelled, .taskDone 1 (.err (.user 3)),
     .resume]).1 = .ok (true, [.cancelled, .err (.user 3), .val none]) := by decide +kernel

end Shellous.Props
