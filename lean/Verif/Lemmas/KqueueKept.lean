import Verif.Lemmas.KqueueMine

/-!
# `KQueueStrategy`: the right status, and no exit is lost
-/

namespace Shellous

/-- The statuses, if nobody else reaps children and no child is watched twice. -/
structure KqRight (w : KqW) : Prop where
  gotC : ∀ i k st raw, (w.pc i).got = some (k, st) → w.exited (w.target k) = some raw → st = exitStatus raw
  gotT : ∀ k st raw, w.tpc.got = some (k, st) → w.exited (w.target k) = some raw → st = exitStatus raw
  rep : ∀ k p st raw, (k, p, st) ∈ w.reports → w.exited (w.target k) = some raw → st = exitStatus raw

set_option maxHeartbeats 4000000 in
theorem kqright {l : List KqEv} {w : KqW} (h : KqHist l w) (ha : KqAlone l) (ho : KqOnce w) : KqRight w := by
  induction h with
  | start => constructor <;> simp [KqPc.got, KqTpc.got]
  | step ev h hg hs ih =>
    rename_i l w w'
    have hst := kqstep_of hs
    have ho' := kq_once_before hst ho
    have ha' : KqAlone l := fun p hp => ha p (List.mem_append_left _ hp)
    obtain ⟨h1, h2, h3⟩ := ih ha' ho'
    obtain ⟨a1, a2, a3⟩ := kqafter h
    have m := kqmine h ha' ho'
    have t := kqtokens h
    have b := kqbase h
    have fresh : w.pc w.nCalls = .unborn := b.born _ (Nat.le_refl _)
    have lt1 : ∀ i k st, (w.pc i).got = some (k, st) → k ≠ w.nCalls := fun i k st hk he => by
      have := (t.hold i k (KqPc.got_holder hk)).2; rw [he, fresh] at this; cases this
    have lt2 : ∀ k st, w.tpc.got = some (k, st) → k ≠ w.nCalls := fun k st hk he => by
      have := t.tentered k (KqTpc.got_holder hk); rw [he, fresh] at this; cases this
    clear h hs hg ih ha ho
    cases hst
    case closeLate => exact ⟨h1, h2, h3⟩
    case goGone i k pc hw hp =>
      have hw' := waits_holder hw
      have hki := m.u3 i k hw'.1
      subst hki
      have := m.u1 k (m.u4 k (waits_pre hw).1)
      rw [hp] at this; cases this
    case goReap i k pc c raw hw hp hx =>
      have hw' := waits_holder hw
      have hki := m.u3 i k hw'.1
      subst hki
      have := m.u1 k (m.u4 k (waits_pre hw).1)
      rw [hp] at this; cases this
      refine ⟨?_, h2, h3⟩
      simp only [upd, apply_ite KqPc.got]
      grind
    case waitGone pid i l ht hp =>
      have := m.u1 i (m.u5 i (by rcases ht with h | h <;> rw [h] <;> rfl))
      rw [t.thold pid i (by rcases ht with h | h <;> rw [h] <;> rfl) (by rcases ht with h | h <;> rw [h] <;> rfl), hp] at this; cases this
    case waitReap pid i l c raw ht hp hx =>
      have := m.u1 i (m.u5 i (by rcases ht with h | h <;> rw [h] <;> rfl))
      rw [t.thold pid i (by rcases ht with h | h <;> rw [h] <;> rfl) (by rcases ht with h | h <;> rw [h] <;> rfl), hp] at this; cases this
      refine ⟨h1, ?_, h3⟩
      simp only
      grind
    case' goRuns i k pc c hw _ _ => have := waits_holder hw; clear hw
    all_goals
      clear t m b ho' ha'
      refine ⟨?_, ?_, ?_⟩ <;> simp only [upd, apply_ite KqPc.got, List.mem_cons, Prod.mk.injEq] <;> grind

/-- The children and the process table. -/
structure KqGone (w : KqW) : Prop where
  held : ∀ i p, i < w.nCalls → w.proc p = some (w.target i) → p = w.pid i
  gotC : ∀ i k st q, (w.pc i).got = some (k, st) → w.proc q ≠ some (w.target k)
  gotT : ∀ k st q, w.tpc.got = some (k, st) → w.proc q ≠ some (w.target k)
  reported : ∀ k q, kqTold w.reports k → w.proc q ≠ some (w.target k)

set_option maxHeartbeats 4000000 in
theorem kqgone {l : List KqEv} {w : KqW} (h : KqHist l w) : KqGone w := by
  induction h with
  | start => constructor <;> simp [KqPc.got, KqTpc.got]
  | step ev h hg hs ih =>
    rename_i l w w'
    obtain ⟨h1, h2, h3, h4⟩ := ih
    have hst := kqstep_of hs
    obtain ⟨b1, b2, b3, -, b5, -⟩ := kqbase h
    have t := kqtokens h
    have fresh : w.pc w.nCalls = .unborn := b1 _ (Nat.le_refl _)
    have ent : ∀ i, (w.pc i).entered = true → i < w.nCalls := fun i hi =>
      Nat.lt_of_not_ge fun hge => by rw [b1 i hge] at hi; cases hi
    have lt1 : ∀ i k st, (w.pc i).got = some (k, st) → k < w.nCalls := fun i k st hk => ent k (t.hold i k (KqPc.got_holder hk)).2
    have lt2 : ∀ k st, w.tpc.got = some (k, st) → k < w.nCalls := fun k st hk => ent k (t.tentered k (KqTpc.got_holder hk))
    have lt3 : ∀ k, kqTold w.reports k → k < w.nCalls := fun k hk => ent k (t.rep k hk)
    have th := t.hold
    have tt := t.thold
    have te := t.tentered
    clear h hs hg t b1
    cases hst
    case closeLate => exact ⟨h1, h2, h3, h4⟩
    case goCall i e k st hpc =>
      refine ⟨h1, ?_, h3, fun j q hj => ?_⟩
      · simp only [upd, apply_ite KqPc.got]
        clear b2 b3 b5 ent lt1 lt2 lt3 th tt te h1 h3 h4
        grind
      · rw [kqTold_cons] at hj
        rcases hj with rfl | hj
        · exact h2 i k st q (by rw [hpc]; rfl)
        · exact h4 j q hj
    case callback e pid i st l ht he =>
      refine ⟨h1, h2, fun k st q hk => (by cases hk), fun j q hj => ?_⟩
      rw [kqTold_cons] at hj
      rcases hj with rfl | hj
      · exact h3 i st q (by rw [ht]; rfl)
      · exact h4 j q hj
    case callbackRaised pid i st l ht =>
      refine ⟨h1, h2, fun k st q hk => (by cases hk), fun j q hj => ?_⟩
      rw [kqTold_cons] at hj
      rcases hj with rfl | hj
      · exact h3 i st q (by rw [ht]; rfl)
      · exact h4 j q hj
    case' goGone i k pc hw _ | goRuns i k pc c hw _ _ => have := waits_holder hw; clear hw
    case' goReap i k pc c raw hw hp hx =>
      have := waits_holder hw
      have gk : ∀ q, q ≠ w.pid i → w.proc q ≠ some (w.target k) := fun q hq hpq => by
        have hh := th i k this.1
        exact hq ((h1 k q (ent k hh.2) hpq).trans hh.1)
      clear hw hp hx ent lt1 lt2 lt3 th tt te b2 b5
    all_goals
      refine ⟨?_, ?_, ?_, ?_⟩ <;> simp only [upd, apply_ite KqPc.got, kqTold_cons] <;> grind

/-- Where the callback of a call that has returned is. -/
structure KqKept (w : KqW) : Prop where
  w1 : ∀ k, (w.pc k).isDone = true → w.pids (w.pid k) = some k ∨ w.tpc.holder = some k ∨ kqTold w.reports k ∨ k ∈ w.critical
  w2 : ∀ p k, w.pids p = some k → (w.pc k).isDone = true → w.note p = some (w.target k) ∨ .exit p ∈ w.tpc.pending ∨ w.left ≠ none
  w4 : w.left ≠ none → w.tpc = .fin ∨ w.tpc = .ended
  w5 : w.left = none → w.tpc ≠ .fin ∧ w.tpc ≠ .ended
  w6 : w.open_ = false → w.left ≠ none

set_option maxHeartbeats 4000000 in
theorem kqkept {l : List KqEv} {w : KqW} (h : KqHist l w) (ha : KqAlone l) (ho : KqOnce w) : KqKept w := by
  induction h with
  | start => constructor <;> simp [KqPc.isDone]
  | step ev h hg hs ih =>
    rename_i l w w'
    have hst := kqstep_of hs
    have ho' := kq_once_before hst ho
    have ha' : KqAlone l := fun p hp => ha p (List.mem_append_left _ hp)
    obtain ⟨h1, h2, h4, h5, h6⟩ := ih ha' ho'
    obtain ⟨u0, u1, u2, u3, u4, u5, u6, u7, u8, u9, n1, n2, n3, n4, n5, n6, n7⟩ := kqmine h ha' ho'
    obtain ⟨t1, -, -, -, -, -, -, -, -, -, -, -⟩ := kqtokens h
    have fresh : w.pc w.nCalls = .unborn := (kqbase h).born _ (Nat.le_refl _)
    have nt : ∀ p, w.pids p ≠ some w.nCalls := fun p hp => by
      have := (t1 _ _ hp).2; rw [fresh] at this; cases this
    have nd : (w.pc w.nCalls).isDone = false := by rw [fresh]; rfl
    have free : ∀ i, w.pc i = .insert → w.pids (w.pid i) = none := by
      intro i hi
      cases hp : w.pids (w.pid i) with
      | none => rfl
      | some j =>
        have hli := u4 i (by rw [hi]; rfl)
        have hlj := u2 _ _ hp
        have e1 := u1 i hli
        have e2 := u1 j hlj
        rw [(t1 _ _ hp).1, e1] at e2
        have := ho' i j (u0 i hli) (u0 j hlj) (Option.some.inj e2)
        rw [← this] at hp
        have := u7 _ _ hp
        rw [hi] at this; cases this
    clear h hs hg ih ha ho ho' ha'
    cases hst
    case closeLate => exact ⟨h1, h2, h4, h5, h6⟩
    case goReap i k pc c raw hw hp hx =>
      have := waits_pre hw
      refine ⟨?_, ?_, h4, h5, h6⟩ <;> simp only [upd, apply_ite KqPc.isDone, KqPc.isDone_failCall]
      · intro j hj; split at hj
        · cases hj
        · exact h1 j hj
      · intro p j hp hj; split at hj
        · cases hj
        · exact h2 p j hp hj
    case goGone i k pc hw hp =>
      have := waits_pre hw
      refine ⟨?_, ?_, h4, h5, h6⟩ <;> simp only [upd, apply_ite KqPc.isDone, KqPc.isDone_failCall]
      · intro j hj; split at hj
        · cases hj
        · exact h1 j hj
      · intro p j hp hj; split at hj
        · cases hj
        · exact h2 p j hp hj
    case goRuns i k pc c hw hp hx =>
      have := waits_pre hw
      refine ⟨?_, ?_, h4, h5, h6⟩ <;> simp only [upd, apply_ite KqPc.isDone, this.2.2.2.2.2.2.1]
      · intro j hj; split at hj
        · cases hj
        · exact h1 j hj
      · intro p j hp hj; split at hj
        · cases hj
        · exact h2 p j hp hj
    case registered i c hpc hop hn hp =>
      have hpi := u8 i (by rw [hpc]; rfl)
      have hpc' := u1 i (u4 i (by rw [hpc]; rfl))
      rw [hp] at hpc'
      clear u0 u1 u2 u3 u4 u5 u6 u7 u8 u9 n1 n2 n3 n4 n5 n6 n7 nt nd fresh hp
      refine ⟨?_, ?_, h4, h5, h6⟩ <;> simp only [upd, apply_ite KqPc.isDone] <;> grind
    case' waitReap pid i l c raw ht hp hx =>
      have hth : w.tpc.holder = some i := by rcases ht with h | h <;> rw [h] <;> rfl
      have htl : w.tpc.pending = l := by rcases ht with h | h <;> rw [h] <;> rfl
      have htn : w.left = none := by
        cases hlf : w.left with
        | none => rfl
        | some x =>
          rcases h4 (by rw [hlf]; simp) with h | h <;> rw [h] at hth <;> cases hth
      clear ht hx hp
    case' waitGone pid i l ht hp =>
      have hth : w.tpc.holder = some i := by rcases ht with h | h <;> rw [h] <;> rfl
      have htl : w.tpc.pending = l := by rcases ht with h | h <;> rw [h] <;> rfl
      have htn : w.left = none := by
        cases hlf : w.left with
        | none => rfl
        | some x =>
          rcases h4 (by rw [hlf]; simp) with h | h <;> rw [h] at hth <;> cases hth
      clear ht hp
    all_goals
      clear u0 u1 u2 u3 u4 u5 u7 u9 n6 n7
      refine ⟨?_, ?_, ?_, ?_, ?_⟩ <;>
        simp only [upd, apply_ite KqPc.isDone, kqTold_cons, List.mem_cons, KqPc.isDone_check, KqPc.isDone_insert, KqPc.isDone_add, KqPc.isDone_failed,
          KqPc.isDone_failWait, KqPc.isDone_assertionError, KqTpc.holder_call, KqTpc.pending_loop, KqTpc.pending_wait, KqTpc.pending_again,
          KqTpc.pending_call, KqTpc.pending_fin, KqTpc.pending_ended, KqTpc.pending_control] <;>
        first | assumption | (clear n1 n2 n3 n4 n5; grind) | grind (instances := 3000)

end Shellous
