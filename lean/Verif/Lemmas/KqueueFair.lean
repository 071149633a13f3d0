import Verif.Lemmas.KqueueKept

/-!
# `KQueueStrategy`: infinite histories
-/

namespace Shellous

theorem kq_dying {l : List KqEv} {w : KqW} (h : KqHist l w) (c : Nat) (hx : w.exited c ≠ none) : w.dying c = true := by
  induction h with
  | start => exact absurd rfl hx
  | step ev h hg hs ih =>
    rename_i l w w'
    have hst := kqstep_of hs
    clear h hs hg
    cases hst
    case closeLate => exact ih hx
    all_goals simp only [upd] at hx ⊢ <;> grind

/-- Only the thread moves the thread. -/
theorem kq_tpc_same {w w' : KqW} {e : KqEv} (hs : KqStep w e w') (ht : e.ofThread = false) : w'.tpc = w.tpc := by
  cases hs <;> first | rfl | cases ht

/-- A bound of the steps of the thread until it calls `control` again. -/
def KqTpc.toGo : KqTpc → Nat
  | .loop l => 1 + 4 * l.length
  | .call _ _ _ l => 2 + 4 * l.length
  | .again _ _ l => 3 + 4 * l.length
  | .wait _ _ l => 4 + 4 * l.length
  | _ => 0

/-- What the thread does next, while it is in its loop. -/
theorem kq_thread_moves {w w' : KqW} {e : KqEv} (hs : KqStep w e w') (ht : e.ofThread = true) (hr : w'.left = none) (hf : w.tpc ≠ .fin) :
    (∃ l, e = .control l ∧ w.tpc = .control ∧ w'.tpc = .loop l) ∨
    (w'.tpc.toGo < w.tpc.toGo ∧
      (w'.tpc.pending = w.tpc.pending ∨
        ∃ p i l, w.tpc = .loop (.exit p :: l) ∧ w.pids p = some i ∧ w'.tpc = .wait p i l)) := by
  cases hs <;> first
    | (cases ht; done)
    | (cases hr; done)
    | skip
  case control l h1 _ _ => exact .inl ⟨_, rfl, h1, rfl⟩
  case loopEnd h1 => exact .inr ⟨by rw [h1]; simp [KqTpc.toGo], .inl (by rw [h1]; rfl)⟩
  case pop p i l h1 h2 => exact .inr ⟨by rw [h1]; simp [KqTpc.toGo]; omega, .inr ⟨_, _, _, h1, h2, rfl⟩⟩
  case waitGone h1 _ => exact .inr ⟨by rcases h1 with h1 | h1 <;> rw [h1] <;> simp [KqTpc.toGo], .inl (by rcases h1 with h1 | h1 <;> rw [h1] <;> rfl)⟩
  case waitReap h1 _ _ => exact .inr ⟨by rcases h1 with h1 | h1 <;> rw [h1] <;> simp [KqTpc.toGo], .inl (by rcases h1 with h1 | h1 <;> rw [h1] <;> rfl)⟩
  case waitRuns h1 _ _ => exact .inr ⟨by rw [h1]; simp [KqTpc.toGo], .inl (by rw [h1]; rfl)⟩
  case againRuns h1 _ _ => exact .inr ⟨by rw [h1]; simp [KqTpc.toGo], .inl (by rw [h1]; rfl)⟩
  case callback h1 _ => exact .inr ⟨by rw [h1]; simp [KqTpc.toGo], .inl (by rw [h1]; rfl)⟩
  case closeQueue h1 => exact absurd h1 hf

/-- The thread ends its work on a child with the callback, or with a critical message. -/
theorem kq_handled {w w' : KqW} {e : KqEv} (hs : KqStep w e w') {i : Nat} (hh : w.tpc.holder = some i) :
    w'.tpc.holder = some i ∨ kqTold w'.reports i ∨ i ∈ w'.critical := by
  cases hs <;> first
    | exact .inl hh
    | skip
  case control h1 _ _ => rw [h1] at hh; cases hh
  case loopEnd h1 => rw [h1] at hh; cases hh
  case leave h1 => rw [h1] at hh; cases hh
  case pop h1 _ => rw [h1] at hh; cases hh
  case popFails h1 _ => rw [h1] at hh; cases hh
  case waitGone h1 _ => rcases h1 with h1 | h1 <;> rw [h1] at hh <;> exact .inl hh
  case waitReap h1 _ _ => rcases h1 with h1 | h1 <;> rw [h1] at hh <;> exact .inl hh
  case waitRuns h1 _ _ => rw [h1] at hh; exact .inl hh
  case againRuns h1 _ _ => rw [h1] at hh; cases hh; exact .inr (.inr List.mem_cons_self)
  case callback h1 _ => rw [h1] at hh; cases hh; exact .inr (.inl List.mem_cons_self)
  case callbackRaised h1 => rw [h1] at hh; cases hh; exact .inr (.inl List.mem_cons_self)
  case closeQueue h1 => rw [h1] at hh; cases hh

/-- The thread can go on until it has ended (`control` returns after ten seconds, or sooner). -/
theorem kq_can {w : KqW} (he : w.tpc ≠ .ended) : ∃ e w', e.ofThread = true ∧ w.gives e ∧ w.step e = some w' := by
  cases ht : w.tpc with
  | control =>
    have : (w.step (.control [])).isSome = true := by simp [KqW.step, KqW.threadStep, ht]
    exact ⟨.control [], _, rfl, (by intro n hn; cases hn), (Option.some_get this).symm⟩
  | loop l =>
    have : (w.step .next).isSome = true := by
      simp only [KqW.step, KqW.threadStep, ht]
      cases l with
      | nil => rfl
      | cons x l =>
        cases x with
        | timer => rfl
        | exit p => cases hp : w.pids p <;> simp [hp]
    exact ⟨.next, _, rfl, trivial, (Option.some_get this).symm⟩
  | wait p i l =>
    have : (w.step .threadWait).isSome = true := by
      simp only [KqW.step, KqW.threadStep, ht]
      split <;> rfl
    exact ⟨.threadWait, _, rfl, trivial, (Option.some_get this).symm⟩
  | again p i l =>
    have : (w.step .threadWait).isSome = true := by
      simp only [KqW.step, KqW.threadStep, ht]
      split <;> rfl
    exact ⟨.threadWait, _, rfl, trivial, (Option.some_get this).symm⟩
  | call p i st l =>
    have : (w.step (.callback .returns)).isSome = true := by simp [KqW.step, KqW.threadStep, ht]
    exact ⟨.callback .returns, _, rfl, trivial, (Option.some_get this).symm⟩
  | fin =>
    have : (w.step .closeQueue).isSome = true := by simp [KqW.step, KqW.threadStep, ht]
    exact ⟨.closeQueue, _, rfl, trivial, (Option.some_get this).symm⟩
  | ended => exact absurd ht he

section
variable {σ : Nat → KqW} {ev : Nat → Option KqEv} (hx : KqExec σ ev)
include hx

theorem kq_exec_hist (n : Nat) : KqHist ((List.range n).filterMap ev) (σ n) := by
  induction n with
  | zero => rw [hx.init]; exact .start
  | succ n ih =>
    have := hx.steps n
    rw [List.range_succ, List.filterMap_append]
    cases he : ev n with
    | none => rw [he] at this; simp only at this; simpa [he, this] using ih
    | some e => rw [he] at this; simpa [he] using KqHist.step e ih this.1 this.2

theorem kq_exec_step {n : Nat} {e : KqEv} (he : ev n = some e) : KqStep (σ n) e (σ (n + 1)) := by
  have := hx.steps n
  rw [he] at this
  exact kqstep_of this.2

/-- The next step of the thread. -/
theorem kq_next_thread {k d : Nat} {e : KqEv} (he : ev (k + d) = some e) (ht : e.ofThread = true) :
    ∃ m e, k ≤ m ∧ ev m = some e ∧ e.ofThread = true ∧ (σ m).tpc = (σ k).tpc := by
  induction d generalizing k with
  | zero => exact ⟨k, e, Nat.le_refl _, he, ht, rfl⟩
  | succ d ih =>
    by_cases hk : ∃ e', ev k = some e' ∧ e'.ofThread = true
    · obtain ⟨e', h1, h2⟩ := hk
      exact ⟨k, e', Nat.le_refl _, h1, h2, rfl⟩
    · have hsame : (σ (k + 1)).tpc = (σ k).tpc := by
        cases hev : ev k with
        | none =>
          have := hx.steps k
          rw [hev] at this
          rw [this]
        | some e' =>
          refine kq_tpc_same (kq_exec_step hx hev) ?_
          cases hb : e'.ofThread with
          | false => rfl
          | true => exact absurd ⟨e', hev, hb⟩ hk
      obtain ⟨m, e', h1, h2, h3, h4⟩ := ih (k := k + 1) (by rw [← he]; congr 1; omega)
      exact ⟨m, e', by omega, h2, h3, h4.trans hsame⟩

theorem kq_goes_on (hfair : KqFair σ ev) {n : Nat} (hne : ∀ m, n ≤ m → (σ m).tpc ≠ .ended) {k : Nat} (hk : n ≤ k) :
    ∃ m e, k ≤ m ∧ ev m = some e ∧ e.ofThread = true ∧ (σ m).tpc = (σ k).tpc := by
  obtain ⟨m, e, h1, h2, h3⟩ := hfair.thread k fun m hm => kq_can (hne m (by omega))
  exact kq_next_thread hx (k := k) (d := m - k) (by rw [← h2]; congr 1; omega) h3

/-- While the thread is in its loop, it calls `control` again and again. -/
theorem kq_controls (hfair : KqFair σ ev) {n : Nat} (hr : ∀ m, n ≤ m → (σ m).left = none) (hf : ∀ m, n ≤ m → (σ m).tpc ≠ .fin ∧ (σ m).tpc ≠ .ended) :
    ∀ k, ∃ m l, k ≤ m ∧ ev m = some (.control l) := by
  have hC : ∀ N k, n ≤ k → (σ k).tpc.toGo ≤ N → ∃ m l, k ≤ m ∧ ev m = some (.control l) := by
    intro N
    induction N with
    | zero =>
      intro k hk' hN
      obtain ⟨m, e, h1, h2, h3, h4⟩ := kq_goes_on hx hfair (fun m hm => (hf m hm).2) hk'
      rcases kq_thread_moves (kq_exec_step hx h2) h3 (hr _ (by omega)) (hf m (by omega)).1 with ⟨l, rfl, _⟩ | ⟨h6, _⟩
      · exact ⟨m, l, h1, h2⟩
      · rw [h4] at h6; omega
    | succ N ih =>
      intro k hk' hN
      obtain ⟨m, e, h1, h2, h3, h4⟩ := kq_goes_on hx hfair (fun m hm => (hf m hm).2) hk'
      rcases kq_thread_moves (kq_exec_step hx h2) h3 (hr _ (by omega)) (hf m (by omega)).1 with ⟨l, rfl, _⟩ | ⟨h6, _⟩
      · exact ⟨m, l, h1, h2⟩
      · obtain ⟨m', l, h7, h8⟩ := ih (m + 1) (by omega) (by rw [h4] at h6; omega)
        exact ⟨m', l, by omega, h8⟩
  intro k
  obtain ⟨m, l, h1, h2⟩ := hC _ (max n k) (by omega) (Nat.le_refl _)
  exact ⟨m, l, by omega, h2⟩

end

theorem kq_stays {w w' : KqW} {e : KqEv} (hs : KqStep w e w') (hb : KqBase w) {i : Nat} (hd : w.pc i = .done) :
    w'.pc i = .done ∧ w'.target i = w.target i ∧ w'.pid i = w.pid i := by
  have : i ≠ w.nCalls := fun he => by rw [he, hb.born _ (Nat.le_refl _)] at hd; cases hd
  clear hb
  cases hs
  case closeLate => exact ⟨hd, rfl, rfl⟩
  case goGone hw _ | goRuns hw _ _ | goReap hw _ _ =>
    simp only [upd]
    split
    · rename_i he; rw [← he, hd] at hw; cases hw
    · exact ⟨hd, trivial, trivial⟩
  all_goals simp only [upd] <;> grind

theorem kq_exited_stays {w w' : KqW} {e : KqEv} (hs : KqStep w e w') {c : Nat} (hx : w.exited c ≠ none) : w'.exited c ≠ none := by
  cases hs <;> try exact hx
  show upd w.exited _ _ c ≠ none
  simp only [upd]; split <;> simp_all

end Shellous
