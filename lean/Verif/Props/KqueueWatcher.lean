import Verif.Lemmas.KqueueFair

/-!
# C68: the child watcher with kqueue
-/

namespace Shellous.Props

/-- C68, "at most once": in every history, whoever else reaps children and however often a child is watched. -/
theorem C68_at_most_once {l : List KqEv} {w : KqW} (h : KqHist l w) : (w.reports.map (·.1)).Nodup := kq_at_most_once h

/-- C68, "after it has exited", with the process id that was given. -/
theorem C68_after_exit {l : List KqEv} {w : KqW} (h : KqHist l w) {i p : Nat} {st : Int} (hr : (i, p, st) ∈ w.reports) :
    i < w.nCalls ∧ p = w.pid i ∧ w.exited (w.target i) ≠ none :=
  (kqafter h).rep i p st hr

/-- C68, "with its own exit status", however process ids are used again: unless somebody else reaps children, or a child is watched twice. -/
theorem C68_status {l : List KqEv} {w : KqW} (h : KqHist l w) (ha : KqAlone l) (ho : KqOnce w) {i p : Nat} {st : Int}
    (hr : (i, p, st) ∈ w.reports) : ∃ raw, w.exited (w.target i) = some raw ∧ st = exitStatus raw := by
  cases hx : w.exited (w.target i) with
  | none => exact absurd hx (C68_after_exit h hr).2.2
  | some raw => exact ⟨raw, rfl, (kqright h ha ho).rep i p st raw hr hx⟩

/-- C68, "and it is reaped": no child that was reported is left as a zombie. -/
theorem C68_reaped {l : List KqEv} {w : KqW} (h : KqHist l w) {i p : Nat} {st : Int} (hr : (i, p, st) ∈ w.reports) (q : Nat) :
    w.proc q ≠ some (w.target i) :=
  (kqgone h).reported i q (List.mem_map.2 ⟨_, hr, rfl⟩)

/-- C68, "every child can be watched": `watch_pid` raises neither AssertionError nor KeyError, and the thread does not die of a KeyError,
however process ids are used again. (Compare `C66_watch_false`.) -/
theorem C68_never_refused {l : List KqEv} {w : KqW} (h : KqHist l w) (ha : KqAlone l) (ho : KqOnce w) :
    (∀ i, w.pc i ≠ .assertionError ∧ w.pc i ≠ .keyError) ∧ w.left ≠ some .keyError := by
  have m := kqmine h ha ho
  exact ⟨fun i => ⟨fun he => (by have := m.u9 i; rw [he] at this; cases this), fun he => (by have := m.u9 i; rw [he] at this; cases this)⟩, m.n7⟩

/-- C68, "no exit is lost": when a call of `watch_pid` has returned, and its child has exited, then its callback was called, or the thread is about to
call it, or has its event, or the next `control` can return its event; or it was given up with a critical message; or the thread has left its
loop. -/
theorem C68_not_lost {l : List KqEv} {w : KqW} (h : KqHist l w) (ha : KqAlone l) (ho : KqOnce w) {i : Nat} (hd : w.pc i = .done)
    (hx : w.exited (w.target i) ≠ none) :
    KqReported w i ∨ i ∈ w.critical ∨ w.left ≠ none ∨ w.tpc.holder = some i ∨ .exit (w.pid i) ∈ w.tpc.pending ∨ w.fires (.exit (w.pid i)) := by
  have k := kqkept h ha ho
  have hd' : (w.pc i).isDone = true := by rw [hd]; rfl
  rcases k.w1 i hd' with hp | hh | hr | hc
  · rcases k.w2 _ i hp hd' with hn | hp | hl
    · exact .inr (.inr (.inr (.inr (.inr ⟨_, hn, kq_dying h _ hx⟩))))
    · exact .inr (.inr (.inr (.inr (.inl hp))))
    · exact .inr (.inr (.inl hl))
  · exact .inr (.inr (.inr (.inl hh)))
  · obtain ⟨⟨j, p, st⟩, h1, h2⟩ := List.mem_map.1 hr
    exact .inl ⟨p, st, h2 ▸ h1⟩
  · exact .inr (.inl hc)

/-- C68, "called for every child that exits": under every fair schedule; unless the thread has left its loop, or the child, although it had begun to
die, could not be reaped twice 75 ms apart (which is logged). -/
theorem C68_eventually {σ : Nat → KqW} {ev : Nat → Option KqEv} (hx : KqExec σ ev) (hfair : KqFair σ ev)
    (ha : ∀ n pid, ev n ≠ some (.reapElsewhere pid)) (ho : ∀ n, KqOnce (σ n)) {n i : Nat} (hd : (σ n).pc i = .done)
    (hex : (σ n).exited ((σ n).target i) ≠ none) :
    ∃ m, n ≤ m ∧ (KqReported (σ m) i ∨ i ∈ (σ m).critical ∨ (σ m).left ≠ none) := by
  have hal : ∀ n, KqAlone ((List.range n).filterMap ev) := by
    intro n pid hm
    obtain ⟨k, _, hk⟩ := List.mem_filterMap.1 hm
    exact ha k pid hk
  have hist := kq_exec_hist hx
  refine Classical.byContradiction fun hno => ?_
  have hnr : ∀ m, n ≤ m → ¬ kqTold (σ m).reports i := fun m hm hr => by
    obtain ⟨⟨j, p, st⟩, h1, h2⟩ := List.mem_map.1 hr
    exact hno ⟨m, hm, .inl ⟨p, st, h2 ▸ h1⟩⟩
  have hnc : ∀ m, n ≤ m → i ∉ (σ m).critical := fun m hm hc => hno ⟨m, hm, .inr (.inl hc)⟩
  have hnl : ∀ m, n ≤ m → (σ m).left = none := fun m hm => Classical.byContradiction fun hl => hno ⟨m, hm, .inr (.inr hl)⟩
  have kept : ∀ m, KqKept (σ m) := fun m => kqkept (hist m) (hal m) (ho m)
  have hf : ∀ m, n ≤ m → (σ m).tpc ≠ .fin ∧ (σ m).tpc ≠ .ended := fun m hm => (kept m).w5 (hnl m hm)
  have hst : ∀ d, (σ (n + d)).pc i = .done ∧ (σ (n + d)).target i = (σ n).target i ∧ (σ (n + d)).pid i = (σ n).pid i ∧
      (σ (n + d)).exited ((σ n).target i) ≠ none := by
    intro d
    induction d with
    | zero => exact ⟨hd, rfl, rfl, hex⟩
    | succ d ih =>
      have hs := hx.steps (n + d)
      cases he : ev (n + d) with
      | none => rw [he] at hs; rw [← Nat.add_assoc, hs]; exact ih
      | some e =>
        have hs := kq_exec_step hx he
        obtain ⟨h1, h2, h3⟩ := kq_stays hs (kqbase (hist _)) ih.1
        exact ⟨h1, h2.trans ih.2.1, h3.trans ih.2.2.1, kq_exited_stays hs ih.2.2.2⟩
  have hst' : ∀ m, n ≤ m → (σ m).pc i = .done ∧ (σ m).target i = (σ n).target i ∧ (σ m).pid i = (σ n).pid i ∧
      (σ m).exited ((σ n).target i) ≠ none := fun m hm => by
    obtain ⟨d, rfl⟩ := Nat.exists_eq_add_of_le hm
    exact hst d
  -- the thread is not working on it
  have one : ∀ N k, n ≤ k → (σ k).tpc.toGo ≤ N → (σ k).tpc.holder ≠ some i := by
    intro N
    induction N with
    | zero =>
      intro k _ hN hh
      cases ht : (σ k).tpc <;> rw [ht] at hh hN <;> simp [KqTpc.holder, KqTpc.toGo] at hh hN
      all_goals omega
    | succ N ih =>
      intro k hk hN hh
      obtain ⟨m, e, h1, h2, h3, h4⟩ := kq_goes_on hx hfair (fun m hm => (hf m hm).2) hk
      have hs := kq_exec_step hx h2
      rcases kq_thread_moves hs h3 (hnl _ (by omega)) (hf m (by omega)).1 with ⟨l, _, h5, _⟩ | ⟨h6, _⟩
      · rw [h4] at h5; rw [h5] at hh; cases hh
      · rcases kq_handled hs (i := i) (by rw [h4]; exact hh) with h7 | h7 | h7
        · exact ih (m + 1) (by omega) (by rw [h4] at h6; omega) h7
        · exact hnr _ (by omega) h7
        · exact hnc _ (by omega) h7
  have hpid : ∀ m, n ≤ m → (σ m).pids ((σ n).pid i) = some i := fun m hm => by
    obtain ⟨h1, _, h3, _⟩ := hst' m hm
    rcases (kept m).w1 i (by rw [h1]; rfl) with h | h | h | h
    · rw [← h3]; exact h
    · exact absurd h (one _ m hm (Nat.le_refl _))
    · exact absurd h (hnr m hm)
    · exact absurd h (hnc m hm)
  -- it does not have its event
  have two : ∀ N k, n ≤ k → (σ k).tpc.toGo ≤ N → .exit ((σ n).pid i) ∉ (σ k).tpc.pending := by
    intro N
    induction N with
    | zero =>
      intro k _ hN hh
      cases ht : (σ k).tpc <;> rw [ht] at hh hN <;> simp [KqTpc.pending, KqTpc.toGo] at hh hN
      all_goals omega
    | succ N ih =>
      intro k hk hN hh
      obtain ⟨m, e, h1, h2, h3, h4⟩ := kq_goes_on hx hfair (fun m hm => (hf m hm).2) hk
      have hs := kq_exec_step hx h2
      rcases kq_thread_moves hs h3 (hnl _ (by omega)) (hf m (by omega)).1 with ⟨l, _, h5, _⟩ | ⟨h6, h7⟩
      · rw [h4] at h5; rw [h5] at hh; cases hh
      · refine ih (m + 1) (by omega) (by rw [h4] at h6; omega) ?_
        rcases h7 with h7 | ⟨p, j, l, h7, h8, h9⟩
        · rw [h7, h4]; exact hh
        · rw [h4] at h7
          rw [h7] at hh
          rw [h9]
          rcases List.mem_cons.1 hh with h10 | h10
          · cases h10
            rw [hpid m (by omega)] at h8
            cases h8
            exact absurd (by rw [h9]; rfl) (one _ (m + 1) (by omega) (Nat.le_refl _))
          · exact h10
  -- the kqueue has it
  have hfires : ∀ m, n ≤ m → (σ m).fires (.exit ((σ n).pid i)) := fun m hm => by
    obtain ⟨h1, h2, h3, h4⟩ := hst' m hm
    rcases (kept m).w2 _ i (hpid m hm) (by rw [h1]; rfl) with h | h | h
    · exact ⟨_, h, kq_dying (hist m) _ (by rw [h2]; exact h4)⟩
    · exact absurd h (two _ m hm (Nat.le_refl _))
    · exact absurd (hnl m hm) h
  obtain ⟨m, l, h1, h2, h3⟩ := hfair.kqueue _ n hfires (kq_controls hx hfair hnl hf)
  have hs := kq_exec_step hx h2
  refine two _ (m + 1) (by omega) (Nat.le_refl _) ?_
  generalize σ (m + 1) = b at hs
  cases hs with
  | control _ _ _ _ => exact h3

/-- C68: a child is given up with a critical message only if it could not be reaped at that moment. -/
theorem C68_critical {l : List KqEv} {w w' : KqW} {ev : KqEv} (h : KqHist l w) (ha : KqAlone l) (ho : KqOnce w) (hs : w.step ev = some w')
    (ht : ev.ofThread = true) {i : Nat} (hi : i ∈ w'.critical) (hn : i ∉ w.critical) : w.exited (w.target i) = none := by
  have m := kqmine h ha ho
  have t := kqtokens h
  have hs := kqstep_of hs
  cases hs <;> first
    | exact absurd hi hn
    | (cases ht; done)
    | skip
  case againRuns pid k l c h1 h2 h3 =>
    rcases List.mem_cons.1 hi with rfl | hi
    · have := m.u1 i (m.u5 i (by rw [h1]; rfl))
      rw [t.thold pid i (by rw [h1]; rfl) (by rw [h1]; rfl), h2] at this
      cases this
      exact h3
    · exact absurd hi hn

/-- C68: a call that found its child dying (`_kevent_failed`) does not lose it either: when its task has ended, the callback was called, or a critical
message was logged, or the task was cancelled. -/
theorem C68_failed_not_lost {l : List KqEv} {w : KqW} (h : KqHist l w) (ha : KqAlone l) (ho : KqOnce w) {i : Nat}
    (hd : w.pc i = .finished) : KqReported w i ∨ i ∈ w.critical ∨ .giveUp i ∈ l := by
  induction h with
  | start => cases hd
  | step ev h hg hs ih =>
    rename_i l w w'
    have hst := kqstep_of hs
    have ho' := kq_once_before hst ho
    have ha' : KqAlone l := fun p hp => ha p (List.mem_append_left _ hp)
    have m := kqmine h ha' ho'
    have keep : w.pc i = .finished → (∀ x, x ∈ w.reports → x ∈ w'.reports) → (∀ x, x ∈ w.critical → x ∈ w'.critical) →
        KqReported w' i ∨ i ∈ w'.critical ∨ .giveUp i ∈ l ++ [ev] := fun h0 h1 h2 => by
      rcases ih ha' ho' h0 with ⟨p, st, h3⟩ | h3 | h3
      · exact .inl ⟨p, st, h1 _ h3⟩
      · exact .inr (.inl (h2 _ h3))
      · exact .inr (.inr (List.mem_append_left _ h3))
    have other : ∀ j pc, pc ≠ .finished → upd w.pc j pc i = .finished → w.pc i = .finished := fun j pc hne he => by
      simp only [upd] at he
      split at he
      · exact absurd he hne
      · exact he
    clear ih hs
    cases hst
    case goCall j e k st hpc =>
      by_cases hij : i = j
      · subst hij
        have := m.u3 i k (by rw [hpc]; rfl)
        subst this
        exact .inl ⟨_, _, List.mem_cons_self⟩
      · have hd : upd w.pc j .finished i = .finished := hd
        rw [upd_other _ _ hij] at hd
        exact keep hd (fun x hx => List.mem_cons_of_mem _ hx) (fun x hx => hx)
    case exhausted j k hpc =>
      by_cases hij : i = j
      · subst hij
        have := m.u3 i k (by rw [hpc]; rfl)
        subst this
        exact .inr (.inl List.mem_cons_self)
      · have hd : upd w.pc j .finished i = .finished := hd
        rw [upd_other _ _ hij] at hd
        exact keep hd (fun x hx => hx) (fun x hx => List.mem_cons_of_mem _ hx)
    case giveUp j k n hpc =>
      by_cases hij : i = j
      · subst hij; exact .inr (.inr (List.mem_append_right _ List.mem_cons_self))
      · have hd : upd w.pc j .finished i = .finished := hd
        rw [upd_other _ _ hij] at hd
        exact keep hd (fun x hx => hx) (fun x hx => hx)
    case goRuns j k pc c hw _ _ =>
      exact keep (other _ _ (fun he => by have := waits_holder hw; rw [he] at this; cases this.2.1) hd) (fun x hx => hx) (fun x hx => hx)
    case againRuns => exact keep hd (fun x hx => hx) (fun x hx => List.mem_cons_of_mem _ hx)
    case callback => exact keep hd (fun x hx => List.mem_cons_of_mem _ hx) (fun x hx => hx)
    case callbackRaised => exact keep hd (fun x hx => List.mem_cons_of_mem _ hx) (fun x hx => hx)
    all_goals first
      | exact keep hd (fun x hx => hx) (fun x hx => hx)
      | exact keep (other _ _ (by simp) hd) (fun x hx => hx) (fun x hx => hx)

/-- The thread. -/
structure KqThread (w : KqW) (l : List KqEv) : Prop where
  leave : w.left = some .closed → .close ∈ l
  raised : w.left = some .callbackRaised → .callback .otherError ∈ l
  timer : w.timer = true → .close ∈ l
  pend : .timer ∈ w.tpc.pending → .close ∈ l

theorem kqthread {l : List KqEv} {w : KqW} (h : KqHist l w) : KqThread w l := by
  induction h with
  | start => constructor <;> simp [KqTpc.pending]
  | step ev h hg hs ih =>
    rename_i l w w'
    obtain ⟨h1, h2, h3, h4⟩ := ih
    have hst := kqstep_of hs
    clear h hs
    cases hst
    case' control l ht hl hlen =>
      have hfire : .timer ∈ l → w.timer = true := fun hp => hg _ hp
      clear hg
    all_goals
      refine ⟨?_, ?_, ?_, ?_⟩ <;>
        simp only [List.mem_append, List.mem_singleton, KqTpc.pending_loop, KqTpc.pending_wait, KqTpc.pending_again, KqTpc.pending_call,
          KqTpc.pending_fin, KqTpc.pending_ended, KqTpc.pending_control] <;>
        grind [KqTpc.pending]

/-- C68: the thread leaves its loop only when the watcher is closed, or a callback has raised something other than RuntimeError. -/
theorem C68_thread_lives {l : List KqEv} {w : KqW} (h : KqHist l w) (ha : KqAlone l) (ho : KqOnce w) :
    w.left = none ∨ (w.left = some .closed ∧ .close ∈ l) ∨ (w.left = some .callbackRaised ∧ .callback .otherError ∈ l) := by
  have t := kqthread h
  have hk := (C68_never_refused h ha ho).2
  have hos : w.left ≠ some .osError := by
    clear t hk ha ho
    induction h with
    | start => simp
    | step ev h hg hs ih => have hst := kqstep_of hs; cases hst <;> first | exact ih | simp
  cases hl : w.left with
  | none => exact .inl rfl
  | some x =>
    cases x with
    | closed => exact .inr (.inl ⟨rfl, t.leave hl⟩)
    | callbackRaised => exact .inr (.inr ⟨rfl, t.raised hl⟩)
    | keyError => exact absurd hl hk
    | osError => exact absurd hl hos

end Shellous.Props
