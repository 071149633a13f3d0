import Verif.Lemmas.WatcherLive

/-!
# Invariants of the child watcher: what is reported
-/

namespace Shellous

theorem wlive {r wr : Nat} {l : List WatchEv} {w : WW} (h : WHist r wr l w) : WLive w := by
  induction h with
  | start hne =>
    refine ⟨?_, ?_, ?_, ?_, ?_, ?_, ?_, ?_, ?_, ?_, ?_, ?_, ?_, ?_⟩ <;>
      simp [WW.init, upd, WW.ids, TPc.final]
    exact hne
  | step ev h hg hs ih => exact wlive_step (wkids h) ih hg (wstep_of hs)

set_option maxHeartbeats 1000000 in
/-- What was reported is for the right call, after the child has exited. -/
theorem wreports {r wr : Nat} {l : List WatchEv} {w : WW} (h : WHist r wr l w) :
    (∀ i p st, (i, p, st) ∈ w.reports → i < w.nCalls ∧ p = w.pid i ∧ ChildExited w i) := by
  induction h with
  | start hne => simp [WW.init]
  | step ev h hg hs ih =>
    rename_i l w w'
    have hk := wkids h
    have hl := wlive h
    have hs := wstep_of hs
    have born := hk.born
    have held := hk.held
    have pidfd := hk.pidfd
    have cl := hl.cl
    have htgt := hk.tgt
    have hdead := hk.dead
    clear hk hl h
    unfold ChildExited at *
    cases hs <;> simp only [upd, WW.closeNum, List.mem_cons] at * <;> grind

/-- The thread leaves its loop only when the watcher is closed or a callback raises. -/
theorem wleft {r wr : Nat} {l : List WatchEv} {w : WW} (h : WHist r wr l w) :
    w.left = none ∨ w.left = some .closed ∨ w.left = some .callbackRaised := by
  induction h with
  | start hne => exact .inl rfl
  | step ev h hg hs ih =>
    rename_i l w w'
    have hl := wlive h
    have hs := wstep_of hs
    have head := hl.head
    have rm := hl.rm
    have cs := hl.cs
    clear hl h
    unfold WW.due at *
    cases hs <;> simp only [WW.closeNum] <;> grind

theorem wstolen {r wr : Nat} {l : List WatchEv} {w : WW} (h : WHist r wr l w) (hn : NoOtherReaper l) : w.stolen = false := by
  induction h with
  | start hne => rfl
  | step ev h hg hs ih =>
    rename_i l w w'
    have ih := ih fun pid hp => hn pid (by simp [hp])
    have hs := wstep_of hs
    cases hs <;> first | exact ih | skip
    rename_i pid c _ _
    exact absurd (by simp) (hn pid)

theorem once_before {w w' : WW} {ev : WatchEv} (hs : WStep w ev w') (h : WatchedOnce w') : WatchedOnce w := by
  unfold WatchedOnce at *
  cases hs <;> first | exact h | skip
  intro i j hi hj he
  refine h i j (Nat.lt_succ_of_lt hi) (Nat.lt_succ_of_lt hj) ?_
  show upd w.target w.nCalls _ i = upd w.target w.nCalls _ j
  rw [upd_other _ _ (by omega), upd_other _ _ (by omega)]
  exact he

/-- The call whose callback is about to be called. -/
def TPc.callingId : TPc → Option Nat
  | .calling _ _ i _ _ => some i
  | _ => none

/-- What is known of the statuses. -/
structure WTrue (w : WW) : Prop where
  held : ∀ i, i < w.nCalls → i ∉ w.ids → w.tpc.callingId ≠ some i → w.proc (w.pid i) = some (w.target i)
  pidfd : ∀ fd c i, w.fds fd = some (.pidfd c i) → c = w.target i
  reported : ∀ i p st, (i, p, st) ∈ w.reports → ∃ raw, w.exited (w.target i) = some raw ∧ st = exitStatus raw
  calling : ∀ fd p i st rest, w.tpc = .calling fd p i st rest → ∃ raw, w.exited (w.target i) = some raw ∧ st = exitStatus raw

/-- A call that has not been reported, and not been waited for. -/
theorem WTrue.open {w : WW} (hk : WKids w) (hl : WLive w) (ht : WTrue w) (i : Nat)
    (h : w.pc i = .start ∨ (∃ n, w.pc i = .polling n) ∨ w.pc i = .err) :
    w.proc (w.pid i) = some (w.target i) ∧ i < w.nCalls ∧ i ∉ w.ids ∧ w.tpc.callingId ≠ some i := by
  have h1 : i < w.nCalls := by
    refine Nat.lt_of_not_le fun hle => ?_
    have := (hk.born i).2 hle
    rw [this] at h
    simp at h
  have h2 : i ∉ w.ids := by
    intro hm
    rcases hl.rp i hm with ⟨fd, hp⟩ | hp <;> rw [hp] at h <;> simp at h
  have h3 : w.tpc.callingId ≠ some i := by
    intro hc
    unfold TPc.callingId at hc
    split at hc
    · cases hc
      rename_i htp
      have := (hl.cl _ _ _ _ _ htp).2.1
      rw [this] at h
      simp at h
    · cases hc
  exact ⟨ht.held i h1 h2 h3, h1, h2, h3⟩

theorem WTrue.waiting {w : WW} (hk : WKids w) (hl : WLive w) (ht : WTrue w) {fd p i : Nat} {rest : List Nat}
    (h : w.tpc = .waiting fd p i rest) : p = w.pid i ∧ w.proc p = some (w.target i) ∧ i < w.nCalls := by
  obtain ⟨h1, h2, _, _, _, h3, _⟩ := hl.wt _ _ _ _ h
  have h4 : i < w.nCalls := by
    refine Nat.lt_of_not_le fun hle => ?_
    have := (hk.born i).2 hle
    rw [this] at h2; cases h2
  refine ⟨h1, ?_, h4⟩
  rw [h1]
  exact ht.held i h4 h3 (by rw [h]; simp [TPc.callingId])

set_option maxHeartbeats 1000000 in
theorem wtrue_held {w w' : WW} {ev : WatchEv} (hk : WKids w) (hl : WLive w) (ht : WTrue w) (hst : w'.stolen = false)
    (hone : WatchedOnce w) (hs : WStep w ev w') :
    ∀ i, i < w'.nCalls → i ∉ w'.ids → w'.tpc.callingId ≠ some i → w'.proc (w'.pid i) = some (w'.target i) := by
  have born := hk.born
  have held := ht.held
  have op := ht.open hk hl
  have wt := fun fd p i rest => ht.waiting hk hl (fd := fd) (p := p) (i := i) (rest := rest)
  clear hk hl ht
  cases hs <;> first
    | exact held
    | skip
  case tryOk i0 n c raw a1 a2 a3 =>
    intro i hi hm hc
    have hm : i ∉ i0 :: w.ids := hm
    have hm' : i ∉ w.ids := fun h => hm (List.mem_cons_of_mem _ h)
    have hne : i ≠ i0 := fun h => hm (by rw [h]; exact List.mem_cons_self)
    show upd w.proc (w.pid i0) none (w.pid i) = some (w.target i)
    have h1 := held i hi hm' hc
    have h2 := op i0 (.inr (.inl ⟨_, a1⟩))
    rw [upd_other]
    · exact h1
    · intro he
      rw [he, h2.1] at h1
      exact hne (hone i i0 hi h2.2.1 (Option.some.inj h1).symm)
  all_goals
    unfold WatchedOnce WW.ids at *
    (simp only [upd, WW.closeNum, List.map_cons, List.mem_cons] at *; grind [TPc.callingId])

set_option maxHeartbeats 1000000 in
theorem wtrue_step {w w' : WW} {ev : WatchEv} (hk : WKids w) (hl : WLive w) (ht : WTrue w) (hst : w'.stolen = false)
    (hone : WatchedOnce w)
    (hrep : ∀ i p st, (i, p, st) ∈ w.reports → i < w.nCalls ∧ p = w.pid i ∧ ChildExited w i) (hs : WStep w ev w') : WTrue w' := by
  refine ⟨wtrue_held hk hl ht hst hone hs, ?_, ?_, ?_⟩
  · have born := hk.born
    have op1 := fun i h => (ht.open hk hl i (.inl h)).1
    have op2 := fun i n h => (ht.open hk hl i (.inr (.inl ⟨n, h⟩))).1
    have pidfd := ht.pidfd
    have kp := hk.pidfd
    clear hk hl ht hrep
    clear hone
    unfold ChildExited at *
    cases hs <;> first
      | exact pidfd
      | (simp only [upd, WW.closeNum, List.map_cons, List.mem_cons] at *; grind [TPc.callingId])
  · have born := hk.born
    have op1 := fun i h => (ht.open hk hl i (.inl h)).1
    have op2 := fun i n h => (ht.open hk hl i (.inr (.inl ⟨n, h⟩))).1
    have rep := ht.reported
    have call := ht.calling
    have wr := hrep
    clear hk hl ht
    clear hone
    unfold ChildExited at *
    cases hs <;> first
      | exact rep
      | (simp only [upd, WW.closeNum, List.map_cons, List.mem_cons] at *; grind [TPc.callingId])
  · have born := hk.born
    have op1 := fun i h => (ht.open hk hl i (.inl h)).1
    have op2 := fun i n h => (ht.open hk hl i (.inr (.inl ⟨n, h⟩))).1
    have call := ht.calling
    have wt := fun fd p i rest => ht.waiting hk hl (fd := fd) (p := p) (i := i) (rest := rest)
    have tg := hl.cl
    clear hk hl ht hrep
    clear hone
    unfold ChildExited at *
    cases hs <;> first
      | exact call
      | (simp only [upd, WW.closeNum, List.map_cons, List.mem_cons] at *; grind [TPc.callingId])

theorem wtrue {r wr : Nat} {l : List WatchEv} {w : WW} (h : WHist r wr l w) (hst : NoOtherReaper l) (hone : WatchedOnce w) : WTrue w := by
  induction h with
  | start hne => refine ⟨?_, ?_, ?_, ?_⟩ <;> simp [WW.init, upd] <;> grind
  | step ev h hg hs ih =>
    rename_i l w w'
    have hs' := wstep_of hs
    have hone' := once_before hs' hone
    exact wtrue_step (wkids h) (wlive h) (ih (fun pid hp => hst pid (by simp [hp])) hone') (wstolen (.step ev h hg hs) hst) hone' (wreports h) hs'

end Shellous
