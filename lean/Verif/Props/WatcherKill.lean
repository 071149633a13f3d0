import Verif.Lemmas.WatcherFair
import Verif.Lemmas.WatcherFds

/-!
# C65: a child that cannot be watched is killed

(The examples are in Props/Watcher and Props/WatcherFds.)
-/

namespace Shellous.Props

/-- C65, "only that child is killed": unless somebody else reaps children or a child is watched twice, a kill goes to the child that the call of
`watch_pid` was made for. -/
theorem C65_kills_its_child {r wr : Nat} {l : List WatchEv} {w : WW} (h : WHist r wr l w) (hreap : NoOtherReaper l) (hone : WatchedOnce w)
    {i : Nat} {c : Option Nat} (hk : (i, c) ∈ w.kills) : i < w.nCalls ∧ c = some (w.target i) := by
  induction h with
  | start hne => simp [WW.init] at hk
  | step ev h hg hs ih =>
    rename_i l w w'
    have hs := wstep_of hs
    have hone' := once_before hs hone
    have hst' := fun pid hp => hreap pid (List.mem_append_left _ hp)
    have ih := fun hk => ih hst' hone' hk
    have ht := wtrue h hst' hone'
    have op := ht.open (wkids h) (wlive h)
    cases hs
    case kill i0 a1 =>
      rcases List.mem_cons.1 hk with he | hk
      · cases he
        have := op i (.inr (.inr a1))
        exact ⟨this.2.1, this.1⟩
      · exact ih hk
    case watch pid c0 a1 =>
      have h2 := ih hk
      refine ⟨Nat.lt_succ_of_lt h2.1, ?_⟩
      show c = some (upd w.target w.nCalls c0 i)
      rw [upd_other _ _ (by omega)]
      exact h2.2
    all_goals exact ih hk

/-- C65, "a child is killed only when it can't be watched": a call of `watch_pid` that has killed does not return, and kills once. -/
theorem C65_kills_unwatched {r wr : Nat} {l : List WatchEv} {w : WW} (h : WHist r wr l w) :
    (∀ i c, (i, c) ∈ w.kills → ¬ WatchReturned w i) ∧ (w.kills.map (·.1)).Nodup := by
  have : (∀ i, i ∈ w.kills.map (·.1) → (∃ n, w.pc i = .polling n) ∨ w.pc i = .finished) ∧ (w.kills.map (·.1)).Nodup := by
    induction h with
    | start hne => simp [WW.init]
    | step ev h hg hs ih =>
      have hs := wstep_of hs
      have born := (wkids h).born
      clear h
      cases hs <;> simp only [upd, WW.closeNum, List.map_cons, List.mem_cons, List.nodup_cons] <;> grind
  refine ⟨fun i c hm => ?_, this.2⟩
  rintro ⟨fd, hd⟩
  rcases this.1 i (List.mem_map.2 ⟨_, hm, rfl⟩) with ⟨n, h1⟩ | h1 <;> rw [hd] at h1 <;> cases h1

/-- C65, "a child that can't be watched is killed": a call of `watch_pid` that raises has killed first. -/
theorem C65_failed_killed {r wr : Nat} {l : List WatchEv} {w : WW} (h : WHist r wr l w) {i : Nat}
    (hraised : (∃ n, w.pc i = .polling n) ∨ w.pc i = .finished) : ∃ c, (i, c) ∈ w.kills := by
  have : ∀ i, ((∃ n, w.pc i = .polling n) ∨ w.pc i = .finished) → i ∈ w.kills.map (·.1) := by
    clear hraised
    induction h with
    | start hne => simp [WW.init]
    | step ev h hg hs ih =>
      have hs := wstep_of hs
      clear h
      cases hs <;> simp only [upd, WW.closeNum, List.map_cons, List.mem_cons] <;> grind
  obtain ⟨⟨j, c⟩, h1, rfl⟩ := List.mem_map.1 (this i hraised)
  exact ⟨c, h1⟩

end Shellous.Props
