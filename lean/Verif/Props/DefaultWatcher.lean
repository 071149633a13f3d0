import Verif.Lemmas.DefaultWatcher

/-!
# C59: only one strategy is ever created
-/

namespace Shellous.Props

/-- What a call knows. -/
structure DwKnows (w : DW) : Prop where
  sure : ∀ i, (w.pc i).sure = true → w.strategy ≠ none ∨ w.began i < w.clears
  began : ∀ i, i < w.nCalls → w.began i ≤ w.clears
  call : ∀ i s, w.pc i = .call s → s < w.made ∧ (w.strategy = some s ∨ w.began i < w.clears)
  watches : ∀ i s, (i, s) ∈ w.watches → s < w.made ∧ w.pc i = .watched s
  raised : ∀ i e, w.pc i = .raised e → e ≠ .constructor → w.began i < w.clears
  made : w.made ≤ w.clears + 1
  none : w.strategy = none → (∀ i, (w.pc i).making = none) → w.made ≤ w.clears

set_option maxHeartbeats 2000000 in
theorem dwknows {f : Bool} {l : List DwEv} {w : DW} (h : DwHist f l w) : DwKnows w := by
  induction h with
  | start => cases f <;> constructor <;> simp [DW.init, DwPc.sure]
  | step ev h hs ih =>
    rename_i w w'
    obtain ⟨h1, h2, h3, h4, h5, h6, h7⟩ := ih
    obtain ⟨a1, a2, _, a4, _, _, a6, _, _, a9, _, _, _, _⟩ := dwinv h
    have hst := dwstep_of hs
    clear h hs
    have hm := fun i => @making_holds (w.pc i)
    cases hst <;> refine ⟨?_, ?_, ?_, ?_, ?_, ?_, ?_⟩ <;> simp only [DW.at, upd, apply_ite DwPc.sure, DwPc.sure, DwPc.making, apply_ite DwPc.making] <;>
      grind [DwPc.sure, DwPc.making, DwPc.holds]


/-- A `close` that has not yet emptied the watcher. -/
def closesLater : DwPc → Bool
  | .closeWant | .closeRead | .closeClear _ => true
  | _ => false

theorem count_same {p q : Nat → Bool} {n : Nat} (h : ∀ i, i < n → q i = p i) : (List.range n).countP q = (List.range n).countP p :=
  List.countP_congr fun i hi => by rw [h i (List.mem_range.1 hi)]

theorem count_less {p q : Nat → Bool} {i : Nat} (hp : p i = true) (hq : q i = false) (h : ∀ j, j ≠ i → q j = p j) :
    ∀ n, i < n → (List.range n).countP q + 1 = (List.range n).countP p := by
  intro n
  induction n with
  | zero => intro h; omega
  | succ n ih =>
    intro hi
    rw [List.range_succ, List.countP_append, List.countP_append]
    by_cases hn : i = n
    · subst hn
      rw [count_same (p := p) (fun j hj => h j (by omega))]
      simp [hp, hq]
    · have := ih (by omega)
      have h1 := h n (Ne.symm hn)
      simp only [List.countP_cons, List.countP_nil, h1]
      omega

/-- How often the watcher was emptied, and how often it will be by the calls of `close` that are under way: not more often than
`close` was called. -/
theorem dw_clears {f : Bool} {l : List DwEv} {w : DW} (h : DwHist f l w) :
    (List.range w.nCalls).countP (fun i => closesLater (w.pc i)) + w.clears ≤ l.count .close := by
  induction h with
  | start => cases f <;> simp [DW.init]
  | step ev h hs ih =>
    rename_i w w'
    have born := (dwinv h).born
    have hst := dwstep_of hs
    clear h hs
    rw [List.count_append]
    cases hst
    case add =>
      simp only [List.range_succ, List.countP_append, DW.at]
      rw [count_same (p := fun i => closesLater (w.pc i)) (fun j hj => by rw [upd_other _ _ (by omega)])]
      simp [upd, closesLater] at ih ⊢
      omega
    case close =>
      simp only [List.range_succ, List.countP_append, DW.at]
      rw [count_same (p := fun i => closesLater (w.pc i)) (fun j hj => by rw [upd_other _ _ (by omega)])]
      simp [upd, closesLater] at ih ⊢
      omega
    case closeClear i ok s hpc =>
      have hi : i < w.nCalls := by
        rcases Nat.lt_or_ge i w.nCalls with h | h
        · exact h
        · rw [born i h] at hpc; cases hpc
      have := count_less (p := fun i => closesLater (w.pc i)) (q := fun j => closesLater (upd w.pc i (.closeRelease s) j)) (i := i)
        (by simp only [hpc, closesLater]) (by simp only [upd_same, closesLater]) (fun j hj => by simp only [upd_other _ _ hj]) w.nCalls hi
      simp only [DW.at]
      omega
    all_goals
      rename_i hpc
      simp only [DW.at]
      rw [count_same (p := fun i => closesLater (w.pc i)) (fun j hj => by
        simp only [upd]; split <;> simp_all [closesLater])]
      simpa using ih

theorem dw_no_clear {f : Bool} {l : List DwEv} {w : DW} (h : DwHist f l w) (hno : .close ∉ l) : w.clears = 0 := by
  have := dw_clears h
  rw [List.count_eq_zero.2 hno] at this
  omega

/-- C59, "create exactly one strategy": while the watcher is not closed, no interleaving of calls creates a second one, and every child
is watched by the first. -/
theorem C59_one {f : Bool} {l : List DwEv} {w : DW} (h : DwHist f l w) (hno : .close ∉ l) :
    w.made ≤ 1 ∧ ∀ i s, (i, s) ∈ w.watches → s = 0 ∧ w.made = 1 := by
  have h0 := dw_no_clear h hno
  have hk := dwknows h
  have h1 := hk.made
  refine ⟨by omega, fun i s hm => ?_⟩
  have := (hk.watches i s hm).1
  omega

/-- C59: and a call of `add_child_handler` raises only what the constructor of the strategy has raised in this call. -/
theorem C59_no_error {f : Bool} {l : List DwEv} {w : DW} (h : DwHist f l w) (hno : .close ∉ l) {i : Nat} {e : DwExc}
    (hr : w.pc i = .raised e) : e = .constructor := by
  have h0 := dw_no_clear h hno
  refine Classical.byContradiction fun hne => ?_
  have := (dwknows h).raised i e hr hne
  omega

/-- C59, with `close`: never more strategies than calls of `close`, plus one. -/
theorem C59_bound {f : Bool} {l : List DwEv} {w : DW} (h : DwHist f l w) : w.made ≤ l.count .close + 1 := by
  have := dw_clears h
  have := (dwknows h).made
  omega

/-- Where the strategies are. -/
theorem dw_place {f : Bool} {l : List DwEv} {w : DW} (h : DwHist f l w) (s : Nat) (hs : s < w.made) (hc : s ∉ w.closes)
    (ht : ∀ i, (w.pc i).taken ≠ some s) (hm : ∀ i, (w.pc i).making ≠ some s) : w.strategy = some s := by
  induction h with
  | start =>
    cases f
    · cases hs
    · have h0 : s < 1 := hs
      show some 0 = some s
      rw [Nat.lt_one_iff.1 h0]
  | step ev h hst ih =>
    rename_i w w'
    obtain ⟨born, a2, _, a4, _, _, a6, read, _, a9, _, _, _, _⟩ := dwinv h
    have hst := dwstep_of hst
    have kt : ∀ i new, (∀ j, (upd w.pc i new j).taken ≠ some s) → (w.pc i).taken ≠ some s → ∀ j, (w.pc j).taken ≠ some s := by
      intro i new h1 h2 j
      by_cases hj : j = i
      · rw [hj]; exact h2
      · have := h1 j; rwa [upd_other _ _ hj] at this
    have km : ∀ i new, (∀ j, (upd w.pc i new j).making ≠ some s) → (w.pc i).making ≠ some s → ∀ j, (w.pc j).making ≠ some s := by
      intro i new h1 h2 j
      by_cases hj : j = i
      · rw [hj]; exact h2
      · have := h1 j; rwa [upd_other _ _ hj] at this
    clear h
    cases hst
    case add =>
      have hb := born w.nCalls (Nat.le_refl _)
      exact ih hs hc (kt _ _ ht (by rw [hb]; simp [DwPc.taken])) (km _ _ hm (by rw [hb]; simp [DwPc.making]))
    case close =>
      have hb := born w.nCalls (Nat.le_refl _)
      exact ih hs hc (kt _ _ ht (by rw [hb]; simp [DwPc.taken])) (km _ _ hm (by rw [hb]; simp [DwPc.making]))
    case built i hpc =>
      have h1 : (upd w.pc i (.assign w.made) i).making ≠ some s := hm i
      rw [upd_same] at h1
      have h1 : w.made ≠ s := fun he => h1 (by rw [he]; rfl)
      have hs : s < w.made + 1 := hs
      exact ih (by omega) hc (kt _ _ ht (by rw [hpc]; simp [DwPc.taken])) (km _ _ hm (by rw [hpc]; simp [DwPc.making]))
    case assign i ok s0 hpc =>
      by_cases h0 : s0 = s
      · rw [← h0]
      · have := a4 i (.inr (by rw [hpc]; simp [DwPc.making]))
        have h2 := ih hs hc (kt _ _ ht (by rw [hpc]; simp [DwPc.taken])) (km _ _ hm (by rw [hpc]; simp [DwPc.making, h0]))
        rw [h2] at this; cases this
    case closeClear i ok s0 hpc =>
      have h1 := read i s0 hpc
      have h2 := ih hs hc (kt _ _ ht (by rw [hpc]; simp [DwPc.taken])) (km _ _ hm (by rw [hpc]; simp [DwPc.making]))
      have h3 : (upd w.pc i (.closeRelease s0) i).taken ≠ some s := ht i
      rw [upd_same] at h3
      exact absurd (h1.symm.trans h2) h3
    case closeRelease i ok s0 hpc =>
      have h3 : (upd w.pc i (.closeCall s0) i).taken ≠ some s := ht i
      rw [upd_same] at h3
      exact ih hs hc (kt _ _ ht (by rw [hpc]; exact h3)) (km _ _ hm (by rw [hpc]; simp [DwPc.making]))
    case closeSome i ok s0 hpc =>
      have hc : s ∉ s0 :: w.closes := hc
      have h0 : s0 ≠ s := fun he => hc (by rw [he]; exact List.mem_cons_self)
      exact ih hs (fun hm => hc (List.mem_cons_of_mem _ hm)) (kt _ _ ht (by rw [hpc]; simp [DwPc.taken, h0]))
        (km _ _ hm (by rw [hpc]; simp [DwPc.making]))
    all_goals
      first
      | (rename_i i _ _ hpc hx
         exact ih hs hc (kt i _ ht (by rw [hpc]; simp [DwPc.taken])) (km i _ hm (by rw [hpc]; simp [DwPc.making])))
      | (rename_i i _ hpc hx
         exact ih hs hc (kt i _ ht (by rw [hpc]; simp [DwPc.taken])) (km i _ hm (by rw [hpc]; simp [DwPc.making])))
      | (rename_i i _ hpc
         exact ih hs hc (kt i _ ht (by rw [hpc]; simp [DwPc.taken])) (km i _ hm (by rw [hpc]; simp [DwPc.making])))
      | (rename_i i hpc
         exact ih hs hc (kt i _ ht (by rw [hpc]; simp [DwPc.taken])) (km i _ hm (by rw [hpc]; simp [DwPc.making])))
      | (rename_i i _ _ hpc
         exact ih hs hc (kt i _ ht (by rw [hpc]; simp [DwPc.taken])) (km i _ hm (by rw [hpc]; simp [DwPc.making])))

/-- C59, "one thread, one epoll": at any time there is at most one strategy that `close` has not begun to close. -/
theorem C59_one_open {f : Bool} {l : List DwEv} {w : DW} (h : DwHist f l w) {s s' : Nat} (hs : s < w.made) (hs' : s' < w.made)
    (hc : s ∉ w.closes) (hc' : s' ∉ w.closes) (ht : ∀ i, (w.pc i).taken ≠ some s) (ht' : ∀ i, (w.pc i).taken ≠ some s') : s = s' := by
  have hi := dwinv h
  have hp := dw_place h s hs hc ht
  have hp' := dw_place h s' hs' hc' ht'
  by_cases hm : ∃ i, (w.pc i).making ≠ none
  · obtain ⟨i, hi'⟩ := hm
    have hn := hi.building i (.inr hi')
    have h1 : ∃ j, (w.pc j).making = some s := Classical.byContradiction fun hx => by
      rw [hp (fun j hj => hx ⟨j, hj⟩)] at hn; cases hn
    have h2 : ∃ j, (w.pc j).making = some s' := Classical.byContradiction fun hx => by
      rw [hp' (fun j hj => hx ⟨j, hj⟩)] at hn; cases hn
    obtain ⟨j, hj⟩ := h1
    obtain ⟨j', hj'⟩ := h2
    have h3 := hi.held j (making_holds (by rw [hj]; simp))
    have h4 := hi.held j' (making_holds (by rw [hj']; simp))
    rw [h3] at h4
    cases h4
    rw [hj] at hj'
    exact Option.some.inj hj'
  · have hm : ∀ i, (w.pc i).making = none := fun i => Classical.byContradiction fun hx => hm ⟨i, hx⟩
    have h1 := hp (fun i => by rw [hm i]; simp)
    have h2 := hp' (fun i => by rw [hm i]; simp)
    rw [h1] at h2
    exact Option.some.inj h2

/-- C59: no strategy is closed twice. -/
theorem C59_closed_once {f : Bool} {l : List DwEv} {w : DW} (h : DwHist f l w) : w.closes.Nodup ∧ ∀ s ∈ w.closes, s < w.made :=
  (dwinv h).closes

/-- C59: when all calls have ended, every strategy that was created was closed, but for the one that is in use. -/
theorem C59_all_closed {f : Bool} {l : List DwEv} {w : DW} (h : DwHist f l w) (hend : ∀ i, i < w.nCalls → (w.pc i).ended = true)
    {s : Nat} (hs : s < w.made) : s ∈ w.closes ∨ w.strategy = some s := by
  by_cases hc : s ∈ w.closes
  · exact .inl hc
  · right
    have : ∀ i, (w.pc i).taken = none ∧ (w.pc i).making = none := by
      intro i
      rcases Nat.lt_or_ge i w.nCalls with hi | hi
      · have := hend i hi
        cases hpc : w.pc i <;> rw [hpc] at this <;> first | exact ⟨rfl, rfl⟩ | cases this
      · rw [(dwinv h).born i hi]; exact ⟨rfl, rfl⟩
    exact dw_place h s hs hc (fun i => by rw [(this i).1]; simp) (fun i => by rw [(this i).2]; simp)

/-- C59: a call that raises something else has run at the same time as a `close`: the watcher was emptied after the call began. -/
theorem C59_error_needs_close {f : Bool} {l : List DwEv} {w : DW} (h : DwHist f l w) {i : Nat} {e : DwExc} (hr : w.pc i = .raised e)
    (hne : e ≠ .constructor) : w.began i < w.clears :=
  (dwknows h).raised i e hr hne

/-- C59: a child is watched by the strategy that is in use, unless the watcher was emptied after the call began. -/
theorem C59_watch_current {f : Bool} {l : List DwEv} {w : DW} (h : DwHist f l w) {i s : Nat} (hc : w.pc i = .call s)
    (hno : w.began i = w.clears) : w.strategy = some s ∧ s ∉ w.closes := by
  have h1 := ((dwknows h).call i s hc).2
  have h2 : w.strategy = some s := by rcases h1 with h1 | h1; exact h1; omega
  exact ⟨h2, ((dwinv h).cur s h2).2⟩

/-- C59: no deadlock: a call that has not ended can go on, or it waits for the lock and the call that has the lock can go on. -/
theorem C59_no_deadlock {f : Bool} {l : List DwEv} {w : DW} (h : DwHist f l w) {i : Nat} (hi : i < w.nCalls)
    (hend : (w.pc i).ended = false) :
    w.goOn i true ≠ none ∨ (w.pc i = .wantLock ∨ w.pc i = .closeWant) ∧ ∃ j, w.lock = some j ∧ w.goOn j true ≠ none := by
  have hborn : w.pc i ≠ .unborn := by
    clear hend
    induction h with
    | start => cases f <;> simp [DW.init] at hi
    | step ev h hs ih =>
      have hst := dwstep_of hs
      clear h hs
      cases hst <;> simp only [DW.at, upd] at * <;> grind
  have hgo : ∀ j, (w.pc j).holds = true → w.goOn j true ≠ none := by
    intro j hj
    cases hpc : w.pc j <;> rw [hpc] at hj <;> first | (cases hj; done) | simp [DW.goOn, hpc]
  have hw : w.lock ≠ none → ∃ j, w.lock = some j ∧ w.goOn j true ≠ none := by
    intro hl
    cases hlk : w.lock with
    | none => exact absurd hlk hl
    | some j => exact ⟨j, rfl, hgo j ((dwinv h).holder j hlk)⟩
  cases hpc : w.pc i
  case unborn => exact absurd hpc hborn
  case watched s => rw [hpc] at hend; cases hend
  case raised e => rw [hpc] at hend; cases hend
  case closed => rw [hpc] at hend; cases hend
  case wantLock =>
    by_cases hl : w.lock = none
    · left; simp [DW.goOn, hpc, hl]
    · exact .inr ⟨.inl rfl, hw hl⟩
  case closeWant =>
    by_cases hl : w.lock = none
    · left; simp [DW.goOn, hpc, hl]
    · exact .inr ⟨.inr rfl, hw hl⟩
  case closeCall s => left; cases s <;> simp [DW.goOn, hpc]
  all_goals left; simp [DW.goOn, hpc]

/-- How many steps are left. -/
def stepsLeft : DwPc → Nat
  | .check => 9 | .wantLock => 8 | .recheck => 7 | .build => 6 | .assign _ => 5 | .release => 4 | .releaseFailed => 1
  | .assertion => 3 | .read => 2 | .call _ => 1
  | .closeWant => 5 | .closeRead => 4 | .closeClear _ => 3 | .closeRelease _ => 2 | .closeCall _ => 1
  | _ => 0

theorem step_left {w w' : DW} {j : Nat} {ok : Bool} (h : DwStep w (.go j ok) w') :
    stepsLeft (w'.pc j) + 1 ≤ stepsLeft (w.pc j) ∧ (∀ i, i ≠ j → w'.pc i = w.pc i) ∧ w'.nCalls = w.nCalls := by
  cases h <;> rename_i hpc <;> simp only [DW.at] <;>
    refine ⟨?_, fun i hi => upd_other _ _ hi, trivial⟩ <;> rw [upd_same] <;> simp_all [stepsLeft]

/-- C59: no call makes more than nine steps, whatever the others do. -/
theorem C59_bounded {f : Bool} {l : List DwEv} {w : DW} (h : DwHist f l w) (i : Nat) : stepsOf i l ≤ 9 := by
  have : stepsOf i l + stepsLeft (w.pc i) ≤ 9 ∧ (w.nCalls ≤ i → stepsOf i l = 0) := by
    induction h with
    | start => cases f <;> simp [DW.init, stepsLeft, stepsOf]
    | step ev h hs ih =>
      rename_i l w w'
      have born := (dwinv h).born
      have hst := dwstep_of hs
      clear h hs
      obtain ⟨h1, h2⟩ := ih
      unfold stepsOf at *
      rw [List.countP_append]
      cases ev with
      | add =>
        cases hst
        simp only [DW.at]
        by_cases hi : i = w.nCalls
        · rw [hi, upd_same]; have := h2 (by omega); rw [hi] at this; simp [stepsLeft] at this ⊢; exact ⟨this, fun _ => this⟩
        · rw [upd_other _ _ hi]; simp at h1 h2 ⊢; exact ⟨h1, fun hh => h2 (by omega)⟩
      | close =>
        cases hst
        simp only [DW.at]
        by_cases hi : i = w.nCalls
        · rw [hi, upd_same]; have := h2 (by omega); rw [hi] at this; simp [stepsLeft] at this ⊢; rw [List.countP_eq_zero.2 (by simpa using this)]; omega
        · rw [upd_other _ _ hi]; simp at h1 h2 ⊢; exact ⟨h1, fun hh => h2 (by omega)⟩
      | go j ok =>
        obtain ⟨g1, g2, g3⟩ := step_left hst
        rw [g3]
        by_cases hi : i = j
        · subst hi
          refine ⟨?_, fun hh => ?_⟩
          · have : List.countP (fun ev => decide (ev = DwEv.go i true ∨ ev = DwEv.go i false)) [DwEv.go i ok] ≤ 1 :=
              List.countP_le_length
            omega
          · rw [born i hh] at g1; cases g1
        · rw [g2 i hi]
          have : List.countP (fun ev => decide (ev = DwEv.go i true ∨ ev = DwEv.go i false)) [DwEv.go j ok] = 0 := by
            simp [Ne.symm hi]
          rw [this]
          exact ⟨h1, h2⟩
  omega

/-! ## Examples and limits -/

/-- All the steps of the list are possible. -/
def dwAll (w : DW) : List DwEv → Option DW
  | [] => some w
  | ev :: l => (w.step ev).bind (dwAll · l)

theorem dwAll_hist {f : Bool} {l l' : List DwEv} {w w' : DW} (h : DwHist f l w) (hr : dwAll w l' = some w') : DwHist f (l ++ l') w' := by
  induction l' generalizing l w with
  | nil => simp only [dwAll, Option.some.injEq] at hr; subst hr; rwa [List.append_nil]
  | cons ev l' ih =>
    simp only [dwAll] at hr
    cases hs : w.step ev with
    | none => rw [hs] at hr; cases hr
    | some w1 =>
      rw [hs] at hr
      have := ih (.step ev h hs) hr
      rwa [List.append_assoc] at this

theorem dwAll_run (f : Bool) (l : List DwEv) (h : (dwAll (DW.init f) l).isSome = true) : DwHist f l ((dwAll (DW.init f) l).get h) := by
  have := dwAll_hist (f := f) (l := []) .start (l' := l) (Option.some_get h).symm
  exact this

/-- Three threads call `add_child_handler` for the first time and find no strategy; the constructor raises for the first, the second makes a
strategy, the third uses it. -/
def threeFirst : List DwEv :=
  [.add, .add, .add, .go 0 true, .go 1 true, .go 2 true, .go 0 true, .go 0 true, .go 0 false, .go 0 true,
   .go 1 true, .go 1 true, .go 1 true, .go 1 true, .go 1 true, .go 2 true, .go 2 true, .go 1 true, .go 1 true, .go 1 true,
   .go 2 true, .go 2 true, .go 2 true, .go 2 true]

example : ∃ w, DwHist false threeFirst w ∧ .close ∉ threeFirst ∧ w.made = 1 ∧ w.pc 0 = .raised .constructor ∧ w.watches = [(2, 0), (1, 0)] :=
  ⟨_, dwAll_run false threeFirst (by decide +kernel), by decide, by decide +kernel, by decide +kernel, by decide +kernel⟩

/-- And then the watcher is closed, twice at the same time, and used again. -/
def thenClosed : List DwEv :=
  threeFirst ++ [.close, .close, .go 3 true, .go 3 true, .go 3 true, .go 3 true, .go 4 true, .go 4 true, .go 4 true, .go 4 true, .go 4 true,
    .go 3 true, .add, .go 5 true, .go 5 true, .go 5 true, .go 5 true, .go 5 true, .go 5 true, .go 5 true, .go 5 true, .go 5 true]

example : ∃ w, DwHist false thenClosed w ∧ w.made = 2 ∧ w.closes = [0] ∧ w.strategy = some 1 ∧ w.watches = [(5, 1), (2, 0), (1, 0)] ∧
    ∀ i, i < w.nCalls → (w.pc i).ended = true :=
  ⟨_, dwAll_run false thenClosed (by decide +kernel), by decide +kernel, by decide +kernel, by decide +kernel, by decide +kernel, by decide +kernel⟩

/-- With a `close` at the same time, `add_child_handler` can raise AssertionError (watcher.py:91), -/
theorem C59_limit_assertion : ∃ l w, DwHist false l w ∧ w.pc 0 = .raised .assertionError :=
  ⟨_, _, dwAll_run false [.add, .close, .go 0 true, .go 0 true, .go 0 true, .go 0 true, .go 0 true, .go 0 true, .go 1 true, .go 1 true, .go 1 true,
    .go 0 true] (by decide +kernel), by decide +kernel⟩

/-- or AttributeError (watcher.py:93), although there was a strategy when the call began, -/
theorem C59_limit_attribute : ∃ l w, DwHist true l w ∧ w.pc 0 = .raised .attributeError :=
  ⟨_, _, dwAll_run true [.add, .close, .go 0 true, .go 1 true, .go 1 true, .go 1 true, .go 0 true] (by decide +kernel), by decide +kernel⟩

/-- or call `watch_pid` of a strategy that was closed. -/
theorem C59_limit_watch_closed : ∃ l w, DwHist true l w ∧ w.watches = [(0, 0)] ∧ w.closes = [0] :=
  ⟨_, _, dwAll_run true [.add, .close, .go 0 true, .go 0 true, .go 1 true, .go 1 true, .go 1 true, .go 1 true, .go 1 true, .go 0 true]
    (by decide +kernel), by decide +kernel, by decide +kernel⟩

end Shellous.Props
