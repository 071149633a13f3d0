import Verif.Props.KqueueExamples

/-!
# C68: closing, and the tasks
-/

namespace Shellous.Props

theorem kq_left_iff {l : List KqEv} {w : KqW} (h : KqHist l w) : w.left ≠ none ↔ w.tpc = .fin ∨ w.tpc = .ended := by
  induction h with
  | start => simp
  | step ev h hg hs ih =>
    have hst := kqstep_of hs
    clear h hs hg
    cases hst <;> first
      | exact ih
      | (simp_all; done)
      | grind

theorem kq_open_iff {l : List KqEv} {w : KqW} (h : KqHist l w) : w.open_ = true ↔ w.tpc ≠ .ended := by
  induction h with
  | start => simp
  | step ev h hg hs ih =>
    have hst := kqstep_of hs
    clear h hs hg
    cases hst <;> first
      | exact ih
      | (simp_all; done)
      | grind

/-- C68: after `close`, under every fair schedule, the thread ends and closes the kqueue (so that `join` returns, watcher.py:181). -/
theorem C68_close_ends {σ : Nat → KqW} {ev : Nat → Option KqEv} (hx : KqExec σ ev) (hfair : KqFair σ ev) {n : Nat}
    (hc : ev n = some .close) : ∃ m, n ≤ m ∧ (σ m).tpc = .ended ∧ (σ m).open_ = false := by
  have hist := kq_exec_hist hx
  refine Classical.byContradiction fun hno => ?_
  have hne : ∀ m, n ≤ m → (σ m).tpc ≠ .ended := fun m hm he => hno ⟨m, hm, he, by
    have := kq_open_iff (hist m)
    cases ho : (σ m).open_ with
    | false => rfl
    | true => exact absurd he (this.1 ho)⟩
  -- it does not leave the loop
  have hnf : ∀ m, n ≤ m → (σ m).tpc ≠ .fin := fun m hm hf => by
    obtain ⟨k, e, h1, h2, h3, h4⟩ := kq_goes_on hx hfair hne hm
    have hs := kq_exec_step hx h2
    have h5 := hne (k + 1) (by omega)
    rw [hf] at h4
    generalize σ (k + 1) = b at hs h5
    cases hs <;> first
      | (cases h3; done)
      | (exact absurd rfl h5)
      | skip
    all_goals (rename_i h; rw [h4] at *; simp at *)
  have hnl : ∀ m, n ≤ m → (σ m).left = none := fun m hm => Classical.byContradiction fun hl =>
    ((kq_left_iff (hist m)).1 hl).elim (hnf m hm) (hne m hm)
  have hf : ∀ m, n ≤ m → (σ m).tpc ≠ .fin ∧ (σ m).tpc ≠ .ended := fun m hm => ⟨hnf m hm, hne m hm⟩
  -- it does not have the event
  have two : ∀ N k, n ≤ k → (σ k).tpc.toGo ≤ N → .timer ∉ (σ k).tpc.pending := by
    intro N
    induction N with
    | zero =>
      intro k _ hN hh
      cases ht : (σ k).tpc <;> rw [ht] at hh hN <;> simp [KqTpc.pending, KqTpc.toGo] at hh hN
      all_goals omega
    | succ N ih =>
      intro k hk hN hh
      obtain ⟨m, e, h1, h2, h3, h4⟩ := kq_goes_on hx hfair hne hk
      have hs := kq_exec_step hx h2
      rcases kq_thread_moves hs h3 (hnl _ (by omega)) (hf m (by omega)).1 with ⟨l, _, h5, _⟩ | ⟨h6, h7⟩
      · rw [h4] at h5; rw [h5] at hh; cases hh
      · refine ih (m + 1) (by omega) (by rw [h4] at h6; omega) ?_
        rcases h7 with h7 | ⟨p, j, l, h7, h8, h9⟩
        · rw [h7, h4]; exact hh
        · rw [h4] at h7
          rw [h7] at hh
          rw [h9]
          rcases List.mem_cons.1 hh with h10 | h10
          · cases h10
          · exact h10
  have hone : (σ (n + 1)).timer = true := by
    have hs := kq_exec_step hx hc
    have ho := (kq_open_iff (hist n)).2 (hne n (Nat.le_refl _))
    generalize σ (n + 1) = b at hs
    cases hs with
    | close _ => rfl
    | closeLate h => rw [ho] at h; cases h
  have hfires : ∀ d, (σ (n + 1 + d)).timer = true := by
    intro d
    induction d with
    | zero => exact hone
    | succ d ih =>
      have hs := hx.steps (n + 1 + d)
      cases he : ev (n + 1 + d) with
      | none => rw [he] at hs; rw [← Nat.add_assoc, hs]; exact ih
      | some e =>
        have hs := kq_exec_step hx he
        have h2 := two _ (n + 1 + d + 1) (by omega) (Nat.le_refl _)
        rw [← Nat.add_assoc]
        generalize σ (n + 1 + d + 1) = b at hs h2
        cases hs <;> first
          | exact ih
          | rfl
          | skip
        case control l h3 h4 h5 =>
          show (if KqNote.timer ∈ l then false else _) = true
          have h2 : KqNote.timer ∉ l := h2
          rw [if_neg h2]; exact ih
  obtain ⟨m, l, h1, h2, h3⟩ := hfair.kqueue .timer (n + 1) (fun m hm => by
    obtain ⟨d, rfl⟩ := Nat.exists_eq_add_of_le hm
    exact hfires d) (kq_controls hx hfair hnl hf)
  have hs := kq_exec_step hx h2
  refine two _ (m + 1) (by omega) (Nat.le_refl _) ?_
  generalize σ (m + 1) = b at hs
  cases hs with
  | control _ _ _ _ => exact h3

/-- How far the task of a call is from its end. -/
def _root_.Shellous.KqPc.toGo : KqPc → Nat
  | .failed => 10
  | .failWait _ => 9
  | .polling _ n => 2 + n
  | .failCall _ _ => 1
  | _ => 0

/-- The call is handling a child that was dying when it was watched. -/
def _root_.Shellous.KqPc.failing : KqPc → Bool
  | .failed | .failWait _ | .polling _ _ | .failCall _ _ => true
  | _ => false

theorem kq_fail_can {w : KqW} {i : Nat} (hf : (w.pc i).failing = true) : ∃ e w', e.of i = true ∧ w.gives e ∧ w.step e = some w' := by
  cases hp : w.pc i with
  | failed =>
    have : (w.step (.go i)).isSome = true := by simp only [KqW.step, KqW.callStep, hp]; split <;> rfl
    exact ⟨.go i, _, by simp [KqEv.of], trivial, (Option.some_get this).symm⟩
  | failWait k =>
    have : (w.step (.go i)).isSome = true := by simp only [KqW.step, KqW.callStep, hp]; split <;> rfl
    exact ⟨.go i, _, by simp [KqEv.of], trivial, (Option.some_get this).symm⟩
  | polling k n =>
    have : (w.step (.go i)).isSome = true := by
      cases n with
      | zero => simp only [KqW.step, KqW.callStep, hp]; rfl
      | succ n => simp only [KqW.step, KqW.callStep, hp]; split <;> rfl
    exact ⟨.go i, _, by simp [KqEv.of], trivial, (Option.some_get this).symm⟩
  | failCall k st =>
    have : (w.step (.goCall i .returns)).isSome = true := by simp [KqW.step, KqW.callStep, hp]
    exact ⟨.goCall i .returns, _, by simp [KqEv.of], trivial, (Option.some_get this).symm⟩
  | _ => rw [hp] at hf; cases hf

theorem kq_waits {pc q : KqPc} {k : Nat} (h : pc.waits = some (k, q)) (hf : pc.failing = true) :
    q.failing = true ∧ q.toGo < pc.toGo ∧ 1 < pc.toGo := by
  cases pc with
  | failWait k => cases h; exact ⟨rfl, by simp [KqPc.toGo], by simp [KqPc.toGo]⟩
  | polling k n =>
    cases n with
    | zero => cases h
    | succ n => cases h; exact ⟨rfl, by simp [KqPc.toGo], by simp [KqPc.toGo]; omega⟩
  | _ => cases h

/-- A step of the call brings it nearer to its end. -/
theorem kq_fail_moves {w w' : KqW} {e : KqEv} {i : Nat} (hs : KqStep w e w') (hf : (w.pc i).failing = true) (hb : i < w.nCalls) :
    w'.pc i = w.pc i ∧ e.of i = false ∨ w'.pc i = .finished ∨ w'.pc i = .keyError ∨ (w'.pc i).failing = true ∧ (w'.pc i).toGo < (w.pc i).toGo := by
  have hup : ∀ (j : Nat) (q : KqPc), j ≠ i → upd w.pc j q i = w.pc i := fun j q h => upd_other _ _ (Ne.symm h)
  have hof : ∀ (j : Nat), j ≠ i → (j == i) = false := fun j h => by simpa using h
  cases hs <;> first
    | exact .inl ⟨rfl, rfl⟩
    | skip
  case watch => exact .inl ⟨hup _ _ (by omega), rfl⟩
  case goGone j k q hw _ =>
    by_cases hj : j = i
    · subst hj
      obtain ⟨_, _, h⟩ := kq_waits hw hf
      exact .inr (.inr (.inr (by simp only [upd, if_true]; exact ⟨rfl, h⟩)))
    · exact .inl ⟨hup _ _ hj, hof _ hj⟩
  case goReap j k q c raw hw _ _ =>
    by_cases hj : j = i
    · subst hj
      obtain ⟨_, _, h⟩ := kq_waits hw hf
      exact .inr (.inr (.inr (by simp only [upd, if_true]; exact ⟨rfl, h⟩)))
    · exact .inl ⟨hup _ _ hj, hof _ hj⟩
  case goRuns j k q c hw _ _ =>
    by_cases hj : j = i
    · subst hj
      obtain ⟨h1, h2, _⟩ := kq_waits hw hf
      exact .inr (.inr (.inr (by simp only [upd, if_true]; exact ⟨h1, h2⟩)))
    · exact .inl ⟨hup _ _ hj, hof _ hj⟩
  case giveUp j k m hp =>
    by_cases hj : j = i
    · subst hj; exact .inr (.inl (by simp [upd]))
    · exact .inl ⟨hup _ _ hj, rfl⟩
  case take j k hp _ =>
    by_cases hj : j = i
    · subst hj; exact .inr (.inr (.inr (by simp only [upd, if_true, hp]; exact ⟨rfl, by simp [KqPc.toGo]⟩)))
    · exact .inl ⟨hup _ _ hj, hof _ hj⟩
  case registered j c hp _ _ _ | registeredAgain j c d hp _ _ _ | noProcess j hp _ | isDying j c hp _ _ | registerRaised j hp | checked j hp _ | refused j k hp _ | insert j hp | keyError j hp _ | exhausted j k hp | goCall j e k st hp =>
    by_cases hj : j = i
    · subst hj
      first
        | (rw [hp] at hf; cases hf; done)
        | (refine .inr (.inl ?_); simp [upd]; done)
        | (refine .inr (.inr (.inl ?_)); simp [upd]; done)
    · exact .inl ⟨hup _ _ hj, hof _ hj⟩

theorem kq_finished_stays {w w' : KqW} {e : KqEv} {i : Nat} (hs : KqStep w e w') (hf : w.pc i = .finished) (hb : i < w.nCalls) :
    w'.pc i = .finished := by
  have hup : ∀ (j : Nat) (q : KqPc), j ≠ i → upd w.pc j q i = .finished := fun j q h => by rw [upd_other _ _ (Ne.symm h)]; exact hf
  cases hs <;> first
    | exact hf
    | skip
  case watch => exact hup _ _ (by omega)
  case goGone j k q hw _ => exact hup _ _ (fun he => by rw [he, hf] at hw; cases hw)
  case goRuns j k q c hw _ _ => exact hup _ _ (fun he => by rw [he, hf] at hw; cases hw)
  case goReap j k q c raw hw _ _ => exact hup _ _ (fun he => by rw [he, hf] at hw; cases hw)
  all_goals exact hup _ _ (fun he => by simp_all)

/-- C68: a child that was dying when it was watched is reported under every fair schedule, or given up with a critical message after five
attempts, or its task was cancelled. -/
theorem C68_failed_eventually {σ : Nat → KqW} {ev : Nat → Option KqEv} (hx : KqExec σ ev) (hfair : KqFair σ ev)
    (ha : ∀ n pid, ev n ≠ some (.reapElsewhere pid)) (ho : ∀ n, KqOnce (σ n)) {n i : Nat} (hd : (σ n).pc i = .failed) :
    ∃ m, n ≤ m ∧ (KqReported (σ m) i ∨ i ∈ (σ m).critical ∨ ev m = some (.giveUp i)) := by
  have hist := kq_exec_hist hx
  have hal : ∀ n, KqAlone ((List.range n).filterMap ev) := by
    intro n pid hm
    obtain ⟨k, _, hk⟩ := List.mem_filterMap.1 hm
    exact ha k pid hk
  have born : ∀ m, (σ m).pc i ≠ .unborn → i < (σ m).nCalls := fun m h =>
    Nat.lt_of_not_ge fun hge => h ((kqbase (hist m)).born i hge)
  -- it ends
  have main : ∀ N k, n ≤ k → ((σ k).pc i).failing = true → ((σ k).pc i).toGo ≤ N → ∃ m, k ≤ m ∧ (σ m).pc i = .finished := by
    intro N
    induction N with
    | zero =>
      intro k _ h1 h2
      cases hp : (σ k).pc i <;> rw [hp] at h1 h2 <;> first | (cases h1; done) | (simp [KqPc.toGo] at h2)
    | succ N ih =>
      intro k hk h1 h2
      -- the first change
      have first : ∀ d, (σ (k + d)).pc i = (σ k).pc i ∨ ∃ m, k ≤ m ∧ (σ m).pc i = .finished := by
        intro d
        induction d with
        | zero => exact .inl rfl
        | succ d ihd =>
          rcases ihd with h | h
          · cases he : ev (k + d) with
            | none => have := hx.steps (k + d); rw [he] at this; rw [← Nat.add_assoc, this]; exact .inl h
            | some e =>
              have hs := kq_exec_step hx he
              have hf : ((σ (k + d)).pc i).failing = true := by rw [h]; exact h1
              rcases kq_fail_moves hs hf (born _ (fun hu => by rw [hu] at hf; cases hf)) with h3 | h3 | h3 | ⟨h3, h4⟩
              · rw [← Nat.add_assoc, h3.1]; exact .inl h
              · exact .inr ⟨k + d + 1, by omega, h3⟩
              · exact absurd h3 ((C68_never_refused (hist _) (hal _) (ho _)).1 i).2
              · rw [h] at h4
                obtain ⟨m, h5, h6⟩ := ih (k + d + 1) (by omega) h3 (by omega)
                exact .inr ⟨m, by omega, h6⟩
          · exact .inr h
      by_cases hfin : ∃ m, k ≤ m ∧ (σ m).pc i = .finished
      · exact hfin
      · have hall : ∀ m, k ≤ m → (σ m).pc i = (σ k).pc i := fun m hm => by
          obtain ⟨d, rfl⟩ := Nat.exists_eq_add_of_le hm
          exact (first d).resolve_right hfin
        obtain ⟨m, e, h3, h4, h5⟩ := hfair.calls i k fun m hm => kq_fail_can (by rw [hall m hm]; exact h1)
        have hs := kq_exec_step hx h4
        have hf : ((σ m).pc i).failing = true := by rw [hall m h3]; exact h1
        have hsame := hall (m + 1) (by omega)
        rcases kq_fail_moves hs hf (born _ (fun hu => by rw [hu] at hf; cases hf)) with h6 | h6 | h6 | ⟨_, h6⟩
        · rw [h5] at h6; cases h6.2
        · exact absurd ⟨m + 1, by omega, h6⟩ hfin
        · exact absurd h6 ((C68_never_refused (hist _) (hal _) (ho _)).1 i).2
        · rw [hsame, hall m h3] at h6; omega
  obtain ⟨m, h1, h2⟩ := main _ n (Nat.le_refl _) (by rw [hd]; rfl) (Nat.le_refl _)
  rcases C68_failed_not_lost (hist m) (hal m) (ho m) h2 with h | h | h
  · exact ⟨m, h1, .inl h⟩
  · exact ⟨m, h1, .inr (.inl h)⟩
  · obtain ⟨k, hk, he⟩ := List.mem_filterMap.1 h
    by_cases hkn : n ≤ k
    · exact ⟨k, hkn, .inr (.inr he)⟩
    · exfalso
      -- cancelled before: then it would have been finished
      have hfin : ∀ d, (σ (k + 1 + d)).pc i = .finished := by
        intro d
        induction d with
        | zero =>
          have hs := kq_exec_step hx he
          show (σ (k + 1)).pc i = _
          generalize σ (k + 1) = b at hs
          cases hs with
          | giveUp _ _ _ _ => simp [upd]
        | succ d ihd =>
          cases he' : ev (k + 1 + d) with
          | none => have := hx.steps (k + 1 + d); rw [he'] at this; rw [← Nat.add_assoc, this]; exact ihd
          | some e =>
            have hs := kq_exec_step hx he'
            rw [← Nat.add_assoc]
            exact kq_finished_stays hs ihd (born _ (by rw [ihd]; simp))
      have := hfin (n - (k + 1))
      rw [show k + 1 + (n - (k + 1)) = n by omega, hd] at this
      cases this

/-- The hypotheses of `C68_close_ends` and `C68_failed_eventually` hold for `threeKq` (see `threeKq_fair`). -/
example : threeKq[37]? = some .close ∧ (kqWorlds threeKq 18).pc 1 = .failed := by decide +kernel

end Shellous.Props
