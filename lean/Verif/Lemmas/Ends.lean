import Verif.Lemmas.HarvestSplit
import Verif.Spec.Live

/-!
# A logic for the termination of coroutines on endless schedules
-/

namespace Shellous

theorem Sched.shift_shift (σ : Sched) (a b : Nat) : (σ.shift a).shift b = σ.shift (a + b) := by
  funext n; simp only [Sched.shift]; congr 1; omega

theorem Sched.shift_zero (σ : Sched) : σ.shift 0 = σ := by
  funext n; simp [Sched.shift]

theorem Sched.upto_add (σ : Sched) (a b : Nat) : σ.upto (a + b) = σ.upto a ++ (σ.shift a).upto b := by
  induction a generalizing σ with
  | zero => simp [Sched.upto, Sched.shift_zero]
  | succ a ih =>
    rw [show a + 1 + b = (a + b) + 1 by omega]
    simp only [Sched.upto, ih, Sched.shift_shift, List.cons_append]
    rw [show 1 + a = a + 1 by omega]

theorem Often.shift {σ : Sched} {p : Ev → Prop} (h : Often σ p) (k : Nat) : Often (σ.shift k) p := by
  intro n
  obtain ⟨m, hm, hp⟩ := h (k + n)
  refine ⟨m - k, by omega, ?_⟩
  simp only [Sched.shift]
  rw [show k + (m - k) = m by omega]
  exact hp

/-- `c` comes to an end on the schedule `σ`; `Q` holds of the outcome, of the world then, and of the rest of the schedule. -/
def Terms {α : Type} (c : Coro α) (w : W) (σ : Sched) (Q : Out α → W → Sched → Prop) : Prop :=
  ∃ k r w', r ≠ .blocked ∧ (∀ l, c w (σ.upto k ++ l) = (r, w', l)) ∧ Q r w' (σ.shift k)

section
variable {α β : Type}

theorem Terms.now {c : Coro α} {w : W} {σ : Sched} {Q : Out α → W → Sched → Prop} {r : Out α} {w' : W}
    (h : ∀ l, c w l = (r, w', l)) (hr : r ≠ .blocked) (hq : Q r w' σ) : Terms c w σ Q :=
  ⟨0, r, w', hr, by simpa [Sched.upto] using h, by rwa [Sched.shift_zero]⟩

theorem Terms.pure {a : α} {w σ} {Q : Out α → W → Sched → Prop} (h : Q (.ok a) w σ) : Terms (Coro.pure a) w σ Q :=
  .now (fun _ => rfl) (by simp) h

theorem Terms.raise {e : Exc} {w σ} {Q : Out α → W → Sched → Prop} (h : Q (.exc e) w σ) : Terms (Coro.raise e) w σ Q :=
  .now (fun _ => rfl) (by simp) h

theorem Terms.upd {f : W → W} {w σ} {Q : Out Unit → W → Sched → Prop} (h : Q (.ok ()) (f w) σ) : Terms (Coro.upd f) w σ Q :=
  .now (fun _ => rfl) (by simp) h

theorem Terms.get {w σ} {Q : Out W → W → Sched → Prop} (h : Q (.ok w) w σ) : Terms Coro.get w σ Q :=
  .now (fun _ => rfl) (by simp) h

theorem Terms.createTask {k : TaskKind} {w σ} {Q : Out Nat → W → Sched → Prop}
    (h : Q (.ok w.tasks.length) { w with tasks := w.tasks ++ [{ kind := k }] } σ) : Terms (createTask k) w σ Q :=
  .now (fun _ => rfl) (by simp) h

theorem Terms.mono {c : Coro α} {w σ} {Q R : Out α → W → Sched → Prop} (h : Terms c w σ Q)
    (hq : ∀ k r w', Q r w' (σ.shift k) → R r w' (σ.shift k)) : Terms c w σ R := by
  obtain ⟨k, r, w', h1, h2, h3⟩ := h
  exact ⟨k, r, w', h1, h2, hq k r w' h3⟩

theorem Terms.bind {c : Coro α} {f : α → Coro β} {w σ} {Q : Out α → W → Sched → Prop} {R : Out β → W → Sched → Prop}
    (h : Terms c w σ Q) (hf : ∀ k a w', Q (.ok a) w' (σ.shift k) → Terms (f a) w' (σ.shift k) R)
    (he : ∀ k e w', Q (.exc e) w' (σ.shift k) → R (.exc e) w' (σ.shift k)) : Terms (c >>= f) w σ R := by
  obtain ⟨k, r, w', h1, h2, h3⟩ := h
  cases r with
  | blocked => exact absurd rfl h1
  | exc e => exact ⟨k, .exc e, w', by simp, fun l => bind_exc (h2 l), he k e w' h3⟩
  | ok a =>
    obtain ⟨k', r', w'', g1, g2, g3⟩ := hf k a w' h3
    refine ⟨k + k', r', w'', g1, fun l => ?_, by rwa [Sched.shift_shift] at g3⟩
    rw [Sched.upto_add, List.append_assoc, bind_ok (h2 _), g2]

theorem Terms.catch_ {c : Coro α} {h' : Exc → Coro α} {w σ} {Q R : Out α → W → Sched → Prop}
    (h : Terms c w σ Q) (hf : ∀ k e w', Q (.exc e) w' (σ.shift k) → Terms (h' e) w' (σ.shift k) R)
    (he : ∀ k a w', Q (.ok a) w' (σ.shift k) → R (.ok a) w' (σ.shift k)) : Terms (Coro.catch_ c h') w σ R := by
  obtain ⟨k, r, w', h1, h2, h3⟩ := h
  cases r with
  | blocked => exact absurd rfl h1
  | ok a => exact ⟨k, .ok a, w', by simp, fun l => catch_ok (h2 l), he k a w' h3⟩
  | exc e =>
    obtain ⟨k', r', w'', g1, g2, g3⟩ := hf k e w' h3
    refine ⟨k + k', r', w'', g1, fun l => ?_, by rwa [Sched.shift_shift] at g3⟩
    rw [Sched.upto_add, List.append_assoc, catch_exc (h2 _), g2]

theorem Terms.finally_ {c : Coro α} {f : Coro Unit} {w σ} {Q R : Out α → W → Sched → Prop}
    (h : Terms c w σ Q)
    (hf : ∀ k r w', Q r w' (σ.shift k) → Terms f w' (σ.shift k) fun o w'' σ' =>
      match o with
      | .exc e => R (.exc e) w'' σ'
      | _ => R r w'' σ') : Terms (Coro.finally_ c f) w σ R := by
  obtain ⟨k, r, w', h1, h2, h3⟩ := h
  obtain ⟨k', r', w'', g1, g2, g3⟩ := hf k r w' h3
  rw [Sched.shift_shift] at g3
  cases r with
  | blocked => exact absurd rfl h1
  | ok a =>
    cases r' with
    | blocked => exact absurd rfl g1
    | ok u => exact ⟨k + k', .ok a, w'', by simp, fun l => by
        rw [Sched.upto_add, List.append_assoc, Coro.finally_, h2]; dsimp only; rw [Coro.bind, g2]; rfl, g3⟩
    | exc e => exact ⟨k + k', .exc e, w'', by simp, fun l => by
        rw [Sched.upto_add, List.append_assoc, Coro.finally_, h2]; dsimp only; rw [Coro.bind, g2], g3⟩
  | exc e0 =>
    cases r' with
    | blocked => exact absurd rfl g1
    | ok u => exact ⟨k + k', .exc e0, w'', by simp, fun l => by
        rw [Sched.upto_add, List.append_assoc, Coro.finally_, h2]; dsimp only; rw [Coro.bind, g2]; rfl, g3⟩
    | exc e => exact ⟨k + k', .exc e, w'', by simp, fun l => by
        rw [Sched.upto_add, List.append_assoc, Coro.finally_, h2]; dsimp only; rw [Coro.bind, g2], g3⟩

theorem Terms.when {b : Bool} {c : Coro Unit} {w σ} {Q : Out Unit → W → Sched → Prop}
    (h : b = true → Terms c w σ Q) (h' : b = false → Q (.ok ()) w σ) : Terms (Coro.when b c) w σ Q := by
  cases b with
  | true => exact h rfl
  | false => exact .pure (h' rfl)

/-- A coroutine that ends on a schedule does not stay blocked on its prefixes. -/
theorem Terms.upto {c : Coro α} {w σ} {Q : Out α → W → Sched → Prop} (h : Terms c w σ Q) :
    ∃ n, (c w (σ.upto n)).1 ≠ .blocked := by
  obtain ⟨k, r, w', h1, h2, _⟩ := h
  refine ⟨k, ?_⟩
  have := h2 []
  rw [List.append_nil] at this
  rw [this]; exact h1

end

/-! ## Waiting -/

/-- The world after the first `n` events of a schedule, without the caller being resumed. -/
def evolve (fwd : Option Nat) (w : W) (σ : Sched) : Nat → W
  | 0 => w
  | n + 1 => evolve fwd (w.env fwd (σ 0)) (σ.shift 1) n

theorem evolve_succ (fwd : Option Nat) (w : W) (σ : Sched) (n : Nat) :
    evolve fwd w σ (n + 1) = (evolve fwd w σ n).env fwd (σ n) := by
  induction n generalizing w σ with
  | zero => rfl
  | succ n ih =>
    rw [evolve, ih]
    simp only [evolve, Sched.shift]
    rw [show 1 + n = n + 1 by omega]

theorem evolve_keeps {fwd : Option Nat} {J : W → Prop} (hJ : ∀ w e, J w → J (w.env fwd e)) {w : W} {σ : Sched} {n m : Nat}
    (hn : n ≤ m) (h : J (evolve fwd w σ n)) : J (evolve fwd w σ m) := by
  obtain ⟨d, rfl⟩ := Nat.le.dest hn
  clear hn
  induction d with
  | zero => exact h
  | succ d ih => rw [← Nat.add_assoc, evolve_succ]; exact hJ _ _ ih

/-- If events of some sort, that make `p` true, never stop coming, then `p` becomes true. -/
theorem evt {fwd : Option Nat} {J p : W → Prop} {q : Ev → Prop} (hJ : ∀ w e, J w → J (w.env fwd e))
    (hp : ∀ w e, p w → p (w.env fwd e)) {w : W} {σ : Sched} (ho : Often σ q)
    (hs : ∀ w e, J w → q e → p (w.env fwd e)) (h : ∃ n, ∀ m, n ≤ m → J (evolve fwd w σ m)) :
    ∃ n, ∀ m, n ≤ m → p (evolve fwd w σ m) := by
  obtain ⟨n, h⟩ := h
  obtain ⟨m, hm, hq⟩ := ho n
  refine ⟨m + 1, fun k hk => evolve_keeps hp hk ?_⟩
  rw [evolve_succ]
  exact hs _ _ (h m hm) hq

/-- A wait ends at the latest at an attempt to resume the caller, when it is ready by then, or its time limit has expired by then,
or a cancellation is pending then. -/
theorem waitLoop_by (fwd : Option Nat) (ready : W → Bool) (timed : Bool) (n : Nat) :
    ∀ (ex : Bool) (w : W) (σ : Sched), σ n = .resume →
      ((evolve fwd w σ n).mustCancel = true ∨ ready (evolve fwd w σ n) = true ∨ ex = true ∨
        (timed = true ∧ ∃ m, m < n ∧ σ m = .timeout)) →
      ∃ m r w', m ≤ n ∧ σ m = .resume ∧ (∀ l, waitLoop fwd ready timed ex w (σ.upto (m + 1) ++ l) = (r, w', l)) ∧
        ((r = .ok () ∧ w' = evolve fwd w σ m ∧ w'.mustCancel = false) ∨
          (r = .exc .cancelled ∧ w' = (evolve fwd w σ m).throwCancel ∧ (evolve fwd w σ m).mustCancel = true)) := by
  induction n with
  | zero =>
    intro ex w σ hr h
    by_cases hm : w.mustCancel = true
    · refine ⟨0, .exc .cancelled, w.throwCancel, Nat.le_refl _, hr, fun l => ?_, .inr ⟨rfl, rfl, hm⟩⟩
      simp only [Sched.upto, List.cons_append, List.nil_append, hr, waitLoop_resume, hm, if_true]
    · have hm' : w.mustCancel = false := by simpa using hm
      have hg : (ready w || ex) = true := by
        rcases h with h | h | h | ⟨_, m, h, _⟩
        · exact absurd h hm
        · have : ready w = true := h
          simp [this]
        · simp [h]
        · omega
      refine ⟨0, .ok (), w, Nat.le_refl _, hr, fun l => ?_, .inl ⟨rfl, rfl, hm'⟩⟩
      simp only [Sched.upto, List.cons_append, List.nil_append, hr, waitLoop_resume, hm', hg, if_true, Bool.false_eq_true,
        if_false]
  | succ n ih =>
    intro ex w σ hr h
    have hr' : σ.shift 1 n = .resume := by simp only [Sched.shift]; rw [Nat.add_comm]; exact hr
    have lift : ∀ (ex' : Bool), (∀ l, waitLoop fwd ready timed ex w (σ 0 :: l) =
          waitLoop fwd ready timed ex' (w.env fwd (σ 0)) l) →
        ((evolve fwd (w.env fwd (σ 0)) (σ.shift 1) n).mustCancel = true ∨
          ready (evolve fwd (w.env fwd (σ 0)) (σ.shift 1) n) = true ∨ ex' = true ∨
          (timed = true ∧ ∃ m, m < n ∧ σ.shift 1 m = .timeout)) →
        ∃ m r w', m ≤ n + 1 ∧ σ m = .resume ∧
          (∀ l, waitLoop fwd ready timed ex w (σ.upto (m + 1) ++ l) = (r, w', l)) ∧
          ((r = .ok () ∧ w' = evolve fwd w σ m ∧ w'.mustCancel = false) ∨
            (r = .exc .cancelled ∧ w' = (evolve fwd w σ m).throwCancel ∧ (evolve fwd w σ m).mustCancel = true)) := by
      intro ex' he hc
      obtain ⟨m, r, w', h1, h2, h3, h4⟩ := ih ex' (w.env fwd (σ 0)) (σ.shift 1) hr' hc
      refine ⟨m + 1, r, w', by omega, ?_, fun l => ?_, h4⟩
      · simp only [Sched.shift] at h2; rwa [Nat.add_comm]
      · rw [Sched.upto, List.cons_append, he, h3]
    have hsplit : ∀ (ex' : Bool), (ex = true → ex' = true) → (σ 0 = .timeout → timed = true → ex' = true) →
        ((evolve fwd (w.env fwd (σ 0)) (σ.shift 1) n).mustCancel = true ∨
          ready (evolve fwd (w.env fwd (σ 0)) (σ.shift 1) n) = true ∨ ex' = true ∨
          (timed = true ∧ ∃ m, m < n ∧ σ.shift 1 m = .timeout)) := by
      intro ex' h1 h2
      rcases h with h | h | h | ⟨ht, m, hm, hs⟩
      · exact .inl h
      · exact .inr (.inl h)
      · exact .inr (.inr (.inl (h1 h)))
      · cases m with
        | zero => exact .inr (.inr (.inl (h2 hs ht)))
        | succ m => exact .inr (.inr (.inr ⟨ht, m, by omega, by simp only [Sched.shift]; rw [Nat.add_comm]; exact hs⟩))
    by_cases h0 : σ 0 = .resume
    · have henv : w.env fwd (σ 0) = w := by rw [h0]; rfl
      by_cases hm : w.mustCancel = true
      · refine ⟨0, .exc .cancelled, w.throwCancel, Nat.zero_le _, h0, fun l => ?_, .inr ⟨rfl, rfl, hm⟩⟩
        simp only [Sched.upto, List.cons_append, List.nil_append, h0, waitLoop_resume, hm, if_true]
      · have hm' : w.mustCancel = false := by simpa using hm
        by_cases hg : (ready w || ex) = true
        · refine ⟨0, .ok (), w, Nat.zero_le _, h0, fun l => ?_, .inl ⟨rfl, rfl, hm'⟩⟩
          simp only [Sched.upto, List.cons_append, List.nil_append, h0, waitLoop_resume, hm', hg, if_true,
            Bool.false_eq_true, if_false]
        · refine lift ex (fun l => ?_) (hsplit ex id (fun h => by rw [h0] at h; cases h))
          rw [henv, h0, waitLoop_resume]
          simp only [hm', hg, Bool.false_eq_true, if_false]
    · by_cases h1 : σ 0 = .timeout
      · refine lift (ex || timed) (fun l => ?_) (hsplit _ (fun h => by simp [h]) (fun _ h => by simp [h]))
        rw [h1, waitLoop_timeout]; rfl
      · exact lift ex (fun l => by rw [waitLoop_ev _ _ _ _ _ _ _ h0 h1]) (hsplit ex id (fun h => absurd h h1))

/-- A wait without a limit goes on as long as it is not ready and not cancelled when the caller could be resumed. -/
theorem waitLoop_stuck (fwd : Option Nat) (R : W → Bool) (m : Nat) : ∀ (v : W) (τ : Sched),
    (∀ j, j < m → τ j = .resume → (evolve fwd v τ j).mustCancel = false ∧ R (evolve fwd v τ j) = false) →
    waitLoop fwd R false false v (τ.upto m) = (.blocked, evolve fwd v τ m, []) := by
  induction m with
  | zero => intro v τ _; rw [Sched.upto, waitLoop_nil]; rfl
  | succ m ih =>
    intro v τ h
    have ih' := ih (v.env fwd (τ 0)) (τ.shift 1) fun j hj hs => by
      refine h (j + 1) (by omega) ?_
      simp only [Sched.shift] at hs
      rwa [Nat.add_comm]
    rw [Sched.upto]
    by_cases h0 : τ 0 = .resume
    · obtain ⟨a, b⟩ := h 0 (by omega) h0
      have he : v.env fwd (τ 0) = v := by rw [h0]; rfl
      rw [he] at ih'
      have a' : v.mustCancel = false := a
      have b' : R v = false := b
      rw [h0, waitLoop_resume, a', b', evolve, he]
      simpa using ih'
    · by_cases h1 : τ 0 = .timeout
      · have he : v.env fwd (τ 0) = v := by rw [h1]; rfl
        rw [h1, waitLoop_timeout, evolve, he]
        rw [he] at ih'
        exact ih'
      · rw [waitLoop_ev _ _ _ _ _ _ _ h0 h1, evolve]; exact ih'

/-- On any schedule, a wait without a limit ends, or goes on for ever. -/
theorem waitLoop_dichotomy (fwd : Option Nat) (R : W → Bool) (v : W) (τ : Sched) :
    (∃ m r w', τ m = .resume ∧ (∀ l, waitLoop fwd R false false v (τ.upto (m + 1) ++ l) = (r, w', l)) ∧
        ((r = .ok () ∧ w' = evolve fwd v τ m ∧ w'.mustCancel = false) ∨
          (r = .exc .cancelled ∧ w' = (evolve fwd v τ m).throwCancel ∧ (evolve fwd v τ m).mustCancel = true))) ∨
    ((∀ m, waitLoop fwd R false false v (τ.upto m) = (.blocked, evolve fwd v τ m, [])) ∧
      ∀ j, τ j = .resume → (evolve fwd v τ j).mustCancel = false ∧ R (evolve fwd v τ j) = false) := by
  by_cases h : ∃ j, τ j = .resume ∧ ((evolve fwd v τ j).mustCancel = true ∨ R (evolve fwd v τ j) = true)
  · obtain ⟨j, hj, hc⟩ := h
    obtain ⟨m, r, w', _, h2, h3, h4⟩ := waitLoop_by fwd R false j false v τ hj (hc.imp_right .inl)
    exact .inl ⟨m, r, w', h2, h3, h4⟩
  · have hn : ∀ j, τ j = .resume → (evolve fwd v τ j).mustCancel = false ∧ R (evolve fwd v τ j) = false := by
      intro j hj
      refine ⟨?_, ?_⟩
      · cases hq : (evolve fwd v τ j).mustCancel with
        | false => rfl
        | true => exact absurd ⟨j, hj, .inl hq⟩ h
      · cases hq : R (evolve fwd v τ j) with
        | false => rfl
        | true => exact absurd ⟨j, hj, .inr hq⟩ h
    exact .inr ⟨fun m => waitLoop_stuck fwd R m v τ fun j _ hj => hn j hj, hn⟩

end Shellous
