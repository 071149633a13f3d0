import Verif.Lemmas.EndsGen
import Verif.Lemmas.EndsPipe

/-!
# Loops `async for line in cmd` come to an end
-/

namespace Shellous

theorem Terms.attempt {c : Coro Unit} {w : W} {σ : Sched} {Q : Out Unit → W → Sched → Prop} {R : Out (Option Exc) → W → Sched → Prop}
    (h : Terms c w σ Q) (hr : ∀ k o w', Q o w' (σ.shift k) → o ≠ .blocked → R (.ok o.exc?) w' (σ.shift k)) :
    Terms (attempt c) w σ R := by
  obtain ⟨k, r, w', h1, h2, h3⟩ := h
  cases r with
  | blocked => exact absurd rfl h1
  | ok u => exact ⟨k, .ok none, w', by simp, fun l => by rw [Shellous.attempt, h2], hr k _ w' h3 h1⟩
  | exc e => exact ⟨k, .ok (some e), w', by simp, fun l => by rw [Shellous.attempt, h2], hr k _ w' h3 h1⟩

theorem Terms.attemptValue {α : Type} {c : Coro α} {w : W} {σ : Sched} {Q : Out α → W → Sched → Prop}
    (h : Terms c w σ Q) : Terms (attemptValue c) w σ fun o _ _ => ∃ x, o = .ok x := by
  obtain ⟨k, r, w', h1, h2, h3⟩ := h
  cases r with
  | blocked => exact absurd rfl h1
  | ok u => exact ⟨k, .ok (.inr u), w', by simp, fun l => by rw [Shellous.attemptValue, h2], _, rfl⟩
  | exc e => exact ⟨k, .ok (.inl e), w', by simp, fun l => by rw [Shellous.attemptValue, h2], _, rfl⟩

section
variable {F : Sched → Prop} (hF : Good F) (hL : ∀ σ, F σ → σ.Launches) {cfg : RCfg} (hm : WaitMode F cfg.cancelTimed)
include hF hL hm

/-- A loop over a command ends if its generator ends reading. -/
theorem iterate_ends {gc : GenCfg} {w : W} {σ : Sched} (hf : w.Fresh) (hσ : F σ)
    (hbody : ∀ w1 k, Launched cfg (w.log .auditStart) w1 → F (σ.shift k) → (HasCancel σ → HasCancel (σ.shift k)) →
      Terms (genBody gc) (w1.log .bodyStart) (σ.shift k) fun o w' σ'' =>
        ∃ r g, o = .ok (r, g) ∧ Up w' ∧ (r = none → WaitEnds cfg (w'.log (.bodyEnd none)) σ'')) :
    IterEndsOn cfg gc w σ := by
  have key : Terms (iterate cfg gc) w σ fun _ _ _ => True := by
    unfold iterate
    refine Terms.bind (Q := fun o w' σ' => o = .ok none → ∃ k, σ' = σ.shift k ∧
      Launched cfg (w.log .auditStart) w' ∧ (HasCancel σ → HasCancel σ')) ?_ ?_ fun _ _ _ _ => trivial
    · refine (aenter_ends hF hL hm hf hσ).attempt ?_
      rintro k o w' h ho hn
      cases o with
      | blocked => exact absurd rfl ho
      | exc e => cases hn
      | ok u => exact ⟨k, rfl, h rfl⟩
    · intro k e0 w1 h
      cases e0 with
      | some e => exact .pure trivial
      | none =>
        obtain ⟨k1, hk1, hla, hc⟩ := h rfl
        have hσ1 := hF.shift σ k hσ
        rw [hk1] at hc hσ1 ⊢
        refine Terms.updThen ?_
        refine (hbody w1 k1 hla hσ1 hc).bind ?_ fun _ _ _ _ => trivial
        rintro k2 ⟨r, g⟩ w2 ⟨r', g', hrg, hu, hw⟩
        cases hrg
        refine Terms.updThen ?_
        refine (aexit_ends hF hm (w := w2.log (.bodyEnd r)) (show Up (w2.log (.bodyEnd r)) from hu) (hF.shift _ k2 hσ1)
          (by rintro rfl; exact hw rfl)).attemptValue.bind (fun k3 x w3 _ => ?_) fun _ _ _ _ => trivial
        split <;> exact .pure trivial
  obtain ⟨n, hn⟩ := key.upto
  exact ⟨n, hn⟩

end

/-- A loop over a pipeline ends if its generator ends reading. -/
theorem pipeIterate_ends {F : Sched → Prop} (hF : Good F) {cfg : PRCfg} {gc : GenCfg} {w : W} (hf : w.Fresh) {σ : Sched} (hσ : F σ)
    (hwait : cfg.setupErr = none → ∃ m r w', σ m = .resume ∧ (∀ l, waitLoop none (fun w => w.isDone 0 && w.isDone 1) false false (w.piped .block cfg)
        (σ.upto (m + 1) ++ l) = (r, w', l)) ∧
        ((r = .ok () ∧ w' = evolve none (w.piped .block cfg) σ m ∧ w'.mustCancel = false) ∨
          (r = .exc .cancelled ∧ w' = (evolve none (w.piped .block cfg) σ m).throwCancel)))
    (hkill : ∀ w' σ', Crew w'.mine w' → F σ' → Terms (pipeWait true) w' σ' fun _ _ _ => True)
    (hbody : ∀ m, σ m = .resume → (evolve none (w.piped .block cfg) σ m).mustCancel = false → Crew (commands .block cfg) (evolve none (w.piped .block cfg) σ m) →
      Terms (genBody gc) ((evolve none (w.piped .block cfg) σ m).log .bodyStart) (σ.shift (m + 1)) fun o w' σ'' =>
        ∃ r g, o = .ok (r, g) ∧ Crew (commands .block cfg) w' ∧
          (r = none → Terms (pipeWait false) (w'.log (.bodyEnd none)) σ'' fun _ _ _ => True)) :
    PIterEndsOn cfg gc w σ := by
  have henter : Terms (pipeAenter cfg true) w σ fun o w1 σ1 => o = .ok () → ∃ m, σ m = .resume ∧ w1 = evolve none (w.piped .block cfg) σ m ∧
      w1.mustCancel = false ∧ σ1 = σ.shift (m + 1) ∧ Crew (commands .block cfg) w1 := by
    cases hs : cfg.setupErr with
    | some e => exact pipeAenter_setup (how := .block) hf hs fun w' h => by cases h
    | none =>
      obtain ⟨m, r, w1, h0, h1, h2⟩ := hwait hs
      have hc : Crew (commands .block cfg) (evolve none (w.piped .block cfg) σ m) :=
        evolve_keeps (fun w e h => (stable_crew _).env none w e h) (Nat.zero_le m) (piped_crew .block cfg w)
      rcases h2 with ⟨rfl, rfl, hmc⟩ | ⟨rfl, rfl⟩
      · exact ⟨m + 1, .ok (), _, by simp, fun l => catch_ok ((pipeStartRun_block hf hs _).trans (h1 l)), fun _ => ⟨m, h0, rfl, hmc, rfl, hc⟩⟩
      · have hstart : Terms (pipeStartRun cfg true) w σ fun o w' σ' => o = .exc .cancelled ∧ Crew w'.mine w' ∧ F σ' := by
          refine ⟨m + 1, .exc .cancelled, _, by simp, fun l => (pipeStartRun_block hf hs _).trans (h1 l), rfl, ?_, hF.shift σ _ hσ⟩
          have := hc.ext (throwCancel_ext _)
          rw [this.1]; exact this
        unfold pipeAenter
        refine hstart.catch_ (fun k e w' h => ?_) fun _ _ _ h => (by cases h.1)
        obtain ⟨he, hc', hσ'⟩ := h
        cases he
        refine Terms.bind (Q := fun o w'' σ'' => Crew w''.mine w'' ∧ F σ'') (.upd ⟨hc', hσ'⟩) (fun _ _ w'' h => ?_) fun _ _ _ _ => by simp
        exact (hkill w'' _ h.1 h.2).bind (fun _ _ _ _ => .raise (by simp)) fun _ _ _ _ => by simp
  have key : Terms (pipeIterate cfg gc) w σ fun _ _ _ => True := by
    unfold pipeIterate
    refine Terms.bind (Q := fun o w1 σ1 => o = .ok none → ∃ m, σ m = .resume ∧ w1 = evolve none (w.piped .block cfg) σ m ∧
      w1.mustCancel = false ∧ σ1 = σ.shift (m + 1) ∧ Crew (commands .block cfg) w1) ?_ ?_ fun _ _ _ _ => trivial
    · refine henter.attempt ?_
      rintro k o w' h ho hn
      cases o with
      | blocked => exact absurd rfl ho
      | exc e => cases hn
      | ok u => exact h rfl
    · intro k e0 w1 h
      cases e0 with
      | some e => exact .pure trivial
      | none =>
        obtain ⟨m, h0, rfl, hmc, hk, hcr⟩ := h rfl
        rw [hk]
        refine Terms.updThen ?_
        refine (hbody m h0 hmc hcr).bind ?_ fun _ _ _ _ => trivial
        rintro k2 ⟨r, g⟩ w2 ⟨r', g', hrg, hu, hw⟩
        cases hrg
        refine Terms.updThen ?_
        have hu' : Crew w2.mine w2 := by rw [hu.1]; exact hu
        refine (pipeAexit_ends (w := w2.log (.bodyEnd r)) ?_).attemptValue.bind (fun k3 x w3 _ => ?_) fun _ _ _ _ => trivial
        · cases r with
          | none => exact hw rfl
          | some e =>
            simp only [Option.isSome_some]
            split
            · exact hkill _ _ hu' (hF.shift _ k2 (hF.shift σ _ hσ))
            · exact hkill _ _ hu' (hF.shift _ k2 (hF.shift σ _ hσ))
        · split <;> exact .pure trivial
  obtain ⟨n, hn⟩ := key.upto
  exact ⟨n, hn⟩

/-- What a loop over a pipeline is like while it waits for the launches. -/
theorem pipeIterate_waits {cfg : PRCfg} {gc : GenCfg} {w : W} (hf : w.Fresh) (hs : cfg.setupErr = none) {evs : List Ev} {w' : W}
    (h : waitLoop none (fun w => w.isDone 0 && w.isDone 1) false false (w.piped .block cfg) evs = (.blocked, w', [])) :
    pipeIterExecute cfg gc w evs = (.blocked, w') := by
  have h1 : pipeAenter cfg true w evs = (.blocked, w', []) :=
    catch_blocked ((pipeStartRun_block hf hs evs).trans h)
  have h2 : attempt (pipeAenter cfg true) w evs = (.blocked, w', []) := by rw [attempt, h1]
  have h3 : pipeIterate cfg gc w evs = (.blocked, w', []) := by
    unfold pipeIterate
    exact bind_blocked h2
  rw [pipeIterExecute, h3]

end Shellous
