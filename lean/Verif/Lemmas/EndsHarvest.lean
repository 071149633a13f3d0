import Verif.Lemmas.Ends
import Verif.Lemmas.Inv

/-!
# `harvest` comes to an end
-/

namespace Shellous

/-- A sort of schedules that includes their rests, and on which the event loop runs. -/
structure Good (F : Sched → Prop) : Prop where
  shift : ∀ σ k, F σ → F (σ.shift k)
  runs : ∀ σ, F σ → σ.Runs

/-- `c` ends on every schedule of the sort `F`, from every world with the invariant `J`, and keeps the invariant. -/
def Keeps {α : Type} (F : Sched → Prop) (J : W → Prop) (c : Coro α) : Prop :=
  ∀ w σ, J w → F σ → Terms c w σ fun _ w' _ => J w'

section
variable {α β : Type} {F : Sched → Prop} {J : W → Prop}

theorem Keeps.pure {a : α} : Keeps F J (Coro.pure a) := fun _ _ h _ => .pure h
theorem Keeps.raise {e : Exc} : Keeps F J (Coro.raise (α := α) e) := fun _ _ h _ => .raise h
theorem Keeps.get : Keeps F J Coro.get := fun _ _ h _ => .get h
theorem Keeps.upd {f : W → W} (h : ∀ w, J w → J (f w)) : Keeps F J (Coro.upd f) := fun w _ hw _ => .upd (h w hw)

theorem Keeps.bind (hF : Good F) {c : Coro α} {f : α → Coro β} (hc : Keeps F J c) (hf : ∀ a, Keeps F J (f a)) :
    Keeps F J (c >>= f) := fun w σ hw hσ =>
  (hc w σ hw hσ).bind (fun k a w' h => hf a w' _ h (hF.shift σ k hσ)) fun _ _ _ h => h

theorem Keeps.getBind (hF : Good F) {f : W → Coro β} (hf : ∀ w σ, J w → F σ → Terms (f w) w σ fun _ w' _ => J w') :
    Keeps F J (Coro.get >>= f) := fun w σ hw hσ =>
  (Terms.get (Q := fun o w' _ => o = .ok w' ∧ J w') ⟨rfl, hw⟩).bind
    (fun k a w' h => by obtain ⟨h1, h2⟩ := h; cases h1; exact hf _ _ h2 (hF.shift σ k hσ))
    fun _ _ _ h => h.2

theorem Keeps.catch_ (hF : Good F) {c : Coro α} {h : Exc → Coro α} (hc : Keeps F J c) (hh : ∀ e, Keeps F J (h e)) :
    Keeps F J (Coro.catch_ c h) := fun w σ hw hσ =>
  (hc w σ hw hσ).catch_ (fun k e w' h => hh e w' _ h (hF.shift σ k hσ)) fun _ _ _ h => h

theorem Keeps.finally_ (hF : Good F) {c : Coro α} {f : Coro Unit} (hc : Keeps F J c) (hf : Keeps F J f) :
    Keeps F J (Coro.finally_ c f) := fun w σ hw hσ =>
  (hc w σ hw hσ).finally_ fun k _ w' h => (hf w' _ h (hF.shift σ k hσ)).mono fun _ r' _ h => by cases r' <;> exact h

theorem Keeps.when {b : Bool} {c : Coro Unit} (hc : b = true → Keeps F J c) : Keeps F J (Coro.when b c) := fun w σ hw hσ =>
  .when (fun hb => hc hb w σ hw hσ) fun _ => hw

theorem Keeps.ite {p : Prop} [Decidable p] {c d : Coro α} (hc : p → Keeps F J c) (hd : ¬p → Keeps F J d) :
    Keeps F J (if p then c else d) := by
  split
  · exact hc ‹_›
  · exact hd ‹_›

/-- A wait ends if it is ready some time, or has a time limit that expires. -/
theorem wait_ends (hF : Good F) {fwd : Option Nat} (hJ : ∀ w e, J w → J (w.env fwd e)) (hT : ∀ w, J w → J w.throwCancel)
    {ready : W → Bool} {timed : Bool}
    (hr : ∀ w σ, J w → F σ → (timed = true ∧ σ.Ticks) ∨ ∃ n, ∀ m, n ≤ m → ready (evolve fwd w σ m) = true) :
    Keeps F J (wait ready timed fwd) := by
  intro w σ hw hσ
  have key : ∃ n, σ n = .resume ∧ (ready (evolve fwd w σ n) = true ∨ (timed = true ∧ ∃ m, m < n ∧ σ m = .timeout)) := by
    rcases hr w σ hw hσ with ⟨ht, h⟩ | ⟨n, h⟩
    · obtain ⟨m, _, hm⟩ := h 0
      obtain ⟨n, hn, hs⟩ := hF.runs σ hσ (m + 1)
      exact ⟨n, hs, .inr ⟨ht, m, by omega, hm⟩⟩
    · obtain ⟨m, hm, hs⟩ := hF.runs σ hσ n
      exact ⟨m, hs, .inl (h m hm)⟩
  obtain ⟨n, hn, hc⟩ := key
  obtain ⟨m, r, w', _, _, h3, h4⟩ := waitLoop_by fwd ready timed n false w σ hn
    (hc.elim (fun h => .inr (.inl h)) fun h => .inr (.inr (.inr h)))
  have hm : J (evolve fwd w σ m) := evolve_keeps hJ (Nat.zero_le m) hw
  refine ⟨m + 1, r, w', ?_, h3, ?_⟩
  · rcases h4 with ⟨h, _⟩ | ⟨h, _⟩ <;> rw [h] <;> simp
  · rcases h4 with ⟨_, h, _⟩ | ⟨_, h, _⟩ <;> rw [h]
    · exact hm
    · exact hT _ hm

/-- Every task of `ids` ends some time. -/
def Due (F : Sched → Prop) (J : W → Prop) (ids : List Nat) : Prop :=
  ∀ i, i ∈ ids → ∀ w σ, J w → F σ → ∃ n, ∀ m, n ≤ m → (evolve none w σ m).isDone i = true

theorem Due.all {ids l : List Nat} (h : Due F J ids) (hl : ∀ i, i ∈ l → i ∈ ids) {w σ} (hw : J w) (hσ : F σ) :
    ∃ n, ∀ m, n ≤ m → l.all (evolve none w σ m).isDone = true := by
  induction l with
  | nil => exact ⟨0, fun _ _ => rfl⟩
  | cons i l ih =>
    obtain ⟨n1, h1⟩ := ih fun j hj => hl j (List.mem_cons_of_mem _ hj)
    obtain ⟨n2, h2⟩ := h i (hl i List.mem_cons_self) w σ hw hσ
    refine ⟨max n1 n2, fun m hm => ?_⟩
    simp [h1 m (by omega), h2 m (by omega)]

/-- The tasks end, or there is a time limit and it expires. -/
def WaitOk (F : Sched → Prop) (J : W → Prop) (ids : List Nat) (timed : Bool) : Prop :=
  (timed = true ∧ ∀ σ, F σ → σ.Ticks) ∨ Due F J ids

variable (hF : Good F) (hJ : Stable J)
include hF hJ

theorem asyncWait_ends {ids l : List Nat} {timed firstExc : Bool} (hd : WaitOk F J ids timed) (hl : ∀ i, i ∈ l → i ∈ ids) :
    Keeps F J (asyncWait l timed firstExc) := by
  unfold asyncWait
  refine .ite (fun _ => .raise) fun _ => wait_ends hF (hJ.env _) hJ.throw fun w σ hw hσ => ?_
  rcases hd with ⟨ht, h⟩ | h
  · exact .inl ⟨ht, h σ hσ⟩
  · obtain ⟨n, hn⟩ := h.all hl hw hσ
    exact .inr ⟨n, fun m hm => by simp [hn m hm]⟩

theorem cancelWaiter_ends {ids l : List Nat} {timed : Bool} (hd : WaitOk F J ids timed) (hl : ∀ i, i ∈ l → i ∈ ids) :
    Keeps F J (cancelWaiter l timed) := by
  unfold cancelWaiter
  refine .bind hF (asyncWait_ends hF hJ hd hl) fun _ => .getBind hF fun w σ hw hσ => ?_
  refine (Keeps.ite (fun _ => ?_) fun _ => .pure) w σ hw hσ
  exact .bind hF (.upd fun w h => hJ.cancelAll _ _ (hJ.log w _ rfl h)) fun _ => .raise

theorem cancelWait_ends {ids l : List Nat} {timed cf : Bool} (hd : WaitOk F J ids timed) (hl : ∀ i, i ∈ l → i ∈ ids) :
    Keeps F J (cancelWait l timed cf) := by
  unfold cancelWait
  refine .catch_ hF (.bind hF (.when fun _ => .upd fun w h => hJ.cancelAll _ _ h) fun _ => cancelWaiter_ends hF hJ hd hl)
    fun e => .ite (fun _ => ?_) fun _ => .raise
  exact .bind hF (.upd fun w h => hJ.log w _ rfl h) fun _ => cancelWaiter_ends hF hJ hd hl

theorem consume_ends (ids : List Nat) : Keeps F J (consumeExceptions ids) := by
  unfold consumeExceptions
  exact .getBind hF fun w σ hw hσ => (Keeps.ite (fun _ => .pure) fun _ => .raise) w σ hw hσ

theorem harvestRest_ends {ids l : List Nat} {ct : Bool} {ex : Bool} (hd : WaitOk F J ids ct) (hl : ∀ i, i ∈ l → i ∈ ids) :
    Keeps F J (harvestRest ids ct l ex) := by
  unfold harvestRest
  refine .bind hF (.when fun _ => cancelWait_ends hF hJ hd hl) fun _ => .getBind hF fun w σ hw hσ => ?_
  refine (Keeps.ite (fun _ => .raise) fun _ => .ite (fun _ => ?_) fun _ => .pure) w σ hw hσ
  exact .bind hF (consume_ends hF hJ ids) fun _ => .raise

theorem harvestWait_ends_from {ids : List Nat} {timed ct cf : Bool} {w : W} {σ : Sched}
    (h1 : Terms (asyncWait ids timed true) w σ fun _ w' _ => J w') (h2 : WaitOk F J ids ct) (hσ : F σ) :
    Terms (harvestWait ids timed ct cf) w σ fun _ w' _ => J w' := by
  unfold harvestWait
  refine Terms.bind (Q := fun o w' _ => J w' ∧ ∀ a, o = .ok a → ∀ i, i ∈ a.1 → i ∈ ids) ?_ ?_ (fun _ _ _ h => h.1)
  · refine Terms.catch_ (Q := fun o w' _ => J w' ∧ ∀ a, o = .ok a → ∀ i, i ∈ a.1 → i ∈ ids) ?_ ?_ (fun _ _ _ h => h)
    · refine h1.bind (fun k _ w' hw' => ?_) fun _ _ _ h => ⟨h, by simp⟩
      refine Terms.now (fun l => rfl) (by simp) ⟨hw', ?_⟩
      intro a ha i hi
      cases ha
      simp only [W.pending, List.mem_filter] at hi
      exact hi.1
    · intro k e w' ⟨hw', _⟩
      have : Keeps F J (if e = .cancelled then do
          cancelWait ids ct cf
          consumeExceptions ids
          Coro.raise (α := List Nat × Bool) .cancelled
        else Coro.raise e) :=
        .ite (fun _ => .bind hF (cancelWait_ends hF hJ h2 fun i h => h) fun _ => .bind hF (consume_ends hF hJ ids) fun _ => .raise)
          fun _ => .raise
      obtain ⟨k', r, w'', g1, g2, g3⟩ := this w' _ hw' (hF.shift σ k hσ)
      refine ⟨k', r, w'', g1, g2, g3, ?_⟩
      rintro a rfl
      exfalso
      have := g2 []
      split at this
      · simp only [bind, Coro.bind, Coro.raise] at this
        generalize cancelWait ids ct cf w' _ = x at this
        rcases x with ⟨o, w3, ev⟩
        cases o with
        | ok u =>
          simp only [] at this
          generalize consumeExceptions ids w3 ev = x at this
          rcases x with ⟨o, w3, ev⟩
          cases o <;> cases this
        | exc e => cases this
        | blocked => cases this
      · cases this
  · rintro k ⟨l, ex⟩ w' ⟨hw', h⟩
    exact harvestRest_ends hF hJ h2 (h _ rfl) w' _ hw' (hF.shift σ k hσ)

theorem harvestWait_ends {ids : List Nat} {timed ct cf : Bool} (h1 : WaitOk F J ids timed) (h2 : WaitOk F J ids ct) :
    Keeps F J (harvestWait ids timed ct cf) := fun w σ hw hσ =>
  harvestWait_ends_from hF hJ (asyncWait_ends hF hJ h1 (fun _ h => h) w σ hw hσ) h2 hσ

theorem taskResult_ends (i : Nat) : Keeps F J (taskResult i) := by
  intro w σ hw _
  rcases h : w.outOf i with _ | (v | e | _)
  · exact .now (r := .exc .invalidState) (w' := w) (fun l => by simp [taskResult, h]) (by simp) hw
  · exact .now (r := .ok v) (w' := w) (fun l => by simp [taskResult, h]) (by simp) hw
  · exact .now (r := .exc e) (w' := w) (fun l => by simp [taskResult, h]) (by simp) hw
  · exact .now (r := .exc .cancelled) (w' := w) (fun l => by simp [taskResult, h]) (by simp) hw

theorem raiseFirst_ends (ids : List Nat) : Keeps F J (raiseFirst ids) := by
  induction ids with
  | nil => exact .pure
  | cons i ids ih =>
    unfold raiseFirst
    refine .getBind hF fun w σ hw hσ => ?_
    exact (Keeps.ite (fun _ => ih) fun _ => .bind hF (taskResult_ends hF hJ i) fun _ => ih) w σ hw hσ

/-- `harvest` ends if its first wait does, and the others do. -/
theorem harvest_ends_from {ids : List Nat} {timed ct cf : Bool} {w : W} {σ : Sched}
    (h1 : Terms (asyncWait ids timed true) w σ fun _ w' _ => J w') (h2 : WaitOk F J ids ct) (hσ : F σ) :
    Terms (harvest ids timed ct cf) w σ fun _ w' _ => J w' := by
  unfold harvest
  refine (harvestWait_ends_from hF hJ h1 h2 hσ).bind (fun k _ w' hw' => ?_) fun _ _ _ h => h
  exact (Keeps.bind hF (consume_ends hF hJ ids) fun _ => raiseFirst_ends hF hJ ids) w' _ hw' (hF.shift σ k hσ)

/-- `harvest` ends if every wait in it does. -/
theorem harvest_ends {ids : List Nat} {timed ct cf : Bool} (h1 : WaitOk F J ids timed) (h2 : WaitOk F J ids ct) :
    Keeps F J (harvest ids timed ct cf) := by
  unfold harvest
  exact .bind hF (harvestWait_ends hF hJ h1 h2) fun _ => .bind hF (consume_ends hF hJ ids) fun _ => raiseFirst_ends hF hJ ids

end

end Shellous
