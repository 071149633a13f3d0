import Verif.Lemmas.EndsExec
import Verif.Spec.Iter

/-!
# The generator of `async for line in cmd` comes to its end
-/

namespace Shellous

/-! ## Attempts to read -/

/-- An attempt to read brings the reader up to date. -/
theorem lineStep_eof (l : Nat) (s : LineSt) (a : SEv) (h : s.sr.eof = true) : (lineStep l s a).sr.eof = true := by
  cases a <;> simp only [lineStep, SR.feed] <;> (repeat' split) <;> simp_all

theorem lineStep_stopped (l : Nat) (s : LineSt) (a : SEv) (h : s.st ≠ .running) : (lineStep l s a).st ≠ .running := by
  cases a <;> simp only [lineStep] <;> (repeat' split) <;> simp_all

theorem arrivals_eof (l : Nat) : ∀ (as : List Arrival) (s : LineSt), s.sr.eof = true ∨ Arrival.eof ∈ as →
    (as.foldl (fun s a => lineStep l s a.ev) s).sr.eof = true
  | [], s, h => by simpa using h
  | a :: as, s, h => by
    refine arrivals_eof l as _ ?_
    rcases h with h | h
    · exact .inl (lineStep_eof l s _ h)
    · rcases List.mem_cons.1 h with rfl | h
      · exact .inl rfl
      · exact .inr h

theorem arrivals_stopped (l : Nat) : ∀ (as : List Arrival) (s : LineSt), s.st ≠ .running ∨ (∃ e, Arrival.failed e ∈ as) →
    (as.foldl (fun s a => lineStep l s a.ev) s).st ≠ .running
  | [], s, h => by simpa using h
  | a :: as, s, h => by
    refine arrivals_stopped l as _ ?_
    rcases h with h | ⟨e, h⟩
    · exact .inl (lineStep_stopped l s _ h)
    · rcases List.mem_cons.1 h with rfl | h
      · left
        simp only [Arrival.ev, lineStep]
        split <;> simp_all
      · exact .inr ⟨e, h⟩

/-- After the end of the stream nothing is added to the buffer. -/
theorem arrivals_buffer (l : Nat) : ∀ (as : List Arrival) (s : LineSt), s.sr.eof = true →
    (as.foldl (fun s a => lineStep l s a.ev) s).sr.buffer = s.sr.buffer
  | [], s, _ => rfl
  | a :: as, s, h => by
    rw [List.foldl_cons, arrivals_buffer l as _ (lineStep_eof l s _ h)]
    cases a with
    | data b => simp [Arrival.ev, lineStep, SR.feed, h]
    | eof => rfl
    | failed e => simp only [Arrival.ev, lineStep]; split <;> rfl

theorem idxOf?_lt {x : UInt8} {i : Nat} {b : Bytes} (h : b.idxOf? x = some i) : i < b.length := by
  rw [List.idxOf?, List.findIdx?_eq_some_iff_getElem] at h
  exact h.1

/-- The reader when attempt `g.tries` is made. -/
def GenSt.now (gc : GenCfg) (g : GenSt) : LineSt := (gc.arrive g.tries).foldl (fun s a => lineStep gc.limit s a.ev) g.ls

theorem genTry_tries (gc : GenCfg) (g : GenSt) : (genTry gc g).1.tries = g.tries + 1 := by
  unfold genTry
  dsimp only
  repeat' split
  all_goals rfl

theorem genTry_ls (gc : GenCfg) (g : GenSt) : (genTry gc g).1.ls = lineStep gc.limit (g.now gc) .go := by
  unfold genTry
  dsimp only
  repeat' split
  all_goals rfl

/-- A generator that has not stopped. -/
theorem genTry_running {gc : GenCfg} {g : GenSt} (h : ∀ e, (genTry gc g).2 ≠ .stop e) :
    (g.now gc).st = .running ∧ (genTry gc g).1.ls.st = .running := by
  have h2 : (genTry gc g).1.ls.st = .running := by
    rw [genTry_ls]
    unfold genTry at h
    dsimp only at h
    cases hs : (lineStep gc.limit (g.now gc) .go).st with
    | running => rfl
    | done => exfalso; unfold GenSt.now at hs; rw [hs] at h; exact h none rfl
    | raised e => exfalso; unfold GenSt.now at hs; rw [hs] at h; exact h (some e) rfl
  refine ⟨?_, h2⟩
  rw [genTry_ls] at h2
  by_cases hr : (g.now gc).st = .running
  · exact hr
  · exact absurd h2 (lineStep_stopped _ _ _ hr)

/-- A line that is handed out has left the buffer. -/
theorem genTry_yield {gc : GenCfg} {g : GenSt} (h : (genTry gc g).2 = .yield) :
    (genTry gc g).1.ls.sr.buffer.length < (g.now gc).sr.buffer.length := by
  have hr := genTry_running (gc := gc) (g := g) (by rw [h]; simp)
  rw [genTry_ls] at *
  generalize hn : g.now gc = s at *
  have hlines : (lineStep gc.limit s .go).lines ≠ s.lines := by
    intro hl
    unfold genTry at h
    dsimp only at h
    unfold GenSt.now at hn
    rw [hn, hr.2] at h
    dsimp only at h
    rw [hl] at h
    simp at h
  obtain ⟨hs, hs'⟩ := hr
  simp only [lineStep, hs, ne_eq, not_true_eq_false, if_false] at hs' hlines ⊢
  cases hi : s.sr.buffer.idxOf? 10 with
  | some i =>
    have := idxOf?_lt hi
    simp only [hi] at hs' hlines ⊢
    split
    · rename_i hc; simp [hc] at hs'
    · simp only [List.length_drop]; omega
  | none =>
    simp only [hi] at hs' hlines ⊢
    split
    · rename_i hc; simp [hc] at hs'
    · rename_i hc
      simp only [hc, if_false] at hs' hlines
      split
      · rename_i he
        simp only [he, if_true] at hs' hlines
        split
        · rename_i hb; simp [hb] at hs'
        · rename_i hb
          simp only [List.length_nil]
          cases hq : s.sr.buffer with
          | nil => simp [hq] at hb
          | cons => simp
      · rename_i he; simp [he] at hlines

/-- At the end of the stream there is no need to wait. -/
theorem genTry_eof {gc : GenCfg} {g : GenSt} (h : (g.now gc).sr.eof = true) : (genTry gc g).2 ≠ .wait := by
  intro hw
  have hr := genTry_running (gc := gc) (g := g) (by rw [hw]; simp)
  rw [genTry_ls] at hr
  have hl : (lineStep gc.limit (g.now gc) .go).lines.drop (g.now gc).lines.length = [] := by
    unfold genTry at hw
    dsimp only at hw
    obtain ⟨hs, hs'⟩ := hr
    unfold GenSt.now at *
    rw [hs'] at hw
    dsimp only at hw
    split at hw
    · assumption
    · split at hw <;> cases hw
  generalize g.now gc = s at *
  obtain ⟨hs, hs'⟩ := hr
  simp only [lineStep, hs, ne_eq, not_true_eq_false, if_false] at hs' hl
  cases hi : s.sr.buffer.idxOf? 10 with
  | some i =>
    simp only [hi] at hs' hl
    split at hl
    · rename_i hc; simp [hc] at hs'
    · simp at hl
  | none =>
    simp only [hi] at hs' hl
    split at hl
    · rename_i hc; simp [hc] at hs'
    · rename_i hc
      simp only [hc, if_false, h, if_true] at hs' hl
      split at hl
      · rename_i hb; simp [hb] at hs'
      · simp at hl

/-- One of the next `n` attempts to read ends the generator. -/
def StopsIn (gc : GenCfg) : Nat → GenSt → Prop
  | 0, _ => False
  | n + 1, g => (∃ e, (genTry gc g).2 = .stop e) ∨ StopsIn gc n (genTry gc g).1

/-- One of the next `n` attempts to read finds no line. -/
def DryIn (gc : GenCfg) : Nat → GenSt → Prop
  | 0, _ => False
  | n + 1, g => (genTry gc g).2 ≠ .yield ∨ DryIn gc n (genTry gc g).1

theorem stopsIn_buffer (gc : GenCfg) : ∀ n (g : GenSt), g.ls.sr.eof = true → g.ls.sr.buffer.length < n → StopsIn gc n g
  | 0, _, _, h => by omega
  | n + 1, g, he, h => by
    have hn : (g.now gc).sr.eof = true := arrivals_eof _ _ _ (.inl he)
    have hb : (g.now gc).sr.buffer = g.ls.sr.buffer := arrivals_buffer _ _ _ he
    cases hx : (genTry gc g).2 with
    | wait => exact absurd hx (genTry_eof hn)
    | stop e => exact .inl ⟨e, hx⟩
    | yield =>
      refine .inr (stopsIn_buffer gc n _ ?_ ?_)
      · rw [genTry_ls]; exact lineStep_eof _ _ _ hn
      · have := genTry_yield hx
        rw [hb] at this; omega

theorem stopsIn_ends (gc : GenCfg) (k : Nat) (hk : Arrival.eof ∈ gc.arrive k ∨ ∃ e, Arrival.failed e ∈ gc.arrive k) :
    ∀ m (g : GenSt), g.tries + m = k → ∃ n, StopsIn gc n g
  | 0, g, h => by
    have h : g.tries = k := by omega
    rcases hk with hk | hk
    · have hn : (g.now gc).sr.eof = true := arrivals_eof _ _ _ (.inr (by rw [h]; exact hk))
      refine ⟨(genTry gc g).1.ls.sr.buffer.length + 1 + 1, Or.inr (stopsIn_buffer gc _ _ ?_ (by omega))⟩
      rw [genTry_ls]; exact lineStep_eof _ _ _ hn
    · have hn : (g.now gc).st ≠ .running := arrivals_stopped _ _ _ (.inr (by rw [h]; exact hk))
      refine ⟨1, .inl ?_⟩
      cases hx : (genTry gc g).2 with
      | stop e => exact ⟨e, rfl⟩
      | wait => exact absurd (genTry_running (by rw [hx]; simp)).1 hn
      | yield => exact absurd (genTry_running (by rw [hx]; simp)).1 hn
  | m + 1, g, h => by
    obtain ⟨n, hn⟩ := stopsIn_ends gc k hk m (genTry gc g).1 (by rw [genTry_tries]; omega)
    exact ⟨n + 1, .inr hn⟩

theorem dryIn_buffer (gc : GenCfg) (k : Nat) (hk : ∀ n, k ≤ n → gc.arrive n = []) :
    ∀ n (g : GenSt), k ≤ g.tries → g.ls.sr.buffer.length < n → DryIn gc n g
  | 0, _, _, h => by omega
  | n + 1, g, ht, h => by
    by_cases hx : (genTry gc g).2 = .yield
    · refine .inr (dryIn_buffer gc k hk n _ (by rw [genTry_tries]; omega) ?_)
      have := genTry_yield hx
      simp only [GenSt.now, hk _ ht, List.foldl_nil] at this
      omega
    · exact .inl hx

theorem dryIn_silent (gc : GenCfg) (hs : gc.Silent) (g : GenSt) : ∃ n, DryIn gc n g := by
  obtain ⟨k, hk⟩ := hs
  have main : ∀ m (g : GenSt), k ≤ g.tries + m → ∃ n, DryIn gc n g := by
    intro m
    induction m with
    | zero => exact fun g h => ⟨_, dryIn_buffer gc k hk (g.ls.sr.buffer.length + 1) g (by omega) (by omega)⟩
    | succ m ih =>
      intro g h
      obtain ⟨n, hn⟩ := ih (genTry gc g).1 (by rw [genTry_tries]; omega)
      exact ⟨n + 1, .inr hn⟩
  exact main k g (by omega)

/-! ## The loop -/

/-- Nothing but an attempt to resume the consumer, an exception at the `yield` or the end of the schedule matters. -/
theorem genLoop_to_resume {gc : GenCfg} {J : W → Prop} (hJ : ∀ (w : W) (e : Ev), J w → J (w.env none e)) {y : Bool} {g : GenSt}
    {Q : Out (Option Exc × GenSt) → W → Sched → Prop} : ∀ n (w : W) (σ : Sched),
    (∀ w : W, J w → J w.throwCancel) ∨ (∀ n, σ n ≠ .bodyGotCancel) → J w → σ n = .resume →
    (∀ k w', J w' → σ k = .resume → Terms (genLoop gc y g) w' (σ.shift k) Q) →
    (∀ k e w', J w' → Q (.ok (some e, g)) w' (σ.shift k)) → Terms (genLoop gc y g) w σ Q := by
  intro n
  induction n with
  | zero =>
    intro w σ _ hw hr h _
    have := h 0 w hw hr
    rwa [Sched.shift_zero] at this
  | succ n ih =>
    intro w σ hT hw hr h hq
    have step : ∀ w0, J w0 → (∀ l, genLoop gc y g w (σ 0 :: l) = genLoop gc y g w0 l) → Terms (genLoop gc y g) w σ Q := by
      intro w0 hw0 h0
      obtain ⟨k, r, w', h1, h2, h3⟩ := ih w0 (σ.shift 1) (hT.imp_right fun h n => h (1 + n)) hw0 (by simp only [Sched.shift]; rw [Nat.add_comm]; exact hr)
        (fun k w' hw' hk => by
          have := h (1 + k) w' hw' hk
          rwa [Sched.shift_shift]) fun k e w' hw' => by
          have := hq (1 + k) e w' hw'
          rwa [Sched.shift_shift]
      refine ⟨k + 1, r, w', h1, fun l => ?_, ?_⟩
      · rw [Sched.upto, List.cons_append, h0, h2]
      · rwa [Sched.shift_shift, Nat.add_comm] at h3
    cases he : σ 0 with
    | resume =>
      have := h 0 w hw he
      rwa [Sched.shift_zero] at this
    | bodyDone x =>
      cases x with
      | none => exact step (w.env none (.bodyDone none)) (hJ _ _ hw) fun l => by rw [he, genLoop] <;> simp
      | some e =>
        cases y with
        | true =>
          refine ⟨1, .ok (some e, g), w, by simp, fun l => ?_, hq 1 e w hw⟩
          simp only [Sched.upto, he, List.cons_append, List.nil_append]
          rw [genLoop, if_pos rfl]
        | false => exact step w hw fun l => by rw [he, genLoop]; simp
    | bodyGotCancel =>
      by_cases hc : (y && w.mustCancel) = true
      · exact step w.throwCancel (hT.elim (fun h => h _ hw) fun h => absurd he (h 0)) fun l => by rw [he, genLoop, if_pos hc]
      · exact step w hw fun l => by rw [he, genLoop, if_neg hc]
    | _ => exact step (w.env none (σ 0)) (hJ _ _ hw) fun l => by rw [he]; rfl

/-- The generator ends when its stream does. -/
theorem genLoop_ends {gc : GenCfg} {J : W → Prop} (hJ : Stable J) : ∀ n (y : Bool) (g : GenSt) (w : W) (σ : Sched), σ.Runs → J w →
    StopsIn gc n g → Terms (genLoop gc y g) w σ fun o w' _ => (∃ r, o = .ok r) ∧ J w'
  | 0, _, _, _, _, _, _, h => h.elim
  | n + 1, y, g, w, σ, hr, hw, h => by
    obtain ⟨m, _, hm⟩ := hr 0
    refine genLoop_to_resume (hJ.env none) m w σ (.inl hJ.throw) hw hm (fun k w' hw' hk => ?_) fun _ _ _ h => ⟨⟨_, rfl⟩, h⟩
    by_cases hc : (!y && w'.mustCancel) = true
    · refine ⟨1, .ok (some .cancelled, g), w'.throwCancel, by simp, fun l => ?_, ⟨_, rfl⟩, hJ.throw _ hw'⟩
      simp only [Sched.upto, Sched.shift, Nat.add_zero, hk, List.cons_append, List.nil_append]
      rw [genLoop, if_pos hc]
    · have one : ∀ y', (∀ l, genLoop gc y g w' (.resume :: l) = genLoop gc y' (genTry gc g).1 w' l) →
          (∀ e, (genTry gc g).2 ≠ .stop e) →
          Terms (genLoop gc y g) w' (σ.shift k) fun o w' _ => (∃ r, o = .ok r) ∧ J w' := by
        intro y' h' hns
        have hs : StopsIn gc n (genTry gc g).1 := h.resolve_left fun ⟨e, he⟩ => hns e he
        obtain ⟨j, r, w2, h1, h2, h3⟩ := genLoop_ends hJ n y' (genTry gc g).1 w' ((σ.shift k).shift 1)
          ((hr.shift k).shift 1) hw' hs
        refine ⟨j + 1, r, w2, h1, fun l => ?_, h3⟩
        rw [Sched.upto, List.cons_append, show (σ.shift k) 0 = .resume from hk, h', h2]
      rcases hx : genTry gc g with ⟨g', o⟩
      cases o with
      | stop e =>
        refine ⟨1, .ok (e, g'), w', by simp, fun l => ?_, ⟨_, rfl⟩, hw'⟩
        simp only [Sched.upto, Sched.shift, Nat.add_zero, hk, List.cons_append, List.nil_append]
        rw [genLoop, if_neg hc, hx]
      | wait => exact one false (fun l => by rw [genLoop, if_neg hc, hx]) (by rw [hx]; simp)
      | yield => exact one true (fun l => by rw [genLoop, if_neg hc, hx]) (by rw [hx]; simp)

/-- The body of the generator ends when the stream does. -/
theorem genBody_ends {gc : GenCfg} (hg : gc.Ends) {J : W → Prop} (hJ : Stable J) {w : W} {σ : Sched} (hr : σ.Runs) (hw : J w) :
    Terms (genBody gc) w σ fun o w' _ => (∃ r, o = .ok r) ∧ J w' := by
  by_cases hs : gc.stream = true
  · obtain ⟨k, hk⟩ := hg
    obtain ⟨n, hn⟩ := stopsIn_ends gc k hk k {} (by simp)
    cases n with
    | zero => exact hn.elim
    | succ n =>
      rcases hx : genTry gc {} with ⟨g', o⟩
      have go : ∀ y', (∀ l, genBody gc w l = genLoop gc y' g' w l) → (∀ e, o ≠ .stop e) →
          Terms (genBody gc) w σ fun o w' _ => (∃ r, o = .ok r) ∧ J w' := by
        intro y' h' ho
        have h1 : StopsIn gc n g' := by
          have := hn.resolve_left (by rw [hx]; rintro ⟨e, he⟩; exact ho e he)
          rwa [hx] at this
        obtain ⟨j, r, w2, a1, a2, a3⟩ := genLoop_ends hJ n y' g' w σ hr hw h1
        exact ⟨j, r, w2, a1, fun l => (h' _).trans (a2 l), a3⟩
      cases o with
      | stop e => exact .now (r := .ok (e, g')) (w' := w) (fun l => by rw [genBody, if_pos hs, hx]) (by simp) ⟨⟨_, rfl⟩, hw⟩
      | wait => exact go false (fun l => by rw [genBody, if_pos hs, hx]) (by simp)
      | yield => exact go true (fun l => by rw [genBody, if_pos hs, hx]) (by simp)
  · exact .now (r := .ok (none, {})) (w' := w) (fun l => by rw [genBody, if_neg hs]) (by simp) ⟨⟨_, rfl⟩, hw⟩

/-! ## Cancellations -/

/-- How a generator ends under a cancellation: if it ends normally, the cancellation is still to be delivered. -/
def GenEnd (J : W → Prop) (o : Out (Option Exc × GenSt)) (w : W) (σ : Sched) : Prop :=
  ∃ r g, o = .ok (r, g) ∧ J w ∧ (r = none → Hope w σ)

/-- A pending cancellation ends the generator if the stream falls silent. -/
theorem genLoop_pending {gc : GenCfg} {J : W → Prop} (hJ : Stable J) : ∀ n (y : Bool) (g : GenSt) (w : W) (σ : Sched), σ.Runs →
    (∀ n, σ n ≠ .bodyGotCancel) → J w → w.mustCancel = true → (y = true → DryIn gc n g) →
    Terms (genLoop gc y g) w σ (GenEnd J)
  | n, y, g, w, σ, hr, hg, hw, hm, h => by
    obtain ⟨m, _, hm'⟩ := hr 0
    refine genLoop_to_resume (J := fun w => J w ∧ w.mustCancel = true)
      (fun w e h => ⟨hJ.env none w e h.1, must_env w e h.2⟩) m w σ (.inr hg) ⟨hw, hm⟩ hm' (fun k w' hw' hk => ?_)
      fun _ e _ h => ⟨some e, g, rfl, h.1, by simp⟩
    cases y with
    | false =>
      have hc : (!false && w'.mustCancel) = true := by simp [hw'.2]
      refine ⟨1, .ok (some .cancelled, g), w'.throwCancel, by simp, fun l => ?_, _, _, rfl, hJ.throw _ hw'.1, by simp⟩
      simp only [Sched.upto, Sched.shift, Nat.add_zero, hk, List.cons_append, List.nil_append]
      rw [genLoop, if_pos hc]
    | true =>
      have hc : ¬((!true && w'.mustCancel) = true) := by simp
      have hd := h rfl
      cases n with
      | zero => exact hd.elim
      | succ n =>
        have one : ∀ y', (∀ l, genLoop gc true g w' (.resume :: l) = genLoop gc y' (genTry gc g).1 w' l) →
            (y' = true → DryIn gc n (genTry gc g).1) → Terms (genLoop gc true g) w' (σ.shift k) (GenEnd J) := by
          intro y' h' hs
          obtain ⟨j, r, w2, h1, h2, h3⟩ := genLoop_pending hJ n y' (genTry gc g).1 w' ((σ.shift k).shift 1)
            ((hr.shift k).shift 1) (fun n => hg _) hw'.1 hw'.2 hs
          refine ⟨j + 1, r, w2, h1, fun l => ?_, ?_⟩
          · rw [Sched.upto, List.cons_append, show (σ.shift k) 0 = .resume from hk, h', h2]
          · rwa [Sched.shift_shift, Nat.add_comm 1] at h3
        rcases hx : genTry gc g with ⟨g', o⟩
        cases o with
        | stop e =>
          refine ⟨1, .ok (e, g'), w', by simp, fun l => ?_, _, _, rfl, hw'.1, fun _ => .inl hw'.2⟩
          simp only [Sched.upto, Sched.shift, Nat.add_zero, hk, List.cons_append, List.nil_append]
          rw [genLoop, if_neg hc, hx]
        | wait => exact one false (fun l => by rw [genLoop, if_neg hc, hx]) (by simp)
        | yield => exact one true (fun l => by rw [genLoop, if_neg hc, hx]) fun _ => hd.resolve_left (by rw [hx]; simp)

/-- A cancellation to come ends the generator if the stream falls silent. -/
theorem genLoop_cancelled {gc : GenCfg} (hs : gc.Silent) {J : W → Prop} (hJ : Stable J) : ∀ n (y : Bool) (g : GenSt) (w : W) (σ : Sched),
    σ.Runs → (∀ n, σ n ≠ .bodyGotCancel) → J w → σ n = .cancel → Terms (genLoop gc y g) w σ (GenEnd J) := by
  have step : ∀ (y y' : Bool) (g g' : GenSt) (w w0 : W) (σ : Sched), (∀ l, genLoop gc y g w (σ 0 :: l) = genLoop gc y' g' w0 l) →
      Terms (genLoop gc y' g') w0 (σ.shift 1) (GenEnd J) → Terms (genLoop gc y g) w σ (GenEnd J) := by
    rintro y y' g g' w w0 σ h0 ⟨k, r, w', h1, h2, h3⟩
    refine ⟨k + 1, r, w', h1, fun l => ?_, ?_⟩
    · rw [Sched.upto, List.cons_append, h0, h2]
    · rwa [Sched.shift_shift, Nat.add_comm] at h3
  intro n
  induction n with
  | zero =>
    intro y g w σ hr hg hw hn
    obtain ⟨m, hm⟩ := dryIn_silent gc hs g
    refine step y y g g w (w.env none .cancel) σ (fun l => by rw [hn, genLoop] <;> simp) ?_
    exact genLoop_pending hJ m y g _ _ (hr.shift 1) (fun n => hg _) (hJ.env none w _ hw) rfl fun _ => hm
  | succ n ih =>
    intro y g w σ hr hg hw hn
    have hn' : (σ.shift 1) n = .cancel := by simp only [Sched.shift]; rw [Nat.add_comm]; exact hn
    have next : ∀ y' g' w0, J w0 → (∀ l, genLoop gc y g w (σ 0 :: l) = genLoop gc y' g' w0 l) → Terms (genLoop gc y g) w σ (GenEnd J) :=
      fun y' g' w0 hw0 h0 => step y y' g g' w w0 σ h0 (ih y' g' w0 _ (hr.shift 1) (fun n => hg _) hw0 hn')
    cases he : σ 0 with
    | resume =>
      by_cases hc : (!y && w.mustCancel) = true
      · refine ⟨1, .ok (some .cancelled, g), w.throwCancel, by simp, fun l => ?_, _, _, rfl, hJ.throw _ hw, by simp⟩
        simp only [Sched.upto, he, List.cons_append, List.nil_append]
        rw [genLoop, if_pos hc]
      · rcases hx : genTry gc g with ⟨g', o⟩
        cases o with
        | stop e =>
          refine ⟨1, .ok (e, g'), w, by simp, fun l => ?_, _, _, rfl, hw, fun _ => .inr ⟨n, hn'⟩⟩
          simp only [Sched.upto, he, List.cons_append, List.nil_append]
          rw [genLoop, if_neg hc, hx]
        | wait => exact next false g' w hw fun l => by rw [he, genLoop, if_neg hc, hx]
        | yield => exact next true g' w hw fun l => by rw [he, genLoop, if_neg hc, hx]
    | bodyDone x =>
      cases x with
      | none => exact next y g (w.env none (.bodyDone none)) (hJ.env _ _ _ hw) fun l => by rw [he, genLoop] <;> simp
      | some e =>
        cases y with
        | true =>
          refine ⟨1, .ok (some e, g), w, by simp, fun l => ?_, _, _, rfl, hw, by simp⟩
          simp only [Sched.upto, he, List.cons_append, List.nil_append]
          rw [genLoop, if_pos rfl]
        | false => exact next false g w hw fun l => by rw [he, genLoop]; simp
    | bodyGotCancel => exact absurd he (hg 0)
    | _ => exact next y g (w.env none (σ 0)) (hJ.env _ _ _ hw) fun l => by rw [he]; rfl

/-- The body of the generator ends when it is cancelled. -/
theorem genBody_cancelled {gc : GenCfg} (hs : gc.Silent) {J : W → Prop} (hJ : Stable J) {w : W} {σ : Sched} (hr : σ.Runs)
    (hg : ∀ n, σ n ≠ .bodyGotCancel) (hw : J w) (hc : Hope w σ) : Terms (genBody gc) w σ (GenEnd J) := by
  have go : ∀ y g, (∀ l, genBody gc w l = genLoop gc y g w l) → Terms (genBody gc) w σ (GenEnd J) := by
    intro y g h
    have : Terms (genLoop gc y g) w σ (GenEnd J) := by
      rcases hc with hc | ⟨n, hn⟩
      · obtain ⟨m, hm⟩ := dryIn_silent gc hs g
        exact genLoop_pending hJ m y g w σ hr hg hw hc fun _ => hm
      · exact genLoop_cancelled hs hJ n y g w σ hr hg hw hn
    obtain ⟨j, r, w2, a1, a2, a3⟩ := this
    exact ⟨j, r, w2, a1, fun l => (h _).trans (a2 l), a3⟩
  by_cases hst : gc.stream = true
  · rcases hx : genTry gc {} with ⟨g', o⟩
    cases o with
    | stop e => exact .now (r := .ok (e, g')) (w' := w) (fun l => by rw [genBody, if_pos hst, hx]) (by simp) ⟨_, _, rfl, hw, fun _ => hc⟩
    | wait => exact go false g' fun l => by rw [genBody, if_pos hst, hx]
    | yield => exact go true g' fun l => by rw [genBody, if_pos hst, hx]
  · exact .now (r := .ok (none, {})) (w' := w) (fun l => by rw [genBody, if_neg hst]) (by simp) ⟨_, _, rfl, hw, fun _ => hc⟩

end Shellous
