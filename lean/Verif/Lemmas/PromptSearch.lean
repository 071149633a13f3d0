import Verif.Lemmas.Prompt

/-!
# Lemmas about searching, and about the outcomes of `expect`
-/

namespace Shellous.Props

open Shellous

theorem searchAlts_some (alts : List Text) (t : Text) : ∀ (k i j : Nat),
    searchAlts alts k t = some (i, j) → ∃ n a, i = k + n ∧ j = i + a.length ∧ n ≤ t.length ∧
      alts.find? (fun a => a.isPrefixOf (t.drop n)) = some a ∧
      ∀ m, m < n → alts.find? (fun a => a.isPrefixOf (t.drop m)) = none := by
  induction t with
  | nil =>
    intro k i j h
    simp only [searchAlts] at h
    split at h
    · rename_i a ha
      simp only [Option.some.injEq, Prod.mk.injEq] at h
      exact ⟨0, a, by omega, by omega, by simp, by simpa using ha, by omega⟩
    · cases h
  | cons c t ih =>
    intro k i j h
    simp only [searchAlts] at h
    split at h
    · rename_i a ha
      simp only [Option.some.injEq, Prod.mk.injEq] at h
      exact ⟨0, a, by omega, by omega, by simp, by simpa using ha, by omega⟩
    · rename_i hn
      obtain ⟨n, a, h1, h2, h3, h4, h5⟩ := ih _ _ _ h
      refine ⟨n + 1, a, by omega, h2, by simpa using h3, by simpa using h4, ?_⟩
      intro m hm
      cases m with
      | zero => simpa using hn
      | succ m => simpa using h5 m (by omega)

theorem searchAlts_none (alts : List Text) (t : Text) : ∀ (k : Nat), searchAlts alts k t = none →
      ∀ m, alts.find? (fun a => a.isPrefixOf (t.drop m)) = none := by
  induction t with
  | nil =>
    intro k h m
    simp only [searchAlts] at h
    split at h
    · cases h
    · rename_i hn; simpa using hn
  | cons c t ih =>
    intro k h m
    simp only [searchAlts] at h
    split at h
    · cases h
    · rename_i hn
      cases m with
      | zero => simpa using hn
      | succ m => simpa using ih _ h m

theorem searchAlts_eq (alts : List Text) (t : Text) (a : Text) : ∀ (n k : Nat), n ≤ t.length →
      alts.find? (fun a => a.isPrefixOf (t.drop n)) = some a →
      (∀ m, m < n → alts.find? (fun a => a.isPrefixOf (t.drop m)) = none) →
      searchAlts alts k t = some (k + n, k + n + a.length) := by
  induction t with
  | nil =>
    intro n k hn ha _
    have : n = 0 := by simpa using hn
    subst this
    simp only [List.drop_nil] at ha
    simp only [searchAlts, ha, Nat.add_zero]
  | cons c t ih =>
    intro n k hn ha hm
    cases n with
    | zero => simp only [List.drop_zero] at ha; simp only [searchAlts, ha, Nat.add_zero]
    | succ n =>
      have h0 := hm 0 (by omega)
      simp only [List.drop_zero] at h0
      simp only [searchAlts, h0]
      rw [ih n (k + 1) (by simpa using hn) (by simpa using ha) (by
        intro m hmn; simpa using hm (m + 1) (by omega))]
      congr 2 <;> omega

/-- `find?` on prefixes in terms of the specification. -/
theorem firstOfList_iff (ss : List Text) (t : Text) (i : Nat) (a : Text) :
    FirstOfList ss t i a ↔
      (ss.find? (fun a => a.isPrefixOf (t.drop i)) = some a ∧
       ∀ m, m < i → ss.find? (fun a => a.isPrefixOf (t.drop m)) = none) := by
  have hnone : ∀ m, ss.find? (fun a => a.isPrefixOf (t.drop m)) = none ↔ ∀ b ∈ ss, ¬ OccursAt b t m := by
    intro m
    rw [List.find?_eq_none]
    simp [OccursAt]
  constructor
  · rintro ⟨h1, n, hn, ha, hb⟩
    refine ⟨?_, fun m hm => (hnone m).2 (h1 m hm)⟩
    rw [List.find?_eq_some_iff_getElem]
    obtain ⟨hlt, hget⟩ := List.getElem?_eq_some_iff.mp hn
    refine ⟨by simpa [OccursAt] using ha, n, hlt, hget, ?_⟩
    intro j hj
    have hj' : j < ss.length := by omega
    have := hb j ss[j] hj (List.getElem?_eq_getElem hj')
    unfold OccursAt at this
    rw [← List.isPrefixOf_iff_prefix] at this
    rw [Bool.not_eq_true] at this
    rw [this]; rfl
  · rintro ⟨h1, h2⟩
    refine ⟨fun m hm => (hnone m).1 (h2 m hm), ?_⟩
    rw [List.find?_eq_some_iff_getElem] at h1
    obtain ⟨ha, n, hn, hget, hb⟩ := h1
    refine ⟨n, by rw [List.getElem?_eq_getElem hn, hget], by simpa [OccursAt] using ha, ?_⟩
    intro m b hm hmb
    obtain ⟨hlt, hget'⟩ := List.getElem?_eq_some_iff.mp hmb
    have := hb m hm
    rw [hget'] at this
    unfold OccursAt
    rw [← List.isPrefixOf_iff_prefix, Bool.not_eq_true]
    rw [Bool.not_eq_true'] at this
    exact this

/-- Searching for a list of non-empty strings is the specification. -/
theorem searchList_some_iff (ss : List Text) (hne : ∀ s ∈ ss, s ≠ []) (t : Text) (i j : Nat) :
    searchAlts ss 0 t = some (i, j) ↔ ∃ a, FirstOfList ss t i a ∧ j = i + a.length := by
  constructor
  · intro h
    obtain ⟨n, a, h1, h2, h3, h4, h5⟩ := searchAlts_some _ _ _ _ _ h
    have : i = n := by omega
    subst this
    exact ⟨a, (firstOfList_iff _ _ _ _).2 ⟨h4, h5⟩, h2⟩
  · rintro ⟨a, hf, rfl⟩
    have hf' := (firstOfList_iff _ _ _ _).1 hf
    obtain ⟨-, n, hn, ha, -⟩ := hf
    have hlen := ha.length_le
    have hane := hne a (List.mem_of_getElem? hn)
    have : 0 < a.length := List.length_pos_iff.mpr hane
    rw [List.length_drop] at hlen
    have := searchAlts_eq ss t a i 0 (by omega) hf'.1 hf'.2
    simpa using this

theorem searchList_none_iff (ss : List Text) (t : Text) :
    searchAlts ss 0 t = none ↔ ∀ i, ∀ s ∈ ss, ¬ OccursAt s t i := by
  constructor
  · intro h i s hs ho
    have := searchAlts_none _ _ _ h i
    rw [List.find?_eq_none] at this
    exact this s hs (by simpa [OccursAt] using ho)
  · intro h
    cases hs : searchAlts ss 0 t with
    | none => rfl
    | some q =>
      obtain ⟨i, j⟩ := q
      obtain ⟨n, a, -, -, -, h4, -⟩ := searchAlts_some _ _ _ _ _ hs
      have h5 := List.find?_some h4
      exact absurd (by simpa [OccursAt] using h5) (h n a (List.mem_of_find?_eq_some h4))

/-- A search whose result does not change when more text arrives. -/
def StablePattern (pat : Pattern) : Prop := ∀ t x r, pat t = some r → pat (t ++ x) = some r

theorem occurs_append {s t : Text} {i : Nat} (x : Text) (h : OccursAt s t i) : OccursAt s (t ++ x) i := by
  unfold OccursAt at *
  rw [List.drop_append]
  exact h.trans (List.prefix_append _ _)

theorem occurs_of_append {s t x : Text} {i : Nat} (h : OccursAt s (t ++ x) i) (hl : i + s.length ≤ t.length) :
    OccursAt s t i := by
  unfold OccursAt at *
  rw [List.drop_append_of_le_length (by omega)] at h
  exact List.prefix_of_prefix_length_le h (List.prefix_append _ _) (by rw [List.length_drop]; omega)

theorem occurs_length {s t : Text} {i : Nat} (h : OccursAt s t i) (hs : s ≠ []) : i + s.length ≤ t.length := by
  have := h.length_le
  have : 0 < s.length := List.length_pos_iff.mpr hs
  rw [List.length_drop] at *
  omega

theorem firstOfList_append {ss : List Text} (hne : ∀ s ∈ ss, s ≠ []) (hc : ChunkSafe ss) {t : Text}
    (x : Text) {i : Nat} {a : Text} (h : FirstOfList ss t i a) : FirstOfList ss (t ++ x) i a := by
  obtain ⟨h1, n, hn, ha, hb⟩ := h
  have hane := hne a (List.mem_of_getElem? hn)
  have hal := occurs_length ha hane
  have ha' := occurs_append x ha
  -- `a` at `i` lies inside an occurrence of `b` at `k` that runs over the end of `t`
  have key : ∀ (m : Nat) (b : Text) (k : Nat), ss[m]? = some b → k ≤ i → OccursAt b (t ++ x) k →
      ¬ OccursAt b t k → i - k = 0 ∧ n < m := by
    intro m b k hm hk hob hnb
    have hlt : t.length < k + b.length := by
      apply Nat.lt_of_not_le
      intro hle
      exact hnb (occurs_of_append hob hle)
    refine hc n m a b (i - k) hn hm ?_ (by omega)
    unfold OccursAt at *
    have hbd : b.drop (i - k) <+: (t ++ x).drop i := by
      obtain ⟨z, hz⟩ := hob
      refine ⟨z, ?_⟩
      have : (t ++ x).drop i = ((t ++ x).drop k).drop (i - k) := by
        rw [List.drop_drop]; congr 1; omega
      rw [this, ← hz, List.drop_append_of_le_length (by omega)]
    exact List.prefix_of_prefix_length_le ha' hbd (by rw [List.length_drop]; omega)
  refine ⟨?_, n, hn, ha', ?_⟩
  · intro k hk b hbm ho
    obtain ⟨m, hm⟩ := List.getElem?_of_mem hbm
    have := key m b k hm (by omega) ho (h1 k hk b hbm)
    omega
  · intro m b hm hmb ho
    have := key m b i hmb (Nat.le_refl _) ho (hb m b hm hmb)
    omega

theorem exactList_eq (ss : List Text) (h : ss ≠ []) : exactListPattern ss = searchAlts ss 0 := by
  unfold exactListPattern
  simp [h]

theorem exactList_stable (ss : List Text) (h : ss ≠ []) (hne : ∀ s ∈ ss, s ≠ []) (hc : ChunkSafe ss) :
    StablePattern (exactListPattern ss) := by
  intro t x r hr
  rw [exactList_eq ss h] at *
  obtain ⟨i, j⟩ := r
  rw [searchList_some_iff ss hne] at hr ⊢
  obtain ⟨a, ha, hj⟩ := hr
  exact ⟨a, firstOfList_append hne hc x ha, hj⟩

theorem chunkSafe_one (s : Text) : ChunkSafe [s] := by
  intro j k a b o hj hk ho hl
  have e1 : a = s := by have := List.mem_of_getElem? hj; simpa using this
  have e2 : b = s := by have := List.mem_of_getElem? hk; simpa using this
  subst e1; subst e2; omega

theorem exact_eq_list (s : Text) : exactPattern s = exactListPattern [s] := rfl

theorem firstOfList_one (s t : Text) (i : Nat) (a : Text) :
    FirstOfList [s] t i a ↔ a = s ∧ FirstOccurrence s t i := by
  constructor
  · rintro ⟨h1, n, hn, ha, -⟩
    have : a = s := by have := List.mem_of_getElem? hn; simpa using this
    subst this
    exact ⟨rfl, ha, fun k hk => h1 k hk a (by simp)⟩
  · rintro ⟨rfl, ha, hb⟩
    refine ⟨fun k hk b hb' => ?_, 0, rfl, ha, by omega⟩
    have : b = a := by simpa using hb'
    subst this
    exact hb k hk

/-! ## The text received -/

/-- The text received grows with the bytes. -/
theorem received_prefix {d : Decoder} (g : GoodStep d.step) {a x : Bytes} {f : Bool} {T : Text}
    (h : receivedText d (a ++ x) f = .ok T) : ∃ P, receivedText d a false = .ok P ∧ P <+: T := by
  unfold receivedText at *
  rw [decodeLoop_append g] at h
  cases hd : decodeLoop d.step d.errors false a with
  | error e => rw [hd] at h; cases h
  | ok q =>
    obtain ⟨t, r⟩ := q
    rw [hd] at h
    simp only at h
    cases hd2 : decodeLoop d.step d.errors f (r ++ x) with
    | error e => rw [hd2] at h; cases h
    | ok q2 =>
      rw [hd2] at h
      refine ⟨_, rfl, ?_⟩
      simp only [Except.map, Except.ok.injEq] at h
      rw [← h]
      cases d.normalize with
      | false => simp
      | true =>
        simp only [if_true, Bool.false_eq_true, if_false]
        cases f with
        | true => simp only [if_true]; rw [← norm_step_final]; exact List.prefix_append _ _
        | false =>
          simp only [Bool.false_eq_true, if_false]; rw [← (norm_step _ _).1]; exact List.prefix_append _ _

theorem decodeLoop_error {step errors final} (a : Bytes) (e : Exc)
    (h : decodeLoop step errors final a = .error e) : e = .unicodeError := by
  induction hn : a.length using Nat.strongRecOn generalizing a with
  | ind n ih =>
    cases a with
    | nil => simp [decodeLoop] at h
    | cons b bs =>
      rw [decodeLoop] at h
      split at h
      · split at h
        · split at h
          · cases h; rfl
          · cases h
        · cases h
      · split at h
        · cases h; rfl
        · split at h
          · rename_i hh; cases h
            exact ih _ (by simp at hn ⊢; omega) _ hh rfl
          · cases h
      · split at h
        · rename_i hh; cases h
          exact ih _ (by simp at hn ⊢; omega) _ hh rfl
        · cases h

theorem readChunk_error {cfg : PCfg} {p p' : PS} {c : Bytes} {e : Exc}
    (h : p.readChunk cfg c = (.error e, p')) : e = .unicodeError := by
  simp only [PS.readChunk] at h
  split at h
  · rename_i e' d hd
    cases h
    simp only [Decoder.decode] at hd
    split at hd
    · rename_i e'' _ hh
      cases hd
      simp only [incDecode] at hh
      split at hh
      · rename_i hl; cases hh; exact decodeLoop_error _ _ hl
      · cases hh
    · split at hd <;> cases hd
  · cases h

/-! ## What the reader task of `expect` establishes -/

/-- The span of a match, and what is left. -/
theorem search_span {cfg : PCfg} {p p' : PS} {pat : Pattern} (hw : SpanPattern pat) {t m : Text}
    (h : p.searchPending cfg pat = some (t, m, p')) :
    p.pending = t ++ m ++ p'.pending ∧ pat (t ++ m ++ p'.pending) = some (t.length, t.length + m.length) := by
  simp only [PS.searchPending] at h
  split at h
  · cases h
  · rename_i i j hp
    obtain ⟨hij, hjl⟩ := hw _ _ _ hp
    simp only [Option.some.injEq, Prod.mk.injEq] at h
    obtain ⟨rfl, rfl, rfl⟩ := h
    simp only [logMsg_pending]
    have hsplit : p.pending.take i ++ (p.pending.drop i).take (j - i) ++ p.pending.drop j = p.pending := by
      rw [List.append_assoc]
      have : p.pending.drop j = (p.pending.drop i).drop (j - i) := by
        rw [List.drop_drop]; congr 1; omega
      rw [this, List.take_append_drop, List.take_append_drop]
    rw [hsplit]
    refine ⟨rfl, ?_⟩
    rw [hp]
    simp only [List.length_take, List.length_drop, Option.some.injEq, Prod.mk.injEq]
    omega

theorem search_none {cfg : PCfg} {p : PS} {pat : Pattern} (h : p.searchPending cfg pat = none) :
    pat p.pending = none := by
  simp only [PS.searchPending] at h
  split at h
  · assumption
  · cases h

/-- What is known when the reader task has finished with `r`. -/
def MatchSpec (pat : Pattern) (r : Option MatchRes) (p : PS) : Prop :=
  match r with
  | some (.ok (t, m)) => pat (t ++ m ++ p.pending) = some (t.length, t.length + m.length)
  | some (.error e) => e = .eofError → p.atEof = true ∧ pat p.pending = none
  | none => True

theorem patStep_spec (cfg : PCfg) (pat : Pattern) (hw : SpanPattern pat) (p : PS) (c : Bytes) :
    MatchSpec pat (patStep cfg pat p c).2 (patStep cfg pat p c).1 := by
  simp only [patStep]
  split
  · rename_i e p' hr
    intro he
    rw [readChunk_error hr] at he; cases he
  · split
    · trivial
    · split
      · rename_i hs; exact (search_span hw hs).2
      · rename_i hs
        split
        · rename_i he; exact fun _ => ⟨he, search_none hs⟩
        · trivial

/-- No read of the process's output raises EOFError itself. -/
def NoReadEof (evs : List PEv) : Prop := PEv.readErr .eofError ∉ evs

theorem expectLoop_spec (cfg : PCfg) (pat : Pattern) (hw : SpanPattern pat) (timer : Bool)
    (evs : List PEv) (hev : NoReadEof evs) : ∀ (r : Option MatchRes) (p : PS), MatchSpec pat r p →
      (∀ t m, (expectLoop cfg pat timer evs r p).1 = .matched t m →
        pat (t ++ m ++ (expectLoop cfg pat timer evs r p).2.1.pending) = some (t.length, t.length + m.length)) ∧
      (∀ d, (expectLoop cfg pat timer evs r p).1 = .exc .eofError d →
        (expectLoop cfg pat timer evs r p).2.1.atEof = true ∧
        pat (expectLoop cfg pat timer evs r p).2.1.pending = none) := by
  induction evs with
  | nil =>
    intro r p h
    rcases r with _ | ⟨e | ⟨t, m⟩⟩ <;> exact ⟨fun _ _ h => (by cases h), fun _ h => (by cases h)⟩
  | cons ev evs ih =>
    intro r p h
    have ih := ih (fun hm => hev (by simp [hm]))
    rcases r with _ | ⟨e | ⟨t, m⟩⟩
    · cases ev with
      | read c => exact ih _ _ (patStep_spec cfg pat hw p c)
      | readErr e =>
        refine ih _ _ ?_
        intro he
        exact absurd (by simp [he]) hev
      | timeout =>
        simp only [expectLoop]
        split
        · exact ⟨fun _ _ h => (by cases h), fun _ h => (by cases h)⟩
        · exact ih _ _ trivial
      | cancel => exact ⟨fun _ _ h => (by cases h), fun _ h => (by cases h)⟩
      | resume => exact ih _ _ trivial
      | drained => exact ih _ _ trivial
      | drainErr e => exact ih _ _ trivial
    · cases ev <;> first
        | exact ih _ _ h
        | (refine ⟨fun _ _ hh => ?_, fun _ hh => ?_⟩ <;> cases hh <;> exact h rfl)
    · cases ev <;> first
        | exact ih _ _ h
        | (refine ⟨fun _ _ hh => ?_, fun _ hh => ?_⟩ <;> cases hh <;> exact h)

theorem expectPat_spec (cfg : PCfg) (pat : Pattern) (hw : SpanPattern pat) (h0 : pat [] = none)
    (timeout : Option Nat) (evs : List PEv) (hev : NoReadEof evs) (p : PS) :
      (∀ t m, (expectPat cfg pat timeout evs p).1 = .matched t m →
        pat (t ++ m ++ (expectPat cfg pat timeout evs p).2.1.pending) = some (t.length, t.length + m.length)) ∧
      (∀ d, (expectPat cfg pat timeout evs p).1 = .exc .eofError d →
        (expectPat cfg pat timeout evs p).2.1.atEof = true ∧
        pat (expectPat cfg pat timeout evs p).2.1.pending = none) := by
  simp only [expectPat]
  split
  · rename_i t m p' hs
    split at hs
    · cases hs
    · refine ⟨?_, fun _ h => by cases h⟩
      intro t' m' h
      cases h
      exact (search_span hw hs).2
  · rename_i hs
    split
    · rename_i he
      refine ⟨fun _ _ h => (by cases h), fun _ _ => ⟨he, ?_⟩⟩
      simp only
      split at hs
      · rename_i hp
        have : p.pending = [] := by simpa using hp
        rw [this, h0]
      · exact search_none hs
    · exact expectLoop_spec cfg pat hw _ evs hev none p trivial

end Shellous.Props
