import Verif.Model.Codec

/-!
# Lemmas about decoders
-/

namespace Shellous

/-- What the chunk-independence proofs need to know about a codec: a decided head stays decided when
more bytes follow, and only bytes that are present are consumed. -/
structure GoodStep (step : Bytes → Step) : Prop where
  stable : ∀ b x, step b ≠ .incomplete → step (b ++ x) = step b
  bad_len : ∀ b n, step b = .bad n → n < b.length
  char_len : ∀ b c n, step b = .char c n → n < b.length

theorem utf8_good : GoodStep utf8Step := by
  refine ⟨?_, ?_, ?_⟩
  · intro b x h
    rcases b with _ | ⟨b0, _ | ⟨b1, _ | ⟨b2, _ | ⟨b3, b⟩⟩⟩⟩
    · exact absurd rfl h
    all_goals
      simp only [utf8Step, List.nil_append, List.cons_append] at h ⊢
      repeat' split
      all_goals first
        | rfl
        | (simp only [*, if_true, if_false, Bool.false_eq_true] at h; exact absurd rfl h)
  · intro b n h
    rcases b with _ | ⟨b0, _ | ⟨b1, _ | ⟨b2, _ | ⟨b3, b⟩⟩⟩⟩ <;>
      simp only [utf8Step] at h <;> repeat' split at h
    all_goals first
      | (simp only [reduceCtorEq] at h; done)
      | (simp only [Step.bad.injEq] at h; subst h; simp only [List.length_cons]; omega)
  · intro b c n h
    rcases b with _ | ⟨b0, _ | ⟨b1, _ | ⟨b2, _ | ⟨b3, b⟩⟩⟩⟩ <;>
      simp only [utf8Step] at h <;> repeat' split at h
    all_goals first
      | (simp only [reduceCtorEq] at h; done)
      | (simp only [Step.char.injEq] at h; obtain ⟨_, rfl⟩ := h; simp only [List.length_cons]; omega)

/-- Decoding `a ++ x` is decoding `a` without `final`, then the undecoded rest followed by `x`. -/
theorem decodeLoop_append {step} (g : GoodStep step) (errors : Errors) (final : Bool) (a x : Bytes) :
    decodeLoop step errors final (a ++ x) =
      match decodeLoop step errors false a with
      | .error e => .error e
      | .ok (t, r) =>
        match decodeLoop step errors final (r ++ x) with
        | .error e => .error e
        | .ok (t', r') => .ok (t ++ t', r') := by
  induction hn : a.length using Nat.strongRecOn generalizing a with
  | ind n ih =>
    cases a with
    | nil =>
      simp only [List.nil_append, decodeLoop]
      cases decodeLoop step errors final x with
      | error e => rfl
      | ok p => rfl
    | cons b bs =>
      cases hs : step (b :: bs) with
      | incomplete =>
        rw [show decodeLoop step errors false (b :: bs) = .ok ([], b :: bs) by
          rw [decodeLoop]; simp [hs]]
        simp only
        cases decodeLoop step errors final (b :: bs ++ x) with
        | error e => rfl
        | ok p => rfl
      | bad k =>
        have hk := g.bad_len _ _ hs
        have hs' : step (b :: (bs ++ x)) = .bad k := by
          have := g.stable (b :: bs) x (by rw [hs]; simp)
          rw [← hs, ← this]; rfl
        have hd : (bs ++ x).drop k = bs.drop k ++ x := by
          rw [List.drop_append_of_le_length]; simp at hk; omega
        rw [List.cons_append, decodeLoop, decodeLoop]
        simp only [hs, hs', hd]
        cases errors.subst with
        | none => rfl
        | some t =>
          simp only
          rw [ih (bs.drop k).length (by simp at hn ⊢; omega) (bs.drop k) rfl]
          cases decodeLoop step errors false (bs.drop k) with
          | error e => rfl
          | ok p =>
            simp only
            cases decodeLoop step errors final (p.2 ++ x) with
            | error e => rfl
            | ok q => simp
      | char c k =>
        have hk := g.char_len _ _ _ hs
        have hs' : step (b :: (bs ++ x)) = .char c k := by
          have := g.stable (b :: bs) x (by rw [hs]; simp)
          rw [← hs, ← this]; rfl
        have hd : (bs ++ x).drop k = bs.drop k ++ x := by
          rw [List.drop_append_of_le_length]; simp at hk; omega
        rw [List.cons_append, decodeLoop, decodeLoop]
        simp only [hs, hs', hd]
        rw [ih (bs.drop k).length (by simp at hn ⊢; omega) (bs.drop k) rfl]
        cases decodeLoop step errors false (bs.drop k) with
        | error e => rfl
        | ok p =>
          simp only
          cases decodeLoop step errors final (p.2 ++ x) with
          | error e => rfl
          | ok q => simp

/-- With `final` nothing is left over. -/
theorem decodeLoop_final_rest {step} (errors : Errors) (a : Bytes) (t : Text) (r : Bytes)
    (h : decodeLoop step errors true a = .ok (t, r)) : r = [] := by
  induction hn : a.length using Nat.strongRecOn generalizing a t r with
  | ind n ih =>
    cases a with
    | nil => simp [decodeLoop] at h; exact h.2
    | cons b bs =>
      rw [decodeLoop] at h
      split at h
      · simp at h; split at h
        · cases h
        · simp at h; exact h.2
      · split at h
        · cases h
        · split at h
          · cases h
          · rename_i hh; cases h
            exact ih _ (by simp at hn ⊢; omega) _ _ _ hh rfl
      · split at h
        · cases h
        · rename_i hh; cases h
          exact ih _ (by simp at hn ⊢; omega) _ _ _ hh rfl

/-- Decoding the rest of a non-final decoding without further input yields the same rest. -/
theorem decodeLoop_rest_stuck {step} (errors : Errors) (a : Bytes) (t : Text) (r : Bytes)
    (h : decodeLoop step errors false a = .ok (t, r)) :
    decodeLoop step errors false r = .ok ([], r) := by
  induction hn : a.length using Nat.strongRecOn generalizing a t r with
  | ind n ih =>
    cases a with
    | nil => simp [decodeLoop] at h; rw [h.2]; simp [decodeLoop]
    | cons b bs =>
      rw [decodeLoop] at h
      split at h
      · rename_i hs
        simp at h
        rw [← h.2, decodeLoop]; simp [hs]
      · split at h
        · cases h
        · split at h
          · cases h
          · rename_i hh; cases h
            exact ih _ (by simp at hn ⊢; omega) _ _ _ hh rfl
      · split at h
        · cases h
        · rename_i hh; cases h
          exact ih _ (by simp at hn ⊢; omega) _ _ _ hh rfl

/-- The undecoded rest is no longer than the input. -/
theorem decodeLoop_rest_le (step) (errors : Errors) (final : Bool) (a : Bytes) (t : Text) (r : Bytes)
    (h : decodeLoop step errors final a = .ok (t, r)) : r.length ≤ a.length := by
  induction hn : a.length using Nat.strongRecOn generalizing a t r with
  | ind n ih =>
    cases a with
    | nil => simp [decodeLoop] at h; simp [h.2]
    | cons b bs =>
      rw [decodeLoop] at h
      split at h
      · split at h
        · split at h
          · cases h
          · simp at h; rw [h.2]; simp
        · simp at h; rw [← h.2, hn]; exact Nat.le_refl _
      · split at h
        · cases h
        · split at h
          · cases h
          · rename_i k _ _ _ _ _ hh; cases h
            have := ih _ (by simp at hn ⊢; omega) _ _ _ hh rfl
            simp at this hn; omega
      · split at h
        · cases h
        · rename_i hh; cases h
          have := ih _ (by simp at hn ⊢; omega) _ _ _ hh rfl
          simp at this hn; omega

end Shellous

namespace Shellous

/-! ## UTF-8 specifics -/

/-- The step function inverts the standard UTF-8 encoding of a character. -/
theorem utf8Step_encode (c : Char) (x : Bytes) :
    utf8Step (String.utf8EncodeChar c ++ x) = .char c ((String.utf8EncodeChar c).length - 1) := by
  have hv : c.val.toNat < 0xD800 ∨ (0xDFFF < c.val.toNat ∧ c.val.toNat < 0x110000) := c.valid
  have hc : Char.ofNat c.val.toNat = c := Char.ofNat_toNat c
  have cont : ∀ k, k < 64 → isCont (UInt8.ofNat (k + 128)) = true := by
    intro k hk
    simp only [isCont, UInt8.toNat_ofNat']
    have : (k + 128) % 2 ^ 8 = k + 128 := by omega
    rw [this]; simp; omega
  have tn : ∀ k, k < 256 → (UInt8.ofNat k).toNat = k := by
    intro k hk; simp only [UInt8.toNat_ofNat']; omega
  simp only [String.utf8EncodeChar]
  generalize hvv : c.val.toNat = v at *
  split
  · have := tn v (by omega)
    simp only [List.cons_append, List.nil_append, utf8Step, this, if_pos (show v < 0x80 by omega), hc,
      List.length_singleton, Nat.sub_self]
  · split
    · have h0 := tn (v / 64 % 32 + 192) (by omega)
      have h1 := tn (v % 64 + 128) (by omega)
      simp only [List.cons_append, List.nil_append, utf8Step, h0, h1, cont _ (show v % 64 < 64 by omega)]
      rw [if_neg (by omega), if_neg (by omega), if_pos (by omega)]
      simp only [Bool.not_true, Bool.false_eq_true, if_false, List.length_cons, List.length_nil]
      have he : (v / 64 % 32 + 192 - 0xC0) * 64 + (v % 64 + 128 - 0x80) = v := by
        omega
      rw [he, hc]
    · split
      · have h0 := tn (v / 4096 % 16 + 224) (by omega)
        have h1 := tn (v / 64 % 64 + 128) (by omega)
        have h2 := tn (v % 64 + 128) (by omega)
        simp only [List.cons_append, List.nil_append, utf8Step, h0, h1, h2,
          cont _ (show v % 64 < 64 by omega), cont _ (show v / 64 % 64 < 64 by omega)]
        rw [if_neg (by omega), if_neg (by omega), if_neg (by omega), if_pos (by omega)]
        have hb : (!true || (v / 4096 % 16 + 224 == 224) && decide (v / 64 % 64 + 128 < 160) ||
            (v / 4096 % 16 + 224 == 237) && decide (v / 64 % 64 + 128 ≥ 160)) = false := by
          simp; omega
        rw [hb]
        simp only [Bool.not_true, Bool.false_eq_true, if_false, List.length_cons, List.length_nil]
        have he : (v / 4096 % 16 + 224 - 0xE0) * 4096 + (v / 64 % 64 + 128 - 0x80) * 64 + (v % 64 + 128 - 0x80) = v := by
          omega
        rw [he, hc]
      · have h0 := tn (v / 262144 % 8 + 240) (by omega)
        have h1 := tn (v / 4096 % 64 + 128) (by omega)
        have h2 := tn (v / 64 % 64 + 128) (by omega)
        have h3 := tn (v % 64 + 128) (by omega)
        simp only [List.cons_append, List.nil_append, utf8Step, h0, h1, h2, h3,
          cont _ (show v % 64 < 64 by omega), cont _ (show v / 64 % 64 < 64 by omega),
          cont _ (show v / 4096 % 64 < 64 by omega)]
        rw [if_neg (by omega), if_neg (by omega), if_neg (by omega), if_neg (by omega),
          if_pos (by omega)]
        have hb : (!true || (v / 262144 % 8 + 240 == 240) && decide (v / 4096 % 64 + 128 < 144) ||
            (v / 262144 % 8 + 240 == 244) && decide (v / 4096 % 64 + 128 ≥ 144)) = false := by
          simp; omega
        rw [hb]
        simp only [Bool.not_true, Bool.false_eq_true, if_false, List.length_cons, List.length_nil]
        have he : (v / 262144 % 8 + 240 - 0xF0) * 262144 + (v / 4096 % 64 + 128 - 0x80) * 4096 + (v / 64 % 64 + 128 - 0x80) * 64 + (v % 64 + 128 - 0x80) = v := by
          omega
        rw [he, hc]

/-- A newline byte always completes whatever precedes it. -/
theorem utf8Step_newline (x y : Bytes) : utf8Step (x ++ 0x0A :: y) ≠ .incomplete := by
  have hnl : isCont 0x0A = false := by decide
  have h0 : (0x0A : UInt8).toNat = 10 := rfl
  rcases x with _ | ⟨b0, _ | ⟨b1, _ | ⟨b2, _ | ⟨b3, b⟩⟩⟩⟩ <;>
    simp only [List.nil_append, List.cons_append, utf8Step, hnl, h0] <;> repeat' split
  all_goals simp_all

/-- A newline character only ever comes from a newline byte. -/
theorem utf8Step_newline_char (b0 : UInt8) (bs : Bytes) (n : Nat)
    (h : utf8Step (b0 :: bs) = .char '\n' n) : b0 = 0x0A ∧ n = 0 := by
  have big : ∀ k, 128 ≤ k → (Char.ofNat k) ≠ '\n' := by
    intro k hk he
    have h10 : ('\n').val.toNat = 10 := rfl
    unfold Char.ofNat at he
    split at he
    · have h2 := congrArg (fun c => c.val.toNat) he
      simp only [Char.ofNatAux] at h2
      have : k = 10 := h2
      omega
    · have h2 := congrArg (fun c => c.val.toNat) he
      exact absurd h2 (by decide)
  have small : ∀ k, k < 128 → Char.ofNat k = '\n' → k = 10 := by decide
  simp only [utf8Step] at h
  split at h
  · rename_i hlt
    simp only [Step.char.injEq] at h
    have := small _ hlt h.1
    exact ⟨UInt8.toNat_inj.mp this, h.2.symm⟩
  · repeat' split at h
    all_goals first
      | (simp only [reduceCtorEq] at h; done)
      | (simp only [Step.char.injEq] at h
         refine absurd h.1 (big _ ?_)
         simp_all only [isCont, Bool.not_eq_true', Bool.not_eq_false, Bool.and_eq_true, decide_eq_true_eq,
           Bool.or_eq_true, beq_iff_eq, not_or, not_and, ge_iff_le,
           Nat.not_lt, Nat.not_le]
         omega)


theorem utf16le_good : GoodStep utf16leStep := by
  refine ⟨?_, ?_, ?_⟩
  · intro b x h
    rcases b with _ | ⟨b0, _ | ⟨b1, _ | ⟨b2, _ | ⟨b3, b⟩⟩⟩⟩ <;>
      simp only [utf16leStep, List.nil_append, List.cons_append] at h ⊢
    all_goals first
      | exact absurd rfl h
      | skip
    all_goals repeat' split
    all_goals simp_all
  · intro b n h
    rcases b with _ | ⟨b0, _ | ⟨b1, _ | ⟨b2, _ | ⟨b3, b⟩⟩⟩⟩ <;> simp only [utf16leStep] at h
    all_goals repeat' split at h
    all_goals simp_all
    all_goals omega
  · intro b c n h
    rcases b with _ | ⟨b0, _ | ⟨b1, _ | ⟨b2, _ | ⟨b3, b⟩⟩⟩⟩ <;> simp only [utf16leStep] at h
    all_goals repeat' split at h
    all_goals simp_all
    all_goals omega

/-- The bytes consumed at the head never reach over a newline byte. -/
theorem utf8Step_newline_len (b : UInt8) (p y : Bytes) :
    (∀ n, utf8Step (b :: p ++ 0x0A :: y) = .bad n → n ≤ p.length) ∧
    (∀ c n, utf8Step (b :: p ++ 0x0A :: y) = .char c n → n ≤ p.length) := by
  have hnl : isCont 0x0A = false := by decide
  rcases p with _ | ⟨b1, _ | ⟨b2, _ | ⟨b3, p⟩⟩⟩ <;>
    simp only [List.nil_append, List.cons_append, utf8Step, hnl, Bool.not_false, if_true,
      Bool.true_or] <;> constructor
  all_goals intros
  all_goals rename_i h
  all_goals repeat' split at h
  all_goals first
    | (injection h; done)
    | (injection h with h1; rw [← h1]; simp only [List.length_cons, List.length_nil]; omega)
    | (injection h with h1 h2; rw [← h2]; simp only [List.length_cons, List.length_nil]; omega)

/-- A byte string that ends with a newline (or is empty) has no incomplete rest. -/
theorem decodeLoop_newline_end (errors : Errors) (a : Bytes)
    (h : a = [] ∨ a.getLast? = some 0x0A) :
    decodeLoop utf8Step errors false a = decodeLoop utf8Step errors true a := by
  induction hn : a.length using Nat.strongRecOn generalizing a with
  | ind n ih =>
    cases a with
    | nil => simp [decodeLoop]
    | cons b bs =>
      have hl : (b :: bs).getLast? = some 0x0A := by simpa using h
      have hne : utf8Step (b :: bs) ≠ .incomplete := by
        have := List.dropLast_concat_getLast (l := b :: bs) (by simp)
        rw [List.getLast?_eq_some_getLast (by simp)] at hl
        rw [Option.some.inj hl] at this
        rw [← this]
        exact utf8Step_newline _ _
      have hd : ∀ k, bs.drop k = [] ∨ (bs.drop k).getLast? = some 0x0A := by
        intro k
        by_cases hk : bs.length ≤ k
        · exact .inl (List.drop_eq_nil_of_le hk)
        · right
          have : (b :: bs).drop (k + 1) = bs.drop k := rfl
          rw [← this, List.getLast?_drop]
          simp only [List.length_cons]
          rw [if_neg (by omega)]; exact hl
      rw [decodeLoop, decodeLoop]
      split
      · contradiction
      · rename_i m hm
        rw [ih _ (by rw [← hn]; simp; omega) _ (hd m) rfl]
      · rename_i c m hm
        rw [ih _ (by rw [← hn]; simp; omega) _ (hd m) rfl]

/-- Decoding after a complete line starts afresh. -/
theorem decodeAll_newline_append (errors : Errors) (a x : Bytes) (h : a.getLast? = some 0x0A) :
    decodeAll utf8Step errors (a ++ x) =
      match decodeAll utf8Step errors a with
      | .error e => .error e
      | .ok t =>
        match decodeAll utf8Step errors x with
        | .error e => .error e
        | .ok t' => .ok (t ++ t') := by
  simp only [decodeAll]
  rw [decodeLoop_append utf8_good, decodeLoop_newline_end errors a (.inr h)]
  cases hd : decodeLoop utf8Step errors true a with
  | error e => rfl
  | ok v =>
    obtain ⟨t, r⟩ := v
    have := decodeLoop_final_rest errors a t r hd
    subst this
    simp only [List.nil_append, Except.map]
    cases decodeLoop utf8Step errors true x with
    | error e => rfl
    | ok v => rfl

/-- Without newline bytes there is no newline character. -/
theorem decodeLoop_no_newline (errors : Errors) (final : Bool) (a : Bytes) (t : Text) (r : Bytes)
    (hno : (0x0A : UInt8) ∉ a) (h : decodeLoop utf8Step errors final a = .ok (t, r)) : '\n' ∉ t := by
  have hs : ∀ s, errors.subst = some s → '\n' ∉ s := by
    intro s hs; cases errors <;> simp [Errors.subst] at hs <;> subst hs <;> decide
  induction hn : a.length using Nat.strongRecOn generalizing a t r with
  | ind n ih =>
    cases a with
    | nil => simp [decodeLoop] at h; rw [h.1]; simp
    | cons b bs =>
      have hsub : ∀ k, (0x0A : UInt8) ∉ bs.drop k := by
        intro k hk; exact hno (List.mem_cons_of_mem _ (List.drop_subset _ _ hk))
      rw [decodeLoop] at h
      split at h
      · split at h
        · split at h
          · cases h
          · rename_i s hs'
            simp at h; rw [← h.1]; exact hs _ hs'
        · simp at h; rw [h.1]; simp
      · split at h
        · cases h
        · rename_i s hs'
          split at h
          · cases h
          · rename_i t' r' hd
            simp at h; rw [← h.1]
            simp only [List.mem_append, not_or]
            exact ⟨hs _ hs', ih _ (by rw [← hn]; simp; omega) _ _ _ (hsub _) hd rfl⟩
      · rename_i c m hm
        split at h
        · cases h
        · rename_i t' r' hd
          simp at h; rw [← h.1]
          simp only [List.mem_cons, not_or]
          refine ⟨?_, ih _ (by rw [← hn]; simp; omega) _ _ _ (hsub _) hd rfl⟩
          intro hc; subst hc
          exact hno (by rw [(utf8Step_newline_char b bs m hm).1]; simp)

/-- A line decodes to a text line. -/
theorem decodeLoop_line (errors : Errors) (p : Bytes) (t : Text) (r : Bytes)
    (hno : (0x0A : UInt8) ∉ p) (h : decodeLoop utf8Step errors true (p ++ [0x0A]) = .ok (t, r)) :
    ∃ t', t = t' ++ ['\n'] ∧ '\n' ∉ t' := by
  have hs : ∀ s, errors.subst = some s → '\n' ∉ s := by
    intro s hs; cases errors <;> simp [Errors.subst] at hs <;> subst hs <;> decide
  induction hn : p.length using Nat.strongRecOn generalizing p t r with
  | ind n ih =>
    cases p with
    | nil =>
      refine ⟨[], ?_, by simp⟩
      simp [decodeLoop, utf8Step] at h
      rw [← h.1]; rfl
    | cons b bs =>
      have hsub : ∀ k, (0x0A : UInt8) ∉ bs.drop k := by
        intro k hk; exact hno (List.mem_cons_of_mem _ (List.drop_subset _ _ hk))
      have hlen := utf8Step_newline_len b bs []
      simp only [List.cons_append] at h hlen
      rw [decodeLoop] at h
      split at h
      · rename_i hi
        exact absurd hi (by have := utf8Step_newline (b :: bs) []; simpa using this)
      · rename_i m hm
        have hle := hlen.1 m hm
        rw [List.drop_append_of_le_length hle] at h
        split at h
        · cases h
        · rename_i s hs'
          split at h
          · cases h
          · rename_i t' r' hd
            obtain ⟨u, hu, hu'⟩ := ih _ (by rw [← hn]; simp; omega) _ _ _ (hsub _) hd rfl
            simp at h
            refine ⟨s ++ u, by rw [← h.1, hu]; simp, ?_⟩
            simp only [List.mem_append, not_or]
            exact ⟨hs _ hs', hu'⟩
      · rename_i c m hm
        have hle := hlen.2 c m hm
        rw [List.drop_append_of_le_length hle] at h
        split at h
        · cases h
        · rename_i t' r' hd
          obtain ⟨u, hu, hu'⟩ := ih _ (by rw [← hn]; simp; omega) _ _ _ (hsub _) hd rfl
          simp at h
          refine ⟨c :: u, by rw [← h.1, hu]; simp, ?_⟩
          simp only [List.mem_cons, not_or]
          refine ⟨?_, hu'⟩
          intro hc; subst hc
          exact hno (by rw [(utf8Step_newline_char b _ m hm).1]; simp)

/-- Decoding something gives something, unless errors are ignored. -/
theorem decodeLoop_nonempty {step} (errors : Errors) (a : Bytes) (t : Text) (r : Bytes)
    (he : errors ≠ .ignore) (ha : a ≠ []) (h : decodeLoop step errors true a = .ok (t, r)) :
    t ≠ [] := by
  have hs : ∀ s, errors.subst = some s → s ≠ [] := by
    intro s hs; cases errors <;> simp [Errors.subst] at hs
    · subst hs; simp
    · exact absurd rfl he
  cases a with
  | nil => exact absurd rfl ha
  | cons b bs =>
    rw [decodeLoop] at h
    split at h
    · simp only [if_true] at h
      split at h
      · cases h
      · rename_i s hs'
        simp at h; rw [← h.1]; exact hs _ hs'
    · split at h
      · cases h
      · rename_i s hs'
        split at h
        · cases h
        · simp at h; rw [← h.1]; simp [hs _ hs']
    · split at h
      · cases h
      · simp at h; rw [← h.1]; simp

end Shellous
