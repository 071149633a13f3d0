import Verif.Props.Codec

/-!
# C53: what decoding means (round trip for UTF-8 and UTF-16, malformed input and error handlers)
-/

namespace Shellous.Props

open Shellous

/-! ## Specification -/

/-- A piece of the input: a character, or malformed bytes. -/
inductive Piece where
  | char (c : Char)
  | bad (b : Bytes)

/-- `pieces` cuts `data` from left to right: a character stands for its encoding, malformed bytes are not
empty and no character is encoded at the place where they begin. -/
def IsCut (enc : Char → Bytes) : List Piece → Bytes → Prop
  | [], data => data = []
  | .char c :: ps, data => ∃ rest, data = enc c ++ rest ∧ IsCut enc ps rest
  | .bad b :: ps, data => b ≠ [] ∧ (∀ c x, data ≠ enc c ++ x) ∧ ∃ rest, data = b ++ rest ∧ IsCut enc ps rest

def Piece.isBad : Piece → Bool
  | .char _ => false
  | .bad _ => true

/-- The text of the pieces, with `sub` for each malformed piece. -/
def piecesText (sub : Text) : List Piece → Text
  | [] => []
  | .char c :: ps => c :: piecesText sub ps
  | .bad _ :: ps => sub ++ piecesText sub ps

/-- UTF-16 (little-endian) encoding of a character, from the Unicode standard, section 3.9. -/
def utf16leChar (c : Char) : Bytes :=
  let unit (u : Nat) : Bytes := [UInt8.ofNat (u % 256), UInt8.ofNat (u / 256)]
  if c.toNat < 0x10000 then unit c.toNat
  else unit (0xD800 + (c.toNat - 0x10000) / 0x400) ++ unit (0xDC00 + (c.toNat - 0x10000) % 0x400)

/-- `step` decodes the encoding `enc`. -/
structure Decodes (enc : Char → Bytes) (step : Bytes → Step) : Prop where
  good : GoodStep step
  encode : ∀ c x, step (enc c ++ x) = .char c ((enc c).length - 1)
  decode : ∀ b c n, step b = .char c n → b.take (n + 1) = enc c
  nonempty : ∀ c, enc c ≠ []

/-! ## Lemmas -/

theorem toNat_ofNat_valid (v : Nat) (h : v < 0xD800 ∨ (0xDFFF < v ∧ v < 0x110000)) :
    (Char.ofNat v).val.toNat = v := by
  unfold Char.ofNat
  rw [dif_pos (show Nat.isValidChar v from h)]
  rfl

theorem u8_eq (b : UInt8) (k : Nat) (h : k % 256 = b.toNat) : UInt8.ofNat k = b := by
  apply UInt8.toNat_inj.mp
  simp only [UInt8.toNat_ofNat']
  omega

theorem utf8Step_decode (b : Bytes) (c : Char) (n : Nat) (h : utf8Step b = .char c n) :
    b.take (n + 1) = String.utf8EncodeChar c := by
  rcases b with _ | ⟨b0, bs⟩
  · simp [utf8Step] at h
  have l0 : b0.toNat < 256 := b0.toNat_lt
  simp only [utf8Step] at h
  repeat' split at h
  all_goals first
    | (simp only [reduceCtorEq] at h; done)
    | skip
  all_goals
    simp only [Step.char.injEq] at h
    obtain ⟨rfl, rfl⟩ := h
    try simp_all only [isCont, Bool.not_eq_true', Bool.not_eq_false, Bool.and_eq_true, decide_eq_true_eq,
           Bool.or_eq_true, beq_iff_eq, not_or, not_and, ge_iff_le, Nat.not_lt, Nat.not_le]
    simp only [String.utf8EncodeChar]
    rw [toNat_ofNat_valid _ (by omega)]
  · rw [if_pos (by omega)]
    simp only [List.take_succ_cons, List.take_zero]
    rw [u8_eq b0 _ (by omega)]
  · rw [if_neg (by omega), if_pos (by omega)]
    simp only [List.take_succ_cons, List.take_zero]
    simp only [List.cons.injEq, and_true]
    exact ⟨(u8_eq _ _ (by omega)).symm, (u8_eq _ _ (by omega)).symm⟩
  · rw [if_neg (by omega), if_neg (by omega), if_pos (by omega)]
    simp only [List.take_succ_cons, List.take_zero]
    simp only [List.cons.injEq, and_true]
    exact ⟨(u8_eq _ _ (by omega)).symm, (u8_eq _ _ (by omega)).symm, (u8_eq _ _ (by omega)).symm⟩
  · rw [if_neg (by omega), if_neg (by omega), if_neg (by omega)]
    simp only [List.take_succ_cons, List.take_zero]
    simp only [List.cons.injEq, and_true]
    exact ⟨(u8_eq _ _ (by omega)).symm, (u8_eq _ _ (by omega)).symm, (u8_eq _ _ (by omega)).symm, (u8_eq _ _ (by omega)).symm⟩

theorem utf8_decodes : Decodes String.utf8EncodeChar utf8Step where
  good := utf8_good
  encode := utf8Step_encode
  decode := utf8Step_decode
  nonempty := fun c => by obtain ⟨b, bs, h⟩ := encode_ne_nil c; simp [h]

theorem utf16_decodes : Decodes utf16leChar utf16leStep where
  good := utf16le_good
  encode := by
    intro c x
    have hv : c.toNat < 0xD800 ∨ (0xDFFF < c.toNat ∧ c.toNat < 0x110000) := c.valid
    have hc : Char.ofNat c.toNat = c := Char.ofNat_toNat c
    have tn : ∀ k, k < 256 → (UInt8.ofNat k).toNat = k := by
      intro k hk; simp only [UInt8.toNat_ofNat']; omega
    simp only [utf16leChar]
    generalize c.toNat = v at *
    split
    · simp only [List.cons_append, List.nil_append, utf16leStep, tn (v % 256) (by omega),
        tn (v / 256) (by omega)]
      rw [if_pos (by omega)]
      rw [show v % 256 + 256 * (v / 256) = v by omega, hc]
      rfl
    · simp only [List.cons_append, List.nil_append, utf16leStep]
      rw [tn _ (by omega), tn _ (by omega), tn _ (by omega), tn _ (by omega)]
      rw [if_neg (by omega), if_neg (by omega), if_pos (by omega)]
      rw [show 65536 + ((55296 + (v - 65536) / 1024) % 256 + 256 * ((55296 + (v - 65536) / 1024) / 256) - 55296) * 1024
        + ((56320 + (v - 65536) % 1024) % 256 + 256 * ((56320 + (v - 65536) % 1024) / 256) - 56320) = v by omega, hc]
      rfl
  decode := by
    intro b c n h
    rcases b with _ | ⟨b0, _ | ⟨b1, bs⟩⟩
    · simp [utf16leStep] at h
    · simp [utf16leStep] at h
    have l0 : b0.toNat < 256 := b0.toNat_lt
    have l1 : b1.toNat < 256 := b1.toNat_lt
    simp only [utf16leStep] at h
    repeat' split at h
    all_goals first
      | (simp only [reduceCtorEq] at h; done)
      | skip
    · simp only [Step.char.injEq] at h
      obtain ⟨rfl, rfl⟩ := h
      have := toNat_ofNat_valid (b0.toNat + 256 * b1.toNat) (by omega)
      simp only [utf16leChar, Char.toNat, this]
      rw [if_pos (by omega)]
      simp only [List.take_succ_cons, List.take_zero]
      rw [u8_eq b0 _ (by omega), u8_eq b1 _ (by omega)]
    · rename_i b2 b3 _ hr
      have l2 : b2.toNat < 256 := b2.toNat_lt
      have l3 : b3.toNat < 256 := b3.toNat_lt
      simp only [Step.char.injEq] at h
      obtain ⟨rfl, rfl⟩ := h
      have := toNat_ofNat_valid (0x10000 + (b0.toNat + 256 * b1.toNat - 0xD800) * 0x400
        + (b2.toNat + 256 * b3.toNat - 0xDC00)) (by omega)
      simp only [utf16leChar, Char.toNat, this]
      rw [if_neg (by omega)]
      simp only [List.take_succ_cons, List.take_zero, List.cons_append, List.nil_append]
      rw [u8_eq b0 _ (by omega), u8_eq b1 _ (by omega), u8_eq b2 _ (by omega), u8_eq b3 _ (by omega)]
  nonempty := by intro c; simp only [utf16leChar]; split <;> simp

/-- Decoding with each handler, in terms of one cut of the input. -/
theorem cut_exists {enc step} (d : Decodes enc step) (data : Bytes) :
    ∃ ps, IsCut enc ps data ∧ ∀ errors, decodeLoop step errors true data =
      match errors.subst with
      | some sub => .ok (piecesText sub ps, [])
      | none => if ps.any Piece.isBad then .error .unicodeError else .ok (piecesText [] ps, []) := by
  induction hn : data.length using Nat.strongRecOn generalizing data with
  | ind n ih =>
    cases data with
    | nil => exact ⟨[], rfl, fun e => by cases e <;> simp [decodeLoop, Errors.subst, piecesText]⟩
    | cons b bs =>
      cases hs : step (b :: bs) with
      | incomplete =>
        refine ⟨[.bad (b :: bs)], ⟨by simp, ?_, [], by simp, rfl⟩, ?_⟩
        · intro c x he; rw [he, d.encode] at hs; cases hs
        · intro e; cases e <;> simp [decodeLoop, hs, Errors.subst, piecesText, Piece.isBad]
      | bad k =>
        obtain ⟨ps, hc, hp⟩ := ih (bs.drop k).length (by simp at hn ⊢; omega) _ rfl
        refine ⟨.bad (b :: bs.take k) :: ps, ⟨by simp, ?_, bs.drop k, by simp, hc⟩, ?_⟩
        · intro c x he; rw [he, d.encode] at hs; cases hs
        · intro e
          have := hp e
          cases e <;> simp [decodeLoop, hs, Errors.subst, piecesText, Piece.isBad] at this ⊢ <;> rw [this]
      | char c k =>
        obtain ⟨ps, hc, hp⟩ := ih (bs.drop k).length (by simp at hn ⊢; omega) _ rfl
        have ht := d.decode _ _ _ hs
        simp only [List.take_succ_cons] at ht
        refine ⟨.char c :: ps, ⟨bs.drop k, ?_, hc⟩, ?_⟩
        · rw [← ht, List.cons_append, List.take_append_drop]
        · intro e
          have := hp e
          cases e <;> simp only [decodeLoop, hs, Errors.subst, piecesText, Piece.isBad, List.any_cons,
            Bool.false_or] at this ⊢ <;> rw [this]
          cases hP : ps.any Piece.isBad <;> rfl

/-! ## Theorems -/

/-- **C53.** Malformed input. The bytes are cut, from the left, into characters and malformed pieces;
`strict` raises iff there is a malformed piece, `replace` gives U+FFFD for each of them and `ignore`
gives nothing; without malformed pieces all three return the same text. UTF-8 and UTF-16. -/
theorem C53_error_handlers {enc step} (d : Decodes enc step) (data : Bytes) :
    ∃ pieces, IsCut enc pieces data ∧
      decodeAll step .strict data =
        (if pieces.any Piece.isBad then .error .unicodeError else .ok (piecesText [] pieces)) ∧
      decodeAll step .replace data = .ok (piecesText ['\uFFFD'] pieces) ∧
      decodeAll step .ignore data = .ok (piecesText [] pieces) := by
  obtain ⟨ps, hc, hp⟩ := cut_exists d data
  refine ⟨ps, hc, ?_, ?_, ?_⟩
  · simp only [decodeAll, hp .strict, Errors.subst]
    split <;> rfl
  · simp only [decodeAll, hp .replace, Errors.subst]; rfl
  · simp only [decodeAll, hp .ignore, Errors.subst]; rfl

/-- **C53.** Every text survives encoding and decoding, with every handler, however the bytes are
chunked. UTF-8 and UTF-16. -/
theorem C53_roundtrip_any {enc step} (d : Decodes enc step) (errors : Errors) (t : Text)
    (chunks : List Bytes) (h : chunks.flatten = t.flatMap enc) :
    decodeStream { step, errors, normalize := false } chunks = .ok t := by
  rw [C53_any_codec step d.good, h]
  have key : ∀ t : Text, decodeLoop step errors true (t.flatMap enc) = .ok (t, []) := by
    intro t
    induction t with
    | nil => simp [decodeLoop]
    | cons c t ih =>
      rw [List.flatMap_cons]
      have hs := d.encode c (t.flatMap enc)
      cases hb : enc c with
      | nil => exact absurd hb (d.nonempty c)
      | cons b bs =>
        rw [hb] at hs
        simp only [List.cons_append, List.length_cons, Nat.add_sub_cancel] at hs
        rw [List.cons_append, decodeLoop]
        simp only [hs]
        rw [List.drop_left, ih]
  simp [decodeAll, key t, Except.map]

/-- **C53.** Conversely, strict decoding succeeds only on the encoding of the text it returns. -/
theorem C53_strict_sound {enc step} (d : Decodes enc step) (data : Bytes) (t : Text)
    (h : decodeAll step .strict data = .ok t) : data = t.flatMap enc := by
  obtain ⟨ps, hc, hs, -, -⟩ := C53_error_handlers d data
  rw [hs] at h
  split at h
  · cases h
  · rename_i hb
    cases h
    clear hs
    induction ps generalizing data with
    | nil => simpa [IsCut, piecesText] using hc
    | cons p ps ih =>
      cases p with
      | bad b => simp [Piece.isBad] at hb
      | char c =>
        obtain ⟨rest, rfl, hr⟩ := hc
        rw [piecesText, List.flatMap_cons, ← ih rest hr (by simpa [Piece.isBad] using hb)]

/-- Both codecs of the model are covered. -/
example (data : Bytes) (t : Text) (h : decodeAll utf16leStep .strict data = .ok t) :
    data = t.flatMap utf16leChar := C53_strict_sound utf16_decodes data t h

/-- A concrete case: `"a" FF "€"` cut in its middle. -/
example : decodeAll utf8Step .replace [0x61, 0xFF, 0xE2, 0x82] = .ok ['a', '\uFFFD', '\uFFFD'] ∧
    decodeAll utf8Step .ignore [0x61, 0xFF, 0xE2, 0x82, 0xAC] = .ok ['a', '€'] := by
  constructor <;> simp [decodeAll, decodeLoop, utf8Step, isCont, Errors.subst, Except.map]

end Shellous.Props
