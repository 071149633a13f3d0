import Verif.Lemmas.Codec

/-!
# C52, C53: incremental decoding and newline normalisation
-/

namespace Shellous.Props

open Shellous

/-- Decoding a stream that arrives as `chunks` and then ends, the way the prompt API drives its decoder
(shellous/prompt.py:459, 537): each non-empty chunk with `final=False`, then `b""` with `final=True`.
The loop ends at the first `UnicodeDecodeError`. -/
def decodeStream (d : Decoder) : List Bytes → Except Exc Text
  | [] => (d.decode [] true).1
  | c :: cs =>
    match d.decode c false with
    | (.error e, _) => .error e
    | (.ok t, d') => (decodeStream d' cs).map (t ++ ·)

/-- The text seen after `chunks`, before the end of the stream, and the decoder's state. -/
def decodePrefix (d : Decoder) : List Bytes → Except Exc (Text × Decoder)
  | [] => .ok ([], d)
  | c :: cs =>
    match d.decode c false with
    | (.error e, _) => .error e
    | (.ok t, d') => (decodePrefix d' cs).map fun p => (t ++ p.1, p.2)

/-- Newline normalisation as the documentation describes it. -/
def normalizeNewlines : Text → Text
  | '\r' :: '\n' :: t => '\n' :: normalizeNewlines t
  | '\r' :: t => '\n' :: normalizeNewlines t
  | c :: t => c :: normalizeNewlines t
  | [] => []

theorem norm_cons_other (c : Char) (t : Text) (h : c ≠ '\r') :
    normalizeNewlines (c :: t) = c :: normalizeNewlines t := by
  cases t <;> simp [normalizeNewlines, h]

theorem norm_cr_other (c : Char) (t : Text) (h : c ≠ '\n') :
    normalizeNewlines ('\r' :: c :: t) = '\n' :: normalizeNewlines (c :: t) := by
  rw [normalizeNewlines]; intro t' he; cases he; exact h rfl

theorem crlf_cons_other (c : Char) (t : Text) (h : c ≠ '\r') : crlfToLf (c :: t) = c :: crlfToLf t := by
  rw [crlfToLf]; rintro t' rfl; exact absurd rfl h

theorem translate_eq (t : Text) : crToLf (crlfToLf t) = normalizeNewlines t := by
  induction t using normalizeNewlines.induct with
  | case1 t ih => simp only [crlfToLf, normalizeNewlines, crToLf, List.map_cons] at *; rw [ih]; rfl
  | case2 t h ih =>
    cases t with
    | nil => rfl
    | cons c t =>
      have hc : c ≠ '\n' := by rintro rfl; exact h t rfl
      rw [norm_cr_other c t hc, ← ih]
      rw [show crlfToLf ('\r' :: c :: t) = '\r' :: crlfToLf (c :: t) by
        rw [crlfToLf]; intro t' _ he; cases he; exact hc rfl]
      rfl
  | case3 c t h1 h2 ih =>
    have hc : c ≠ '\r' := by rintro rfl; exact h2 rfl
    rw [crlf_cons_other c t hc, norm_cons_other c t hc, ← ih]
    simp [crToLf, hc]
  | case4 => rfl

theorem norm_append (a b : Text) (h : a.getLast? = some '\r' → b.head? ≠ some '\n') :
    normalizeNewlines (a ++ b) = normalizeNewlines a ++ normalizeNewlines b := by
  induction a using normalizeNewlines.induct with
  | case1 t ih =>
    simp only [List.cons_append, normalizeNewlines]
    rw [ih]
    intro h'; apply h
    cases t with
    | nil => simp at h'
    | cons x xs => simpa [List.getLast?_cons_cons] using h'
  | case2 t hn ih =>
    cases t with
    | nil =>
      have hb := h rfl
      cases b with
      | nil => rfl
      | cons c t =>
        have hc : c ≠ '\n' := by rintro rfl; simp at hb
        exact norm_cr_other c t hc
    | cons c t =>
      have hc : c ≠ '\n' := by rintro rfl; exact hn t rfl
      rw [List.cons_append, List.cons_append, norm_cr_other c (t ++ b) hc, norm_cr_other c t hc]
      rw [← List.cons_append, ih]
      · rfl
      · intro h'; apply h; simpa [List.getLast?_cons_cons] using h'
  | case3 c t h1 h2 ih =>
    have hc : c ≠ '\r' := by rintro rfl; exact h2 rfl
    rw [List.cons_append, norm_cons_other c _ hc, norm_cons_other c _ hc, ih, List.cons_append]
    intro h'; apply h
    cases t with
    | nil => simp at h'
    | cons x xs => simpa [List.getLast?_cons_cons] using h'
  | case4 => rfl

theorem stream_plain (step) (g : GoodStep step) (errors : Errors) (chunks : List Bytes) :
    ∀ (buffer : Bytes) (p : Bool), decodeLoop step errors false buffer = .ok ([], buffer) →
      decodeStream ⟨step, errors, false, buffer, p⟩ chunks =
        decodeAll step errors (buffer ++ chunks.flatten) := by
  induction chunks with
  | nil =>
    intro buffer p hs
    simp only [decodeStream, Decoder.decode, incDecode, List.append_nil, List.flatten_nil, decodeAll]
    cases decodeLoop step errors true buffer <;> rfl
  | cons c cs ih =>
    intro buffer p hs
    simp only [decodeStream, Decoder.decode, incDecode, List.flatten_cons]
    rw [← List.append_assoc]
    simp only [decodeAll]
    rw [decodeLoop_append g errors true (buffer ++ c)]
    cases hd : decodeLoop step errors false (buffer ++ c) with
    | error e => rfl
    | ok p =>
      obtain ⟨t, r⟩ := p
      simp only [Bool.false_eq_true, if_false]
      rw [ih _ _ (decodeLoop_rest_stuck _ _ _ _ hd)]
      simp only [decodeAll]
      cases decodeLoop step errors true (r ++ cs.flatten) <;> rfl

/-- **C53.** However the bytes are chunked, the text seen by the prompt API is the decoding of the
whole stream; with `strict` it fails iff decoding the whole stream fails. -/
theorem C53_incremental_decoding (errors : Errors) (chunks : List Bytes) :
    decodeStream { step := utf8Step, errors, normalize := false } chunks =
      decodeAll utf8Step errors chunks.flatten := by
  rw [stream_plain utf8Step utf8_good errors chunks [] false (by simp [decodeLoop])]
  rfl

/-- **C53** for any codec whose step function decides a character as soon as its bytes are there. -/
theorem C53_any_codec (step : Bytes → Step) (g : GoodStep step) (errors : Errors)
    (chunks : List Bytes) :
    decodeStream { step, errors, normalize := false } chunks =
      decodeAll step errors chunks.flatten := by
  rw [stream_plain step g errors chunks [] false (by simp [decodeLoop])]
  rfl

/-- UTF-8 encoding of a text (Lean's own, independent of the model). -/
def encodeUtf8 (t : Text) : Bytes := t.flatMap String.utf8EncodeChar

theorem encode_ne_nil (c : Char) : ∃ b bs, String.utf8EncodeChar c = b :: bs := by
  cases h : String.utf8EncodeChar c with
  | nil => have := String.length_utf8EncodeChar c; rw [h] at this
           have := c.utf8Size_pos; simp at *
  | cons b bs => exact ⟨b, bs, rfl⟩

theorem decodeLoop_encode (errors : Errors) (final : Bool) (t : Text) (x : Bytes) :
    decodeLoop utf8Step errors final (encodeUtf8 t ++ x) =
      (decodeLoop utf8Step errors final x).map fun p => (t ++ p.1, p.2) := by
  induction t with
  | nil => simp only [encodeUtf8, List.flatMap_nil, List.nil_append]
           cases decodeLoop utf8Step errors final x <;> rfl
  | cons c t ih =>
    obtain ⟨b, bs, hb⟩ := encode_ne_nil c
    have hs := utf8Step_encode c (encodeUtf8 t ++ x)
    have he : encodeUtf8 (c :: t) ++ x = b :: (bs ++ (encodeUtf8 t ++ x)) := by
      simp [encodeUtf8, hb]
    rw [he, decodeLoop]
    rw [hb] at hs
    simp only [List.cons_append, List.length_cons, Nat.add_sub_cancel] at hs
    simp only [hs]
    rw [List.drop_left, ih]
    cases decodeLoop utf8Step errors final x <;> rfl

/-- **C53.** Text encoded as UTF-8 and cut anywhere, also inside a character, is received unchanged. -/
theorem C53_roundtrip (errors : Errors) (t : Text) (chunks : List Bytes)
    (h : chunks.flatten = encodeUtf8 t) :
    decodeStream { step := utf8Step, errors, normalize := false } chunks = .ok t := by
  rw [C53_incremental_decoding, h]
  have := decodeLoop_encode errors true t []
  simp only [List.append_nil] at this
  simp [decodeAll, this, decodeLoop, Except.map]

/-- **C53.** Before the end of the stream at most three bytes are held back and everything before them
has been decoded. -/
theorem C53_prefix (errors : Errors) (chunks : List Bytes) (t : Text) (d : Decoder)
    (h : decodePrefix { step := utf8Step, errors, normalize := false } chunks = .ok (t, d)) :
    decodeLoop utf8Step errors false chunks.flatten = .ok (t, d.buffer) ∧ d.buffer.length ≤ 3 := by
  have key : ∀ (chunks : List Bytes) (buffer : Bytes) (p : Bool) (d : Decoder) (t : Text),
      decodeLoop utf8Step errors false buffer = .ok ([], buffer) →
      decodePrefix ⟨utf8Step, errors, false, buffer, p⟩ chunks = .ok (t, d) →
      decodeLoop utf8Step errors false (buffer ++ chunks.flatten) = .ok (t, d.buffer) := by
    intro chunks
    induction chunks with
    | nil =>
      intro buffer p d t hs h
      simp only [decodePrefix, Except.ok.injEq, Prod.mk.injEq] at h
      obtain ⟨rfl, rfl⟩ := h
      simpa using hs
    | cons c cs ih =>
      intro buffer p d t hs h
      simp only [decodePrefix, Decoder.decode, incDecode] at h
      rw [List.flatten_cons, ← List.append_assoc, decodeLoop_append utf8_good]
      cases hd : decodeLoop utf8Step errors false (buffer ++ c) with
      | error e => rw [hd] at h; simp at h
      | ok p =>
        obtain ⟨t1, r⟩ := p
        rw [hd] at h
        simp only [Bool.false_eq_true, if_false] at h
        cases hp : decodePrefix ⟨utf8Step, errors, false, r, _⟩ cs with
        | error e => rw [hp] at h; simp [Except.map] at h
        | ok q =>
          rw [hp] at h
          simp only [Except.map, Except.ok.injEq, Prod.mk.injEq] at h
          have := ih r _ q.2 q.1 (decodeLoop_rest_stuck _ _ _ _ hd) hp
          simp only [this, ← h.1, ← h.2]
  have hk := key chunks [] false d t (by simp [decodeLoop]) h
  refine ⟨by simpa using hk, ?_⟩
  have hst := decodeLoop_rest_stuck _ _ _ _ hk
  -- a string of four or more bytes is never incomplete
  cases hb : d.buffer with
  | nil => simp
  | cons b bs =>
    rw [hb, decodeLoop] at hst
    split at hst
    · rename_i hs
      rcases bs with _ | ⟨b1, _ | ⟨b2, _ | ⟨b3, bs⟩⟩⟩ <;> simp only [List.length_cons, List.length_nil] <;>
        try omega
      exfalso
      simp only [utf8Step] at hs
      repeat' split at hs
      all_goals cases hs
    · rename_i n _
      exfalso
      split at hst
      · cases hst
      · split at hst
        · cases hst
        · rename_i t' r' hh
          have := decodeLoop_rest_le _ _ _ _ _ _ hh
          simp only [Except.ok.injEq, Prod.mk.injEq] at hst
          rw [hst.2] at this
          simp at this; omega
    · rename_i n _
      exfalso
      split at hst
      · cases hst
      · simp at hst

/-- **C52.** With `normalize_newlines` the text seen is the decoded text with every CR LF and every
lone CR replaced by one LF, for every chunking. -/
theorem C52_newline_normalisation (step : Bytes → Step) (g : GoodStep step) (errors : Errors)
    (chunks : List Bytes) :
    decodeStream { step, errors, normalize := true } chunks =
      (decodeAll step errors chunks.flatten).map normalizeNewlines := by
  have key : ∀ (chunks : List Bytes) (buffer : Bytes) (p : Bool),
      decodeLoop step errors false buffer = .ok ([], buffer) →
      decodeStream ⟨step, errors, true, buffer, p⟩ chunks =
        (decodeAll step errors (buffer ++ chunks.flatten)).map
          fun t => normalizeNewlines ((if p then ['\r'] else []) ++ t) := by
    intro chunks
    induction chunks with
    | nil =>
      intro buffer p hs
      simp only [decodeStream, Decoder.decode, incDecode, List.append_nil, List.flatten_nil, decodeAll]
      cases decodeLoop step errors true buffer with
      | error e => rfl
      | ok q =>
        obtain ⟨t, r⟩ := q
        simp only [if_true, Except.map, nlDecode, Bool.not_true, Bool.and_false, Bool.or_true,
          Bool.and_true, Bool.false_eq_true, if_false, translate_eq]
        cases p <;> rfl
    | cons c cs ih =>
      intro buffer p hs
      simp only [decodeStream, Decoder.decode, incDecode, List.flatten_cons]
      rw [← List.append_assoc]
      simp only [decodeAll]
      rw [decodeLoop_append g errors true (buffer ++ c)]
      cases hd : decodeLoop step errors false (buffer ++ c) with
      | error e => rfl
      | ok pr =>
        obtain ⟨t, r⟩ := pr
        simp only [if_true]
        rw [ih _ _ (decodeLoop_rest_stuck _ _ _ _ hd)]
        simp only [decodeAll]
        cases decodeLoop step errors true (r ++ cs.flatten) with
        | error e => rfl
        | ok q =>
          simp only [Except.map, Except.ok.injEq]
          -- the text of this call, with the carriage return held back so far
          generalize hT : (if p then ['\r'] else []) ++ t = T
          have hout : nlDecode p t false =
              (normalizeNewlines (if T.getLast? = some '\r' then T.dropLast else T),
               decide (T.getLast? = some '\r')) := by
            cases p with
            | false =>
              simp only [Bool.false_eq_true, if_false, List.nil_append] at hT
              subst hT
              simp only [nlDecode, Bool.false_and, Bool.false_eq_true, if_false, Bool.not_false,
                Bool.and_true, decide_eq_true_eq, translate_eq]
              by_cases hl : t.getLast? = some '\r' <;> simp [hl]
            | true =>
              simp only [if_true, List.singleton_append] at hT
              subst hT
              cases t with
              | nil => rfl
              | cons x xs =>
                simp only [nlDecode, List.isEmpty_cons, Bool.not_false, Bool.true_or, Bool.and_self,
                  if_true, Bool.and_true, decide_eq_true_eq, translate_eq]
                by_cases hl : ('\r' :: x :: xs).getLast? = some '\r' <;> simp [hl]
          rw [hout]
          simp only
          rw [← List.append_assoc, hT]
          by_cases hl : T.getLast? = some '\r'
          · simp only [hl, decide_true, if_true]
            have hsplit : T = T.dropLast ++ ['\r'] := by
              have hne : T ≠ [] := by rintro rfl; simp at hl
              rw [List.getLast?_eq_some_getLast hne] at hl
              have hd := List.dropLast_concat_getLast hne
              rw [Option.some.inj hl] at hd
              exact hd.symm
            have e : T ++ q.1 = T.dropLast ++ (['\r'] ++ q.1) := by
              rw [← List.append_assoc, ← hsplit]
            rw [e, norm_append T.dropLast (['\r'] ++ q.1) (by intro _; simp)]
          · simp only [hl, decide_false, Bool.false_eq_true, if_false, List.nil_append]
            rw [norm_append T q.1 (fun h => absurd h hl)]
  rw [key chunks [] false (by simp [decodeLoop])]
  simp

/-- A concrete stream: "é\r\n" cut inside the character and between CR and LF. -/
example : decodeStream { step := utf8Step, errors := .strict, normalize := true }
    [[0xC3], [0xA9, 0x0D], [0x0A]] = .ok ['é', '\n'] := by
  rw [C52_newline_normalisation _ utf8_good]
  have : ([[0xC3], [0xA9, 0x0D], [0x0A]] : List Bytes).flatten = encodeUtf8 ['é', '\r', '\n'] := by
    decide
  rw [this]
  have h := decodeLoop_encode .strict true ['é', '\r', '\n'] []
  simp only [List.append_nil] at h
  simp [decodeAll, h, decodeLoop, Except.map, normalizeNewlines]

end Shellous.Props
