import Verif.Props.Sinks

/-! # C19, C63 for every encoding in which the byte 0x0A is the newline and nothing else -/

namespace Shellous.Props

open Shellous

/-- The encoding can be cut after each byte 0x0A: it stands for a newline, and nothing else does. -/
structure LineSafe (dec : Bytes → Except Exc Text) : Prop where
  nil : dec [] = .ok []
  append : ∀ a x, a.getLast? = some 0x0A → dec (a ++ x) = match dec a with
    | .error e => .error e
    | .ok t => match dec x with
      | .error e => .error e
      | .ok t' => .ok (t ++ t')
  line : ∀ p t, (0x0A : UInt8) ∉ p → dec (p ++ [0x0A]) = .ok t → ∃ t', t = t' ++ ['\n'] ∧ '\n' ∉ t'
  clean : ∀ p t, (0x0A : UInt8) ∉ p → dec p = .ok t → '\n' ∉ t

theorem readLines_safe {dec : Bytes → Except Exc Text} (hd : LineSafe dec) (ls : List Bytes) (h : Lines ls) :
    (∀ t, dec ls.flatten = .ok t → (readLines dec ls).2 = none ∧ (readLines dec ls).1.flatten = t) ∧
    (∀ e, dec ls.flatten = .error e → (readLines dec ls).2 = some e) := by
  induction ls with
  | nil => simp [readLines, hd.nil]
  | cons l ls ih =>
    have ih := ih h.tail
    have happ : dec (l :: ls).flatten = match dec l with
        | .error e => .error e
        | .ok t => match dec ls.flatten with
          | .error e => .error e
          | .ok t' => .ok (t ++ t') := by
      rw [List.flatten_cons]
      by_cases hls : ls = []
      · subst hls
        simp only [List.flatten_nil, List.append_nil, hd.nil]
        cases dec l <;> simp
      · exact hd.append l _ (h.head_nl hls)
    rw [happ]
    simp only [readLines]
    cases dec l with
    | error e => simp
    | ok t =>
      cases hx : dec ls.flatten with
      | error e =>
        have := ih.2 e hx
        simp [this]
      | ok t' =>
        have := ih.1 t' hx
        simp [this]

theorem readLines_safe_shape {dec : Bytes → Except Exc Text} (hs : LineSafe dec) (ls : List Bytes) (h : Lines ls) :
    (∀ l ∈ (readLines dec ls).1, '\n' ∉ l.dropLast) ∧ (∀ l ∈ (readLines dec ls).1.dropLast, l.getLast? = some '\n') ∧
    ((∀ l, l ≠ [] → dec l ≠ .ok []) → ∀ l ∈ (readLines dec ls).1, l ≠ []) := by
  obtain ⟨hlen, hget⟩ := readLines_get dec ls
  have nl : ∀ l t, l ∈ ls → dec l = .ok t → l.getLast? = some 0x0A → ∃ t', t = t' ++ ['\n'] ∧ '\n' ∉ t' := by
    intro l t hl hd hg
    rw [split_getLast hg] at hd
    exact hs.line _ t (h.inner l hl) hd
  refine ⟨?_, ?_, ?_⟩
  · intro t ht
    obtain ⟨i, hi⟩ := List.mem_iff_getElem?.mp ht
    obtain ⟨l, hl, hd⟩ := hget i t hi
    have hm := List.mem_iff_getElem?.mpr ⟨i, hl⟩
    by_cases hg : l.getLast? = some 0x0A
    · obtain ⟨t', rfl, ht'⟩ := nl l t hm hd hg
      simpa using ht'
    · have hno : (0x0A : UInt8) ∉ l := by
        intro hc
        have hne := h.nonempty l hm
        have := List.dropLast_concat_getLast hne
        rw [← this] at hc
        rcases List.mem_append.mp hc with h1 | h1
        · exact h.inner l hm h1
        · simp at h1
          rw [List.getLast?_eq_some_getLast hne, ← h1] at hg
          exact hg rfl
      intro hc
      exact hs.clean l t hno hd (List.dropLast_subset _ hc)
  · intro t ht
    obtain ⟨i, hi, hit⟩ := (mem_dropLast_iff _ _).mp ht
    obtain ⟨l, hl, hd⟩ := hget i t hit
    have hm := List.mem_iff_getElem?.mpr ⟨i, hl⟩
    have hg := h.complete l ((mem_dropLast_iff _ _).mpr ⟨i, by omega, hl⟩)
    obtain ⟨t', rfl, _⟩ := nl l t hm hd hg
    simp
  · intro he t ht
    obtain ⟨i, hi⟩ := List.mem_iff_getElem?.mp ht
    obtain ⟨l, hl, hd⟩ := hget i t hi
    have hm := List.mem_iff_getElem?.mpr ⟨i, hl⟩
    rintro rfl
    exact he l (h.nonempty l hm) hd

/-- **C19**, for every encoding that can be cut after each byte 0x0A: when an iteration has come to its end, the text lines handed out are the decoding of
the whole output cut after each newline (and not empty, if no bytes decode to nothing); it fails iff the output does not decode. -/
theorem C19_lines_any (dec : Bytes → Except Exc Text) (hs : LineSafe dec) (limit : Nat) (evs : List SEv) (hdone : (lineRun limit evs).st = .done) :
    let out := readLines dec (lineRun limit evs).lines
    (∀ t, dec (written evs) = .ok t → out.2 = none ∧ out.1.flatten = t ∧ ((∀ l, l ≠ [] → dec l ≠ .ok []) → TextLines out.1)) ∧
    (∀ e, dec (written evs) = .error e → out.2 = some e) := by
  have inv := lines_inv limit evs
  have hc := inv.content (by rw [hdone]; simp)
  rw [(inv.done hdone).1, List.append_nil] at hc
  have h1 := readLines_safe hs _ inv.lines
  have h2 := readLines_safe_shape hs _ inv.lines
  rw [← hc]
  exact ⟨fun t ht => ⟨(h1.1 t ht).1, (h1.1 t ht).2, fun he => ⟨h2.2.2 he, h2.1, h2.2.1⟩⟩, h1.2⟩

/-- **C63** (Logger), for every such encoding: when the copy has ended normally, there is one message for every line of the output, in order. -/
theorem C63_logger_any (dec : Bytes → Except Exc Text) (hs : LineSafe dec) (limit : Nat) (evs : List SEv) (hdone : (copyLogger limit dec evs).ls.st = .done) :
    ∃ lines t, dec (written evs) = .ok t ∧ lines.flatten = t ∧ ((∀ l, l ≠ [] → dec l ≠ .ok []) → TextLines lines) ∧
      (copyLogger limit dec evs).log.length = lines.length ∧
      ∀ (i : Nat) (l : Text), lines[i]? = some l → ∃ m, (copyLogger limit dec evs).log[i]? = some m ∧ IsMessage l m := by
  rcases logger_rel limit dec evs with ⟨h1, h2, h3⟩ | ⟨pre, post, rfl, e, h1, h2, h3⟩
  · rw [h1] at hdone
    have hp := C19_lines_any dec hs limit evs hdone
    cases hd : dec (written evs) with
    | error e => rw [hp.2 e hd] at h2; cases h2
    | ok t =>
      obtain ⟨_, p2, p3⟩ := hp.1 t hd
      refine ⟨_, t, rfl, p2, p3, ?_, ?_⟩
      · rw [h3, List.length_map]
      · intro i l hl
        refine ⟨rstrip l, ?_, rstrip_spec l⟩
        rw [h3, List.getElem?_map, hl]; rfl
  · rw [h2] at hdone; cases hdone

/-! ## Encodings that can be cut -/

/-- UTF-8. -/
theorem utf8_safe (errors : Errors) : LineSafe (decodeAll utf8Step errors) where
  nil := by simp [decodeAll, decodeLoop, Except.map]
  append a x h := decodeAll_newline_append errors a x h
  line p t hno h := by
    obtain ⟨r, hr⟩ := decodeAll_ok h
    exact decodeLoop_line errors p t r hno hr
  clean p t hno h := by
    obtain ⟨r, hr⟩ := decodeAll_ok h
    exact decodeLoop_no_newline errors true p t r hno hr

/-- Encodings with one byte for each character. -/
theorem single_cons (f : UInt8 → Option Char) (errors : Errors) (b : UInt8) (bs : Bytes) :
    decodeAll (singleStep f) errors (b :: bs) =
      match (f b).map (fun c => [c]) <|> errors.subst with
      | none => .error .unicodeError
      | some t => match decodeAll (singleStep f) errors bs with
        | .error e => .error e
        | .ok t' => .ok (t ++ t') := by
  have hstep : singleStep f (b :: bs) = match f b with | some c => .char c 0 | none => .bad 0 := rfl
  unfold decodeAll
  rw [decodeLoop, hstep]
  cases f b with
  | some c =>
    simp only [List.drop_zero, Option.map_some]
    cases decodeLoop (singleStep f) errors true bs <;> rfl
  | none =>
    cases errors.subst with
    | none => rfl
    | some t =>
      simp only [List.drop_zero]
      cases decodeLoop (singleStep f) errors true bs <;> rfl

theorem single_append (f : UInt8 → Option Char) (errors : Errors) (a x : Bytes) :
    decodeAll (singleStep f) errors (a ++ x) = match decodeAll (singleStep f) errors a with
      | .error e => .error e
      | .ok t => match decodeAll (singleStep f) errors x with
        | .error e => .error e
        | .ok t' => .ok (t ++ t') := by
  induction a with
  | nil =>
    have : decodeAll (singleStep f) errors [] = .ok [] := by simp [decodeAll, decodeLoop, Except.map]
    rw [this, List.nil_append]
    cases decodeAll (singleStep f) errors x <;> rfl
  | cons b bs ih =>
    rw [List.cons_append, single_cons, single_cons, ih]
    cases (f b).map (fun c => [c]) <|> errors.subst with
    | none => rfl
    | some t =>
      cases decodeAll (singleStep f) errors bs with
      | error e => rfl
      | ok t' => cases decodeAll (singleStep f) errors x <;> simp

/-- An encoding with one byte for each character can be cut, if the byte 0x0A is the newline and no other byte is. -/
theorem single_safe (f : UInt8 → Option Char) (errors : Errors) (hf : f 0x0A = some '\n') (hf' : ∀ b, f b = some '\n' → b = 0x0A) :
    LineSafe (decodeAll (singleStep f) errors) := by
  have hnil : decodeAll (singleStep f) errors [] = .ok [] := by simp [decodeAll, decodeLoop, Except.map]
  have clean : ∀ p t, (0x0A : UInt8) ∉ p → decodeAll (singleStep f) errors p = .ok t → '\n' ∉ t := by
    intro p
    induction p with
    | nil => intro t _ h; rw [hnil] at h; cases h; simp
    | cons b bs ih =>
      intro t hno h
      simp only [List.mem_cons, not_or] at hno
      rw [single_cons] at h
      cases hx : ((f b).map (fun c => [c]) <|> errors.subst) with
      | none => rw [hx] at h; cases h
      | some u =>
        rw [hx] at h
        have hu : '\n' ∉ u := by
          cases hb : f b with
          | some c =>
            simp [hb] at hx; subst hx
            intro hc
            simp at hc; subst hc
            exact hno.1 (hf' b hb).symm
          | none =>
            simp [hb] at hx
            cases errors <;> simp [Errors.subst] at hx <;> subst hx <;> decide
        cases hd : decodeAll (singleStep f) errors bs with
        | error e => rw [hd] at h; cases h
        | ok t' =>
          rw [hd] at h; cases h
          simp [hu, ih t' hno.2 hd]
  refine ⟨hnil, fun a x _ => single_append f errors a x, ?_, clean⟩
  intro p t hno h
  rw [single_append] at h
  have h0 : decodeAll (singleStep f) errors [0x0A] = .ok ['\n'] := by rw [single_cons, hf, hnil]; rfl
  rw [h0] at h
  cases hd : decodeAll (singleStep f) errors p with
  | error e => rw [hd] at h; cases h
  | ok t' => rw [hd] at h; cases h; exact ⟨t', rfl, clean p t' hno hd⟩

/-- They can be decoded incrementally (C52, C53). -/
theorem single_good (f : UInt8 → Option Char) : GoodStep (singleStep f) := by
  refine ⟨?_, ?_, ?_⟩
  · intro b x h
    cases b with
    | nil => exact absurd rfl h
    | cons b0 b => rfl
  · intro b n h
    cases b with
    | nil => cases h
    | cons b0 b =>
      simp only [singleStep] at h
      cases hf : f b0 <;> rw [hf] at h <;> cases h
      simp
  · intro b c n h
    cases b with
    | nil => cases h
    | cons b0 b =>
      simp only [singleStep] at h
      cases hf : f b0 <;> rw [hf] at h <;> cases h
      simp

theorem char_small (b : UInt8) : (Char.ofNat b.toNat).toNat = b.toNat := by
  have h : b.toNat < 256 := b.toNat_lt
  unfold Char.ofNat
  rw [dif_pos (by simp [Nat.isValidChar]; omega)]
  rfl

theorem latin1_safe (errors : Errors) : LineSafe (decodeAll (singleStep latin1) errors) := by
  refine single_safe _ _ rfl fun b h => ?_
  simp only [latin1, Option.some.injEq] at h
  have := congrArg Char.toNat h
  rw [char_small] at this
  exact UInt8.toNat_inj.1 this

theorem ascii_safe (errors : Errors) : LineSafe (decodeAll (singleStep ascii) errors) := by
  refine single_safe _ _ rfl fun b h => ?_
  unfold ascii at h
  split at h
  · simp only [Option.some.injEq] at h
    have := congrArg Char.toNat h
    rw [char_small] at this
    exact UInt8.toNat_inj.1 this
  · cases h

/-- Latin-1 output, two lines: the hypotheses of `C19_lines_any` are met. -/
example : (lineRun 65536 [.feed [0xE9, 0x0A, 0x61], .go, .eof, .go, .go]).st = .done ∧
    (lineRun 65536 [.feed [0xE9, 0x0A, 0x61], .go, .eof, .go, .go]).lines = [[0xE9, 0x0A], [0x61]] := by decide

end Shellous.Props
