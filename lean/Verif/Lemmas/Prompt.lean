import Verif.Spec.Prompt

/-!
# Lemmas for the prompt API
-/

namespace Shellous.Props

open Shellous

/-- The newline decoder, before the end of the stream. -/
theorem nlDecode_false (p : Bool) (t : Text) :
    nlDecode p t false =
      (normalizeNewlines (withoutFinalCR ((if p then ['\r'] else []) ++ t)),
       decide (((if p then ['\r'] else []) ++ t).getLast? = some '\r')) := by
  cases p with
  | false =>
    simp only [nlDecode, Bool.false_and, Bool.false_eq_true, if_false, Bool.not_false,
      Bool.and_true, decide_eq_true_eq, translate_eq, withoutFinalCR, List.nil_append]
    by_cases hl : t.getLast? = some '\r' <;> simp [hl]
  | true =>
    cases t with
    | nil => rfl
    | cons x xs =>
      simp only [nlDecode, List.isEmpty_cons, Bool.not_false, Bool.true_or, Bool.and_self,
        if_true, Bool.and_true, decide_eq_true_eq, translate_eq, withoutFinalCR, List.singleton_append]
      by_cases hl : ('\r' :: x :: xs).getLast? = some '\r' <;> simp [hl]

/-- The newline decoder at the end of the stream. -/
theorem nlDecode_true (p : Bool) (t : Text) :
    (nlDecode p t true).1 = normalizeNewlines ((if p then ['\r'] else []) ++ t) := by
  simp only [nlDecode, Bool.not_true, Bool.and_false, Bool.or_true,
    Bool.and_true, Bool.false_eq_true, if_false, translate_eq]
  cases p <;> rfl

theorem split_final_cr (t : Text) :
    t = withoutFinalCR t ++ (if decide (t.getLast? = some '\r') then ['\r'] else []) := by
  unfold withoutFinalCR
  by_cases hl : t.getLast? = some '\r'
  · simp only [hl, if_true, decide_true]
    have hne : t ≠ [] := by rintro rfl; simp at hl
    rw [List.getLast?_eq_some_getLast hne] at hl
    have hd := List.dropLast_concat_getLast hne
    rw [Option.some.inj hl] at hd
    exact hd.symm
  · simp [hl]

theorem norm_held (raw x : Text)
    (h : ∀ y, x.head? = some y → raw.getLast? = some '\r' → y = '\r') :
    normalizeNewlines (withoutFinalCR raw ++ x) =
      normalizeNewlines (withoutFinalCR raw) ++ normalizeNewlines x := by
  apply norm_append
  intro hl hx
  by_cases hr : raw.getLast? = some '\r'
  · exact absurd (h _ hx hr) (by decide)
  · simp only [withoutFinalCR, hr, if_false] at hl

/-- Text seen so far, followed by what a further piece adds. -/
theorem norm_step (raw t : Text) :
    normalizeNewlines (withoutFinalCR raw) ++
      normalizeNewlines (withoutFinalCR ((if decide (raw.getLast? = some '\r') then ['\r'] else []) ++ t)) =
      normalizeNewlines (withoutFinalCR (raw ++ t)) ∧
    decide (((if decide (raw.getLast? = some '\r') then ['\r'] else []) ++ t).getLast? = some '\r') =
      decide ((raw ++ t).getLast? = some '\r') := by
  generalize hT : (if decide (raw.getLast? = some '\r') then ['\r'] else []) ++ t = T
  have hraw : raw ++ t = withoutFinalCR raw ++ T := by
    rw [← hT, ← List.append_assoc, ← split_final_cr]
  by_cases hTe : T = []
  · have h1 : t = [] := by rw [hTe] at hT; exact (List.append_eq_nil_iff.mp hT).2
    have h2 : raw.getLast? ≠ some '\r' := by
      intro h
      rw [hTe, h1] at hT
      simp [h] at hT
    subst h1
    rw [hTe]
    simp [withoutFinalCR, h2, normalizeNewlines]
  · have hlast : (raw ++ t).getLast? = T.getLast? := by
      rw [hraw, List.getLast?_append]
      cases hg : T.getLast? with
      | none => exact absurd (List.getLast?_eq_none_iff.mp hg) hTe
      | some _ => rfl
    refine ⟨?_, by rw [hlast]⟩
    have hw : withoutFinalCR (raw ++ t) = withoutFinalCR raw ++ withoutFinalCR T := by
      rw [withoutFinalCR, hlast, hraw]
      by_cases hc : T.getLast? = some '\r'
      · rw [if_pos hc, List.dropLast_append_of_ne_nil hTe, show withoutFinalCR T = T.dropLast by
          simp [withoutFinalCR, hc]]
      · rw [if_neg hc, show withoutFinalCR T = T by simp [withoutFinalCR, hc]]
    rw [hw, norm_held]
    intro y hy hr
    rw [hr] at hT
    simp only [decide_true, if_true, List.singleton_append] at hT
    rw [← hT] at hy
    unfold withoutFinalCR at hy
    split at hy
    · cases t with
      | nil => simp at hy
      | cons a b => simpa using hy.symm
    · simpa using hy.symm

theorem norm_step_final (raw t : Text) :
    normalizeNewlines (withoutFinalCR raw) ++
      normalizeNewlines ((if decide (raw.getLast? = some '\r') then ['\r'] else []) ++ t) =
      normalizeNewlines (raw ++ t) := by
  have e : raw ++ t = withoutFinalCR raw ++ ((if decide (raw.getLast? = some '\r') then ['\r'] else []) ++ t) := by
    rw [← List.append_assoc, ← split_final_cr]
  rw [e, norm_held]
  intro y hy hr
  rw [hr] at hy
  simpa using hy.symm

/-- What a prompt's state says about the bytes it has read, when `X` has been taken out of it. -/
structure PInv (d0 : Decoder) (X : Text) (p : PS) : Prop where
  step : p.dec.step = d0.step
  errors : p.dec.errors = d0.errors
  norm : p.dec.normalize = d0.normalize
  text : ∀ raw rest, decodeLoop d0.step d0.errors p.atEof p.got.flatten = .ok (raw, rest) →
    (p.atEof = false → p.dec.buffer = rest ∧
      p.dec.pendingcr = (d0.normalize && decide (raw.getLast? = some '\r'))) ∧
    X ++ p.pending =
      if d0.normalize then normalizeNewlines (if p.atEof then raw else withoutFinalCR raw) else raw

theorem PInv.received {d0 X p T} (h : PInv d0 X p)
    (hT : receivedText d0 p.got.flatten p.atEof = .ok T) : X ++ p.pending = T := by
  unfold receivedText at hT
  cases hd : decodeLoop d0.step d0.errors p.atEof p.got.flatten with
  | error e => rw [hd] at hT; cases hT
  | ok q =>
    obtain ⟨raw, rest⟩ := q
    rw [hd] at hT
    simp only [Except.map, Except.ok.injEq] at hT
    rw [← hT]
    exact (h.text raw rest hd).2

theorem PInv.fresh (d0 : Decoder) : PInv d0 [] (freshPrompt d0) := by
  refine ⟨rfl, rfl, rfl, ?_⟩
  intro raw rest h
  simp only [freshPrompt, List.flatten_nil, decodeLoop, Except.ok.injEq, Prod.mk.injEq] at h
  obtain ⟨rfl, rfl⟩ := h
  simp [freshPrompt, withoutFinalCR, normalizeNewlines]

/-- The invariant only looks at these fields. -/
theorem PInv.congr {d0 X p p'} (h : PInv d0 X p) (hd : p'.dec = p.dec) (hp : p'.pending = p.pending)
    (ha : p'.atEof = p.atEof) (hg : p'.got = p.got) : PInv d0 X p' :=
  ⟨by rw [hd]; exact h.step, by rw [hd]; exact h.errors, by rw [hd]; exact h.norm, by
    rw [hd, hp, ha, hg]; exact h.text⟩

@[simp] theorem logMsg_dec (p : PS) (cfg m) : (p.logMsg cfg m).dec = p.dec := by
  unfold PS.logMsg; split <;> rfl
@[simp] theorem logMsg_pending (p : PS) (cfg m) : (p.logMsg cfg m).pending = p.pending := by
  unfold PS.logMsg; split <;> rfl
@[simp] theorem logMsg_atEof (p : PS) (cfg m) : (p.logMsg cfg m).atEof = p.atEof := by
  unfold PS.logMsg; split <;> rfl
@[simp] theorem logMsg_got (p : PS) (cfg m) : (p.logMsg cfg m).got = p.got := by
  unfold PS.logMsg; split <;> rfl
@[simp] theorem logMsg_written (p : PS) (cfg m) : (p.logMsg cfg m).written = p.written := by
  unfold PS.logMsg; split <;> rfl
@[simp] theorem logMsg_closed (p : PS) (cfg m) : (p.logMsg cfg m).closed = p.closed := by
  unfold PS.logMsg; split <;> rfl

theorem PInv.log {d0 X p} (h : PInv d0 X p) (cfg m) : PInv d0 X (p.logMsg cfg m) :=
  h.congr (by simp) (by simp) (by simp) (by simp)

theorem readChunk_atEof (cfg : PCfg) (p : PS) (c : Bytes) :
    (p.readChunk cfg c).2.atEof = (p.atEof || c.isEmpty) := by
  simp only [PS.readChunk]
  split <;> simp

theorem readChunk_got (cfg : PCfg) (p : PS) (c : Bytes) :
    (p.readChunk cfg c).2.got = p.got ++ [c] := by
  simp only [PS.readChunk]
  split <;> simp

theorem readChunk_ok_pending (cfg : PCfg) (p p' : PS) (c : Bytes) (t : Text)
    (h : p.readChunk cfg c = (.ok t, p')) : p'.pending = p.pending ++ t := by
  simp only [PS.readChunk] at h
  split at h
  · cases h
  · cases h; simp

theorem readChunk_err_pending (cfg : PCfg) (p p' : PS) (c : Bytes) (e : Exc)
    (h : p.readChunk cfg c = (.error e, p')) : p'.pending = p.pending := by
  simp only [PS.readChunk] at h
  split at h
  · cases h; simp
  · cases h

/-- Reading a chunk keeps the invariant. -/
theorem PInv.readChunk {d0 X p} (g : GoodStep d0.step) (h : PInv d0 X p) (he : p.atEof = false)
    (cfg : PCfg) (c : Bytes) : PInv d0 X (p.readChunk cfg c).2 := by
  have hA := readChunk_atEof cfg p c
  have hG := readChunk_got cfg p c
  simp only [he, Bool.false_or] at hA
  -- the decoding of everything read, in two steps
  have happ := decodeLoop_append g d0.errors c.isEmpty p.got.flatten c
  refine ⟨?_, ?_, ?_, ?_⟩
  · simp only [PS.readChunk, Decoder.decode]; split <;> rename_i hh <;>
      (split at hh <;> first | (simp only [Prod.mk.injEq] at hh; rw [← hh.2]) | (split at hh <;> (cases hh))) <;>
      simpa using h.step
  · simp only [PS.readChunk, Decoder.decode]; split <;> rename_i hh <;>
      (split at hh <;> first | (simp only [Prod.mk.injEq] at hh; rw [← hh.2]) | (split at hh <;> (cases hh))) <;>
      simpa using h.errors
  · simp only [PS.readChunk, Decoder.decode]; split <;> rename_i hh <;>
      (split at hh <;> first | (simp only [Prod.mk.injEq] at hh; rw [← hh.2]) | (split at hh <;> (cases hh))) <;>
      simpa using h.norm
  · intro raw' rest' hd
    rw [hG, hA, List.flatten_append, List.flatten_singleton, happ] at hd
    cases hd1 : decodeLoop d0.step d0.errors false p.got.flatten with
    | error e => rw [hd1] at hd; cases hd
    | ok q =>
      obtain ⟨raw, rest⟩ := q
      rw [hd1] at hd
      simp only at hd
      have hI := h.text raw rest (by rw [he]; exact hd1)
      obtain ⟨hb, hcr⟩ := hI.1 he
      cases hd2 : decodeLoop d0.step d0.errors c.isEmpty (rest ++ c) with
      | error e => rw [hd2] at hd; cases hd
      | ok q2 =>
        obtain ⟨t, r⟩ := q2
        rw [hd2] at hd
        simp only [Except.ok.injEq, Prod.mk.injEq] at hd
        obtain ⟨rfl, rfl⟩ := hd
        have hIt := hI.2
        rw [he] at hIt
        simp only [Bool.false_eq_true, if_false] at hIt
        have hstep := h.step
        have herr := h.errors
        have hnorm := h.norm
        rw [hA]
        simp only [PS.readChunk, Decoder.decode, incDecode, logMsg_dec, logMsg_atEof, he, Bool.false_or,
          hstep, herr, hnorm, hb, hd2]
        cases hn : d0.normalize with
        | false =>
          simp only [hn, Bool.false_eq_true, if_false, Bool.false_and, logMsg_pending] at hIt hcr ⊢
          exact ⟨fun _ => ⟨trivial, by rw [← hcr]⟩, by rw [← List.append_assoc, hIt]⟩
        | true =>
          simp only [hn, if_true, Bool.true_and, logMsg_pending] at hIt hcr ⊢
          rw [hcr]
          cases hce : c.isEmpty with
          | false =>
            simp only [nlDecode_false, Bool.false_eq_true, if_false]
            exact ⟨fun _ => ⟨trivial, (norm_step raw t).2⟩, by
              rw [← List.append_assoc, hIt]; exact (norm_step raw t).1⟩
          | true =>
            simp only [nlDecode_true, if_true]
            exact ⟨fun h => absurd h (by decide), by
              rw [← List.append_assoc, hIt]; exact norm_step_final raw t⟩

/-- Searching keeps it: what is taken out moves from `pending` to the text taken. -/
theorem PInv.search {d0 X p} (h : PInv d0 X p) (cfg : PCfg) (pat : Pattern) (hw : SpanPattern pat)
    {t m p'} (hs : p.searchPending cfg pat = some (t, m, p')) : PInv d0 (X ++ (t ++ m)) p' := by
  simp only [PS.searchPending] at hs
  split at hs
  · cases hs
  · rename_i i j hp
    have hij := (hw _ _ _ hp).1
    simp only [Option.some.injEq, Prod.mk.injEq] at hs
    obtain ⟨rfl, rfl, rfl⟩ := hs
    have hsplit : p.pending.take i ++ (p.pending.drop i).take (j - i) ++ p.pending.drop j = p.pending := by
      rw [List.append_assoc]
      have : p.pending.drop j = (p.pending.drop i).drop (j - i) := by
        rw [List.drop_drop]; congr 1; omega
      rw [this, List.take_append_drop, List.take_append_drop]
    refine PInv.log (p := { p with pending := p.pending.drop j }) ⟨h.step, h.errors, h.norm, ?_⟩ _ _
    intro raw rest hd
    refine ⟨(h.text raw rest hd).1, ?_⟩
    rw [List.append_assoc]
    simp only
    rw [hsplit]
    exact (h.text raw rest hd).2

/-- The invariant while the reader task of `expect` runs or has finished with `r`. -/
def MatchInv (d0 : Decoder) (X : Text) (r : Option MatchRes) (p : PS) : Prop :=
  match r with
  | some (.ok (t, m)) => PInv d0 (X ++ (t ++ m)) p
  | some (.error _) => PInv d0 X p
  | none => PInv d0 X p ∧ p.atEof = false

theorem patStep_inv {d0 X p} (g : GoodStep d0.step) (h : PInv d0 X p) (he : p.atEof = false)
    (cfg : PCfg) (pat : Pattern) (hw : SpanPattern pat) (c : Bytes) :
    MatchInv d0 X (patStep cfg pat p c).2 (patStep cfg pat p c).1 := by
  have hI := h.readChunk g he cfg c
  simp only [patStep]
  split
  · rename_i e p' hr
    rw [hr] at hI; exact hI
  · rename_i data p' hr
    rw [hr] at hI
    split
    · rename_i hc
      simp only [Bool.and_eq_true, Bool.not_eq_true'] at hc
      exact ⟨hI, hc.2⟩
    · split
      · rename_i t m p'' hs
        exact hI.search cfg pat hw hs
      · split
        · exact hI
        · rename_i hc
          exact ⟨hI, by simpa using hc⟩

theorem expectLoop_inv {d0} (g : GoodStep d0.step) (cfg : PCfg) (pat : Pattern) (hw : SpanPattern pat)
    (timer : Bool) (evs : List PEv) : ∀ (r : Option MatchRes) (X : Text) (p : PS), MatchInv d0 X r p →
      PInv d0 (X ++ taken (expectLoop cfg pat timer evs r p).1) (expectLoop cfg pat timer evs r p).2.1 := by
  induction evs with
  | nil =>
    intro r X p h
    rcases r with _ | ⟨e | ⟨t, m⟩⟩
    · simpa [expectLoop, taken] using h.1
    · simpa [expectLoop, taken, MatchInv] using h
    · simpa [expectLoop, taken, MatchInv] using h
  | cons ev evs ih =>
    intro r X p h
    rcases r with _ | ⟨e | ⟨t, m⟩⟩
    · obtain ⟨hI, he⟩ := h
      cases ev with
      | read c => exact ih _ _ _ (patStep_inv g hI he cfg pat hw c)
      | readErr e => exact ih _ _ _ hI
      | timeout =>
        simp only [expectLoop]
        split
        · simpa [taken] using hI.log _ _
        · exact ih _ _ _ ⟨hI, he⟩
      | cancel => simpa [expectLoop, taken] using hI.log _ _
      | resume => exact ih _ _ _ ⟨hI, he⟩
      | drained => exact ih _ _ _ ⟨hI, he⟩
      | drainErr e => exact ih _ _ _ ⟨hI, he⟩
    · cases ev <;> first | exact ih _ _ _ h | simpa [expectLoop, taken, MatchInv] using h
    · cases ev <;> first | exact ih _ _ _ h | simpa [expectLoop, taken, MatchInv] using h

theorem searchAlts_span (alts : List Text) (t : Text) : ∀ (k i j : Nat),
    searchAlts alts k t = some (i, j) → k ≤ i ∧ i ≤ j ∧ j ≤ k + t.length := by
  induction t with
  | nil =>
    intro k i j h
    simp only [searchAlts] at h
    split at h
    · rename_i a ha
      have := List.find?_some ha
      simp only [List.isPrefixOf_iff_prefix, List.prefix_nil] at this
      subst this
      simp at h; obtain ⟨rfl, rfl⟩ := h; simp
    · cases h
  | cons c t ih =>
    intro k i j h
    simp only [searchAlts] at h
    split at h
    · rename_i a ha
      have := List.find?_some ha
      simp only [List.isPrefixOf_iff_prefix] at this
      have := this.length_le
      simp at h; obtain ⟨rfl, rfl⟩ := h
      exact ⟨Nat.le_refl _, by omega, by omega⟩
    · have := ih _ _ _ h
      simp only [List.length_cons]; omega

theorem exactPattern_span (s : Text) : SpanPattern (exactPattern s) := by
  intro t i j h
  have := searchAlts_span _ _ _ _ _ h
  omega

theorem exactListPattern_span (ss : List Text) : SpanPattern (exactListPattern ss) := by
  intro t i j h
  have := searchAlts_span _ _ _ _ _ h
  omega

theorem compileDefault_span {arg : PromptArg} (h : SpanArg arg) {p} (hp : compileDefault arg = some p) :
    SpanPattern p := by
  cases arg with
  | none => cases hp
  | str s => cases hp; exact exactPattern_span s
  | list ss => cases hp; exact exactListPattern_span ss
  | regex q => cases hp; exact h

theorem resolvePrompt_span {dflt : Option Pattern} (hd : ∀ p, dflt = some p → SpanPattern p)
    {arg : PromptArg} (h : SpanArg arg) {p} (hp : resolvePrompt dflt arg = .ok p) : SpanPattern p := by
  cases arg with
  | none =>
    simp only [resolvePrompt] at hp
    split at hp
    · cases hp
    · cases hp; exact hd _ rfl
  | str s => cases hp; exact exactPattern_span s
  | list ss => cases hp; exact exactListPattern_span ss
  | regex q => cases hp; exact h

theorem expectPat_inv {d0 X p} (g : GoodStep d0.step) (cfg : PCfg) (pat : Pattern) (hw : SpanPattern pat)
    (timeout : Option Nat) (evs : List PEv) (h : PInv d0 X p) :
    PInv d0 (X ++ taken (expectPat cfg pat timeout evs p).1) (expectPat cfg pat timeout evs p).2.1 := by
  simp only [expectPat]
  split
  · rename_i t m p' hs
    split at hs
    · cases hs
    · exact h.search cfg pat hw hs
  · split
    · simpa [taken] using h
    · rename_i hc
      exact expectLoop_inv g cfg pat hw _ evs none X p ⟨h, by simpa using hc⟩

theorem expect_inv {d0 X p} (g : GoodStep d0.step) (cfg : PCfg)
    (hd : ∀ q, cfg.dflt = some q → SpanPattern q) (arg : PromptArg) (ha : SpanArg arg)
    (timeout : Option Nat) (evs : List PEv) (h : PInv d0 X p) :
    PInv d0 (X ++ taken (expect cfg arg timeout evs p).1) (expect cfg arg timeout evs p).2.1 := by
  simp only [expect]
  split
  · simpa [taken] using h
  · rename_i pat hp
    exact expectPat_inv g cfg pat (resolvePrompt_span hd ha hp) timeout evs h

theorem readPending_inv {d0 X p} (h : PInv d0 X p) :
    PInv d0 (X ++ taken (readPending p).1) (readPending p).2 := by
  refine ⟨h.step, h.errors, h.norm, ?_⟩
  intro raw rest hd
  refine ⟨(h.text raw rest hd).1, ?_⟩
  have := (h.text raw rest hd).2
  simp only [readPending, taken, List.append_nil]
  exact this

theorem someStep_inv {d0 X p} (g : GoodStep d0.step) (h : PInv d0 X p) (he : p.atEof = false)
    (cfg : PCfg) (c : Bytes) :
    PInv d0 X (someStep cfg p c).1 ∧ ((someStep cfg p c).2 = none → (someStep cfg p c).1.atEof = false) := by
  have hI := h.readChunk g he cfg c
  simp only [someStep]
  split
  · rename_i e p' hr
    rw [hr] at hI; exact ⟨hI, by simp⟩
  · rename_i data p' hr
    rw [hr] at hI
    refine ⟨hI, ?_⟩
    intro h
    simp only at h
    split at h
    · cases h
    · rename_i hc; simpa using hc

theorem readAllLoop_inv {d0} (g : GoodStep d0.step) (cfg : PCfg) (timer : Bool) (evs : List PEv) :
    ∀ (r : Option (Except Exc Unit)) (X : Text) (p : PS), PInv d0 X p → (r = none → p.atEof = false) →
      PInv d0 (X ++ taken (readAllLoop cfg timer evs r p).1) (readAllLoop cfg timer evs r p).2.1 := by
  induction evs with
  | nil => intro r X p h _; simpa [readAllLoop, taken] using h
  | cons ev evs ih =>
    intro r X p h he
    rcases r with _ | ⟨e | u⟩
    · have he := he rfl
      cases ev with
      | read c => exact ih _ _ _ (someStep_inv g h he cfg c).1 (someStep_inv g h he cfg c).2
      | readErr e => exact ih _ _ _ h (by simp)
      | timeout =>
        simp only [readAllLoop]
        split
        · simpa [taken] using h
        · exact ih _ _ _ h (fun _ => he)
      | cancel => simpa [readAllLoop, taken] using h
      | resume => exact ih _ _ _ h (fun _ => he)
      | drained => exact ih _ _ _ h (fun _ => he)
      | drainErr e => exact ih _ _ _ h (fun _ => he)
    · cases ev <;> first | exact ih _ _ _ h (by simp) | simpa [readAllLoop, taken] using h
    · cases ev <;> first
        | exact ih _ _ _ h (by simp)
        | exact readPending_inv h
        | simpa [readAllLoop, taken] using h

theorem readAll_inv {d0 X p} (g : GoodStep d0.step) (cfg : PCfg) (timeout : Option Nat)
    (evs : List PEv) (h : PInv d0 X p) :
    PInv d0 (X ++ taken (readAll cfg timeout evs p).1) (readAll cfg timeout evs p).2.1 := by
  simp only [readAll]
  split
  · exact readPending_inv h
  · rename_i hc
    exact readAllLoop_inv g cfg _ evs none X p h (fun _ => by simpa using hc)

theorem drainLoop_inv {d0} (g : GoodStep d0.step) (cfg : PCfg) (timer : Bool) (evs : List PEv) :
    ∀ (r : DrainReader) (X : Text) (p : PS), PInv d0 X p → (r = .running → p.atEof = false) →
      PInv d0 (X ++ taken (drainLoop cfg timer evs r p).1) (drainLoop cfg timer evs r p).2.1 := by
  induction evs with
  | nil => intro r X p h _; simpa [drainLoop, taken] using h
  | cons ev evs ih =>
    intro r X p h he
    cases ev with
    | read c =>
      cases r with
      | running =>
        have hs := someStep_inv g h (he rfl) cfg c
        refine ih _ _ _ hs.1 ?_
        intro hr
        apply hs.2
        split at hr
        · cases hr
        · rename_i hn; simpa using hn
      | notStarted => exact ih _ _ _ h he
      | finished => exact ih _ _ _ h he
    | readErr e =>
      cases r with
      | running => exact ih _ _ _ h (by simp)
      | notStarted => exact ih _ _ _ h he
      | finished => exact ih _ _ _ h he
    | timeout =>
      simp only [drainLoop]
      split
      · simpa [taken] using h
      · exact ih _ _ _ h he
    | cancel => simpa [drainLoop, taken] using h
    | resume =>
      cases r with
      | notStarted =>
        refine ih _ _ _ h ?_
        intro hr
        simp only [drainStart] at hr
        split at hr
        · cases hr
        · rename_i hn; simpa using hn
      | running => exact ih _ _ _ h he
      | finished => exact ih _ _ _ h he
    | drained => simpa [drainLoop, taken] using h
    | drainErr e => cases r <;> simpa [drainLoop, taken] using h

theorem sendNow_inv {d0 X p} (g : GoodStep d0.step) (cfg : PCfg) (t : SendText) (e : Option Text)
    (n : Bool) (timeout : Option Nat) (evs : List PEv) (h : PInv d0 X p) :
    PInv d0 (X ++ taken (sendNow cfg t e n timeout evs p).1) (sendNow cfg t e n timeout evs p).2.1 := by
  simp only [sendNow]
  split
  · simpa [taken] using h
  · exact drainLoop_inv g cfg _ evs _ _ _ (h.congr (by simp) (by simp) (by simp) (by simp)) (by simp)

theorem pollEcho_taken (cfg : PCfg) (n : Nat) (polls : List Poll) (o : POut)
    (h : pollEcho cfg n polls = some o) : taken o = [] := by
  induction n generalizing polls with
  | zero =>
    rcases polls with _ | ⟨_ | _, _⟩ <;> (cases h; rfl)
  | succ n ih =>
    rcases polls with _ | ⟨on | _, ps⟩
    · cases h; rfl
    · simp only [pollEcho] at h
      split at h
      · exact ih _ h
      · cases h
    · cases h; rfl

theorem send_inv {d0 X p} (g : GoodStep d0.step) (cfg : PCfg) (t : SendText) (e : Option Text)
    (n : Bool) (timeout : Option Nat) (polls : List Poll) (evs : List PEv) (h : PInv d0 X p) :
    PInv d0 (X ++ taken (send cfg t e n timeout polls evs p).1) (send cfg t e n timeout polls evs p).2.1 := by
  simp only [send, waitNoEcho]
  split
  · split
    · rename_i o p' ho
      simp only [Prod.mk.injEq] at ho
      rw [pollEcho_taken _ _ _ _ ho.1, List.append_nil, ← ho.2]
      exact h.log _ _
    · rename_i p' ho
      simp only [Prod.mk.injEq] at ho
      rw [← ho.2]
      exact sendNow_inv g cfg t e n timeout evs (h.log _ _)
  · exact sendNow_inv g cfg t e n timeout evs h

theorem expect_eof_nodrop (cfg : PCfg) (arg : PromptArg) (timeout : Option Nat) (evs : List PEv) (p : PS)
    (e : Exc) (d : Text) (h : (expect cfg arg timeout evs p).1 = .exc e d) (he : e ≠ .cancelled) : d = [] := by
  simp only [expect] at h
  split at h
  · cases h; rfl
  · rename_i pat _
    simp only [expectPat] at h
    split at h
    · cases h
    · split at h
      · cases h; rfl
      · generalize timerSet cfg timeout = timer at h
        generalize hr : (none : Option MatchRes) = r at h
        clear hr
        rename_i hp1 hp2; clear hp1 hp2
        induction evs generalizing r p with
        | nil =>
          rcases r with _ | ⟨_ | ⟨_, _⟩⟩ <;> cases h
        | cons ev evs ih =>
          rcases r with _ | ⟨e' | ⟨t, m⟩⟩ <;> cases ev <;>
            first
            | exact ih _ _ h
            | (cases h <;> first | rfl | exact absurd rfl he)
            | (simp only [expectLoop] at h; split at h
               · cases h; rfl
               · exact ih _ _ h)

theorem command_inv {d0 X p} (g : GoodStep d0.step) (cfg : PCfg)
    (hd : ∀ q, cfg.dflt = some q → SpanPattern q) (t : SendText) (e : Option Text) (n : Bool)
    (arg : PromptArg) (ha : SpanArg arg) (timeout : Option Nat) (a : Bool) (polls : List Poll)
    (evs : List PEv) (h : PInv d0 X p) :
    PInv d0 (X ++ taken (command cfg t e n arg timeout a polls evs p).1)
      (command cfg t e n arg timeout a polls evs p).2.1 := by
  simp only [command]
  split
  · simpa [taken] using h
  · have hs := send_inv g cfg t e n timeout polls evs h
    split
    · rename_i p' evs' he
      rw [he] at hs
      simp only [taken, List.append_nil] at hs
      have hx := expect_inv g cfg hd arg ha timeout evs' hs
      have hnd := expect_eof_nodrop cfg arg timeout evs' p'
      generalize expect cfg arg timeout evs' p' = r at *
      obtain ⟨o, p2, evs2⟩ := r
      simp only [commandEnd]
      split
      · rename_i dd pp ee hh
        cases hh
        have := hnd _ _ rfl (by decide)
        subst this
        split
        · simp only [taken, List.append_nil] at hx
          exact readPending_inv hx
        · exact hx
      · exact hx
    · exact hs

theorem close_inv {d0 X p} (cfg : PCfg) (h : PInv d0 X p) : PInv d0 X (promptClose cfg p) := by
  simp only [promptClose]
  split
  · exact h.congr (by simp) (by simp) (by simp) (by simp)
  · exact h.congr (by simp) (by simp) (by simp) (by simp)

theorem op_inv {d0 X p} (g : GoodStep d0.step) (cfg : PCfg)
    (hd : ∀ q, cfg.dflt = some q → SpanPattern q) (op : POp) (ho : SpanOp op) (polls : List Poll)
    (evs : List PEv) (h : PInv d0 X p) :
    PInv d0 (X ++ taken (op.run cfg polls evs p).1) (op.run cfg polls evs p).2 := by
  cases op with
  | expect arg t => exact expect_inv g cfg hd arg ho t evs h
  | readAll t => exact readAll_inv g cfg t evs h
  | readPending => exact readPending_inv h
  | send t e n to => exact send_inv g cfg t e n to polls evs h
  | command t e n arg to a => exact command_inv g cfg hd t e n arg ho to a polls evs h
  | close => simpa [POp.run, taken] using close_inv cfg h

theorem session_inv {d0} (g : GoodStep d0.step) (cfg : PCfg)
    (hd : ∀ q, cfg.dflt = some q → SpanPattern q) (cs : List PCall) :
    ∀ (X : Text) (p : PS), (∀ c ∈ cs, SpanOp c.op) → PInv d0 X p →
      PInv d0 (X ++ (session cfg cs p).1.flatMap taken) (session cfg cs p).2 := by
  induction cs with
  | nil => intro X p _ h; simpa [session] using h
  | cons c cs ih =>
    intro X p hw h
    have h1 := op_inv g cfg hd c.op (hw c (by simp)) c.polls c.evs h
    have h2 := ih _ _ (fun c hc => hw c (by simp [hc])) h1
    simpa [session, List.flatMap_cons, List.append_assoc] using h2

end Shellous.Props
