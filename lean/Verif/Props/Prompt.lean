import Verif.Lemmas.PromptSearch

/-!
# C48-C51: the prompt API keeps the text and finds the prompts
-/

namespace Shellous.Props

open Shellous

/-! ## C48 -/

/-- **C48.** At every moment of every session, the text taken by the calls so far (including what was
lost), followed by `pending`, is the text of the bytes read from the co-process so far. -/
theorem C48_exact_account (d : Decoder) (g : GoodStep d.step) (cfg : PCfg)
    (hd : ∀ q, cfg.dflt = some q → SpanPattern q) (calls : List PCall)
    (hw : ∀ c ∈ calls, SpanOp c.op) (T : Text)
    (hT : receivedText d (session cfg calls (freshPrompt d)).2.got.flatten
      (session cfg calls (freshPrompt d)).2.atEof = .ok T) :
    (session cfg calls (freshPrompt d)).1.flatMap taken ++
      (session cfg calls (freshPrompt d)).2.pending = T := by
  have h := session_inv g cfg hd calls [] (freshPrompt d) hw (PInv.fresh d)
  exact h.received hT

/-- The text a call gave to its caller, with the prompt in its place. -/
def returned : POut → Text
  | .matched t m => t ++ m
  | .text t => t
  | _ => []

/-- **C48**, as stated, for sessions in which no call lost text. Missing: see `C48_cancel_race_false`
and `C48_decode_error_false`. -/
theorem C48_text_preserved_partial (d : Decoder) (g : GoodStep d.step) (cfg : PCfg)
    (hd : ∀ q, cfg.dflt = some q → SpanPattern q) (calls : List PCall)
    (hw : ∀ c ∈ calls, SpanOp c.op)
    (hl : ∀ o ∈ (session cfg calls (freshPrompt d)).1, Lossless o) (T : Text)
    (hT : receivedText d (session cfg calls (freshPrompt d)).2.got.flatten
      (session cfg calls (freshPrompt d)).2.atEof = .ok T) :
    (session cfg calls (freshPrompt d)).1.flatMap returned ++
      (session cfg calls (freshPrompt d)).2.pending = T := by
  rw [← C48_exact_account d g cfg hd calls hw T hT]
  congr 1
  generalize (session cfg calls (freshPrompt d)).1 = outs at hl
  induction outs with
  | nil => rfl
  | cons o os ih =>
    simp only [List.flatMap_cons]
    rw [ih (fun o ho => hl o (by simp [ho]))]
    congr 1
    have := hl o (by simp)
    cases o <;> first | rfl | exact this.symm

/-- Without an error handler that raises, decoding never fails, so C48 has no decoding hypothesis. -/
theorem received_total (d : Decoder) (h : d.errors ≠ .strict) (b : Bytes) (f : Bool) :
    ∃ T, receivedText d b f = .ok T := by
  have key : ∀ n (b : Bytes), b.length = n → ∃ r, decodeLoop d.step d.errors f b = .ok r := by
    intro n
    induction n using Nat.strongRecOn with
    | ind n ih =>
      intro b hn
      have hs : ∃ t, d.errors.subst = some t := by
        cases he : d.errors with
        | strict => exact absurd he h
        | replace => exact ⟨_, rfl⟩
        | ignore => exact ⟨_, rfl⟩
      obtain ⟨t, ht⟩ := hs
      cases b with
      | nil => exact ⟨_, by rw [decodeLoop]⟩
      | cons x xs =>
        rw [decodeLoop]
        split
        · split
          · rw [ht]; exact ⟨_, rfl⟩
          · exact ⟨_, rfl⟩
        · rename_i k _
          rw [ht]
          obtain ⟨r, hr⟩ := ih (xs.drop k).length (by simp at hn ⊢; omega) _ rfl
          rw [hr]; exact ⟨_, rfl⟩
        · rename_i k _
          obtain ⟨r, hr⟩ := ih (xs.drop k).length (by simp at hn ⊢; omega) _ rfl
          rw [hr]; exact ⟨_, rfl⟩
  obtain ⟨r, hr⟩ := key _ b rfl
  exact ⟨_, by rw [receivedText, hr]; rfl⟩

/-- A UTF-8 prompt with the given error handler. -/
def utf8Prompt (errors : Errors) : Decoder := { step := utf8Step, errors, normalize := false }

/-- **C48** is false when a call is cancelled between the moment its reader finds the prompt and the
moment the caller is resumed: "a>" has been read, was never returned and is not pending. -/
theorem C48_cancel_race_false :
    ∃ calls : List PCall,
      (session { encode := fun _ => .ok [] } calls (freshPrompt (utf8Prompt .strict))).1 =
        [.exc .cancelled ['a', '>']] ∧
      (session { encode := fun _ => .ok [] } calls (freshPrompt (utf8Prompt .strict))).2.got.flatten =
        [0x61, 0x3E] ∧
      (session { encode := fun _ => .ok [] } calls (freshPrompt (utf8Prompt .strict))).2.pending = [] :=
  ⟨[{ op := .expect (.str ['>']) none, evs := [.read [0x61, 0x3E], .cancel] }], by decide +kernel⟩

/-- **C48** is false for strict decoding: a chunk with an ill-formed byte is lost as a whole, also the
well-formed text in it, although later chunks are received. -/
theorem C48_decode_error_false :
    ∃ calls : List PCall,
      (session { encode := fun _ => .ok [] } calls (freshPrompt (utf8Prompt .strict))).1 =
        [.exc .unicodeError, .text ['b']] ∧
      (session { encode := fun _ => .ok [] } calls (freshPrompt (utf8Prompt .strict))).2.got =
        [[0x61, 0xFF], [0x62], []] ∧
      (session { encode := fun _ => .ok [] } calls (freshPrompt (utf8Prompt .strict))).2.pending = [] :=
  ⟨[{ op := .expect (.str ['>']) none, evs := [.read [0x61, 0xFF], .resume] },
    { op := .readAll none, evs := [.read [0x62], .read [], .resume] }], by decide +kernel⟩

/-- A session that meets the hypotheses of C48: the prompt cut in two, a timeout, the rest. -/
example :
    (session { encode := fun _ => .ok [] }
      [{ op := .expect (.str ['>', '>']) none, evs := [.read [0x61, 0x3E], .read [0x3E, 0x62], .resume] },
       { op := .expect (.str ['>', '>']) (some 5), evs := [.read [0x63], .timeout] },
       { op := .readAll none, evs := [.read [0x64], .read [], .resume] }]
      (freshPrompt (utf8Prompt .strict))).1 =
    [.matched ['a'] ['>', '>'], .exc .timeout, .text ['b', 'c', 'd']] := by decide +kernel

/-! ## C49, C50: what `expect` finds -/

theorem PInv.reach {d : Decoder} (g : GoodStep d.step) {cfg : PCfg}
    (hd : ∀ q, cfg.dflt = some q → SpanPattern q) {calls : List PCall} (hw : ∀ c ∈ calls, SpanOp c.op) :
    PInv d ((session cfg calls (freshPrompt d)).1.flatMap taken) (session cfg calls (freshPrompt d)).2 := by
  simpa using session_inv g cfg hd calls [] (freshPrompt d) hw (PInv.fresh d)

/-- What has been taken and is pending is the beginning of the whole output, all of it at its end. -/
theorem PInv.whole {d : Decoder} (g : GoodStep d.step) {X : Text} {p : PS} (h : PInv d X p)
    {rest : Bytes} {T : Text} (hT : receivedText d (p.got.flatten ++ rest) true = .ok T)
    (hr : p.atEof = true → rest = []) :
    X ++ p.pending <+: T ∧ (p.atEof = true → X ++ p.pending = T) := by
  cases he : p.atEof with
  | true =>
    rw [hr he, List.append_nil] at hT
    have := h.received (by rw [he]; exact hT)
    exact ⟨by rw [this]; exact List.prefix_refl _, fun _ => this⟩
  | false =>
    obtain ⟨P, hP, hPT⟩ := received_prefix g hT
    have := h.received (by rw [he]; exact hP)
    exact ⟨by rw [this]; exact hPT, fun h => by cases h⟩

/-- How an `expect` for a stable pattern can end, for any schedule. `T` is the text of the co-process's
whole output, `X` the part taken by earlier calls. -/
theorem expectPat_outcome {d : Decoder} (g : GoodStep d.step) {X : Text} {p : PS} (h : PInv d X p)
    (cfg : PCfg) (pat : Pattern) (hw : SpanPattern pat) (hst : StablePattern pat) (h0 : pat [] = none)
    (timeout : Option Nat) (evs : List PEv) (hev : NoReadEof evs)
    (rest : Bytes) (T : Text)
    (hT : receivedText d ((expectPat cfg pat timeout evs p).2.1.got.flatten ++ rest) true = .ok T)
    (hr : (expectPat cfg pat timeout evs p).2.1.atEof = true → rest = []) :
    ∃ R, T = X ++ R ∧
      (∀ t m, (expectPat cfg pat timeout evs p).1 = .matched t m →
        pat R = some (t.length, t.length + m.length) ∧
        t ++ m ++ (expectPat cfg pat timeout evs p).2.1.pending <+: R) ∧
      (∀ e, (expectPat cfg pat timeout evs p).1 = .exc .eofError e →
        pat R = none ∧ (expectPat cfg pat timeout evs p).2.1.pending = R) := by
  have hI := expectPat_inv g cfg pat hw timeout evs h
  have hS := expectPat_spec cfg pat hw h0 timeout evs hev p
  obtain ⟨hpre, hall⟩ := hI.whole g hT hr
  rw [List.append_assoc] at hpre hall
  have hX : X <+: T := (List.prefix_append _ _).trans hpre
  obtain ⟨R, rfl⟩ := hX
  rw [List.prefix_append_right_inj] at hpre
  refine ⟨R, rfl, ?_, ?_⟩
  · intro t m hm
    rw [hm] at hpre
    simp only [taken] at hpre
    have hp := hS.1 t m hm
    obtain ⟨z, hz⟩ := hpre
    refine ⟨?_, z, hz⟩
    rw [← hz]
    exact hst _ _ _ hp
  · intro e he
    obtain ⟨ha, hn⟩ := hS.2 e he
    have := hall ha
    rw [List.append_cancel_left_eq] at this
    rw [he] at this
    have hd : e = [] := by
      have := expect_eof_nodrop cfg (.regex pat) timeout evs p .eofError e (by
        simpa [expect, resolvePrompt] using he) (by decide)
      exact this
    subst hd
    simp only [taken, List.nil_append] at this
    exact ⟨by rw [← this]; exact hn, this⟩

/-! ### When the whole output arrives -/

/-- If everything up to here decodes, reading a chunk succeeds. -/
theorem PInv.readChunk_ok {d : Decoder} (g : GoodStep d.step) {X : Text} {p : PS} (h : PInv d X p)
    (he : p.atEof = false) (cfg : PCfg) (c : Bytes) (T : Text)
    (hT : receivedText d (p.got.flatten ++ c) c.isEmpty = .ok T) :
    ∃ t, (p.readChunk cfg c).1 = .ok t := by
  unfold receivedText at hT
  rw [decodeLoop_append g] at hT
  cases hd : decodeLoop d.step d.errors false p.got.flatten with
  | error e => rw [hd] at hT; cases hT
  | ok q =>
    obtain ⟨raw, r⟩ := q
    rw [hd] at hT
    simp only at hT
    have hb := ((h.text raw r (by rw [he]; exact hd)).1 he).1
    cases hd2 : decodeLoop d.step d.errors c.isEmpty (r ++ c) with
    | error e => rw [hd2] at hT; cases hT
    | ok q2 =>
      simp only [PS.readChunk, Decoder.decode, incDecode, logMsg_dec, logMsg_atEof, he, Bool.false_or,
        h.step, h.errors, hb, hd2]
      cases p.dec.normalize <;> exact ⟨_, rfl⟩

/-- The co-process writes `chunks`, then its output ends, and nothing else happens. -/
def arrivals (chunks : List Bytes) : List PEv := chunks.map .read ++ [.read [], .resume]

theorem expectLoop_finished (cfg : PCfg) (pat : Pattern) (timer : Bool) (chunks : List Bytes) (r : MatchRes)
    (p : PS) : expectLoop cfg pat timer (arrivals chunks) (some r) p =
      (match r with | .ok (t, m) => .matched t m | .error e => .exc e, p, []) := by
  induction chunks with
  | nil => rcases r with _ | ⟨_, _⟩ <;> rfl
  | cons c cs ih => rcases r with _ | ⟨_, _⟩ <;> exact ih

theorem patStep_got (cfg : PCfg) (pat : Pattern) (p : PS) (c : Bytes) :
    (patStep cfg pat p c).1.got = p.got ++ [c] := by
  have hg := readChunk_got cfg p c
  simp only [patStep]
  split
  · rename_i hr; rw [hr] at hg; exact hg
  · rename_i hr
    rw [hr] at hg
    split
    · exact hg
    · split
      · rename_i hs
        simp only [PS.searchPending] at hs
        split at hs
        · cases hs
        · cases hs; simpa using hg
      · split <;> exact hg

theorem patStep_atEof (cfg : PCfg) (pat : Pattern) (p : PS) (c : Bytes) :
    (patStep cfg pat p c).1.atEof = (p.atEof || c.isEmpty) := by
  have hg := readChunk_atEof cfg p c
  simp only [patStep]
  split
  · rename_i hr; rw [hr] at hg; exact hg
  · rename_i hr
    rw [hr] at hg
    split
    · exact hg
    · split
      · rename_i hs
        simp only [PS.searchPending] at hs
        split at hs
        · cases hs
        · cases hs; simpa using hg
      · split <;> exact hg

/-- A read that succeeds never ends the reader task with an error other than EOFError, and the end of
the stream ends it. -/
theorem patStep_result (cfg : PCfg) (pat : Pattern) (p : PS) (c : Bytes)
    (hok : ∃ t, (p.readChunk cfg c).1 = .ok t) (he : p.atEof = false) :
    (∃ t m, (patStep cfg pat p c).2 = some (.ok (t, m))) ∨
    (c = [] ∧ (patStep cfg pat p c).2 = some (.error .eofError)) ∨
    (c ≠ [] ∧ (patStep cfg pat p c).2 = none) := by
  have ha := readChunk_atEof cfg p c
  rw [he, Bool.false_or] at ha
  simp only [patStep]
  split
  · rename_i e p' hr
    obtain ⟨t, ht⟩ := hok
    rw [hr] at ht; cases ht
  · rename_i data p' hr
    rw [hr] at ha
    simp only at ha
    rw [ha]
    split
    · rename_i hc
      simp only [Bool.and_eq_true, Bool.not_eq_true', List.isEmpty_eq_false_iff] at hc
      exact .inr (.inr ⟨hc.2, rfl⟩)
    · split
      · rename_i t m p'' _
        exact .inl ⟨t, m, rfl⟩
      · split
        · rename_i hc
          exact .inr (.inl ⟨by simpa using hc, rfl⟩)
        · rename_i hc
          exact .inr (.inr ⟨by simpa using hc, rfl⟩)

theorem expectLoop_arrivals {d : Decoder} (g : GoodStep d.step) (cfg : PCfg) (pat : Pattern)
    (hw : SpanPattern pat) (timer : Bool) (chunks : List Bytes) (T : Text) : ∀ (X : Text) (p : PS),
    PInv d X p → p.atEof = false → (∀ c ∈ chunks, c ≠ []) →
    receivedText d (p.got.flatten ++ chunks.flatten) true = .ok T →
    ∃ rest, (expectLoop cfg pat timer (arrivals chunks) none p).2.1.got.flatten ++ rest =
        p.got.flatten ++ chunks.flatten ∧
      ((expectLoop cfg pat timer (arrivals chunks) none p).2.1.atEof = true → rest = []) ∧
      ((∃ t m, (expectLoop cfg pat timer (arrivals chunks) none p).1 = .matched t m) ∨
       (expectLoop cfg pat timer (arrivals chunks) none p).1 = .exc .eofError) := by
  induction chunks with
  | nil =>
    intro X p h he _ hT
    have hok := h.readChunk_ok g he cfg [] T (by simpa using hT)
    have hgot := patStep_got cfg pat p []
    have hres := patStep_result cfg pat p [] hok he
    simp only [arrivals, List.map_nil, List.nil_append, expectLoop]
    rcases hres with ⟨t, m, hr⟩ | ⟨-, hr⟩ | ⟨hc, -⟩
    · rw [hr]
      exact ⟨[], by simp [expectLoop, hgot], fun _ => rfl, .inl ⟨t, m, rfl⟩⟩
    · rw [hr]
      exact ⟨[], by simp [expectLoop, hgot], fun _ => rfl, .inr rfl⟩
    · exact absurd rfl hc
  | cons c cs ih =>
    intro X p h he hne hT
    have hcne := hne c (by simp)
    have hce : c.isEmpty = false := by simpa using hcne
    have hgot := patStep_got cfg pat p c
    have hat := patStep_atEof cfg pat p c
    rw [he, hce, Bool.false_or] at hat
    rw [List.flatten_cons, ← List.append_assoc] at hT
    obtain ⟨P, hP, -⟩ := received_prefix g hT
    have hok := h.readChunk_ok g he cfg c P (by rw [hce]; exact hP)
    have hres := patStep_result cfg pat p c hok he
    have hev : arrivals (c :: cs) = .read c :: arrivals cs := rfl
    rw [hev]
    simp only [expectLoop]
    rcases hres with ⟨t, m, hr⟩ | ⟨hc, -⟩ | ⟨-, hr⟩
    · rw [hr, expectLoop_finished]
      exact ⟨cs.flatten, by simp [hgot], fun h => by simp [hat] at h, .inl ⟨t, m, rfl⟩⟩
    · exact absurd hc hcne
    · rw [hr]
      have hI := patStep_inv g h he cfg pat hw c
      rw [hr] at hI
      obtain ⟨rest, h1, h2, h3⟩ := ih X _ hI.1 hat (fun c hc => hne c (by simp [hc])) (by
        rw [hgot]; simpa using hT)
      exact ⟨rest, by rw [h1, hgot]; simp, h2, h3⟩

/-- The whole output arrives, in any chunks: the result of `expect` is the result of searching the text
that earlier calls have not taken. -/
theorem expectPat_complete {d : Decoder} (g : GoodStep d.step) {X : Text} {p : PS} (h : PInv d X p)
    (cfg : PCfg) (pat : Pattern) (hw : SpanPattern pat) (hst : StablePattern pat) (h0 : pat [] = none)
    (timeout : Option Nat) (chunks : List Bytes) (hne : ∀ c ∈ chunks, c ≠ [])
    (hend : p.atEof = true → chunks = []) (T : Text)
    (hT : receivedText d (p.got.flatten ++ chunks.flatten) true = .ok T) :
    ∃ R, T = X ++ R ∧
      (expectPat cfg pat timeout (arrivals chunks) p).1 =
        (match pat R with
         | some (i, j) => .matched (R.take i) ((R.drop i).take (j - i))
         | none => .exc .eofError) ∧
      receivedText d (expectPat cfg pat timeout (arrivals chunks) p).2.1.got.flatten
        (expectPat cfg pat timeout (arrivals chunks) p).2.1.atEof =
        .ok (X ++ taken (expectPat cfg pat timeout (arrivals chunks) p).1 ++
          (expectPat cfg pat timeout (arrivals chunks) p).2.1.pending) ∧
      (pat R = none → (expectPat cfg pat timeout (arrivals chunks) p).2.1.pending = R ∧
        (expectPat cfg pat timeout (arrivals chunks) p).2.1.atEof = true) := by
  have key : ∃ rest, (expectPat cfg pat timeout (arrivals chunks) p).2.1.got.flatten ++ rest =
        p.got.flatten ++ chunks.flatten ∧
      ((expectPat cfg pat timeout (arrivals chunks) p).2.1.atEof = true → rest = []) ∧
      ((∃ t m, (expectPat cfg pat timeout (arrivals chunks) p).1 = .matched t m) ∨
       (expectPat cfg pat timeout (arrivals chunks) p).1 = .exc .eofError) := by
    simp only [expectPat]
    split
    · rename_i t m p' hs
      split at hs
      · cases hs
      · simp only [PS.searchPending] at hs
        split at hs
        · cases hs
        · cases hs
          refine ⟨chunks.flatten, by simp, ?_, .inl ⟨_, _, rfl⟩⟩
          intro he
          simp only [logMsg_atEof] at he
          rw [hend he]; rfl
    · split
      · rename_i he
        exact ⟨chunks.flatten, rfl, fun _ => by rw [hend he]; rfl, .inr rfl⟩
      · rename_i he
        exact expectLoop_arrivals g cfg pat hw _ chunks T X p h (by simpa using he) hne hT
  obtain ⟨rest, h1, h2, h3⟩ := key
  have hev : NoReadEof (arrivals chunks) := by simp [NoReadEof, arrivals]
  have hT' := hT
  rw [← h1] at hT'
  obtain ⟨R, hR, hm, he⟩ := expectPat_outcome g h cfg pat hw hst h0 timeout (arrivals chunks) hev rest T hT' h2
  refine ⟨R, hR, ?_, ?_, ?_⟩
  · rcases h3 with ⟨t, m, hh⟩ | hh
    · obtain ⟨hp, z, hz⟩ := hm t m hh
      rw [hp, hh, ← hz]
      simp [List.append_assoc]
    · rw [(he _ hh).1, hh]
  · have hI := expectPat_inv g cfg pat hw timeout (arrivals chunks) h
    cases ha : (expectPat cfg pat timeout (arrivals chunks) p).2.1.atEof with
    | true =>
      rw [h2 ha, List.append_nil] at hT'
      rw [hI.received (by rw [ha]; exact hT')]
      exact hT'
    | false =>
      obtain ⟨P, hP, -⟩ := received_prefix g hT'
      rw [hI.received (by rw [ha]; exact hP)]
      exact hP
  · intro hn
    rcases h3 with ⟨t, m, hh⟩ | hh
    · rw [(hm t m hh).1] at hn; cases hn
    · exact ⟨(he _ hh).2, ((expectPat_spec cfg pat hw h0 timeout (arrivals chunks) hev p).2 _ hh).1⟩

theorem list_pat_nil (ss : List Text) (hne0 : ss ≠ []) (hne : ∀ s ∈ ss, s ≠ []) :
    exactListPattern ss [] = none := by
  rw [exactList_eq ss hne0, searchList_none_iff]
  intro i s hs ho
  exact hne s hs (by simpa [OccursAt] using ho)

/-- The result of a list search, in terms of the specification. -/
theorem list_search_result (ss : List Text) (hne0 : ss ≠ []) (hne : ∀ s ∈ ss, s ≠ []) (R : Text) :
    (∃ i a, FirstOfList ss R i a ∧ exactListPattern ss R = some (i, i + a.length) ∧
      (R.drop i).take a.length = a) ∨
    ((∀ i, ∀ s ∈ ss, ¬ OccursAt s R i) ∧ exactListPattern ss R = none) := by
  rw [exactList_eq ss hne0]
  cases hp : searchAlts ss 0 R with
  | none => exact .inr ⟨(searchList_none_iff ss R).1 hp, rfl⟩
  | some q =>
    obtain ⟨i, j⟩ := q
    obtain ⟨a, ha, rfl⟩ := (searchList_some_iff ss hne R i j).1 hp
    refine .inl ⟨i, a, ha, rfl, ?_⟩
    obtain ⟨-, n, -, ho, -⟩ := ha
    exact (List.prefix_iff_eq_take.mp ho).symm

/-- Common part of C49 and C50. -/
theorem expect_list_complete (d : Decoder) (g : GoodStep d.step) (cfg : PCfg)
    (hd : ∀ q, cfg.dflt = some q → SpanPattern q) (calls : List PCall) (hw : ∀ c ∈ calls, SpanOp c.op)
    (X : Text) (hX : X = (session cfg calls (freshPrompt d)).1.flatMap taken)
    (p : PS) (hp : p = (session cfg calls (freshPrompt d)).2)
    (ss : List Text) (hs0 : ss ≠ []) (hs : ∀ s ∈ ss, s ≠ []) (hc : ChunkSafe ss) (timeout : Option Nat)
    (chunks : List Bytes) (hne : ∀ c ∈ chunks, c ≠ []) (hend : p.atEof = true → chunks = []) (T : Text)
    (hT : receivedText d (p.got.flatten ++ chunks.flatten) true = .ok T)
    (o : POut) (p' : PS) (evs' : List PEv)
    (hrun : expectPat cfg (exactListPattern ss) timeout (arrivals chunks) p = (o, p', evs')) :
    ∃ R, T = X ++ R ∧
      ((∃ i a, FirstOfList ss R i a ∧ o = .matched (R.take i) a ∧
          receivedText d p'.got.flatten p'.atEof = .ok (X ++ R.take i ++ a ++ p'.pending)) ∨
       ((∀ i, ∀ s ∈ ss, ¬ OccursAt s R i) ∧ o = .exc .eofError ∧ p'.pending = R ∧ p'.atEof = true)) := by
  subst hX hp
  have hI := PInv.reach g hd hw (calls := calls)
  have hst := exactList_stable ss hs0 hs hc
  have h0 := list_pat_nil ss hs0 hs
  have hres := list_search_result ss hs0 hs
  obtain ⟨R, hR, ho, hrec, hno⟩ := expectPat_complete g hI cfg _ (exactListPattern_span ss) hst h0 timeout
    chunks hne hend T hT
  rw [hrun] at ho hrec hno
  simp only at ho hrec hno
  refine ⟨R, hR, ?_⟩
  rcases hres R with ⟨i, a, ha, hpat, htake⟩ | ⟨hnone, hpat⟩
  · rw [hpat] at ho
    simp only [Nat.add_sub_cancel_left, htake] at ho
    refine .inl ⟨i, a, ha, ho, ?_⟩
    rw [hrec, ho]; simp [taken, List.append_assoc]
  · rw [hpat] at ho
    exact .inr ⟨hnone, ho, hno hpat⟩

/-- **C49.** The co-process's output, of which a session has taken `X`, arrives in any chunks (cut
anywhere, also inside the prompt or a character). `expect(s)` returns the text before the first
occurrence of `s` in the rest `R` of the whole output and takes exactly through that occurrence; if `s`
does not occur it raises EOFError and everything stays pending. In particular the result does not depend
on the chunks. -/
theorem C49_first_occurrence (d : Decoder) (g : GoodStep d.step) (cfg : PCfg)
    (hd : ∀ q, cfg.dflt = some q → SpanPattern q) (calls : List PCall) (hw : ∀ c ∈ calls, SpanOp c.op)
    (X : Text) (hX : X = (session cfg calls (freshPrompt d)).1.flatMap taken)
    (p : PS) (hp : p = (session cfg calls (freshPrompt d)).2)
    (s : Text) (hs : s ≠ []) (timeout : Option Nat) (chunks : List Bytes) (hne : ∀ c ∈ chunks, c ≠ [])
    (hend : p.atEof = true → chunks = []) (T : Text)
    (hT : receivedText d (p.got.flatten ++ chunks.flatten) true = .ok T)
    (o : POut) (p' : PS) (evs' : List PEv)
    (hrun : expect cfg (.str s) timeout (arrivals chunks) p = (o, p', evs')) :
    ∃ R, T = X ++ R ∧
      ((∃ i, FirstOccurrence s R i ∧ o = .matched (R.take i) s ∧
          receivedText d p'.got.flatten p'.atEof = .ok (X ++ R.take i ++ s ++ p'.pending)) ∨
       ((∀ i, ¬ OccursAt s R i) ∧ o = .exc .eofError ∧ p'.pending = R ∧ p'.atEof = true)) := by
  obtain ⟨R, hR, h⟩ := expect_list_complete d g cfg hd calls hw X hX p hp [s] (by simp) (by simpa using hs)
    (chunkSafe_one s) timeout chunks hne hend T hT o p' evs' hrun
  refine ⟨R, hR, ?_⟩
  rcases h with ⟨i, a, ha, h1, h2⟩ | ⟨h1, h2⟩
  · obtain ⟨rfl, hf⟩ := (firstOfList_one _ _ _ _).1 ha
    exact .inl ⟨i, hf, h1, h2⟩
  · exact .inr ⟨fun i => h1 i s (by simp), h2⟩

/-- **C49.** With any other schedule (timeouts, cancellations, read errors in between), whenever
`expect(s)` returns a match it is the first occurrence of `s` in the rest of the whole output, and
whenever it raises EOFError `s` does not occur there. `rest` is output that has not been read yet. -/
theorem C49_any_schedule (d : Decoder) (g : GoodStep d.step) (cfg : PCfg)
    (hd : ∀ q, cfg.dflt = some q → SpanPattern q) (calls : List PCall) (hw : ∀ c ∈ calls, SpanOp c.op)
    (X : Text) (hX : X = (session cfg calls (freshPrompt d)).1.flatMap taken)
    (s : Text) (hs : s ≠ []) (timeout : Option Nat) (evs : List PEv) (hev : NoReadEof evs)
    (o : POut) (p' : PS) (evs' : List PEv)
    (hrun : expect cfg (.str s) timeout evs (session cfg calls (freshPrompt d)).2 = (o, p', evs'))
    (rest : Bytes) (hrest : p'.atEof = true → rest = []) (T : Text)
    (hT : receivedText d (p'.got.flatten ++ rest) true = .ok T) :
    ∃ R, T = X ++ R ∧
      (∀ t m, o = .matched t m → m = s ∧ FirstOccurrence s R t.length ∧ t = R.take t.length ∧
        t ++ s ++ p'.pending <+: R) ∧
      (∀ e, o = .exc .eofError e → (∀ i, ¬ OccursAt s R i) ∧ p'.pending = R) := by
  subst hX
  have hI := PInv.reach g hd hw (calls := calls)
  have hne' : ∀ a ∈ [s], a ≠ [] := by simpa using hs
  have hst := exactList_stable [s] (by simp) hne' (chunkSafe_one s)
  have h0 := list_pat_nil [s] (by simp) hne'
  have hrun' : expectPat cfg (exactListPattern [s]) timeout evs
      (session cfg calls (freshPrompt d)).2 = (o, p', evs') := hrun
  obtain ⟨R, hR, hm, he⟩ := expectPat_outcome g hI cfg _ (exactListPattern_span [s]) hst h0 timeout
    evs hev rest T (by rw [hrun']; exact hT) (by rw [hrun']; exact hrest)
  rw [hrun'] at hm he
  refine ⟨R, hR, ?_, ?_⟩
  · intro t m ho
    obtain ⟨hpat, z, hz⟩ := hm t m ho
    rcases list_search_result [s] (by simp) hne' R with ⟨i, a, ha, hp2, htake⟩ | ⟨-, hp2⟩
    · obtain ⟨rfl, hf⟩ := (firstOfList_one _ _ _ _).1 ha
      rw [hpat] at hp2
      simp only [Option.some.injEq, Prod.mk.injEq] at hp2
      obtain ⟨rfl, h2⟩ := hp2
      have hm' : m = a := by
        rw [← htake, ← hz]
        have : a.length = m.length := by omega
        simp [List.append_assoc, this]
      subst hm'
      refine ⟨rfl, hf, ?_, z, hz⟩
      rw [← hz]; simp [List.append_assoc]
    · rw [hpat] at hp2; cases hp2
  · intro e ho
    obtain ⟨hpat, hpend⟩ := he e ho
    refine ⟨?_, hpend⟩
    rcases list_search_result [s] (by simp) hne' R with ⟨i, a, ha, hp2, htake⟩ | ⟨hno, -⟩
    · rw [hpat] at hp2; cases hp2
    · exact fun i => hno i s (by simp)

/-- **C50**, for lists in which no string ends inside another one (other than a prefix listed before
it): the result is the leftmost string of the list, the first listed at that position, in the rest of
the whole output, whatever the chunks. Missing: other lists, for which chunking matters
(`C50_chunking_false`). -/
theorem C50_first_of_list_partial (d : Decoder) (g : GoodStep d.step) (cfg : PCfg)
    (hd : ∀ q, cfg.dflt = some q → SpanPattern q) (calls : List PCall) (hw : ∀ c ∈ calls, SpanOp c.op)
    (X : Text) (hX : X = (session cfg calls (freshPrompt d)).1.flatMap taken)
    (p : PS) (hp : p = (session cfg calls (freshPrompt d)).2)
    (ss : List Text) (hs0 : ss ≠ []) (hs : ∀ s ∈ ss, s ≠ []) (hc : ChunkSafe ss) (timeout : Option Nat)
    (chunks : List Bytes) (hne : ∀ c ∈ chunks, c ≠ []) (hend : p.atEof = true → chunks = []) (T : Text)
    (hT : receivedText d (p.got.flatten ++ chunks.flatten) true = .ok T)
    (o : POut) (p' : PS) (evs' : List PEv)
    (hrun : expect cfg (.list ss) timeout (arrivals chunks) p = (o, p', evs')) :
    ∃ R, T = X ++ R ∧
      ((∃ i a, FirstOfList ss R i a ∧ o = .matched (R.take i) a ∧
          receivedText d p'.got.flatten p'.atEof = .ok (X ++ R.take i ++ a ++ p'.pending)) ∨
       ((∀ i, ∀ s ∈ ss, ¬ OccursAt s R i) ∧ o = .exc .eofError ∧ p'.pending = R ∧ p'.atEof = true)) :=
  expect_list_complete d g cfg hd calls hw X hX p hp ss hs0 hs hc timeout chunks hne hend T hT o p' evs' hrun

/-- **C50** for every list: a match is the leftmost, first listed string in the text received when it
was found (`pending` is what follows it there). -/
theorem C50_in_received_text (cfg : PCfg) (ss : List Text) (hs0 : ss ≠ []) (hs : ∀ s ∈ ss, s ≠ [])
    (timeout : Option Nat) (evs : List PEv) (hev : NoReadEof evs) (p p' : PS) (evs' : List PEv) (t m : Text)
    (hrun : expect cfg (.list ss) timeout evs p = (.matched t m, p', evs')) :
    FirstOfList ss (t ++ m ++ p'.pending) t.length m := by
  have hrun' : expectPat cfg (exactListPattern ss) timeout evs p = (.matched t m, p', evs') := hrun
  have hspec := (expectPat_spec cfg _ (exactListPattern_span ss) (list_pat_nil ss hs0 hs) timeout evs hev p).1
    t m (by rw [hrun'])
  rw [hrun'] at hspec
  simp only at hspec
  rcases list_search_result ss hs0 hs (t ++ m ++ p'.pending) with ⟨i, a, ha, hp2, htake⟩ | ⟨-, hp2⟩
  · rw [hspec] at hp2
    simp only [Option.some.injEq, Prod.mk.injEq] at hp2
    obtain ⟨rfl, h2⟩ := hp2
    have : a.length = m.length := by omega
    have hm : m = a := by
      rw [← htake]; simp [List.append_assoc, this]
    rw [hm] at ha ⊢; exact ha
  · rw [hspec] at hp2; cases hp2

/-- **C50** is false in general: for `["abc", "ab"]` and the output "abc", the answer is "abc" if it
arrives at once and "ab" if it arrives as "ab", "c". -/
theorem C50_chunking_false :
    (expect { encode := fun _ => .ok [] } (.list [['a', 'b', 'c'], ['a', 'b']]) none
      (arrivals [[0x61, 0x62, 0x63]]) (freshPrompt (utf8Prompt .strict))).1 = .matched [] ['a', 'b', 'c'] ∧
    (expect { encode := fun _ => .ok [] } (.list [['a', 'b', 'c'], ['a', 'b']]) none
      (arrivals [[0x61, 0x62], [0x63]]) (freshPrompt (utf8Prompt .strict))).1 = .matched [] ['a', 'b'] := by
  decide +kernel

/-- The usual lists of prompts are of the kind required by `C50_first_of_list_partial`. -/
example : ChunkSafe ["Login: ".toList, "Password: ".toList, "ftp> ".toList] := by
  intro j k a b o hj hk ho hl
  have hb : b.length ≤ 10 := by
    have := List.mem_of_getElem? hk
    simp at this; rcases this with rfl | rfl | rfl <;> decide
  have ha : a ∈ ["Login: ".toList, "Password: ".toList, "ftp> ".toList] := List.mem_of_getElem? hj
  have hb' : b ∈ ["Login: ".toList, "Password: ".toList, "ftp> ".toList] := List.mem_of_getElem? hk
  have key : ∀ a ∈ ["Login: ".toList, "Password: ".toList, "ftp> ".toList],
      ∀ b ∈ ["Login: ".toList, "Password: ".toList, "ftp> ".toList],
      ∀ o < 11, a.isPrefixOf (b.drop o) = true → ¬ (o + a.length < b.length) := by decide
  exact absurd hl (key a ha b hb' o (by omega) (by simpa [OccursAt] using ho))

/-- A regular expression whose search does not change when more text arrives (the documentation asks for
such ones) is searched for in the whole output, whatever the chunks. -/
theorem C50_stable_regex (d : Decoder) (g : GoodStep d.step) (cfg : PCfg)
    (hd : ∀ q, cfg.dflt = some q → SpanPattern q) (calls : List PCall) (hw : ∀ c ∈ calls, SpanOp c.op)
    (X : Text) (hX : X = (session cfg calls (freshPrompt d)).1.flatMap taken)
    (p : PS) (hp : p = (session cfg calls (freshPrompt d)).2)
    (pat : Pattern) (hpw : SpanPattern pat) (hst : StablePattern pat) (h0 : pat [] = none)
    (timeout : Option Nat) (chunks : List Bytes) (hne : ∀ c ∈ chunks, c ≠ [])
    (hend : p.atEof = true → chunks = []) (T : Text)
    (hT : receivedText d (p.got.flatten ++ chunks.flatten) true = .ok T) :
    ∃ R, T = X ++ R ∧
      (expect cfg (.regex pat) timeout (arrivals chunks) p).1 =
        (match pat R with
         | some (i, j) => .matched (R.take i) ((R.drop i).take (j - i))
         | none => .exc .eofError) := by
  subst hX hp
  obtain ⟨R, hR, ho, -⟩ := expectPat_complete g (PInv.reach g hd hw) cfg pat hpw hst h0 timeout chunks hne
    hend T hT
  exact ⟨R, hR, ho⟩

/-! ## C51 -/

/-- What the reader task of `expect` holds. -/
def heldBy : Option MatchRes → Text
  | some (.ok (t, m)) => t ++ m
  | _ => []

theorem patStep_pending (cfg : PCfg) (pat : Pattern) (hw : SpanPattern pat) (p : PS) (c : Bytes) :
    p.pending <+: heldBy (patStep cfg pat p c).2 ++ (patStep cfg pat p c).1.pending := by
  simp only [patStep]
  split
  · rename_i hr
    simp [heldBy, readChunk_err_pending _ _ _ _ _ hr]
  · rename_i hr
    have hp := readChunk_ok_pending _ _ _ _ _ hr
    split
    · simp [heldBy, hp]
    · split
      · rename_i t m p'' hs
        have := (search_span hw hs).1
        simp only [heldBy]
        rw [← this, hp]
        exact List.prefix_append _ _
      · split <;> simp [heldBy, hp]

theorem expectLoop_pending (cfg : PCfg) (pat : Pattern) (hw : SpanPattern pat) (timer : Bool)
    (evs : List PEv) : ∀ (r : Option MatchRes) (P : Text) (p : PS), P <+: heldBy r ++ p.pending →
      P <+: taken (expectLoop cfg pat timer evs r p).1 ++ (expectLoop cfg pat timer evs r p).2.1.pending := by
  induction evs with
  | nil =>
    intro r P p h
    rcases r with _ | ⟨e | ⟨t, m⟩⟩ <;> simpa [expectLoop, taken, heldBy] using h
  | cons ev evs ih =>
    intro r P p h
    rcases r with _ | ⟨e | ⟨t, m⟩⟩
    · cases ev with
      | read c =>
        refine ih _ _ _ (List.IsPrefix.trans ?_ (patStep_pending cfg pat hw p c))
        simpa [heldBy] using h
      | timeout =>
        simp only [expectLoop]
        split
        · simpa [taken, heldBy] using h
        · exact ih _ _ _ h
      | cancel => simpa [expectLoop, taken, heldBy] using h
      | readErr e => exact ih _ _ _ h
      | resume => exact ih _ _ _ h
      | drained => exact ih _ _ _ h
      | drainErr e => exact ih _ _ _ h
    · cases ev <;> first | exact ih _ _ _ h | simpa [expectLoop, taken, heldBy] using h
    · cases ev <;> first | exact ih _ _ _ h | simpa [expectLoop, taken, heldBy] using h

/-- Nothing that was pending disappears: it is taken by the call or still pending. -/
theorem expect_pending (cfg : PCfg) (hd : ∀ q, cfg.dflt = some q → SpanPattern q) (arg : PromptArg)
    (ha : SpanArg arg) (timeout : Option Nat) (evs : List PEv) (p : PS) :
    p.pending <+: taken (expect cfg arg timeout evs p).1 ++ (expect cfg arg timeout evs p).2.1.pending := by
  simp only [expect]
  split
  · simp [taken]
  · rename_i pat hp
    have hw := resolvePrompt_span hd ha hp
    simp only [expectPat]
    split
    · rename_i t m p' hs
      split at hs
      · cases hs
      · rw [(search_span hw hs).1]; simp [taken]
    · split
      · simp [taken]
      · exact expectLoop_pending cfg pat hw _ evs none _ p (by simp [heldBy])

theorem readAllLoop_exc (cfg : PCfg) (timer : Bool) (evs : List PEv) (e : Exc) (x : Text) :
    ∀ (r : Option (Except Exc Unit)) (p : PS), (readAllLoop cfg timer evs r p).1 = .exc e x →
      x = [] ∧ p.pending <+: (readAllLoop cfg timer evs r p).2.1.pending := by
  induction evs with
  | nil => intro r p h; cases h
  | cons ev evs ih =>
    intro r p h
    rcases r with _ | ⟨e' | u⟩
    · cases ev with
      | read c =>
        have h2 := ih _ _ h
        refine ⟨h2.1, List.IsPrefix.trans ?_ h2.2⟩
        simp only [someStep]
        split
        · rename_i hr; rw [readChunk_err_pending _ _ _ _ _ hr]; exact List.prefix_refl _
        · rename_i hr; rw [readChunk_ok_pending _ _ _ _ _ hr]; exact List.prefix_append _ _
      | timeout =>
        simp only [readAllLoop] at h ⊢
        split at h
        · rename_i ht
          cases h
          rw [if_pos ht]
          exact ⟨rfl, List.prefix_refl _⟩
        · rename_i ht
          rw [if_neg ht]
          exact ih _ _ h
      | cancel => cases h; exact ⟨rfl, List.prefix_refl _⟩
      | readErr e => exact ih _ _ h
      | resume => exact ih _ _ h
      | drained => exact ih _ _ h
      | drainErr e => exact ih _ _ h
    · cases ev <;> first | exact ih _ _ h | (cases h; exact ⟨rfl, List.prefix_refl _⟩)
    · cases ev <;> first | exact ih _ _ h | (cases h <;> exact ⟨rfl, List.prefix_refl _⟩)

/-- **C51.** If `expect` fails with anything but a cancellation (timeout, EOF, read or decoding error),
everything received and not taken before is pending, and nothing has left the buffer. -/
theorem C51_expect_failure_keeps_text (d : Decoder) (g : GoodStep d.step) (cfg : PCfg)
    (hd : ∀ q, cfg.dflt = some q → SpanPattern q) (calls : List PCall) (hw : ∀ c ∈ calls, SpanOp c.op)
    (p : PS) (hp : p = (session cfg calls (freshPrompt d)).2)
    (arg : PromptArg) (ha : SpanArg arg) (timeout : Option Nat) (evs evs' : List PEv) (e : Exc) (x : Text)
    (p' : PS) (hrun : expect cfg arg timeout evs p = (.exc e x, p', evs')) (he : e ≠ .cancelled) :
    p.pending <+: p'.pending ∧
    ∀ T, receivedText d p'.got.flatten p'.atEof = .ok T →
      (session cfg calls (freshPrompt d)).1.flatMap taken ++ p'.pending = T := by
  subst hp
  have hx : x = [] := expect_eof_nodrop cfg arg timeout evs _ e x (by rw [hrun]) he
  subst hx
  have h1 := expect_pending cfg hd arg ha timeout evs (session cfg calls (freshPrompt d)).2
  rw [hrun] at h1
  refine ⟨by simpa [taken] using h1, ?_⟩
  intro T hT
  have hI := expect_inv g cfg hd arg ha timeout evs (PInv.reach g hd hw (calls := calls))
  rw [hrun] at hI
  simpa [taken] using hI.received hT

/-- **C51** for a cancelled `expect`, provided that its reader had not found the prompt already
(`C51_cancel_race_false` otherwise). -/
theorem C51_expect_cancelled_keeps_text_partial (d : Decoder) (g : GoodStep d.step) (cfg : PCfg)
    (hd : ∀ q, cfg.dflt = some q → SpanPattern q) (calls : List PCall) (hw : ∀ c ∈ calls, SpanOp c.op)
    (p : PS) (hp : p = (session cfg calls (freshPrompt d)).2)
    (arg : PromptArg) (ha : SpanArg arg) (timeout : Option Nat) (evs evs' : List PEv)
    (p' : PS) (hrun : expect cfg arg timeout evs p = (.exc .cancelled [], p', evs')) :
    p.pending <+: p'.pending ∧
    ∀ T, receivedText d p'.got.flatten p'.atEof = .ok T →
      (session cfg calls (freshPrompt d)).1.flatMap taken ++ p'.pending = T := by
  subst hp
  have h1 := expect_pending cfg hd arg ha timeout evs (session cfg calls (freshPrompt d)).2
  rw [hrun] at h1
  refine ⟨by simpa [taken] using h1, ?_⟩
  intro T hT
  have hI := expect_inv g cfg hd arg ha timeout evs (PInv.reach g hd hw (calls := calls))
  rw [hrun] at hI
  simpa [taken] using hI.received hT

/-- **C51.** If `read_all` fails in any way (also by cancellation), everything received and not taken
before is pending. -/
theorem C51_read_all_failure_keeps_text (d : Decoder) (g : GoodStep d.step) (cfg : PCfg)
    (hd : ∀ q, cfg.dflt = some q → SpanPattern q) (calls : List PCall) (hw : ∀ c ∈ calls, SpanOp c.op)
    (p : PS) (hp : p = (session cfg calls (freshPrompt d)).2)
    (timeout : Option Nat) (evs evs' : List PEv) (e : Exc) (x : Text)
    (p' : PS) (hrun : readAll cfg timeout evs p = (.exc e x, p', evs')) :
    x = [] ∧ p.pending <+: p'.pending ∧
    ∀ T, receivedText d p'.got.flatten p'.atEof = .ok T →
      (session cfg calls (freshPrompt d)).1.flatMap taken ++ p'.pending = T := by
  subst hp
  have hI := readAll_inv g cfg timeout evs (PInv.reach g hd hw (calls := calls))
  have h1 : x = [] ∧ (session cfg calls (freshPrompt d)).2.pending <+: p'.pending := by
    simp only [readAll] at hrun
    split at hrun
    · cases hrun
    · have := readAllLoop_exc cfg (timerSet cfg timeout) evs e x none _ (by rw [hrun])
      rw [hrun] at this
      exact this
  rw [hrun] at hI
  obtain ⟨rfl, h1⟩ := h1
  refine ⟨rfl, h1, ?_⟩
  intro T hT
  simpa [taken] using hI.received hT

theorem someStep_atEof (cfg : PCfg) (p : PS) (c : Bytes) :
    (someStep cfg p c).1.atEof = (p.atEof || c.isEmpty) := by
  have hg := readChunk_atEof cfg p c
  simp only [someStep]
  split <;> (rename_i hr; rw [hr] at hg; exact hg)

theorem expectLoop_atEof (cfg : PCfg) (pat : Pattern) (timer : Bool) (evs : List PEv) :
    ∀ (r : Option MatchRes) (p : PS), p.atEof = true → (expectLoop cfg pat timer evs r p).2.1.atEof = true := by
  induction evs with
  | nil => intro r p h; rcases r with _ | ⟨e | ⟨t, m⟩⟩ <;> exact h
  | cons ev evs ih =>
    intro r p h
    rcases r with _ | ⟨e | ⟨t, m⟩⟩ <;> cases ev <;> first
      | exact ih _ _ h
      | exact ih _ _ (by rw [patStep_atEof, h]; rfl)
      | (simp only [expectLoop]; split <;> first | simpa using h | exact ih _ _ h)
      | simpa [expectLoop] using h

theorem readAllLoop_atEof (cfg : PCfg) (timer : Bool) (evs : List PEv) :
    ∀ (r : Option (Except Exc Unit)) (p : PS), p.atEof = true → (readAllLoop cfg timer evs r p).2.1.atEof = true := by
  induction evs with
  | nil => intro r p h; exact h
  | cons ev evs ih =>
    intro r p h
    rcases r with _ | ⟨e | u⟩ <;> cases ev <;> first
      | exact ih _ _ h
      | exact ih _ _ (by rw [someStep_atEof, h]; rfl)
      | (simp only [readAllLoop]; split <;> first | simpa using h | exact ih _ _ h)
      | simpa [readAllLoop, readPending] using h

theorem drainLoop_atEof (cfg : PCfg) (timer : Bool) (evs : List PEv) :
    ∀ (r : DrainReader) (p : PS), p.atEof = true → (drainLoop cfg timer evs r p).2.1.atEof = true := by
  induction evs with
  | nil => intro r p h; exact h
  | cons ev evs ih =>
    intro r p h
    cases r <;> cases ev <;> first
      | exact ih _ _ h
      | exact ih _ _ (by rw [someStep_atEof, h]; rfl)
      | (simp only [drainLoop]; split <;> first | simpa using h | exact ih _ _ h)
      | simpa [drainLoop] using h

theorem expect_atEof (cfg : PCfg) (arg : PromptArg) (timeout : Option Nat) (evs : List PEv) (p : PS)
    (h : p.atEof = true) : (expect cfg arg timeout evs p).2.1.atEof = true := by
  simp only [expect]
  split
  · exact h
  · simp only [expectPat]
    split
    · rename_i hs
      split at hs
      · cases hs
      · simp only [PS.searchPending] at hs
        split at hs
        · cases hs
        · cases hs; simpa using h
    · rw [if_pos h]; exact h

theorem sendNow_atEof (cfg : PCfg) (t : SendText) (e : Option Text) (n : Bool) (timeout : Option Nat)
    (evs : List PEv) (p : PS) (h : p.atEof = true) : (sendNow cfg t e n timeout evs p).2.1.atEof = true := by
  simp only [sendNow]
  split
  · exact h
  · exact drainLoop_atEof _ _ _ _ _ (by simpa using h)

theorem send_atEof (cfg : PCfg) (t : SendText) (e : Option Text) (n : Bool) (timeout : Option Nat)
    (polls : List Poll) (evs : List PEv) (p : PS) (h : p.atEof = true) :
    (send cfg t e n timeout polls evs p).2.1.atEof = true := by
  simp only [send, waitNoEcho]
  split
  · split
    · rename_i ho
      simp only [Prod.mk.injEq] at ho
      rw [← ho.2]; simpa using h
    · rename_i ho
      simp only [Prod.mk.injEq] at ho
      rw [← ho.2]
      exact sendNow_atEof _ _ _ _ _ _ _ (by simpa using h)
  · exact sendNow_atEof _ _ _ _ _ _ _ h

theorem op_atEof (cfg : PCfg) (op : POp) (polls : List Poll) (evs : List PEv) (p : PS) (h : p.atEof = true) :
    (op.run cfg polls evs p).2.atEof = true := by
  cases op with
  | expect arg t => exact expect_atEof cfg arg t evs p h
  | readAll t => simp [POp.run, readAll, h, readPending]
  | readPending => exact h
  | send t e n to => exact send_atEof cfg t e n to polls evs p h
  | command t e n arg to a => simp [POp.run, command, h]
  | close =>
    simp only [POp.run, promptClose]
    split <;> simpa using h

theorem session_atEof (cfg : PCfg) (calls : List PCall) : ∀ p : PS, p.atEof = true →
    (session cfg calls p).2.atEof = true := by
  induction calls with
  | nil => intro p h; exact h
  | cons c cs ih => intro p h; exact ih _ (op_atEof cfg c.op c.polls c.evs p h)

/-- **C51.** Once the end of the output has been seen, every later `expect` whose pattern does not match
the pending text raises EOFError at once (no event is waited for, the text stays). -/
theorem C51_after_eof (cfg : PCfg) (p : PS) (h : p.atEof = true) (calls : List PCall) (arg : PromptArg)
    (pat : Pattern) (hpat : resolvePrompt cfg.dflt arg = .ok pat)
    (hno : pat (session cfg calls p).2.pending = none) (timeout : Option Nat) (evs : List PEv) :
    expect cfg arg timeout evs (session cfg calls p).2 = (.exc .eofError, (session cfg calls p).2, evs) := by
  have he := session_atEof cfg calls p h
  generalize (session cfg calls p).2 = q at *
  simp only [expect, hpat, expectPat]
  have : (if q.pending.isEmpty then none else q.searchPending cfg pat) = none := by
    split
    · rfl
    · simp [PS.searchPending, hno]
  rw [this]
  simp [he]

/-- **C51** is false for a cancellation that arrives after the prompt was found (see C48). -/
theorem C51_cancel_race_false :
    ∃ evs p' evs', expect { encode := fun _ => .ok [] } (.str ['>']) none evs
      (freshPrompt (utf8Prompt .strict)) = (.exc .cancelled ['a', '>'], p', evs') ∧
      p'.got.flatten = [0x61, 0x3E] ∧ p'.pending = [] := by
  refine ⟨[.read [0x61, 0x3E], .cancel], _, _, Prod.ext ?_ rfl, ?_, ?_⟩ <;> decide +kernel

/-- A failing expect followed by one that succeeds with the text kept. -/
example :
    (session { encode := fun _ => .ok [] }
      [{ op := .expect (.str ['x']) (some 1), evs := [.read [0x61, 0x3E], .timeout] },
       { op := .expect (.str ['>']) none }]
      (freshPrompt (utf8Prompt .strict))).1 = [.exc .timeout, .matched ['a'] ['>']] := by decide +kernel

end Shellous.Props
