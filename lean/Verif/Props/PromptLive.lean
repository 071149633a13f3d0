import Verif.Props.Prompt

/-!
# C82: `expect` answers with the chunk that completes the prompt

C49 and C50 say what `expect` finds. Here: when. A prompt that is pending is returned at once; otherwise
the answer comes with the first chunk that makes a prompt appear in the received text, and not one chunk
is read after it (an interactive co-process sends nothing more until it is answered). As long as no
prompt has appeared, `expect` does not answer.
-/

namespace Shellous.Props

open Shellous

theorem search_eq {cfg : PCfg} {p : PS} {pat : Pattern} {i j : Nat} (h : pat p.pending = some (i, j)) :
    ∃ p', p.searchPending cfg pat = some (p.pending.take i, (p.pending.drop i).take (j - i), p') ∧
      p'.pending = p.pending.drop j ∧ p'.got = p.got ∧ p'.atEof = p.atEof := by
  simp only [PS.searchPending, h]
  refine ⟨_, rfl, ?_⟩
  unfold PS.logMsg
  split <;> exact ⟨rfl, rfl, rfl⟩

theorem search_eq_none {cfg : PCfg} {p : PS} {pat : Pattern} (h : pat p.pending = none) :
    p.searchPending cfg pat = none := by
  simp only [PS.searchPending, h]

/-- One chunk arrives while the prompt has not been seen. -/
theorem patStep_live {d : Decoder} (g : GoodStep d.step) {X : Text} {p : PS} (h : PInv d X p)
    (he : p.atEof = false) (cfg : PCfg) (pat : Pattern) (hn : pat p.pending = none) (c : Bytes)
    (hc : c ≠ []) (R : Text) (hT : receivedText d (p.got.flatten ++ c) false = .ok (X ++ R)) :
    (pat R = none → ∃ p', patStep cfg pat p c = (p', none) ∧ p'.pending = R ∧ p'.atEof = false ∧
      p'.got = p.got ++ [c] ∧ PInv d X p') ∧
    (∀ i j, pat R = some (i, j) → ∃ p',
      patStep cfg pat p c = (p', some (.ok (R.take i, (R.drop i).take (j - i)))) ∧
      p'.pending = R.drop j ∧ p'.atEof = false ∧ p'.got = p.got ++ [c]) := by
  have hce : c.isEmpty = false := by simpa using hc
  obtain ⟨t, ht⟩ := h.readChunk_ok g he cfg c (X ++ R) (by rw [hce]; exact hT)
  have hI := h.readChunk g he cfg c
  have hA := readChunk_atEof cfg p c
  have hG := readChunk_got cfg p c
  obtain ⟨r, p1, hr⟩ : ∃ r p1, p.readChunk cfg c = (r, p1) := ⟨_, _, rfl⟩
  rw [hr] at ht hI hA hG
  simp only at ht hI hA hG
  subst ht
  have hA' : p1.atEof = false := by rw [hA, he, hce]; rfl
  have hpend : p1.pending = R := by
    have := hI.received (T := X ++ R) (by rw [hA', hG]; simpa using hT)
    exact List.append_cancel_left this
  have hp1 := readChunk_ok_pending cfg p p1 c t hr
  constructor
  · intro hR
    refine ⟨p1, ?_, hpend, hA', hG, hI⟩
    simp only [patStep, hr, hA']
    split
    · rfl
    · rw [search_eq_none (by rw [hpend]; exact hR)]
      rfl
  · intro i j hR
    have htne : t.isEmpty = false := by
      cases ht : t with
      | nil =>
        rw [ht, List.append_nil] at hp1
        rw [← hpend, hp1, hn] at hR; cases hR
      | cons _ _ => rfl
    obtain ⟨p', h1, h2, h3, h4⟩ := search_eq (cfg := cfg) (p := p1) (pat := pat) (i := i) (j := j)
      (by rw [hpend]; exact hR)
    refine ⟨p', ?_, by rw [h2, hpend], by rw [h4, hA'], by rw [h3, hG]⟩
    simp only [patStep, hr, htne, h1, Bool.false_and, hpend]
    rfl

/-- Chunks that do not complete a prompt are just collected. -/
theorem expectLoop_reads {d : Decoder} (g : GoodStep d.step) {X : Text} (cfg : PCfg) (pat : Pattern)
    (timer : Bool) (evs : List PEv) (cs : List Bytes) : ∀ (p : PS), PInv d X p → p.atEof = false →
      (∀ c ∈ cs, c ≠ []) → ∀ R,
      receivedText d (p.got.flatten ++ cs.flatten) false = .ok (X ++ R) →
      (∀ n, n ≤ cs.length → ∀ R', receivedText d (p.got.flatten ++ (cs.take n).flatten) false = .ok (X ++ R') →
        pat R' = none) →
      ∃ p', expectLoop cfg pat timer (cs.map .read ++ evs) none p = expectLoop cfg pat timer evs none p' ∧
        p'.pending = R ∧ p'.atEof = false ∧ p'.got = p.got ++ cs ∧ PInv d X p' := by
  induction cs with
  | nil =>
    intro p h he _ R hT _
    refine ⟨p, rfl, ?_, he, by simp, h⟩
    exact List.append_cancel_left (h.received (by rw [he]; simpa using hT))
  | cons c cs ih =>
    intro p h he hne R hT hno
    have hT' : receivedText d ((p.got.flatten ++ c) ++ cs.flatten) false = .ok (X ++ R) := by
      simpa [List.append_assoc] using hT
    obtain ⟨P0, hP0, -⟩ := received_prefix g (a := p.got.flatten) (x := c ++ cs.flatten)
      (f := false) (by simpa using hT)
    have e0 := h.received (by rw [he]; exact hP0)
    have hn0 := hno 0 (by simp) p.pending (by simpa [e0] using hP0)
    obtain ⟨P1, hP1, -⟩ := received_prefix g hT'
    have hpre : X <+: P1 := by
      obtain ⟨P, hP, hle⟩ := received_prefix g hP1
      rw [hP] at hP0; cases hP0
      rw [← e0] at hle
      exact (List.prefix_append _ _).trans hle
    obtain ⟨R1, rfl⟩ := hpre
    have hn1 := hno 1 (by simp) R1 (by simpa using hP1)
    obtain ⟨p1, hs, hp1, ha1, hg1, hI1⟩ := (patStep_live g h he cfg pat hn0 c (hne c (by simp)) R1 hP1).1 hn1
    obtain ⟨p', h1, h2, h3, h4, h5⟩ := ih p1 hI1 ha1 (fun x hx => hne x (by simp [hx])) R
      (by rw [hg1]; simpa [List.append_assoc] using hT) (by
        intro n hn R' hR'
        refine hno (n + 1) (by simpa using hn) R' ?_
        rw [hg1] at hR'
        simpa [List.append_assoc] using hR')
    refine ⟨p', ?_, h2, h3, ?_, h5⟩
    · rw [← h1]
      simp only [List.map_cons, List.cons_append, expectLoop, hs]
    · rw [h4, hg1]; simp

/-- A pattern that is pending is found at once. -/
theorem expectPat_pending (cfg : PCfg) (pat : Pattern) (h0 : pat [] = none) (timeout : Option Nat)
    (evs : List PEv) (p : PS) (i j : Nat) (h : pat p.pending = some (i, j)) :
    ∃ p', expectPat cfg pat timeout evs p =
        (.matched (p.pending.take i) ((p.pending.drop i).take (j - i)), p', evs) ∧
      p'.pending = p.pending.drop j ∧ p'.got = p.got := by
  obtain ⟨p', h1, h2, h3, -⟩ := search_eq (cfg := cfg) h
  refine ⟨p', ?_, h2, h3⟩
  have hne : p.pending.isEmpty = false := by
    cases hp : p.pending with
    | nil => rw [hp, h0] at h; cases h
    | cons _ _ => rfl
  simp only [expectPat, hne, h1, Bool.false_eq_true, if_false]

theorem expectPat_wait (cfg : PCfg) (pat : Pattern) (timeout : Option Nat)
    (evs : List PEv) (p : PS) (he : p.atEof = false) (h : pat p.pending = none) :
    expectPat cfg pat timeout evs p = expectLoop cfg pat (timerSet cfg timeout) evs none p := by
  have : (if p.pending.isEmpty then none else p.searchPending cfg pat) = none := by
    split
    · rfl
    · exact search_eq_none h
  simp only [expectPat, this, he, Bool.false_eq_true, if_false]

/-- **C82, any compiled pattern.** A session has taken `X` of the output so far. The co-process then
sends the chunks `cs`, and after none of them (nor before the first) does the pattern match the received
text that has not been taken; then it sends `c`, and now the pattern matches the untaken text `R` at
`i..j`. `expect` returns exactly that match as soon as its task runs again: no event beyond that is
used up, and nothing beyond `c` has been read. -/
theorem C82_regex (d : Decoder) (g : GoodStep d.step) (cfg : PCfg)
    (hd : ∀ q, cfg.dflt = some q → SpanPattern q) (calls : List PCall) (hw : ∀ c ∈ calls, SpanOp c.op)
    (X : Text) (hX : X = (session cfg calls (freshPrompt d)).1.flatMap taken)
    (p : PS) (hp : p = (session cfg calls (freshPrompt d)).2) (he : p.atEof = false)
    (pat : Pattern) (timeout : Option Nat) (cs : List Bytes) (hne : ∀ c ∈ cs, c ≠ [])
    (c : Bytes) (hc : c ≠ []) (R : Text)
    (hno : ∀ n, n ≤ cs.length → ∀ R',
      receivedText d (p.got.flatten ++ (cs.take n).flatten) false = .ok (X ++ R') → pat R' = none)
    (hT : receivedText d (p.got.flatten ++ cs.flatten ++ c) false = .ok (X ++ R))
    (i j : Nat) (hR : pat R = some (i, j)) (rest : List PEv) :
    ∃ p', expect cfg (.regex pat) timeout ((cs ++ [c]).map .read ++ .resume :: rest) p =
        (.matched (R.take i) ((R.drop i).take (j - i)), p', rest) ∧
      p'.pending = R.drop j ∧ p'.got = p.got ++ cs ++ [c] := by
  subst hX hp
  have hI := PInv.reach g hd hw (calls := calls)
  generalize (session cfg calls (freshPrompt d)).1.flatMap taken = X at *
  generalize (session cfg calls (freshPrompt d)).2 = p at *
  obtain ⟨P, hP, hle⟩ := received_prefix g hT
  obtain ⟨P0, hP0, hle0⟩ := received_prefix g hP
  have e0 := hI.received (by rw [he]; exact hP0)
  obtain ⟨R0, rfl⟩ : X <+: P := (List.prefix_append _ _).trans (e0 ▸ hle0)
  obtain ⟨p1, h1, h2, h3, h4, h5⟩ := expectLoop_reads g cfg pat (timerSet cfg timeout)
    (.read c :: .resume :: rest) cs p hI he hne R0 hP hno
  have hnp : pat p.pending = none := hno 0 (by simp) p.pending (by simpa [e0] using hP0)
  have hn0 : pat p1.pending = none := by
    rw [h2]
    exact hno cs.length (Nat.le_refl _) R0 (by simpa using hP)
  obtain ⟨p2, h6, h7, h8, h9⟩ := (patStep_live g h5 h3 cfg pat hn0 c hc R
    (by rw [h4]; simpa [List.append_assoc] using hT)).2 i j hR
  refine ⟨p2, ?_, h7, by rw [h9, h4]⟩
  simp only [expect, resolvePrompt]
  rw [expectPat_wait cfg pat timeout _ p he hnp]
  have e : (cs ++ [c]).map PEv.read ++ .resume :: rest = cs.map .read ++ .read c :: .resume :: rest := by
    simp
  rw [e, h1]
  simp only [expectLoop, h6]

/-- No string of the list occurs in the text. -/
def NoneOccurs (ss : List Text) (t : Text) : Prop := ∀ i, ∀ s ∈ ss, ¬ OccursAt s t i

theorem noneOccurs_prefix {ss : List Text} {t u : Text} (h : NoneOccurs ss u) (hp : t <+: u) :
    NoneOccurs ss t := by
  obtain ⟨x, rfl⟩ := hp
  exact fun i s hs ho => h i s hs (occurs_append x ho)

theorem list_none {ss : List Text} (h0 : ss ≠ []) {t : Text} (h : NoneOccurs ss t) :
    exactListPattern ss t = none := by
  rw [exactList_eq ss h0]
  exact (searchList_none_iff ss t).2 h

theorem list_some {ss : List Text} (h0 : ss ≠ []) (hs : ∀ s ∈ ss, s ≠ []) {t : Text} {i : Nat} {a : Text}
    (h : FirstOfList ss t i a) :
    exactListPattern ss t = some (i, i + a.length) ∧ (t.drop i).take (i + a.length - i) = a := by
  rw [exactList_eq ss h0]
  refine ⟨(searchList_some_iff ss hs t i _).2 ⟨a, h, rfl⟩, ?_⟩
  obtain ⟨-, n, -, ho, -⟩ := h
  rw [Nat.add_sub_cancel_left]
  exact (List.prefix_iff_eq_take.mp ho).symm

/-- **C82, a list of strings** (any list of non-empty strings, also those for which the cut into chunks
matters, C50). No string of the list occurs in the untaken text before the chunk `c`; with `c` the
untaken text is `R`, in which `a` is the string to report, at `i`. `expect` returns then, without
reading further; what follows the prompt in the chunk stays pending. -/
theorem C82_list (d : Decoder) (g : GoodStep d.step) (cfg : PCfg)
    (hd : ∀ q, cfg.dflt = some q → SpanPattern q) (calls : List PCall) (hw : ∀ c ∈ calls, SpanOp c.op)
    (X : Text) (hX : X = (session cfg calls (freshPrompt d)).1.flatMap taken)
    (p : PS) (hp : p = (session cfg calls (freshPrompt d)).2) (he : p.atEof = false)
    (ss : List Text) (hs0 : ss ≠ []) (hs : ∀ s ∈ ss, s ≠ []) (timeout : Option Nat)
    (cs : List Bytes) (hne : ∀ c ∈ cs, c ≠ []) (c : Bytes) (hc : c ≠ []) (R0 R : Text)
    (hT0 : receivedText d (p.got.flatten ++ cs.flatten) false = .ok (X ++ R0)) (hno : NoneOccurs ss R0)
    (hT : receivedText d (p.got.flatten ++ cs.flatten ++ c) false = .ok (X ++ R))
    (i : Nat) (a : Text) (hR : FirstOfList ss R i a) (rest : List PEv) :
    ∃ p', expect cfg (.list ss) timeout ((cs ++ [c]).map .read ++ .resume :: rest) p =
        (.matched (R.take i) a, p', rest) ∧
      p'.pending = R.drop (i + a.length) ∧ p'.got = p.got ++ cs ++ [c] := by
  obtain ⟨h1, h2⟩ := list_some hs0 hs hR
  have := C82_regex d g cfg hd calls hw X hX p hp he (exactListPattern ss) timeout cs hne c hc R ?_ hT
    i _ h1 rest
  · rw [h2] at this
    exact this
  · intro n hn R' hR'
    refine list_none hs0 (noneOccurs_prefix hno ?_)
    have e : p.got.flatten ++ cs.flatten = p.got.flatten ++ (cs.take n).flatten ++ (cs.drop n).flatten := by
      rw [List.append_assoc, ← List.flatten_append (L₁ := cs.take n), List.take_append_drop]
    rw [e] at hT0
    obtain ⟨P, hP, hle⟩ := received_prefix g hT0
    rw [hP] at hR'; cases hR'
    exact (List.prefix_append_right_inj X).1 hle

/-- **C82, a string.** See `C82_list`. -/
theorem C82_found (d : Decoder) (g : GoodStep d.step) (cfg : PCfg)
    (hd : ∀ q, cfg.dflt = some q → SpanPattern q) (calls : List PCall) (hw : ∀ c ∈ calls, SpanOp c.op)
    (X : Text) (hX : X = (session cfg calls (freshPrompt d)).1.flatMap taken)
    (p : PS) (hp : p = (session cfg calls (freshPrompt d)).2) (he : p.atEof = false)
    (s : Text) (hs : s ≠ []) (timeout : Option Nat)
    (cs : List Bytes) (hne : ∀ c ∈ cs, c ≠ []) (c : Bytes) (hc : c ≠ []) (R0 R : Text)
    (hT0 : receivedText d (p.got.flatten ++ cs.flatten) false = .ok (X ++ R0))
    (hno : ∀ i, ¬ OccursAt s R0 i)
    (hT : receivedText d (p.got.flatten ++ cs.flatten ++ c) false = .ok (X ++ R))
    (i : Nat) (hR : FirstOccurrence s R i) (rest : List PEv) :
    ∃ p', expect cfg (.str s) timeout ((cs ++ [c]).map .read ++ .resume :: rest) p =
        (.matched (R.take i) s, p', rest) ∧
      p'.pending = R.drop (i + s.length) ∧ p'.got = p.got ++ cs ++ [c] :=
  C82_list d g cfg hd calls hw X hX p hp he [s] (by simp) (by simpa using hs) timeout cs hne c hc R0 R hT0
    (fun k b hb => by rw [List.mem_singleton] at hb; subst hb; exact hno k) hT i s
    ((firstOfList_one s R i s).2 ⟨rfl, hR⟩) rest

/-- **C82.** A string that is already in the pending text is returned without reading or waiting: all
events are left. This also holds at the end of the stream. -/
theorem C82_pending (cfg : PCfg) (p : PS) (ss : List Text) (hs0 : ss ≠ []) (hs : ∀ s ∈ ss, s ≠ [])
    (timeout : Option Nat) (i : Nat) (a : Text) (hR : FirstOfList ss p.pending i a) (evs : List PEv) :
    ∃ p', expect cfg (.list ss) timeout evs p = (.matched (p.pending.take i) a, p', evs) ∧
      p'.pending = p.pending.drop (i + a.length) ∧ p'.got = p.got := by
  obtain ⟨h1, h2⟩ := list_some hs0 hs hR
  have := expectPat_pending cfg _ (list_pat_nil ss hs0 hs) timeout evs p i _ h1
  rw [h2] at this
  exact this

/-- **C82.** As long as no string of the list occurs in the untaken text `R`, `expect` does not answer.
With a timeout it raises TimeoutError when the timer fires, without one it goes on waiting; in each case
`R` stays pending. -/
theorem C82_waits (d : Decoder) (g : GoodStep d.step) (cfg : PCfg)
    (hd : ∀ q, cfg.dflt = some q → SpanPattern q) (calls : List PCall) (hw : ∀ c ∈ calls, SpanOp c.op)
    (X : Text) (hX : X = (session cfg calls (freshPrompt d)).1.flatMap taken)
    (p : PS) (hp : p = (session cfg calls (freshPrompt d)).2) (he : p.atEof = false)
    (ss : List Text) (hs0 : ss ≠ []) (timeout : Option Nat)
    (cs : List Bytes) (hne : ∀ c ∈ cs, c ≠ []) (R : Text)
    (hT : receivedText d (p.got.flatten ++ cs.flatten) false = .ok (X ++ R)) (hno : NoneOccurs ss R) :
    (∃ p', expect cfg (.list ss) timeout (cs.map .read) p = (.blocked, p', []) ∧ p'.pending = R) ∧
    (∃ p', expect cfg (.list ss) timeout (cs.map .read ++ [.timeout]) p =
        (if (effTimeout cfg timeout).isSome then .exc .timeout else .blocked, p', []) ∧ p'.pending = R) := by
  subst hX hp
  have hI := PInv.reach g hd hw (calls := calls)
  generalize (session cfg calls (freshPrompt d)).1.flatMap taken = X at *
  generalize (session cfg calls (freshPrompt d)).2 = p at *
  have hno' : ∀ n, n ≤ cs.length → ∀ R',
      receivedText d (p.got.flatten ++ (cs.take n).flatten) false = .ok (X ++ R') →
      exactListPattern ss R' = none := by
    intro n hn R' hR'
    refine list_none hs0 (noneOccurs_prefix hno ?_)
    have e : p.got.flatten ++ cs.flatten = p.got.flatten ++ (cs.take n).flatten ++ (cs.drop n).flatten := by
      rw [List.append_assoc, ← List.flatten_append (L₁ := cs.take n), List.take_append_drop]
    rw [e] at hT
    obtain ⟨P, hP, hle⟩ := received_prefix g hT
    rw [hP] at hR'; cases hR'
    exact (List.prefix_append_right_inj X).1 hle
  obtain ⟨P0, hP0, -⟩ := received_prefix g hT
  have e0 := hI.received (by rw [he]; exact hP0)
  have hnp : exactListPattern ss p.pending = none := hno' 0 (by simp) p.pending (by simpa [e0] using hP0)
  constructor
  · obtain ⟨p1, h1, h2, -⟩ := expectLoop_reads g cfg (exactListPattern ss) (timerSet cfg timeout)
      [] cs p hI he hne R hT hno'
    refine ⟨p1, ?_, h2⟩
    simp only [expect, resolvePrompt]
    rw [expectPat_wait _ _ _ _ _ he hnp]
    rw [List.append_nil] at h1
    rw [h1]; rfl
  · obtain ⟨p1, h1, h2, -⟩ := expectLoop_reads g cfg (exactListPattern ss) (timerSet cfg timeout)
      [.timeout] cs p hI he hne R hT hno'
    simp only [expect, resolvePrompt]
    rw [expectPat_wait _ _ _ _ _ he hnp, h1]
    simp only [expectLoop]
    unfold timerSet
    cases (effTimeout cfg timeout).isSome with
    | true => exact ⟨_, rfl, by simp only [PS.logMsg]; split <;> exact h2⟩
    | false => exact ⟨_, rfl, h2⟩

/-- `read_all` collects chunks. -/
theorem readAllLoop_reads {d : Decoder} (g : GoodStep d.step) {X : Text} (cfg : PCfg)
    (timer : Bool) (evs : List PEv) (cs : List Bytes) : ∀ (p : PS), PInv d X p → p.atEof = false →
      (∀ c ∈ cs, c ≠ []) → ∀ R,
      receivedText d (p.got.flatten ++ cs.flatten) false = .ok (X ++ R) →
      ∃ p', readAllLoop cfg timer (cs.map .read ++ evs) none p = readAllLoop cfg timer evs none p' ∧
        p'.pending = R ∧ p'.atEof = false ∧ p'.got = p.got ++ cs ∧ PInv d X p' := by
  induction cs with
  | nil =>
    intro p h he _ R hT
    refine ⟨p, rfl, ?_, he, by simp, h⟩
    exact List.append_cancel_left (h.received (by rw [he]; simpa using hT))
  | cons c cs ih =>
    intro p h he hne R hT
    have hT' : receivedText d ((p.got.flatten ++ c) ++ cs.flatten) false = .ok (X ++ R) := by
      simpa [List.append_assoc] using hT
    obtain ⟨P1, hP1, -⟩ := received_prefix g hT'
    have hce : c.isEmpty = false := by simpa using hne c (by simp)
    obtain ⟨t, ht⟩ := h.readChunk_ok g he cfg c P1 (by rw [hce]; exact hP1)
    have hI := h.readChunk g he cfg c
    have hA := readChunk_atEof cfg p c
    have hG := readChunk_got cfg p c
    obtain ⟨r, p1, hr⟩ : ∃ r p1, p.readChunk cfg c = (r, p1) := ⟨_, _, rfl⟩
    rw [hr] at ht hI hA hG
    simp only at ht hI hA hG
    subst ht
    have hA' : p1.atEof = false := by rw [hA, he, hce]; rfl
    obtain ⟨p', h1, h2, h3, h4, h5⟩ := ih p1 hI hA' (fun x hx => hne x (by simp [hx])) R
      (by rw [hG]; simpa [List.append_assoc] using hT)
    refine ⟨p', ?_, h2, h3, by rw [h4, hG]; simp, h5⟩
    rw [← h1]
    simp only [List.map_cons, List.cons_append, readAllLoop, someStep, hr, hA', Bool.false_eq_true, if_false]

/-- **C82.** `read_all` answers at the end of the stream, with all the text that has not been taken, and
not before. -/
theorem C82_read_all (d : Decoder) (g : GoodStep d.step) (cfg : PCfg)
    (hd : ∀ q, cfg.dflt = some q → SpanPattern q) (calls : List PCall) (hw : ∀ c ∈ calls, SpanOp c.op)
    (X : Text) (hX : X = (session cfg calls (freshPrompt d)).1.flatMap taken)
    (p : PS) (hp : p = (session cfg calls (freshPrompt d)).2) (he : p.atEof = false)
    (timeout : Option Nat) (cs : List Bytes) (hne : ∀ c ∈ cs, c ≠ []) :
    (∀ R, receivedText d (p.got.flatten ++ cs.flatten) false = .ok (X ++ R) →
      ∃ p', readAll cfg timeout (cs.map .read) p = (.blocked, p', []) ∧ p'.pending = R) ∧
    (∀ R rest, receivedText d (p.got.flatten ++ cs.flatten) true = .ok (X ++ R) →
      ∃ p', readAll cfg timeout (cs.map .read ++ .read [] :: .resume :: rest) p = (.text R, p', rest) ∧
        p'.pending = [] ∧ p'.atEof = true) := by
  subst hX hp
  have hI := PInv.reach g hd hw (calls := calls)
  generalize (session cfg calls (freshPrompt d)).1.flatMap taken = X at *
  generalize (session cfg calls (freshPrompt d)).2 = p at *
  constructor
  · intro R hT
    obtain ⟨p1, h1, h2, -⟩ := readAllLoop_reads g cfg (timerSet cfg timeout) [] cs p hI he hne R hT
    rw [List.append_nil] at h1
    exact ⟨p1, by simp only [readAll, he, Bool.false_eq_true, if_false, h1]; rfl, h2⟩
  · intro R rest hT
    obtain ⟨P, hP, hle⟩ := received_prefix g (a := p.got.flatten ++ cs.flatten) (x := []) (f := true)
      (by simpa using hT)
    obtain ⟨P0, hP0, hle0⟩ := received_prefix g hP
    have e0 := hI.received (by rw [he]; exact hP0)
    obtain ⟨R0, rfl⟩ : X <+: P := (List.prefix_append _ _).trans (e0 ▸ hle0)
    obtain ⟨p1, h1, h2, h3, h4, h5⟩ := readAllLoop_reads g cfg (timerSet cfg timeout)
      (.read [] :: .resume :: rest) cs p hI he hne R0 hP
    obtain ⟨t, ht⟩ := h5.readChunk_ok g h3 cfg [] (X ++ R) (by rw [h4]; simpa using hT)
    have hI2 := h5.readChunk g h3 cfg []
    have hA := readChunk_atEof cfg p1 []
    have hG := readChunk_got cfg p1 []
    obtain ⟨r, p2, hr⟩ : ∃ r p2, p1.readChunk cfg [] = (r, p2) := ⟨_, _, rfl⟩
    rw [hr] at ht hI2 hA hG
    simp only at ht hI2 hA hG
    subst ht
    have hA' : p2.atEof = true := by rw [hA, h3]; rfl
    have hpend : p2.pending = R := by
      have := hI2.received (T := X ++ R) (by rw [hA', hG, h4]; simpa using hT)
      exact List.append_cancel_left this
    refine ⟨{ p2 with pending := [] }, ?_, rfl, hA'⟩
    simp only [readAll, he, Bool.false_eq_true, if_false, h1, readAllLoop, someStep, hr, hA', if_true,
      readPending, hpend]

/-! ### Non-vacuity -/

/-- Prompt `"$ "` cut inside: found with the second chunk, the rest stays pending. -/
example : ∃ p', expect { encode := fun _ => .ok [] } (.str ['$', ' ']) none
      ([[104, 105, 36], [32, 120]].map .read ++ .resume :: [.read [121]]) (freshPrompt (utf8Prompt .strict)) =
        (.matched ['h', 'i'] ['$', ' '], p', [.read [121]]) ∧ p'.pending = ['x'] ∧
      p'.got = [[104, 105, 36], [32, 120]] :=
  C82_found (utf8Prompt .strict) utf8_good _ (by simp) [] (by simp) [] rfl _ rfl rfl ['$', ' '] (by simp)
    none [[104, 105, 36]] (by simp) [32, 120] (by simp) ['h', 'i', '$'] ['h', 'i', '$', ' ', 'x']
    (by simp [receivedText, utf8Prompt, session, freshPrompt, decodeLoop, utf8Step, Except.map]) (by
      intro i ho
      have := occurs_length ho (by simp)
      match i, this with
      | 0, _ => simp [OccursAt] at ho
      | 1, _ => simp [OccursAt] at ho)
    (by simp [receivedText, utf8Prompt, session, freshPrompt, decodeLoop, utf8Step, Except.map]) 2
    ⟨by simp [OccursAt], fun k hk => by
      match k, hk with
      | 0, _ => simp [OccursAt]
      | 1, _ => simp [OccursAt]⟩ _

/-- The first chunk alone does not complete the prompt: `expect` waits. -/
example : ∃ p', expect { encode := fun _ => .ok [] } (.list [['$', ' ']]) none
      ([[104, 105, 36]].map .read) (freshPrompt (utf8Prompt .strict)) = (.blocked, p', []) ∧
      p'.pending = ['h', 'i', '$'] :=
  (C82_waits (utf8Prompt .strict) utf8_good _ (by simp) [] (by simp) [] rfl _ rfl rfl [['$', ' ']] (by simp)
    none [[104, 105, 36]] (by simp) ['h', 'i', '$']
    (by simp [receivedText, utf8Prompt, session, freshPrompt, decodeLoop, utf8Step, Except.map]) (by
      intro i s hs ho
      rw [List.mem_singleton] at hs; subst hs
      have := occurs_length ho (by simp)
      match i, this with
      | 0, _ => simp [OccursAt] at ho
      | 1, _ => simp [OccursAt] at ho)).1

/-- `read_all` over two chunks that cut a character. -/
example : ∃ p', readAll { encode := fun _ => .ok [] } none
      ([[104, 0xc3], [0xa9]].map .read ++ .read [] :: .resume :: []) (freshPrompt (utf8Prompt .strict)) =
      (.text ['h', 'é'], p', []) ∧ p'.pending = [] ∧ p'.atEof = true :=
  (C82_read_all (utf8Prompt .strict) utf8_good _ (by simp) [] (by simp) [] rfl _ rfl rfl none
    [[104, 0xc3], [0xa9]] (by simp)).2 ['h', 'é'] []
    (by simp [receivedText, utf8Prompt, session, freshPrompt, decodeLoop, utf8Step, isCont, Except.map])

end Shellous.Props
