import Verif.Model.Tty
import Verif.Props.Input

/-!
# C17: input through a terminal
-/

namespace Shellous.Props

open Shellous

/-- Input that the terminal passes through: no EOF character or other special character, and no line
longer than the terminal's line buffer. -/
structure Plain (eofc : UInt8) (ctl : UInt8 → Option (Tty → Tty)) (input : Bytes) : Prop where
  noEof : ∀ b ∈ input, b ≠ eofc
  noCtl : ∀ b ∈ input, ctl b = none
  short : ∀ a b c, input = a ++ b ++ c → (0x0A : UInt8) ∉ b → b.length ≤ maxCanon

theorem Plain.prefix {eofc ctl} {p input : Bytes} (h : Plain eofc ctl input) (hp : p <+: input) :
    Plain eofc ctl p := by
  obtain ⟨r, rfl⟩ := hp
  refine ⟨fun b hb => h.noEof b (by simp [hb]), fun b hb => h.noCtl b (by simp [hb]), ?_⟩
  rintro a b c rfl hb
  exact h.short a b (c ++ r) (by simp) hb

/-- The terminal after plain input: only non-empty reads, nothing lost. -/
theorem tty_plain {eofc ctl} (input : Bytes) (h : Plain eofc ctl input) :
    (Tty.run eofc ctl input).sawEof = false ∧
    (Tty.run eofc ctl input).received ++ (Tty.run eofc ctl input).cur = input ∧
    ((Tty.run eofc ctl input).cur = [] ↔ atLineStart input = true) ∧
    (0x0A : UInt8) ∉ (Tty.run eofc ctl input).cur := by
  induction input using snocInduction with
  | nil => simp [Tty.run, Tty.sawEof, Tty.received, atLineStart]
  | snoc xs x ih =>
    obtain ⟨h1, h2, h3, h4⟩ := ih (h.prefix (List.prefix_append _ _))
    rw [show Tty.run eofc ctl (xs ++ [x]) = Tty.feed eofc ctl (Tty.run eofc ctl xs) x from by
      simp [Tty.run, List.foldl_append]]
    generalize Tty.run eofc ctl xs = t at *
    have hx := h.noEof x (by simp)
    have hc := h.noCtl x (by simp)
    have htw : ∀ r : Bytes, r ≠ [] → (t.reads ++ [r]).takeWhile (fun r => !r.isEmpty) =
        t.reads.takeWhile (fun r => !r.isEmpty) ++ [r] := by
      intro r hr
      have hall : ∀ y ∈ t.reads, (!y.isEmpty) = true := by
        intro y hy
        simp only [Tty.sawEof, List.any_eq_false] at h1
        simpa using h1 y hy
      rw [List.takeWhile_append_of_pos hall]
      have : t.reads.takeWhile (fun r => !r.isEmpty) = t.reads := by
        have := List.takeWhile_append_of_pos (l₂ := []) hall
        simpa using this
      rw [this]
      simp [hr]
    simp only [Tty.feed]
    split
    · rename_i hnl
      refine ⟨?_, ?_, ?_, by simp⟩
      · simp only [Tty.sawEof, List.any_append, List.any_cons, List.any_nil] at h1 ⊢
        simp [h1]
      · simp only [Tty.received]
        rw [htw _ (by simp), List.flatten_append, List.append_nil]
        simp only [List.flatten_cons, List.flatten_nil, List.append_nil]
        rw [← List.append_assoc]
        simp only [Tty.received] at h2
        rw [h2]
      · simp [atLineStart, hnl]
    · rename_i hnl
      simp only [hc]
      have hlen : t.cur.length < maxCanon := by
        have := h.short (Tty.received t) (t.cur ++ [x]) [] (by simp [← h2])
          (by
            simp only [List.mem_append, List.mem_singleton, not_or]
            exact ⟨h4, fun hh => hnl hh.symm⟩)
        simp at this; omega
      rw [if_pos hlen]
      refine ⟨h1, ?_, ?_, ?_⟩
      · simp only [Tty.received] at h2 ⊢
        rw [← List.append_assoc, h2]
      · simp [atLineStart, hnl]
      · simp only [List.mem_append, List.mem_singleton, not_or]
        exact ⟨h4, fun hh => hnl hh.symm⟩

/-- What the program sees of `input` followed by EOF characters, of which at least enough: one at the
start of a line, else two. -/
theorem tty_eof {eofc ctl} (input : Bytes) (h : Plain eofc ctl input) (hn : eofc ≠ 0x0A) (k : Nat) :
    (Tty.run eofc ctl (input ++ List.replicate k eofc)).received <+: input ∧
    ((Tty.run eofc ctl (input ++ List.replicate k eofc)).sawEof = true →
      (Tty.run eofc ctl (input ++ List.replicate k eofc)).received = input) ∧
    ((if atLineStart input then 1 else 2) ≤ k →
      (Tty.run eofc ctl (input ++ List.replicate k eofc)).sawEof = true) := by
  obtain ⟨h1, h2, h3, h4⟩ := tty_plain input h
  have hfeed : ∀ (t : Tty), Tty.feed eofc ctl t eofc = { reads := t.reads ++ [t.cur], cur := [] } := by
    intro t; simp [Tty.feed, hn]
  rw [show Tty.run eofc ctl (input ++ List.replicate k eofc) =
    (List.replicate k eofc).foldl (Tty.feed eofc ctl) (Tty.run eofc ctl input) from by
      simp [Tty.run, List.foldl_append]]
  generalize Tty.run eofc ctl input = t at *
  have hempty : ∀ k (t : Tty), t.cur = [] →
      (List.replicate k eofc).foldl (Tty.feed eofc ctl) t =
        { reads := t.reads ++ List.replicate k [], cur := [] } := by
    intro k
    induction k with
    | zero => intro t ht; cases t; simp_all
    | succ k ih =>
      intro t ht
      rw [List.replicate_succ, List.foldl_cons, hfeed, ih _ rfl, ht, List.replicate_succ]
      simp
  have hall : ∀ y ∈ t.reads, (!y.isEmpty) = true := by
    intro y hy
    simp only [Tty.sawEof, List.any_eq_false] at h1
    simpa using h1 y hy
  have hself : t.reads.takeWhile (fun r => !r.isEmpty) = t.reads := by
    have := List.takeWhile_append_of_pos (l₂ := []) hall
    simpa using this
  have hrec : t.received = t.reads.flatten := by rw [Tty.received, hself]
  rw [hrec] at h2
  cases k with
  | zero =>
    simp only [List.replicate_zero, List.foldl_nil, h1]
    refine ⟨by rw [hrec]; exact ⟨_, h2⟩, by simp, ?_⟩
    intro hk; split at hk <;> omega
  | succ k =>
    rw [List.replicate_succ, List.foldl_cons, hfeed, hempty _ _ rfl]
    by_cases hcur : t.cur = []
    · have hin : t.reads.flatten = input := by rw [← h2, hcur, List.append_nil]
      have hr : (Tty.received { reads := (t.reads ++ [t.cur]) ++ List.replicate k [], cur := [] }) = input := by
        simp only [Tty.received]
        rw [List.append_assoc, List.takeWhile_append_of_pos hall, hcur]
        simp [hin]
      rw [hr]
      refine ⟨List.prefix_refl _, fun _ => rfl, fun _ => ?_⟩
      simp [Tty.sawEof, hcur]
    · have hall' : ∀ y ∈ t.reads ++ [t.cur], (!y.isEmpty) = true := by
        intro y hy
        rcases List.mem_append.mp hy with hy | hy
        · exact hall y hy
        · simp at hy; subst hy; simpa using hcur
      have hr : (Tty.received { reads := (t.reads ++ [t.cur]) ++ List.replicate k [], cur := [] }) = input := by
        simp only [Tty.received]
        rw [List.takeWhile_append_of_pos hall']
        cases k with
        | zero => simp [← h2]
        | succ k => simp [List.replicate_succ, ← h2]
      rw [hr]
      refine ⟨List.prefix_refl _, fun _ => rfl, fun hk => ?_⟩
      have : atLineStart input = false := by
        cases hal : atLineStart input with
        | false => rfl
        | true => exact absurd (h3.mpr hal) hcur
      rw [this] at hk
      obtain ⟨j, rfl⟩ : ∃ j, k = j + 1 := ⟨k - 1, by simp at hk; omega⟩
      simp [Tty.sawEof, List.replicate_succ]

/-- A prefix of `input ++ k` EOF characters is a prefix of the input or the input with some of them. -/
theorem prefix_cases {input p : Bytes} {e : UInt8} {k : Nat} (h : p <+: input ++ List.replicate k e) :
    p <+: input ∨ ∃ j, j ≤ k ∧ p = input ++ List.replicate j e := by
  by_cases hl : p.length ≤ input.length
  · exact .inl (List.prefix_of_prefix_length_le h (List.prefix_append _ _) hl)
  · right
    have hip : input <+: p := List.prefix_of_prefix_length_le (List.prefix_append _ _) h (by omega)
    obtain ⟨r, rfl⟩ := hip
    have hr : r <+: List.replicate k e := (List.prefix_append_right_inj _).mp h
    refine ⟨r.length, by simpa using hr.length_le, ?_⟩
    rw [List.eq_replicate_iff.mpr ⟨rfl, fun b hb => List.eq_of_mem_replicate (hr.subset hb)⟩]
    simp

/-- Any part of the input and its trailer, as the program sees it. -/
theorem tty_prefix {eofc ctl} (input : Bytes) (h : Plain eofc ctl input) (hn : eofc ≠ 0x0A)
    (k : Nat) (p : Bytes) (hp : p <+: input ++ List.replicate k eofc) :
    (Tty.run eofc ctl p).received <+: input ∧
    ((Tty.run eofc ctl p).sawEof = true → (Tty.run eofc ctl p).received = input) := by
  rcases prefix_cases hp with h' | ⟨j, hj, rfl⟩
  · obtain ⟨h1, h2, _, _⟩ := tty_plain p (h.prefix h')
    refine ⟨List.IsPrefix.trans ⟨_, h2⟩ h', ?_⟩
    intro hc; rw [h1] at hc; cases hc
  · exact ⟨(tty_eof input h hn j).1, (tty_eof input h hn j).2.1⟩

theorem trailer_replicate (eofc : UInt8) (one : Bool) :
    trailer (some [eofc]) one = List.replicate (if one then 1 else 2) eofc := by
  cases one <;> rfl

/-- **C17.** Input given as bytes/str/BytesIO/StringIO through a canonical terminal: whatever part of
what was written the terminal has processed, the program has read a prefix of the input and sees
end-of-file only after all of the input; and when the copy is done and the terminal has processed all
of it (and the program has not closed the terminal), the program does see end-of-file. -/
theorem C17_canonical_bytes (eofc : UInt8) (ctl : UInt8 → Option (Tty → Tty)) (input : Bytes)
    (h : Plain eofc ctl input) (hn : eofc ≠ 0x0A) (evs : List WEv) (n : Nat) :
    let s := writeStream input (some [eofc]) evs
    let t := Tty.run eofc ctl (s.w.accepted.take n)
    t.received <+: input ∧ (t.sawEof = true → t.received = input) ∧
    (s.pc = .done → ¬ childGone evs → s.w.accepted.length ≤ n → t.sawEof = true) := by
  intro s t
  have inv : WSInv input (some [eofc]) s evs := writeStream_inv _ _ _
  have hpre : s.w.accepted <+: input ++ trailer (some [eofc]) (input.getLast? = some 0x0A) := by
    cases hpc : s.pc with
    | start => rw [(inv.start hpc).1]; exact List.nil_prefix
    | reading => exact absurd hpc inv.noreading
    | drain => rw [(inv.drain hpc).1]; exact List.prefix_append _ _
    | drainEof =>
      rcases (inv.fin (.inl hpc)).1 with h | h
      · rw [h]; exact List.prefix_refl _
      · rw [h.2]; exact List.prefix_append _ _
    | done =>
      rcases (inv.fin (.inr hpc)).1 with h | h
      · rw [h]; exact List.prefix_refl _
      · rw [h.2]; exact List.prefix_append _ _
    | raised e => exact (inv.raised e hpc).2.1
  rw [trailer_replicate] at hpre
  have hp := tty_prefix (ctl := ctl) input h hn _ _ ((List.take_prefix n _).trans hpre)
  refine ⟨hp.1, hp.2, ?_⟩
  intro hpc hg hlen
  have hacc := (inv.fin (.inr hpc)).1.resolve_right (fun hb => hg (inv.ok.gone.mp hb.1))
  simp only [t]
  rw [List.take_of_length_le hlen, hacc, trailer_replicate]
  refine (tty_eof input h hn _).2.2 ?_
  simp only [atLineStart]
  by_cases hg : input.getLast? = some 0x0A
  · simp [hg]
  · simp only [hg, decide_false, Bool.or_false]
    split <;> simp

/-- **C17.** The same for input from a `StreamReader` (that does not itself fail with a broken-pipe
error). -/
theorem C17_canonical_reader (eofc : UInt8) (ctl : UInt8 → Option (Tty → Tty)) (evs : List WEv)
    (h : Plain eofc ctl (sourceBytes evs)) (hn : eofc ≠ 0x0A)
    (hsrc : pipeErrorIn evs → childGone evs) (n : Nat) :
    let s := writeReader (some [eofc]) evs
    let t := Tty.run eofc ctl (s.w.accepted.take n)
    t.received <+: sourceBytes evs ∧
    (¬ childGone evs → t.sawEof = true → t.received = sourceBytes evs ∧ sourceEnded evs = true) ∧
    (s.pc = .done → ¬ childGone evs → s.w.accepted.length ≤ n → t.sawEof = true) := by
  intro s t
  obtain ⟨c, inv⟩ : ∃ c, WRInv (some [eofc]) s evs c := writeReader_inv _ _
  have hcp : Plain eofc ctl c := h.prefix ⟨_, inv.src⟩
  have hcs : c <+: sourceBytes evs := ⟨_, inv.src⟩
  -- while the copy loop runs no EOF character has been written
  have hcase : s.w.accepted <+: c ∨ (((sourceEnded evs = true ∧ s.sr.buffer = []) ∨ pipeErrorIn evs) ∧
      s.w.accepted <+: c ++ trailer (some [eofc]) (atLineStart c)) := by
    have l : (s.w.accepted = c ∨ (s.w.broken = true ∧ s.w.accepted <+: c)) → s.w.accepted <+: c := by
      rintro (h | h)
      · rw [h]; exact List.prefix_refl _
      · exact h.2
    cases hpc : s.pc with
    | start => exact .inl (l (inv.loop (.inl hpc)).1)
    | reading => exact .inl (l (inv.loop (.inr (.inl hpc))).1)
    | drain => exact .inl (l (inv.loop (.inr (.inr hpc))).1)
    | drainEof =>
      rcases (inv.fin (.inl hpc)).1 with h | h
      · exact .inr ⟨(inv.fin (.inl hpc)).2.2, by rw [h]; exact List.prefix_refl _⟩
      · exact .inl h.2
    | done =>
      rcases (inv.fin (.inr hpc)).1 with h | h
      · exact .inr ⟨(inv.fin (.inr hpc)).2.2, by rw [h]; exact List.prefix_refl _⟩
      · exact .inl h.2
    | raised e => exact (inv.raised e hpc).2.1.imp id (fun h => ⟨h.2, h.1⟩)
  have hpre : s.w.accepted <+: c ++ List.replicate (if atLineStart c then 1 else 2) eofc := by
    rw [← trailer_replicate]
    rcases hcase with h | h
    · exact h.trans (List.prefix_append _ _)
    · exact h.2
  have hp := tty_prefix (ctl := ctl) c hcp hn _ _ ((List.take_prefix n _).trans hpre)
  refine ⟨hp.1.trans hcs, ?_, ?_⟩
  · intro hg hsaw
    have hall : c = sourceBytes evs ∧ sourceEnded evs = true := by
      rcases hcase with hh | ⟨hpc, _⟩
      · have := (tty_plain _ ((hcp.prefix hh).prefix (List.take_prefix n _))).1
        simp only [t] at hsaw
        rw [this] at hsaw; cases hsaw
      · obtain ⟨g1, g2⟩ := hpc.resolve_right (fun h => hg (hsrc h))
        exact ⟨by rw [← inv.src, g2, List.append_nil], g1⟩
    rw [hp.2 hsaw]; exact hall
  · intro hpc hg hlen
    have hacc := (inv.fin (.inr hpc)).1.resolve_right (fun hb => hg (inv.ok.gone.mp hb.1))
    simp only [t]
    rw [List.take_of_length_le hlen, hacc, trailer_replicate]
    exact (tty_eof c hcp hn _).2.2 (Nat.le_refl _)


/-- **C17.** In raw/cbreak mode (`eof` empty) only the input is written and the terminal stays open. -/
theorem C17_raw (input : Bytes) (evs : List WEv) :
    (writeStream input (some []) evs).w.accepted <+: input ∧
    (writeStream input (some []) evs).w.closed = false ∧
    (writeReader (some []) evs).w.accepted <+: sourceBytes evs ∧
    (writeReader (some []) evs).w.closed = false := by
  have tr : ∀ one, trailer (some []) one = [] := by intro one; cases one <;> rfl
  have inv := writeStream_inv input (some []) evs
  obtain ⟨c, inv'⟩ := writeReader_inv (some []) evs
  have hcs : c <+: sourceBytes evs := ⟨_, inv'.src⟩
  have notc : ∀ {b : Bool}, (b = true ↔ (some [] : Option Bytes) = none) → b = false := by
    intro b h; cases b with
    | false => rfl
    | true => exact absurd (h.mp rfl) (by simp)
  refine ⟨?_, ?_, ?_, ?_⟩
  · cases hpc : (writeStream input (some []) evs).pc with
    | start => rw [(inv.start hpc).1]; exact List.nil_prefix
    | reading => exact absurd hpc inv.noreading
    | drain => rw [(inv.drain hpc).1]; exact List.prefix_refl _
    | drainEof =>
      rcases (inv.fin (.inl hpc)).1 with h | h
      · rw [h, tr, List.append_nil]; exact List.prefix_refl _
      · rw [h.2]; exact List.prefix_refl _
    | done =>
      rcases (inv.fin (.inr hpc)).1 with h | h
      · rw [h, tr, List.append_nil]; exact List.prefix_refl _
      · rw [h.2]; exact List.prefix_refl _
    | raised e => have := (inv.raised e hpc).2.1; rwa [tr, List.append_nil] at this
  · cases hpc : (writeStream input (some []) evs).pc with
    | start => exact (inv.start hpc).2
    | reading => exact absurd hpc inv.noreading
    | drain => exact (inv.drain hpc).2
    | drainEof => exact notc (inv.fin (.inl hpc)).2
    | done => exact notc (inv.fin (.inr hpc)).2
    | raised e => exact (inv.raised e hpc).1
  · refine List.IsPrefix.trans ?_ hcs
    have l : ∀ {q : Prop} {x : Bytes}, (x = c ∨ (q ∧ x <+: c)) → x <+: c := by
      rintro q x (h | h)
      · rw [h]; exact List.prefix_refl _
      · exact h.2
    cases hpc : (writeReader (some []) evs).pc with
    | start => exact l (inv'.loop (.inl hpc)).1
    | reading => exact l (inv'.loop (.inr (.inl hpc))).1
    | drain => exact l (inv'.loop (.inr (.inr hpc))).1
    | drainEof => have := (inv'.fin (.inl hpc)).1; rw [tr, List.append_nil] at this; exact l this
    | done => have := (inv'.fin (.inr hpc)).1; rw [tr, List.append_nil] at this; exact l this
    | raised e =>
      have := (inv'.raised e hpc).2.1
      rw [tr, List.append_nil] at this
      exact this.elim id And.left
  · cases hpc : (writeReader (some []) evs).pc with
    | start => exact (inv'.loop (.inl hpc)).2
    | reading => exact (inv'.loop (.inr (.inl hpc))).2
    | drain => exact (inv'.loop (.inr (.inr hpc))).2
    | drainEof => exact notc (inv'.fin (.inl hpc)).2.1
    | done => exact notc (inv'.fin (.inr hpc)).2.1
    | raised e => exact (inv'.raised e hpc).1

/-- Witness: input without a final newline gets two EOF characters; the program reads "ab\nc" and EOF. -/
example :
    (writeStream [0x61, 0x62, 0x0A, 0x63] (some [4]) [.go, .go, .go]).w.accepted
      = [0x61, 0x62, 0x0A, 0x63, 4, 4] ∧
    (Tty.run 4 (fun _ => none) [0x61, 0x62, 0x0A, 0x63, 4, 4]).reads
      = [[0x61, 0x62, 0x0A], [0x63], []] := by decide

example : Plain 4 (fun _ => none) [0x61, 0x62, 0x0A, 0x63] := by
  refine ⟨by decide, by simp, ?_⟩
  intro a b c h _
  have := congrArg List.length h
  simp at this
  simp [maxCanon]; omega

/-- **C17** needs the bound on line lengths: the terminal silently drops what does not fit into its line
buffer, and shellous does not notice. -/
theorem C17_long_line_false :
    ∃ input : Bytes, (∀ b ∈ input, b = 0x61 ∨ b = 0x0A) ∧
      (writeStream input (some [4]) [.go, .go, .go]).pc = .done ∧
      (Tty.run 4 (fun _ => none) (writeStream input (some [4]) [.go, .go, .go]).w.accepted).sawEof
        = true ∧
      (Tty.run 4 (fun _ => none) (writeStream input (some [4]) [.go, .go, .go]).w.accepted).received
        ≠ input := by
  have gen : ∀ n, maxCanon < n → ∃ input : Bytes, (∀ b ∈ input, b = 0x61 ∨ b = 0x0A) ∧
      (writeStream input (some [4]) [.go, .go, .go]).pc = .done ∧
      (Tty.run 4 (fun _ => none) (writeStream input (some [4]) [.go, .go, .go]).w.accepted).sawEof
        = true ∧
      (Tty.run 4 (fun _ => none) (writeStream input (some [4]) [.go, .go, .go]).w.accepted).received
        ≠ input := by
    intro n hn
    have hrun : ∀ n, Tty.run 4 (fun _ => none) (List.replicate n 0x61) =
        { reads := [], cur := List.replicate (min n maxCanon) 0x61 } := by
      intro n
      induction n with
      | zero => rfl
      | succ n ih =>
        rw [List.replicate_succ',
          show Tty.run 4 (fun _ => none) (List.replicate n 0x61 ++ [0x61]) =
            Tty.feed 4 (fun _ => none) (Tty.run 4 (fun _ => none) (List.replicate n 0x61)) 0x61 from by
            simp [Tty.run, List.foldl_append], ih]
        simp only [Tty.feed, List.length_replicate]
        rw [if_neg (by decide), if_neg (by decide)]
        split
        · congr 1
          rw [← List.replicate_succ']
          congr 1; omega
        · congr 2; omega
    have hacc : (writeStream (List.replicate n 0x61 ++ [0x0A]) (some [4]) [.go, .go, .go]).w.accepted =
        List.replicate n 0x61 ++ [0x0A, 4] := by
      simp [writeStream, writeStreamStep, Writer.isClosing, Writer.write, writeEnd]
    have hst : Tty.run 4 (fun _ => none) (List.replicate n 0x61 ++ [0x0A, 4]) =
        { reads := [List.replicate maxCanon 0x61 ++ [0x0A], []], cur := [] } := by
      rw [show Tty.run 4 (fun _ => none) (List.replicate n 0x61 ++ [0x0A, 4]) =
        [0x0A, 4].foldl (Tty.feed 4 (fun _ => none)) (Tty.run 4 (fun _ => none) (List.replicate n 0x61))
          from by simp [Tty.run, List.foldl_append], hrun, Nat.min_eq_right (by omega)]
      rfl
    refine ⟨List.replicate n 0x61 ++ [0x0A], ?_, ?_, ?_, ?_⟩
    · intro b hb
      rcases List.mem_append.mp hb with h | h
      · exact .inl (List.eq_of_mem_replicate h)
      · exact .inr (by simpa using h)
    · simp [writeStream, writeStreamStep, Writer.isClosing, Writer.write, writeEnd]
    · rw [hacc, hst]; rfl
    · rw [hacc, hst]
      intro h
      have := congrArg List.length h
      simp [Tty.received] at this
      omega
  exact gen (maxCanon + 1) (by omega)

end Shellous.Props
