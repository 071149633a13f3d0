import Verif.Model.Sinks
import Verif.Props.Streams
import Verif.Props.Input

/-!
# C63: Logger and StreamWriter sinks; C14, C18: interrupted copies
-/

namespace Shellous.Props

open Shellous

/-! ## Logger -/

/-- Python's 29 whitespace characters: TAB, LF, VT, FF, CR, FS, GS, RS, US, SPACE, NEL, NBSP, OGHAM SPACE MARK,
U+2000 to U+200A, LINE and PARAGRAPH SEPARATOR, NNBSP, MMSP, IDEOGRAPHIC SPACE. -/
def Whitespace (c : Char) : Prop :=
  c.toNat ∈ [0x09, 0x0A, 0x0B, 0x0C, 0x0D, 0x1C, 0x1D, 0x1E, 0x1F, 0x20, 0x85, 0xA0, 0x1680, 0x2000, 0x2001, 0x2002,
    0x2003, 0x2004, 0x2005, 0x2006, 0x2007, 0x2008, 0x2009, 0x200A, 0x2028, 0x2029, 0x202F, 0x205F, 0x3000]

theorem isPySpace_iff (c : Char) : isPySpace c = true ↔ Whitespace c := by
  unfold isPySpace Whitespace
  generalize c.toNat = n
  simp only [Bool.or_eq_true, Bool.and_eq_true, decide_eq_true_eq, beq_iff_eq, List.mem_cons, List.not_mem_nil, or_false]
  omega

/-- The message for a line: its text without trailing whitespace (Python's). -/
def IsMessage (t msg : Text) : Prop :=
  ∃ ws, t = msg ++ ws ∧ (∀ c ∈ ws, Whitespace c) ∧ ∀ c, msg.getLast? = some c → ¬ Whitespace c

theorem rstrip_spec (t : Text) : IsMessage t (rstrip t) := by
  suffices h : ∃ ws, t = rstrip t ++ ws ∧ (∀ c ∈ ws, isPySpace c = true) ∧
      ∀ c, (rstrip t).getLast? = some c → isPySpace c = false by
    obtain ⟨ws, h1, h2, h3⟩ := h
    refine ⟨ws, h1, fun c hc => (isPySpace_iff c).1 (h2 c hc), fun c hc hw => ?_⟩
    have := h3 c hc
    rw [(isPySpace_iff c).2 hw] at this
    cases this
  refine ⟨(t.reverse.takeWhile isPySpace).reverse, ?_, ?_, ?_⟩
  · have := List.takeWhile_append_dropWhile (p := isPySpace) (l := t.reverse)
    have h := congrArg List.reverse this
    rw [List.reverse_append, List.reverse_reverse] at h
    exact h.symm
  · intro c hc
    rw [List.mem_reverse] at hc
    generalize t.reverse = l at hc
    induction l with
    | nil => simp at hc
    | cons x xs ih =>
      rw [List.takeWhile_cons] at hc
      split at hc
      · rename_i hx
        rcases List.mem_cons.mp hc with rfl | h
        · exact hx
        · exact ih h
      · simp at hc
  · intro c hc
    rw [rstrip, List.getLast?_reverse] at hc
    generalize t.reverse = l at hc
    induction l with
    | nil => simp at hc
    | cons x xs ih =>
      rw [List.dropWhile_cons] at hc
      split at hc
      · exact ih hc
      · rename_i hx
        simp at hc; subst hc; simpa using hx

theorem lineStep_lines (limit : Nat) (s : LineSt) (ev : SEv) :
    (lineStep limit s ev).lines = s.lines ∨
    (s.st = .running ∧ (lineStep limit s ev).st = .running ∧ ∃ l, (lineStep limit s ev).lines = s.lines ++ [l]) := by
  cases ev with
  | feed b => exact .inl rfl
  | eof => exact .inl rfl
  | exc e => simp only [lineStep]; split <;> exact .inl rfl
  | go =>
    simp only [lineStep]
    split
    · exact .inl rfl
    · rename_i hr
      simp only [ne_eq, Decidable.not_not] at hr
      split
      · split
        · exact .inl rfl
        · exact .inr ⟨hr, hr, _, rfl⟩
      · split
        · exact .inl rfl
        · split
          · split
            · exact .inl rfl
            · exact .inr ⟨hr, hr, _, rfl⟩
          · exact .inl rfl

theorem readLines_snoc (decode : Bytes → Except Exc Text) (ls : List Bytes) (l : Bytes)
    (h : (readLines decode ls).2 = none) :
    readLines decode (ls ++ [l]) =
      match decode l with
      | .error e => ((readLines decode ls).1, some e)
      | .ok t => ((readLines decode ls).1 ++ [t], none) := by
  induction ls with
  | nil => simp only [List.nil_append, readLines]; cases decode l <;> rfl
  | cons x xs ih =>
    simp only [List.cons_append, readLines]
    cases hx : decode x with
    | error e => simp [readLines, hx] at h
    | ok t =>
      simp only [readLines, hx] at h
      rw [ih h]
      cases decode l <;> rfl

/-- A logger copy is the line reader stopped at the first line that does not decode. -/
theorem logger_rel (limit : Nat) (decode : Bytes → Except Exc Text) (evs : List SEv) :
    ((copyLogger limit decode evs).ls = lineRun limit evs ∧
      (readLines decode (lineRun limit evs).lines).2 = none ∧
      (copyLogger limit decode evs).log = (readLines decode (lineRun limit evs).lines).1.map rstrip) ∨
    ∃ pre post, evs = pre ++ post ∧ ∃ e, (readLines decode (lineRun limit pre).lines).2 = some e ∧
      (copyLogger limit decode evs).ls.st = .raised e ∧
      (copyLogger limit decode evs).log = (readLines decode (lineRun limit pre).lines).1.map rstrip := by
  induction evs using snocInduction with
  | nil => left; exact ⟨rfl, rfl, rfl⟩
  | snoc evs ev ih =>
    have hL : copyLogger limit decode (evs ++ [ev]) = loggerStep limit decode (copyLogger limit decode evs) ev := by
      simp [copyLogger, List.foldl_append]
    have hR : lineRun limit (evs ++ [ev]) = lineStep limit (lineRun limit evs) ev := by
      simp [lineRun, List.foldl_append]
    rw [hL]
    rcases ih with ⟨h1, h2, h3⟩ | ⟨pre, post, rfl, e, h1, h2, h3⟩
    · simp only [loggerStep, h1, ← hR]
      rcases lineStep_lines limit (lineRun limit evs) ev with hl | ⟨hr, hr', l, hl⟩
      · left
        rw [hR, hl, List.drop_length]
        exact ⟨rfl, h2, h3⟩
      · have hs := readLines_snoc decode (lineRun limit evs).lines l h2
        rw [← hl] at hs
        rw [hR, hl, List.drop_left]
        dsimp only
        cases hd : decode l with
        | error e =>
          right
          refine ⟨evs ++ [ev], [], by simp, e, ?_, rfl, ?_⟩
          · rw [hR, hs, hd]
          · rw [hR, hs, hd]; exact h3
        | ok t =>
          left
          refine ⟨rfl, ?_, ?_⟩
          · rw [← hl, hs, hd]
          · rw [← hl, hs, hd, h3]; simp
    · right
      refine ⟨pre, post ++ [ev], by simp, e, h1, ?_⟩
      generalize copyLogger limit decode (pre ++ post) = s at *
      have hst : (lineStep limit s.ls ev).lines = s.ls.lines ∧ (lineStep limit s.ls ev).st = .raised e := by
        cases ev <;> simp [lineStep, h2]
      simp only [loggerStep, hst.1, List.drop_length]
      exact ⟨hst.2, h3⟩

/-- **C63.** (Logger, UTF-8) When the copy has ended normally, there is one message for every line of the
output, in order: cutting the decoded output after each newline gives lines whose text without trailing
whitespace are the messages. -/
theorem C63_logger_complete_partial (limit : Nat) (errors : Errors) (evs : List SEv)
    (hdone : (copyLogger limit (decodeAll utf8Step errors) evs).ls.st = .done) :
    ∃ lines t, decodeAll utf8Step errors (written evs) = .ok t ∧ lines.flatten = t ∧
      (errors ≠ .ignore → TextLines lines) ∧
      (copyLogger limit (decodeAll utf8Step errors) evs).log.length = lines.length ∧
      ∀ (i : Nat) (l : Text), lines[i]? = some l → ∃ m,
        (copyLogger limit (decodeAll utf8Step errors) evs).log[i]? = some m ∧ IsMessage l m := by
  rcases logger_rel limit (decodeAll utf8Step errors) evs with ⟨h1, h2, h3⟩ | ⟨pre, post, rfl, e, h1, h2, h3⟩
  · rw [h1] at hdone
    have hp := C19_lines_partial limit errors evs hdone
    cases hd : decodeAll utf8Step errors (written evs) with
    | error e => rw [hp.2 e hd] at h2; cases h2
    | ok t =>
      obtain ⟨_, p2, p3⟩ := hp.1 t hd
      refine ⟨_, t, rfl, p2, p3, ?_, ?_⟩
      · rw [h3, List.length_map]
      · intro i l hl
        refine ⟨rstrip l, ?_, rstrip_spec l⟩
        rw [h3, List.getElem?_map, hl]; rfl
  · rw [h2] at hdone; cases hdone

/-- **C63.** (Logger) At every moment the messages are those of the lines read so far, none twice, none out
of order; a line that does not decode ends the copy with that error. -/
theorem C63_logger_prefix (limit : Nat) (decode : Bytes → Except Exc Text) (evs : List SEv) :
    ∃ (lines : List Bytes) (texts : List Text), Lines lines ∧
      ((∀ a b c, written evs = a ++ b ++ c → (0x0A : UInt8) ∉ b → b.length ≤ limit) →
        SEv.exc .valueError ∉ evs → lines.flatten <+: written evs) ∧
      (copyLogger limit decode evs).log = texts.map rstrip ∧
      ((lines.map decode = texts.map .ok) ∨
       ∃ good bad e, lines = good ++ [bad] ∧ good.map decode = texts.map .ok ∧ decode bad = .error e ∧
         (copyLogger limit decode evs).ls.st = .raised e) := by
  have hok : ∀ ls : List Bytes, (readLines decode ls).2 = none →
      ls.map decode = (readLines decode ls).1.map .ok := by
    intro ls
    induction ls with
    | nil => intro _; rfl
    | cons x xs ih =>
      intro h
      cases hx : decode x with
      | error e => simp [readLines, hx] at h
      | ok t =>
        simp only [readLines, hx] at h ⊢
        simp [hx, ih h]
  rcases logger_rel limit decode evs with ⟨h1, h2, h3⟩ | ⟨pre, post, rfl, e, h1, h2, h3⟩
  · exact ⟨_, _, (C19_prefix limit evs).1, (C19_prefix limit evs).2, h3, .inl (hok _ h2)⟩
  · have herr : ∀ ls : List Bytes, (readLines decode ls).2 = some e →
        ∃ good bad rest, ls = good ++ bad :: rest ∧ good.map decode = (readLines decode ls).1.map .ok ∧
          decode bad = .error e := by
      intro ls
      induction ls with
      | nil => intro h; simp [readLines] at h
      | cons x xs ih =>
        intro h
        cases hx : decode x with
        | error e' =>
          simp [readLines, hx] at h
          subst h
          exact ⟨[], x, xs, rfl, by simp [readLines, hx], hx⟩
        | ok t =>
          simp only [readLines, hx] at h ⊢
          obtain ⟨g, b, r, rfl, hg, hb⟩ := ih h
          exact ⟨x :: g, b, r, rfl, by simp [hx, hg], hb⟩
    obtain ⟨g, b, r, hls, hg, hb⟩ := herr _ h1
    have hw : written pre <+: written (pre ++ post) := by
      clear h1 h2 h3
      induction post using snocInduction with
      | nil => simp
      | snoc l x ih =>
        rw [← List.append_assoc, written_snoc]
        exact ih.trans (List.prefix_append _ _)
    have hL := (C19_prefix limit pre)
    have hpre : g ++ [b] <+: (lineRun limit pre).lines := ⟨r, by rw [hls]; simp⟩
    refine ⟨g ++ [b], _, ?_, ?_, h3, .inr ⟨g, b, e, rfl, hg, hb, h2⟩⟩
    · obtain ⟨r', hr'⟩ := hpre
      constructor
      · intro l hl; exact hL.1.nonempty l (by rw [← hr']; exact List.mem_append_left _ hl)
      · intro l hl; exact hL.1.inner l (by rw [← hr']; exact List.mem_append_left _ hl)
      · intro l hl
        apply hL.1.complete l
        rw [← hr']
        rw [List.dropLast_concat] at hl
        cases r' with
        | nil => rw [List.append_nil, List.dropLast_concat]; exact hl
        | cons y ys =>
          rw [List.dropLast_append_of_ne_nil (by simp)]
          exact List.mem_append_left _ (List.mem_append_left _ hl)
    · intro hshort hno
      have : (lineRun limit pre).lines.flatten <+: written pre := by
        apply hL.2
        · intro a b' c h1 h2
          obtain ⟨z, hz⟩ := hw
          refine hshort a b' (c ++ z) ?_ h2
          rw [← hz, h1]; simp
        · intro h; exact hno (List.mem_append_left _ h)
      obtain ⟨r', hr'⟩ := hpre
      refine List.IsPrefix.trans ?_ (this.trans hw)
      rw [← hr']
      exact ⟨r'.flatten, (List.flatten_append).symm⟩

/-- Two lines, the second without a newline. -/
example : (copyLogger 65536 (decodeAll utf8Step .strict)
    [.feed [0x61, 0x20, 0x0A, 0x20, 0x62], .go, .eof, .go, .go]).log = [['a'], [' ', 'b']] := by
  simp [copyLogger, loggerStep, lineStep, SR.feed, decodeAll, decodeLoop, utf8Step, Except.map, rstrip,
    isPySpace, List.idxOf?_cons]

/-! ## StreamWriter -/

/-- Invariant of `copy_streamwriter`. -/
structure SwInv (s : SwSt) (evs : List WEv) : Prop where
  gone : s.w.broken = true ↔ childGone evs
  eof : s.sr.eof = sourceEnded evs
  bytes : ∃ lost, s.w.accepted ++ lost ++ s.sr.buffer = sourceBytes evs ∧ (lost ≠ [] → s.w.broken = true)
  closed : s.w.closed = true → s.sr.buffer = [] ∧ sourceEnded evs = true
  fin : s.pc = .closing ∨ s.pc = .done → s.w.closed = true
  running : s.pc = .reading ∨ s.pc = .drain → s.w.closed = false
  raised : ∀ e, s.pc = .raised e → WEv.exc e ∈ evs
  deliv : s.w.delivered ≤ s.w.accepted.length

theorem sw_inv (evs : List WEv) : SwInv (copyStreamwriter evs) evs := by
  induction evs using snocInduction with
  | nil =>
    refine ⟨by simp [copyStreamwriter, childGone], rfl, ⟨[], rfl, by simp⟩, ?_, ?_, ?_, ?_, Nat.le_refl _⟩ <;>
      simp [copyStreamwriter]
  | snoc evs ev ih =>
    have hrun : copyStreamwriter (evs ++ [ev]) = swStep (copyStreamwriter evs) ev := by
      simp [copyStreamwriter, List.foldl_append]
    rw [hrun]
    generalize copyStreamwriter evs = s at *
    obtain ⟨g, ef, ⟨lost, hb, hl⟩, cl, fi, ru, ra, de⟩ := ih
    have gone' : ev ≠ .brk → (s.w.broken = true ↔ childGone (evs ++ [ev])) := by
      intro hne
      rw [g]; simp only [childGone, List.mem_append, List.mem_singleton]
      exact ⟨.inl, fun h => h.elim id (fun h => absurd h.symm hne)⟩
    have rais' : ∀ e, s.pc = .raised e → WEv.exc e ∈ evs ++ [ev] := fun e he => List.mem_append_left _ (ra e he)
    have src' : wevData ev = [] → sourceBytes (evs ++ [ev]) = sourceBytes evs := by
      intro h; rw [sourceBytes_snoc, h]; simp
    have end' : wevEof ev = false → sourceEnded (evs ++ [ev]) = sourceEnded evs := by
      intro h; rw [sourceEnded_snoc, h]; simp
    have same : wevData ev = [] → wevEof ev = false → ev ≠ .brk → SwInv s (evs ++ [ev]) := by
      intro h1 h2 h3
      exact ⟨gone' h3, by rw [end' h2]; exact ef, ⟨lost, by rw [src' h1]; exact hb, hl⟩,
        by rw [end' h2]; exact cl, fi, ru, rais', de⟩
    cases ev with
    | feed b =>
      simp only [swStep, swEnv]
      refine ⟨gone' (by simp), ?_, ?_, ?_, fi, ru, rais', de⟩
      · rw [end' rfl, ← ef]; simp only [SR.feed]; split <;> rfl
      · refine ⟨lost, ?_, hl⟩
        rw [sourceBytes_snoc, ← hb, ← ef]
        simp only [SR.feed, wevData]
        cases s.sr.eof <;> simp
      · intro hc
        have := cl hc
        rw [end' rfl]
        simp only [SR.feed, ef, this.2]
        exact ⟨this.1, trivial⟩
    | srcEof =>
      simp only [swStep, swEnv]
      refine ⟨gone' (by simp), by rw [sourceEnded_snoc]; simp [wevEof], ⟨lost, by rw [src' rfl]; exact hb, hl⟩,
        ?_, fi, ru, rais', de⟩
      intro hc
      exact ⟨(cl hc).1, by rw [sourceEnded_snoc]; simp [wevEof]⟩
    | deliver n =>
      simp only [swStep, swEnv]
      refine ⟨gone' (by simp), by rw [end' rfl]; exact ef, ⟨lost, by rw [src' rfl]; exact hb, hl⟩,
        by rw [end' rfl]; exact cl, fi, ru, rais', ?_⟩
      simp only
      split
      · exact de
      · omega
    | brk =>
      simp only [swStep, swEnv]
      exact ⟨by simp [childGone], by rw [end' rfl]; exact ef, ⟨lost, by rw [src' rfl]; exact hb, fun _ => rfl⟩,
        by rw [end' rfl]; exact cl, fi, ru, rais', de⟩
    | exc e =>
      simp only [swStep]
      split
      · exact same rfl rfl (by simp)
      · exact same rfl rfl (by simp)
      · refine ⟨gone' (by simp), by rw [end' rfl]; exact ef, ⟨lost, by rw [src' rfl]; exact hb, hl⟩,
          by rw [end' rfl]; exact cl, by simp, by simp, ?_, de⟩
        intro e' he
        cases he; simp
    | go =>
      have hread : s.pc = .reading ∨ s.pc = .drain → SwInv
          (match s.sr.read chunkSize with
            | none => { s with pc := .reading }
            | some (data, sr) =>
              if data.isEmpty then { s with sr := sr, w := s.w.close, pc := .closing }
              else { s with sr := sr, w := s.w.write data, pc := .drain }) (evs ++ [.go]) := by
        intro hpc
        have hcl := ru hpc
        simp only [SR.read]
        by_cases hw : (s.sr.buffer.isEmpty && !s.sr.eof) = true
        · rw [if_pos hw]
          exact ⟨gone' (by simp), by rw [end' rfl]; exact ef, ⟨lost, by rw [src' rfl]; exact hb, hl⟩,
            by rw [end' rfl]; exact cl, by simp, fun _ => hcl, by simp, de⟩
        · rw [if_neg hw]
          simp only
          split
          · rename_i hd
            have hbuf : s.sr.buffer = [] := by
              cases hbb : s.sr.buffer with
              | nil => rfl
              | cons x xs => rw [hbb] at hd; simp [chunkSize] at hd
            have heof : s.sr.eof = true := by
              rw [hbuf] at hw; simpa using hw
            refine ⟨gone' (by simp), by rw [end' rfl]; exact ef,
              ⟨lost, by rw [src' rfl, ← hb]; simp [Writer.close, hbuf], hl⟩, ?_, by simp [Writer.close], by simp, by simp, de⟩
            intro _
            exact ⟨by simp [hbuf], by rw [end' rfl, ← ef]; exact heof⟩
          · have hsplit : s.sr.buffer.take chunkSize ++ s.sr.buffer.drop chunkSize = s.sr.buffer :=
              List.take_append_drop _ _
            have hc2 : ∀ w : Writer, (w.write (s.sr.buffer.take chunkSize)).closed = w.closed ∧
                (w.write (s.sr.buffer.take chunkSize)).broken = w.broken ∧
                (w.write (s.sr.buffer.take chunkSize)).delivered = w.delivered := by
              intro w; simp only [Writer.write]; split <;> exact ⟨rfl, rfl, rfl⟩
            refine ⟨?_, by rw [end' rfl]; exact ef, ?_, ?_, by simp, ?_, by simp, ?_⟩
            · simp only [(hc2 s.w).2.1]; exact gone' (by simp)
            · simp only [(hc2 s.w).2.1]
              rw [src' rfl]
              by_cases hbk : s.w.broken = true
              · refine ⟨lost ++ s.sr.buffer.take chunkSize, ?_, fun _ => hbk⟩
                have : s.w.write (s.sr.buffer.take chunkSize) = s.w := by
                  simp [Writer.write, Writer.isClosing, hbk]
                rw [this, ← hb]
                simp only [List.append_assoc, hsplit]
              · have hlost : lost = [] := by
                  cases lost with
                  | nil => rfl
                  | cons x xs => exact absurd (hl (by simp)) hbk
                refine ⟨[], ?_, by simp⟩
                have : (s.w.write (s.sr.buffer.take chunkSize)).accepted =
                    s.w.accepted ++ s.sr.buffer.take chunkSize := by
                  simp [Writer.write, Writer.isClosing, hbk, hcl]
                rw [this, ← hb, hlost]
                simp only [List.append_nil, List.append_assoc, hsplit]
            · simp only [(hc2 s.w).1, hcl]; simp
            · intro _; simp only [(hc2 s.w).1, hcl]
            · simp only [(hc2 s.w).2.2]
              refine Nat.le_trans de ?_
              simp only [Writer.write]; split
              · exact Nat.le_refl _
              · simp
      simp only [swStep]
      cases hpc : s.pc with
      | reading => exact hread (.inl hpc)
      | drain => exact hread (.inr hpc)
      | closing =>
        refine ⟨gone' (by simp), by rw [end' rfl]; exact ef, ⟨lost, by rw [src' rfl]; exact hb, hl⟩,
          by rw [end' rfl]; exact cl, fun _ => fi (.inl hpc), by simp, by simp, de⟩
      | done => exact same rfl rfl (by simp)
      | raised e => exact same rfl rfl (by simp)

/-- **C63.** (StreamWriter) The destination gets, at every moment, a prefix of what the child wrote; when the
copy has ended normally the destination is closed and, unless its peer went away, everything was written to it
before. It is closed only after the child's output has ended. An error of the copy is an exception that one of
its `await`s raised. -/
theorem C63_streamwriter (evs : List WEv) :
    let s := copyStreamwriter evs
    s.w.accepted <+: sourceBytes evs ∧
    (s.pc = .done → s.w.closed = true ∧ sourceEnded evs = true ∧
      (¬ childGone evs → s.w.accepted = sourceBytes evs)) ∧
    (s.w.closed = true → sourceEnded evs = true) ∧
    (∀ e, s.pc = .raised e → WEv.exc e ∈ evs) := by
  obtain ⟨g, ef, ⟨lost, hb, hl⟩, cl, fi, ru, ra, de⟩ := sw_inv evs
  refine ⟨⟨lost ++ (copyStreamwriter evs).sr.buffer, by rw [← hb]; simp⟩, ?_, fun h => (cl h).2, ra⟩
  intro hd
  have hc := fi (.inr hd)
  refine ⟨hc, (cl hc).2, ?_⟩
  intro hg
  have : lost = [] := by
    cases lost with
    | nil => rfl
    | cons x xs => exact absurd (g.mp (hl (by simp))) hg
  rw [← hb, this, (cl hc).1]; simp

/-- **C63.** (StreamWriter) An exception at any point ends the copy with that exception, and leaves the
destination open unless the child's output had ended. -/
theorem C63_streamwriter_interrupted (pre post : List WEv) (e : Exc)
    (h : (copyStreamwriter pre).pc ≠ .done ∧ ∀ x, (copyStreamwriter pre).pc ≠ .raised x) :
    (copyStreamwriter (pre ++ .exc e :: post)).pc = .raised e := by
  have h1 : copyStreamwriter (pre ++ .exc e :: post) =
      post.foldl swStep (swStep (copyStreamwriter pre) (.exc e)) := by
    simp [copyStreamwriter, List.foldl_append]
  rw [h1]
  have h2 : (swStep (copyStreamwriter pre) (.exc e)).pc = .raised e := by
    simp only [swStep]
    split
    · rename_i hp; exact absurd hp h.1
    · rename_i x hp; exact absurd hp (h.2 x)
    · rfl
  generalize swStep (copyStreamwriter pre) (.exc e) = s at h2
  induction post generalizing s with
  | nil => exact h2
  | cons ev evs ih =>
    exact ih (h1 := by simp [copyStreamwriter, List.foldl_append]) _ (by cases ev <;> simp [swStep, swEnv, h2])

example : (copyStreamwriter [.feed [1, 2], .go, .go, .srcEof, .go, .go]).pc = .done ∧
    (copyStreamwriter [.feed [1, 2], .go, .go, .srcEof, .go, .go]).w.accepted = [1, 2] := by decide

/-! ## Interrupted copies into memory -/

theorem copy_interrupted {δ : Type} (onData : δ → Bytes → δ) (final : Option Exc → δ → δ × Status) (d : δ)
    (hfin : ∀ o x, (final o x).2 ≠ .running) (pre post : List SEv) (e : Exc)
    (h : (copyRun onData final d pre).st = .running) :
    (copyRun onData final d (pre ++ .exc e :: post)).st = (final (some e) (copyRun onData final d pre).dest).2 ∧
    (copyRun onData final d (pre ++ .exc e :: post)).dest = (final (some e) (copyRun onData final d pre).dest).1 := by
  rw [copyRun_append]
  simp only [List.foldl_cons]
  have h0 : copyStep onData final (copyRun onData final d pre) (.exc e) =
      { copyRun onData final d pre with
        dest := (final (some e) (copyRun onData final d pre).dest).1,
        st := (final (some e) (copyRun onData final d pre).dest).2 } := by
    simp [copyStep, h]
  rw [h0]
  have hne := hfin (some e) (copyRun onData final d pre).dest
  have stay : ∀ (post : List SEv) (s : CopySt δ), s.st ≠ .running →
      (post.foldl (copyStep onData final) s).st = s.st ∧ (post.foldl (copyStep onData final) s).dest = s.dest := by
    intro post
    induction post with
    | nil => intro s _; exact ⟨rfl, rfl⟩
    | cons ev evs ih =>
      intro s hs
      have : (copyStep onData final s ev).st = s.st ∧ (copyStep onData final s ev).dest = s.dest := by
        cases ev <;> simp [copyStep, hs]
      have h2 := ih _ (by rw [this.1]; exact hs)
      exact ⟨h2.1.trans this.1, h2.2.trans this.2⟩
  exact stay post _ hne

/-- **C14.** A copy into a bytearray or BytesIO that is interrupted ends with the exception of the
interruption; what was read before stays. -/
theorem C14_interrupted (pre post : List SEv) (e : Exc) :
    (∀ d, (copyBytearray d pre).st = .running →
      (copyBytearray d (pre ++ .exc e :: post)).st = .raised e ∧
      (copyBytearray d (pre ++ .exc e :: post)).dest = (copyBytearray d pre).dest) ∧
    (∀ d, (copyBytesio d pre).st = .running →
      (copyBytesio d (pre ++ .exc e :: post)).st = .raised e ∧
      (copyBytesio d (pre ++ .exc e :: post)).dest = (copyBytesio d pre).dest) := by
  constructor
  · intro d h
    exact copy_interrupted _ _ _ plainFinal_ne pre post e h
  · intro d h
    exact copy_interrupted _ _ _ plainFinal_ne pre post e h

/-- **C18.** A copy into a StringIO that is interrupted ends with the exception of the interruption, or with
that of decoding what was collected before (which is a prefix of what the child wrote). -/
theorem C18_interrupted (decode : Bytes → Except Exc Text) (dest : MemIO Char) (pre post : List SEv) (e : Exc)
    (h : (copyStringio decode dest pre).st = .running) :
    (copyStringio decode dest (pre ++ .exc e :: post)).st = .raised e ∨
    ∃ collected e', collected <+: written pre ∧ decode collected = .error e' ∧
      (copyStringio decode dest (pre ++ .exc e :: post)).st = .raised e' := by
  have hfin : ∀ o x, (stringioFinal decode o x).2 ≠ .running := by
    intro o x; unfold stringioFinal
    split
    · simp
    · cases o <;> simp
  have h1 := (copy_interrupted _ _ _ hfin pre post e h).1
  have h2 : (copyStringio decode dest pre).dest.1 <+: written pre := by
    obtain ⟨reads, hb, he, hst⟩ := copy_inv (fun (d : Bytes × MemIO Char) x => (d.1 ++ x, d.2))
      (stringioFinal decode) ([], dest) hfin pre
    have hfold : ∀ (reads : List Bytes) (b : Bytes),
        reads.foldl (fun (d : Bytes × MemIO Char) x => (d.1 ++ x, d.2)) (b, dest) =
          (b ++ reads.flatten, dest) := by
      intro reads
      induction reads with
      | nil => intro b; simp
      | cons r rs ih => intro b; simp [ih]
    rcases hst with hst | ⟨o, hst, -⟩
    · have := hst.2
      rw [hfold] at this
      refine ⟨(copyStringio decode dest pre).sr.buffer, ?_⟩
      rw [show (copyStringio decode dest pre).dest = ([] ++ reads.flatten, dest) from this]
      simpa [copyStringio] using hb
    · have := hfin o (reads.foldl (fun (d : Bytes × MemIO Char) x => (d.1 ++ x, d.2)) ([], dest))
      rw [hst] at this
      exact absurd h this
  simp only [copyStringio] at h2 ⊢
  rw [h1]
  simp only [stringioFinal]
  split
  · rename_i e' hd; exact .inr ⟨_, e', h2, hd, rfl⟩
  · exact .inl rfl

example : (copyStringio (decodeAll utf8Step .strict) ⟨[], 0, true⟩ [.feed [0x61], .go]).st = .running := by decide

end Shellous.Props
