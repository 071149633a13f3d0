import Verif.Model.Streams
import Verif.Lemmas.Basic
import Verif.Lemmas.Codec

/-!
# C14, C15, C18, C19, C20: output streams
-/

namespace Shellous.Props

open Shellous

/-- The bytes the child wrote according to an event list: everything fed before the first EOF. -/
def written : List SEv → Bytes
  | [] => []
  | .feed b :: r => b ++ written r
  | .eof :: _ => []
  | _ :: r => written r

/-- The stream has ended. -/
def ended : List SEv → Bool
  | [] => false
  | .eof :: _ => true
  | _ :: r => ended r

/-- Bytes carried by an event. -/
def evData : SEv → Bytes
  | .feed b => b
  | _ => []

/-- The event is EOF. -/
def evEof : SEv → Bool
  | .eof => true
  | _ => false

theorem written_snoc (evs : List SEv) (ev : SEv) :
    written (evs ++ [ev]) =
      written evs ++ (if ended evs then [] else evData ev) := by
  induction evs with
  | nil => cases ev <;> simp [written, ended, evData]
  | cons e evs ih => cases e <;> simp [written, ended, ih] <;> rfl

theorem ended_snoc (evs : List SEv) (ev : SEv) :
    ended (evs ++ [ev]) = (ended evs || evEof ev) := by
  induction evs with
  | nil => cases ev <;> simp [ended, evEof]
  | cons e evs ih => cases e <;> simp [ended, ih]

/-- A copy is a fold over the successive reads, which partition what was written. -/
theorem copy_inv {δ : Type} (onData : δ → Bytes → δ) (final : Option Exc → δ → δ × Status) (d : δ)
    (hfin : ∀ o x, (final o x).2 ≠ .running) (evs : List SEv) :
    ∃ reads : List Bytes,
      reads.flatten ++ (copyRun onData final d evs).sr.buffer = written evs ∧
      (copyRun onData final d evs).sr.eof = ended evs ∧
      (((copyRun onData final d evs).st = .running ∧
          (copyRun onData final d evs).dest = reads.foldl onData d) ∨
       (∃ o, final o (reads.foldl onData d) =
            ((copyRun onData final d evs).dest, (copyRun onData final d evs).st) ∧
          (∀ e, o = some e → SEv.exc e ∈ evs) ∧
          (o = none → (copyRun onData final d evs).sr.buffer = [] ∧ ended evs = true))) := by
  induction evs using snocInduction with
  | nil => exact ⟨[], rfl, rfl, .inl ⟨rfl, rfl⟩⟩
  | snoc evs ev ih =>
    obtain ⟨reads, hb, he, hst⟩ := ih
    have hrun : copyRun onData final d (evs ++ [ev]) =
        copyStep onData final (copyRun onData final d evs) ev := by
      simp [copyRun, List.foldl_append]
    rw [hrun, written_snoc, ended_snoc]
    simp only [evData, evEof]
    generalize copyRun onData final d evs = s at *
    have hst' : (s.st = .running ∧ s.dest = reads.foldl onData d) ∨
       (∃ o, final o (reads.foldl onData d) = (s.dest, s.st) ∧
          (∀ e, o = some e → SEv.exc e ∈ evs ++ [ev]) ∧ (o = none → s.sr.buffer = [] ∧ ended evs = true)) := by
      rcases hst with h | ⟨o, h1, h2, h3⟩
      · exact .inl h
      · exact .inr ⟨o, h1, fun e he => List.mem_append_left _ (h2 e he), h3⟩
    cases ev with
    | feed b =>
      refine ⟨reads, ?_, ?_, ?_⟩
      · simp only [copyStep, SR.feed]
        rw [← he]
        split
        · rename_i h; simp [hb]
        · rename_i h; simp [← hb]
      · simp only [copyStep, SR.feed]; split <;> simp [he]
      · simp only [copyStep, Bool.or_false]
        rcases hst' with h | ⟨o, h1, h2, h3⟩
        · exact .inl h
        · refine .inr ⟨o, h1, h2, fun ho => ?_⟩
          have := h3 ho
          refine ⟨?_, this.2⟩
          simp only [SR.feed, he, this.2, if_true]; exact this.1
    | eof =>
      refine ⟨reads, ?_, ?_, ?_⟩
      · simp [copyStep, hb]
      · simp [copyStep]
      · simp only [copyStep]
        rcases hst' with h | ⟨o, h1, h2, h3⟩
        · exact .inl h
        · exact .inr ⟨o, h1, h2, fun ho => ⟨(h3 ho).1, by simp⟩⟩
    | go =>
      simp only [copyStep, Bool.or_false, ite_self, List.append_nil]
      by_cases hr : s.st = .running
      · simp only [hr, ne_eq, not_true_eq_false, if_false]
        have hd : s.dest = reads.foldl onData d := by
          rcases hst with h | ⟨o, h1, _⟩
          · exact h.2
          · have := hfin o (reads.foldl onData d); rw [h1] at this; exact absurd hr this
        simp only [SR.read]
        split
        · rename_i hcond
          split at hcond
          · exact ⟨reads, hb, he, .inl ⟨hr, hd⟩⟩
          · cases hcond
        · rename_i data sr hcond
          split at hcond
          · cases hcond
          · rename_i hne
            simp only [Option.some.injEq, Prod.mk.injEq] at hcond
            obtain ⟨rfl, rfl⟩ := hcond
            split
            · rename_i hemp
              have hbe : s.sr.buffer = [] := by
                cases hbb : s.sr.buffer with
                | nil => rfl
                | cons x xs => rw [hbb] at hemp; simp [chunkSize] at hemp
              refine ⟨reads, by simpa [hbe] using hb, he, .inr ⟨none, ?_, by simp, fun _ => ?_⟩⟩
              · rw [hd]
              · refine ⟨by simp [hbe], ?_⟩
                rw [← he]
                cases hee : s.sr.eof with
                | true => rfl
                | false => simp [hbe, hee] at hne
            · refine ⟨reads ++ [s.sr.buffer.take chunkSize], ?_, he, .inl ⟨rfl, ?_⟩⟩
              · simp only [List.flatten_append, List.flatten_singleton, List.append_assoc,
                  List.take_append_drop]; exact hb
              · simp [List.foldl_append, hd]
      · simp only [hr, ne_eq, not_false_eq_true, if_true]
        refine ⟨reads, hb, he, ?_⟩
        rcases hst' with h | h
        · exact absurd h.1 hr
        · exact .inr h
    | exc e =>
      simp only [copyStep, Bool.or_false, ite_self, List.append_nil]
      by_cases hr : s.st = .running
      · simp only [hr, ne_eq, not_true_eq_false, if_false]
        have hd : s.dest = reads.foldl onData d := by
          rcases hst with h | ⟨o, h1, _⟩
          · exact h.2
          · have := hfin o (reads.foldl onData d); rw [h1] at this; exact absurd hr this
        refine ⟨reads, hb, he, .inr ⟨some e, by rw [hd], ?_, by simp⟩⟩
        intro e' he'; cases he'; simp
      · simp only [hr, ne_eq, not_false_eq_true, if_true]
        refine ⟨reads, hb, he, ?_⟩
        rcases hst' with h | h
        · exact absurd h.1 hr
        · exact .inr h

theorem plainFinal_ne {δ : Type} (o : Option Exc) (x : δ) : (plainFinal o x).2 ≠ .running := by
  cases o <;> simp [plainFinal]

theorem plainFinal_dest {δ : Type} (o : Option Exc) (x d : δ) (st : Status)
    (h : plainFinal o x = (d, st)) : d = x ∧ (st = .done → o = none) := by
  cases o <;> simp [plainFinal] at h <;> obtain ⟨rfl, rfl⟩ := h <;> simp

/-- For copies that simply end after their loop: the destination is the fold over some reads, which
form a prefix of what was written, all of it when the copy is done. -/
theorem copy_plain {δ : Type} (onData : δ → Bytes → δ) (d : δ) (evs : List SEv) :
    ∃ reads : List Bytes,
      (copyRun onData plainFinal d evs).dest = reads.foldl onData d ∧
      reads.flatten <+: written evs ∧
      ((copyRun onData plainFinal d evs).st = .done → reads.flatten = written evs ∧ ended evs = true) := by
  obtain ⟨reads, hb, he, hst⟩ := copy_inv onData plainFinal d plainFinal_ne evs
  refine ⟨reads, ?_, ⟨_, hb⟩, ?_⟩
  · rcases hst with h | ⟨o, h, _⟩
    · exact h.2
    · exact (plainFinal_dest _ _ _ _ h).1
  · intro hd
    rcases hst with h | ⟨o, h, _, h3⟩
    · rw [h.1] at hd; cases hd
    · have := h3 ((plainFinal_dest _ _ _ _ h).2 hd)
      rw [this.1, List.append_nil] at hb
      exact ⟨hb, this.2⟩

/-! ## C14 -/

theorem foldl_append_bytes (reads : List Bytes) (d : Bytes) :
    reads.foldl (fun d x => d ++ x) d = d ++ reads.flatten := by
  induction reads generalizing d with
  | nil => simp
  | cons r rs ih => simp [ih]

/-- **C14** (stdout buffer, bytearray): at every moment the sink holds its starting contents followed
by a prefix of what the child wrote; when the copy has finished, by all of it. -/
theorem C14_bytearray_sink (dest : Bytes) (evs : List SEv) :
    (∃ p, (copyBytearray dest evs).dest = dest ++ p ∧ p <+: written evs) ∧
    ((copyBytearray dest evs).st = .done → (copyBytearray dest evs).dest = dest ++ written evs) := by
  obtain ⟨reads, hd, hp, hdone⟩ := copy_plain (fun d x => d ++ x) dest evs
  rw [foldl_append_bytes] at hd
  refine ⟨⟨reads.flatten, hd, hp⟩, fun h => ?_⟩
  rw [← (hdone h).1]; exact hd

theorem memio_write_end {α : Type} (z : α) (f : MemIO α) (x : List α) (h : f.pos = f.buf.length) :
    f.write z x = { f with buf := f.buf ++ x, pos := (f.buf ++ x).length } := by
  unfold MemIO.write
  split
  · rename_i hx
    have : x = [] := by simpa using hx
    subst this; cases f; simp at h; simp [h]
  · simp [h, List.take_of_length_le, List.drop_eq_nil_of_le]

theorem foldl_memio {α : Type} (z : α) (reads : List (List α)) (f : MemIO α)
    (h : f.pos = f.buf.length) :
    reads.foldl (fun d x => d.write z x) f =
      { f with buf := f.buf ++ reads.flatten, pos := (f.buf ++ reads.flatten).length } := by
  induction reads generalizing f with
  | nil => cases f; simp at h; simp [h]
  | cons r rs ih =>
    rw [List.foldl_cons, memio_write_end z f r h, ih _ rfl]
    simp

/-- **C14** (BytesIO), for a sink positioned at its end (as `_set_position` leaves it, C20). -/
theorem C14_bytesio_sink (dest : MemIO UInt8) (h : dest.pos = dest.buf.length) (evs : List SEv) :
    (∃ p, (copyBytesio dest evs).dest.buf = dest.buf ++ p ∧ p <+: written evs) ∧
    ((copyBytesio dest evs).st = .done → (copyBytesio dest evs).dest.buf = dest.buf ++ written evs) := by
  obtain ⟨reads, hd, hp, hdone⟩ := copy_plain (fun (d : MemIO UInt8) x => d.write 0 x) dest evs
  rw [foldl_memio 0 reads dest h] at hd
  have hd' : (copyBytesio dest evs).dest.buf = dest.buf ++ reads.flatten := by
    unfold copyBytesio; rw [hd]
  refine ⟨⟨reads.flatten, hd', hp⟩, fun hh => ?_⟩
  rw [hd', (hdone hh).1]

/-- Progress: once the stream has ended, finitely many turns of the event loop finish any copy. -/
theorem copy_finishes {δ : Type} (onData : δ → Bytes → δ) (final : Option Exc → δ → δ × Status)
    (hfin : ∀ o x, (final o x).2 ≠ .running) (n : Nat) (s : CopySt δ) (he : s.sr.eof = true)
    (hn : s.sr.buffer.length < n) :
    ((List.replicate n SEv.go).foldl (copyStep onData final) s).st ≠ .running := by
  have stay : ∀ n (s : CopySt δ), s.st ≠ .running →
      ((List.replicate n SEv.go).foldl (copyStep onData final) s).st ≠ .running := by
    intro n
    induction n with
    | zero => intro s h; exact h
    | succ n ih => intro s h; simp only [List.replicate_succ, List.foldl_cons]; apply ih; simp [copyStep, h]
  induction n generalizing s with
  | zero => omega
  | succ n ih =>
    simp only [List.replicate_succ, List.foldl_cons]
    by_cases hr : s.st = .running
    · simp only [copyStep, hr, ne_eq, not_true_eq_false, if_false, SR.read, he, Bool.not_true,
        Bool.and_false, Bool.false_eq_true]
      split
      · exact stay _ _ (hfin _ _)
      · rename_i hne
        apply ih
        · rfl
        · simp only [List.length_drop]
          have : s.sr.buffer ≠ [] := by rintro h; rw [h] at hne; simp at hne
          have := List.length_pos_iff.mpr this
          have : 0 < chunkSize := by decide
          omega
    · exact stay _ _ (by simp only [copyStep, hr, ne_eq, not_false_eq_true, if_true])

theorem copyRun_append {δ : Type} (onData : δ → Bytes → δ) (final : Option Exc → δ → δ × Status) (d : δ)
    (a b : List SEv) :
    copyRun onData final d (a ++ b) = b.foldl (copyStep onData final) (copyRun onData final d a) := by
  simp [copyRun, List.foldl_append]

/-- **C14.** The whole output is delivered: whatever happened before the stream ended, as long as the
copy was not interrupted, it finishes and the buffer then holds everything. -/
theorem C14_complete (dest : Bytes) (evs : List SEv) (hend : ended evs = true)
    (hexc : ∀ e, SEv.exc e ∉ evs) :
    ∃ n, (copyBytearray dest (evs ++ List.replicate n .go)).st = .done ∧
      (copyBytearray dest (evs ++ List.replicate n .go)).dest = dest ++ written evs := by
  let s := copyBytearray dest evs
  have he : s.sr.eof = true := by
    obtain ⟨_, _, he, _⟩ := copy_inv (fun (d x : Bytes) => d ++ x) plainFinal dest plainFinal_ne evs
    exact he.trans hend
  refine ⟨s.sr.buffer.length + 1, ?_⟩
  generalize hn : s.sr.buffer.length + 1 = n
  have hnr : (copyBytearray dest (evs ++ List.replicate n .go)).st ≠ .running := by
    unfold copyBytearray; rw [copyRun_append]
    exact copy_finishes _ _ plainFinal_ne n s he (by omega)
  have hdone : (copyBytearray dest (evs ++ List.replicate n .go)).st = .done := by
    obtain ⟨reads, _, _, hst⟩ :=
      copy_inv (fun (d x : Bytes) => d ++ x) plainFinal dest plainFinal_ne (evs ++ List.replicate n .go)
    rcases hst with h | ⟨o, h, hex, _⟩
    · exact absurd h.1 hnr
    · cases o with
      | none => simp only [plainFinal, Prod.mk.injEq] at h; exact h.2.symm
      | some e =>
        have := hex e rfl
        simp only [List.mem_append, List.mem_replicate, reduceCtorEq, and_false, or_false] at this
        exact absurd this (hexc e)
  refine ⟨hdone, ?_⟩
  rw [(C14_bytearray_sink dest _).2 hdone]
  congr 1
  have : ∀ n, written (evs ++ List.replicate n .go) = written evs := by
    intro n
    induction n with
    | zero => simp
    | succ n ih => rw [List.replicate_succ', ← List.append_assoc, written_snoc, ih]; simp [evData]
  exact this n

example : (copyBytearray [1] [.go, .feed [2, 3], .go, .feed [4], .eof, .go, .go]).dest = [1, 2, 3, 4] ∧
    (copyBytearray [1] [.go, .feed [2, 3], .go, .feed [4], .eof, .go, .go]).st = .done := by decide

/-! ## C15 -/

theorem limit_fold (limit : Nat) (reads : List Bytes) (d : Bytes) :
    let r := reads.foldl (limitBody limit) (d.take limit, decide (d.length > limit))
    r = ((d ++ reads.flatten).take limit, decide ((d ++ reads.flatten).length > limit)) := by
  induction reads generalizing d with
  | nil => simp
  | cons x xs ih =>
    simp only [List.foldl_cons, List.flatten_cons, ← List.append_assoc]
    have hstep : limitBody limit (d.take limit, decide (d.length > limit)) x =
        ((d ++ x).take limit, decide ((d ++ x).length > limit)) := by
      unfold limitBody
      by_cases h : d.length > limit
      · simp only [h, decide_true, if_true, Prod.mk.injEq]
        refine ⟨?_, ?_⟩
        · rw [List.take_append_of_le_length (by omega)]
        · simp; omega
      · simp only [h, decide_false, Bool.false_eq_true, if_false]
        rw [List.take_of_length_le (show d.length ≤ limit by omega)]
        split
        · rename_i h2; simp only [Prod.mk.injEq, true_and]; simp only [h2, decide_true]
        · rename_i h2
          rw [List.take_of_length_le (show (d ++ x).length ≤ limit by omega)]
          simp only [h2, decide_false]
    rw [hstep]
    exact ih (d ++ x)

/-- **C15.** With `error_limit = n`, at every moment the error buffer holds at most `n` bytes and is a
prefix of the child's stderr; when the copy is done it is exactly the first `n` bytes of it and the
stream has been read to its end. -/
theorem C15_error_limit (n : Nat) (evs : List SEv) :
    (copyBytearrayLimit n [] evs).dest.1.length ≤ n ∧
    (copyBytearrayLimit n [] evs).dest.1 <+: written evs ∧
    ((copyBytearrayLimit n [] evs).st = .done →
      (copyBytearrayLimit n [] evs).dest.1 = (written evs).take n ∧
      (copyBytearrayLimit n [] evs).sr.buffer = [] ∧ ended evs = true) := by
  obtain ⟨reads, hb, he, hst⟩ := copy_inv (limitBody n) plainFinal (([], false) : Bytes × Bool)
    plainFinal_ne evs
  have hf := limit_fold n reads []
  simp only [List.take_nil, List.length_nil, List.nil_append, gt_iff_lt, Nat.not_lt_zero,
    decide_false] at hf
  have hdest : (copyBytearrayLimit n [] evs).dest.1 = reads.flatten.take n := by
    have : (copyBytearrayLimit n [] evs).dest = reads.foldl (limitBody n) ([], false) := by
      rcases hst with h | ⟨o, h, _⟩
      · exact h.2
      · exact (plainFinal_dest _ _ _ _ h).1
    rw [this, hf]
  rw [hdest]
  refine ⟨by simp; omega, ?_, ?_⟩
  · rw [← hb]
    exact (List.take_prefix _ _).trans (List.prefix_append _ _)
  · intro hd
    rcases hst with h | ⟨o, h, _, h3⟩
    · rw [show (copyBytearrayLimit n [] evs).st = _ from h.1] at hd; cases hd
    · have := h3 ((plainFinal_dest _ _ _ _ h).2 hd)
      rw [this.1, List.append_nil] at hb
      exact ⟨by rw [hb], this.1, this.2⟩

/-- **C15.** The stream is drained: after EOF, unless interrupted, the copy finishes. -/
theorem C15_drained (n : Nat) (evs : List SEv) (hend : ended evs = true)
    (hexc : ∀ e, SEv.exc e ∉ evs) :
    ∃ k, (copyBytearrayLimit n [] (evs ++ List.replicate k .go)).st = .done := by
  let s := copyBytearrayLimit n [] evs
  have he : s.sr.eof = true := by
    obtain ⟨_, _, he, _⟩ := copy_inv (limitBody n) plainFinal (([], false) : Bytes × Bool)
      plainFinal_ne evs
    exact he.trans hend
  refine ⟨s.sr.buffer.length + 1, ?_⟩
  generalize hn : s.sr.buffer.length + 1 = k
  have hnr : (copyBytearrayLimit n [] (evs ++ List.replicate k .go)).st ≠ .running := by
    unfold copyBytearrayLimit; rw [copyRun_append]
    exact copy_finishes _ _ plainFinal_ne k s he (by omega)
  obtain ⟨reads, _, _, hst⟩ := copy_inv (limitBody n) plainFinal (([], false) : Bytes × Bool)
    plainFinal_ne (evs ++ List.replicate k .go)
  rcases hst with h | ⟨o, h, hex, _⟩
  · exact absurd h.1 hnr
  · cases o with
    | none => simp only [plainFinal, Prod.mk.injEq] at h; exact h.2.symm
    | some e =>
      have := hex e rfl
      simp only [List.mem_append, List.mem_replicate, reduceCtorEq, and_false, or_false] at this
      exact absurd this (hexc e)

example : (copyBytearrayLimit 3 [] [.feed [1, 2], .go, .feed [3, 4], .go, .feed [5], .eof, .go, .go]).dest.1
    = [1, 2, 3] := by decide

/-! ## C18 -/

/-- **C18.** Whether the copy ran to completion or was interrupted, the StringIO gets the decoding of
all collected bytes in one piece, appended at its end, unless that decoding fails; then nothing is
written and the error is raised. `collected` is what was written by the child up to that point, all of
it when not interrupted. -/
theorem C18_stringio_sink (decode : Bytes → Except Exc Text) (dest : MemIO Char)
    (hpos : dest.pos = dest.buf.length) (evs : List SEv) :
    let s := copyStringio decode dest evs
    s.st ≠ .running →
    ∃ collected, collected <+: written evs ∧
      ((∀ e, SEv.exc e ∉ evs) → collected = written evs) ∧
      (∀ t, decode collected = .ok t → s.dest.2.buf = dest.buf ++ t) ∧
      (∀ e, decode collected = .error e → s.dest.2.buf = dest.buf ∧ s.st = .raised e) ∧
      (s.st = .done → ∃ t, decode collected = .ok t) := by
  intro s hs
  have hfin : ∀ o x, (stringioFinal decode o x).2 ≠ .running := by
    intro o x; unfold stringioFinal
    split
    · simp
    · cases o <;> simp
  obtain ⟨reads, hb, he, hst⟩ := copy_inv (fun (d : Bytes × MemIO Char) x => (d.1 ++ x, d.2))
    (stringioFinal decode) ([], dest) hfin evs
  have hfold : ∀ (reads : List Bytes) (b : Bytes),
      reads.foldl (fun (d : Bytes × MemIO Char) x => (d.1 ++ x, d.2)) (b, dest) =
        (b ++ reads.flatten, dest) := by
    intro reads
    induction reads with
    | nil => intro b; simp
    | cons r rs ih => intro b; simp [ih]
  rw [hfold] at hst
  simp only [List.nil_append] at hst
  have hst2 : ∃ o, stringioFinal decode o (reads.flatten, dest) = (s.dest, s.st) ∧
      (∀ e, o = some e → SEv.exc e ∈ evs) ∧ (o = none → s.sr.buffer = [] ∧ ended evs = true) := by
    rcases hst with h | h
    · exact absurd h.1 hs
    · exact h
  obtain ⟨o, h1, h2, h3⟩ := hst2
  refine ⟨reads.flatten, ⟨_, hb⟩, ?_, ?_, ?_, ?_⟩
  · intro hno
    cases o with
    | none =>
      have := (h3 rfl).1
      rw [← hb, show (copyRun _ _ _ evs).sr.buffer = [] from this, List.append_nil]
    | some e => exact absurd (h2 e rfl) (hno e)
  · intro t ht
    simp only [stringioFinal, ht, Prod.mk.injEq] at h1
    rw [← h1.1, memio_write_end _ _ _ hpos]
  · intro e het
    simp only [stringioFinal, het, Prod.mk.injEq] at h1
    rw [← h1.1, ← h1.2]; exact ⟨rfl, rfl⟩
  · intro hd
    cases ht : decode reads.flatten with
    | ok t => exact ⟨t, rfl⟩
    | error e => simp only [stringioFinal, ht, Prod.mk.injEq] at h1; rw [hd] at h1; simp at h1

/-- The character "é" cut between two reads. -/
example : (copyStringio (decodeAll utf8Step .strict) ⟨['a'], 1, true⟩
    [.feed [0xC3], .go, .feed [0xA9], .go, .eof, .go]).dest.2.buf = ['a', 'é'] := by
  have h := C18_stringio_sink (decodeAll utf8Step .strict) ⟨['a'], 1, true⟩ rfl
    [.feed [0xC3], .go, .feed [0xA9], .go, .eof, .go]
  simp [copyStringio, copyRun, copyStep, SR.feed, SR.read, chunkSize, stringioFinal, decodeAll, decodeLoop,
    utf8Step, isCont, Except.map, MemIO.write]

/-! ## C20 -/

/-- **C20.** Whatever contents and position a seekable in-memory sink has, it ends as `new` contents if
the redirection overwrites and as old contents followed by `new` if it appends. Bytearrays likewise. -/
theorem C20_append_overwrite (evs : List SEv) (decode : Bytes → Except Exc Text) (append : Bool) :
    (∀ f : MemIO UInt8, f.seekable = true → (copyBytesio (f.setPosition append) evs).st = .done →
      (copyBytesio (f.setPosition append) evs).dest.buf =
        (if append then f.buf else []) ++ written evs) ∧
    (∀ f : MemIO Char, f.seekable = true → ∀ t, decode (written evs) = .ok t →
      (∀ e, SEv.exc e ∉ evs) → (copyStringio decode (f.setPosition append) evs).st = .done →
      (copyStringio decode (f.setPosition append) evs).dest.2.buf =
        (if append then f.buf else []) ++ t) ∧
    (∀ d : Bytes, (copyBytearray (setPositionBytearray d append) evs).st = .done →
      (copyBytearray (setPositionBytearray d append) evs).dest =
        (if append then d else []) ++ written evs) := by
  have hp : ∀ {α : Type} (f : MemIO α), f.seekable = true →
      (f.setPosition append).buf = (if append then f.buf else []) ∧
      (f.setPosition append).pos = (f.setPosition append).buf.length := by
    intro α f hs
    cases append <;> simp [MemIO.setPosition, hs]
  refine ⟨?_, ?_, ?_⟩
  · intro f hs hd
    rw [(C14_bytesio_sink _ (hp f hs).2 evs).2 hd, (hp f hs).1]
  · intro f hs t ht hno hd
    obtain ⟨col, _, h2, h3, _⟩ := C18_stringio_sink decode _ (hp f hs).2 evs (by rw [hd]; simp)
    rw [h2 hno] at h3
    rw [h3 t ht, (hp f hs).1]
  · intro d hd
    rw [(C14_bytearray_sink _ evs).2 hd]
    cases append <;> rfl

/-- **C20.** A file that cannot seek is left alone. -/
theorem C20_not_seekable {α : Type} (f : MemIO α) (append : Bool) (h : f.seekable = false) :
    f.setPosition append = f := by
  simp [MemIO.setPosition, h]

/-! ## C19 -/

/-- What a line iterator over a byte stream has to produce: lines that, with the not yet delivered
rest, are the stream; each ends with its only newline, except possibly the last one. -/
structure Lines (lines : List Bytes) : Prop where
  nonempty : ∀ l ∈ lines, l ≠ []
  inner : ∀ l ∈ lines, (0x0A : UInt8) ∉ l.dropLast
  complete : ∀ l ∈ lines.dropLast, l.getLast? = some 0x0A

theorem idxOf_split (b : Bytes) (i : Nat) (h : b.idxOf? 0x0A = some i) :
    i < b.length ∧ b.take (i + 1) = b.take i ++ [0x0A] ∧ (0x0A : UInt8) ∉ b.take i := by
  induction b generalizing i with
  | nil => simp at h
  | cons x xs ih =>
    rw [List.idxOf?_cons] at h
    split at h
    · rename_i hx
      cases h
      simp only [beq_iff_eq] at hx
      subst hx; simp
    · rename_i hx
      simp only [Option.map_eq_some_iff] at h
      obtain ⟨j, hj, rfl⟩ := h
      obtain ⟨h1, h2, h3⟩ := ih j hj
      refine ⟨by simp; omega, by simp [h2], ?_⟩
      simp only [List.take_succ_cons, List.mem_cons, not_or]
      refine ⟨?_, h3⟩
      intro hh; simp [← hh] at hx

/-- The iteration invariant, for byte lines. -/
structure LineInv (limit : Nat) (s : LineSt) (evs : List SEv) : Prop where
  eof : s.sr.eof = ended evs
  lines : Lines s.lines
  short : ∀ l ∈ s.lines, l.length ≤ limit + 1
  content : s.st ≠ .raised .valueError → s.lines.flatten ++ s.sr.buffer = written evs
  done : s.st = .done → s.sr.buffer = [] ∧ ended evs = true
  last : (∃ l, s.lines.getLast? = some l ∧ l.getLast? ≠ some 0x0A) →
    s.sr.buffer = [] ∧ ended evs = true
  raised : ∀ e, s.st = .raised e → SEv.exc e ∈ evs ∨
    (e = .valueError ∧ ∃ a b c, written evs = a ++ b ++ c ∧ (0x0A : UInt8) ∉ b ∧ limit < b.length)

theorem Lines.snoc {ls : List Bytes} (h : Lines ls) (hlast : ∀ l, ls.getLast? = some l → l.getLast? = some 0x0A)
    (l : Bytes) (hne : l ≠ []) (hin : (0x0A : UInt8) ∉ l.dropLast) : Lines (ls ++ [l]) := by
  refine ⟨?_, ?_, ?_⟩
  · intro x hx
    rcases List.mem_append.mp hx with h1 | h1
    · exact h.nonempty x h1
    · simp at h1; subst h1; exact hne
  · intro x hx
    rcases List.mem_append.mp hx with h1 | h1
    · exact h.inner x h1
    · simp at h1; subst h1; exact hin
  · intro x hx
    rw [List.dropLast_concat] at hx
    cases hg : ls.getLast? with
    | none => rw [List.getLast?_eq_none_iff] at hg; subst hg; simp at hx
    | some y =>
      have hls : ls = ls.dropLast ++ [y] := by
        have hne : ls ≠ [] := by rintro rfl; simp at hg
        have hd := List.dropLast_concat_getLast hne
        rw [List.getLast?_eq_some_getLast hne] at hg
        rw [Option.some.inj hg] at hd
        exact hd.symm
      rw [hls] at hx
      rcases List.mem_append.mp hx with h1 | h1
      · exact h.complete x h1
      · simp at h1; subst h1; exact hlast _ hg

theorem idxOf_none (b : Bytes) (h : b.idxOf? 0x0A = none) : (0x0A : UInt8) ∉ b := by
  intro hm
  have := List.idxOf?_eq_none_iff.mp h
  exact this hm

theorem lines_inv (limit : Nat) (evs : List SEv) : LineInv limit (lineRun limit evs) evs := by
  induction evs using snocInduction with
  | nil =>
    refine ⟨rfl, ⟨by simp [lineRun], by simp [lineRun], by simp [lineRun]⟩, by simp [lineRun], fun _ => rfl, ?_, ?_, ?_⟩
      <;> simp [lineRun]
  | snoc evs ev ih =>
    have hrun : lineRun limit (evs ++ [ev]) = lineStep limit (lineRun limit evs) ev := by
      simp [lineRun, List.foldl_append]
    rw [hrun]
    generalize lineRun limit evs = s at *
    have hw := written_snoc evs ev
    have hend := ended_snoc evs ev
    have hraised : ∀ e, s.st = .raised e → SEv.exc e ∈ evs ++ [ev] ∨
        (e = .valueError ∧ ∃ a b c, written (evs ++ [ev]) = a ++ b ++ c ∧ (0x0A : UInt8) ∉ b ∧
          limit < b.length) := by
      intro e he
      rcases ih.raised e he with h | ⟨h1, a, b, c, h2, h3, h4⟩
      · exact .inl (by simp [h])
      · exact .inr ⟨h1, a, b, c ++ _, by rw [hw, h2, List.append_assoc], h3, h4⟩
    cases ev with
    | feed b =>
      simp only [evData, evEof, Bool.or_false] at hw hend
      simp only [lineStep, SR.feed]
      cases hee : ended evs with
      | true =>
        have he := ih.eof.trans hee
        simp only [hee, if_true, List.append_nil] at hw
        simp only [he, if_true]
        refine ⟨by rw [hend, hee]; exact he, ih.lines, ih.short, by rw [hw]; exact ih.content,
          ?_, ?_, hraised⟩
        · rw [hend]; exact ih.done
        · rw [hend]; exact ih.last
      | false =>
        have he := ih.eof.trans hee
        simp only [hee, Bool.false_eq_true, if_false] at hw
        simp only [he, Bool.false_eq_true, if_false]
        refine ⟨by rw [hend, hee], ih.lines, ih.short, ?_, ?_, ?_, hraised⟩
        · intro h; rw [hw, ← ih.content h]; simp
        · intro h; have := (ih.done h).2; rw [hee] at this; cases this
        · intro h; have := (ih.last h).2; rw [hee] at this; cases this
    | eof =>
      simp only [evData, evEof, Bool.or_true, ite_self, List.append_nil] at hw hend
      simp only [lineStep]
      refine ⟨hend.symm, ih.lines, ih.short, by rw [hw]; exact ih.content, ?_, ?_, hraised⟩
      · intro h; exact ⟨(ih.done h).1, hend⟩
      · intro h; exact ⟨(ih.last h).1, hend⟩
    | exc e =>
      simp only [evData, evEof, Bool.or_false, ite_self, List.append_nil] at hw hend
      simp only [lineStep]
      by_cases hr : s.st = .running
      · simp only [hr, ne_eq, not_true_eq_false, if_false]
        refine ⟨by rw [hend]; exact ih.eof, ih.lines, ih.short, ?_, by simp, by rw [hend]; exact ih.last, ?_⟩
        · intro _; rw [hw]; exact ih.content (by rw [hr]; simp)
        · intro e' he'; cases he'; exact .inl (by simp)
      · simp only [hr, ne_eq, not_false_eq_true, if_true]
        exact ⟨by rw [hend]; exact ih.eof, ih.lines, ih.short, by rw [hw]; exact ih.content,
          by rw [hend]; exact ih.done, by rw [hend]; exact ih.last, hraised⟩
    | go =>
      simp only [evData, evEof, Bool.or_false, ite_self, List.append_nil] at hw hend
      simp only [lineStep]
      by_cases hr : s.st = .running
      · simp only [hr, ne_eq, not_true_eq_false, if_false]
        have hcont := ih.content (by rw [hr]; simp)
        split
        · rename_i i hi
          obtain ⟨h1, h2, h3⟩ := idxOf_split _ _ hi
          have hbne : s.sr.buffer ≠ [] := by rintro h; rw [h] at h1; simp at h1
          have hlast : ∀ l, s.lines.getLast? = some l → l.getLast? = some 0x0A := by
            intro l hl
            apply Decidable.byContradiction
            intro hc
            exact hbne (ih.last ⟨l, hl, hc⟩).1
          split
          · rename_i hlim
            refine ⟨by rw [hend]; exact ih.eof, ih.lines, ih.short, by simp, by simp, ?_, ?_⟩
            · rintro ⟨l, hl, hc⟩; exact absurd (hlast l hl) hc
            · intro e he; cases he
              refine .inr ⟨rfl, s.lines.flatten, s.sr.buffer.take i, s.sr.buffer.drop i, ?_, h3, ?_⟩
              · rw [hw, ← hcont, List.append_assoc, List.take_append_drop]
              · simp; omega
          · rename_i hlim
            have hlen : (s.sr.buffer.take (i + 1)) ≠ [] := by rw [h2]; simp
            refine ⟨by rw [hend]; exact ih.eof, ih.lines.snoc hlast _ hlen ?_, ?_, ?_, by simp, ?_,
              by simp⟩
            · rw [h2, List.dropLast_concat]; exact h3
            · intro l hl
              rcases List.mem_append.mp hl with h | h
              · exact ih.short l h
              · simp at h; subst h; simp; omega
            · intro _
              rw [hw, ← hcont]; simp
            · rintro ⟨l, hl, hc⟩
              simp only [List.getLast?_concat, Option.some.injEq] at hl
              subst hl
              rw [h2] at hc; simp at hc
        · rename_i hi
          have hno := idxOf_none _ hi
          split
          · rename_i hlim
            refine ⟨by rw [hend]; exact ih.eof, ih.lines, ih.short, by simp, by simp, ?_, ?_⟩
            · intro h; rw [hend]; exact ⟨rfl, (ih.last h).2⟩
            · intro e he; cases he
              exact .inr ⟨rfl, s.lines.flatten, s.sr.buffer, [], by rw [hw, ← hcont]; simp, hno, hlim⟩
          · rename_i hlim
            split
            · rename_i heof
              split
              · rename_i hemp
                have hb : s.sr.buffer = [] := by simpa using hemp
                refine ⟨by rw [hend]; exact ih.eof, ih.lines, ih.short, by rw [hw]; exact fun _ => hcont, ?_, ?_, by simp⟩
                · intro _; rw [hend, ← ih.eof]; exact ⟨hb, heof⟩
                · rw [hend]; exact ih.last
              · rename_i hemp
                have hbne : s.sr.buffer ≠ [] := by simpa using hemp
                have hlast : ∀ l, s.lines.getLast? = some l → l.getLast? = some 0x0A := by
                  intro l hl
                  apply Decidable.byContradiction
                  intro hc
                  exact hbne (ih.last ⟨l, hl, hc⟩).1
                refine ⟨by rw [hend]; exact ih.eof, ih.lines.snoc hlast _ hbne ?_, ?_, ?_, by simp,
                  ?_, by simp⟩
                · intro hm; exact hno (List.dropLast_subset _ hm)
                · intro l hl
                  rcases List.mem_append.mp hl with h | h
                  · exact ih.short l h
                  · simp at h; subst h; omega
                · intro _; rw [hw, ← hcont]; simp
                · intro _; rw [hend, ← ih.eof]; exact ⟨rfl, heof⟩
            · exact ⟨by rw [hend]; exact ih.eof, ih.lines, ih.short, by rw [hw]; exact fun _ => hcont,
                by rw [hend]; exact ih.done, by rw [hend]; exact ih.last, hraised⟩
      · simp only [hr, ne_eq, not_false_eq_true, if_true]
        exact ⟨by rw [hend]; exact ih.eof, ih.lines, ih.short, by rw [hw]; exact ih.content,
          by rw [hend]; exact ih.done, by rw [hend]; exact ih.last, hraised⟩


/-- What `async for line in cmd` has to hand out: non-empty text lines, each of which ends with its
only newline except that the last one may lack it. -/
structure TextLines (lines : List Text) : Prop where
  nonempty : ∀ l ∈ lines, l ≠ []
  inner : ∀ l ∈ lines, '\n' ∉ l.dropLast
  complete : ∀ l ∈ lines.dropLast, l.getLast? = some '\n'

theorem Lines.tail {l : Bytes} {ls : List Bytes} (h : Lines (l :: ls)) : Lines ls := by
  refine ⟨fun x hx => h.nonempty x (by simp [hx]), fun x hx => h.inner x (by simp [hx]), ?_⟩
  intro x hx
  cases ls with
  | nil => simp at hx
  | cons y ys => exact h.complete x (by rw [List.dropLast_cons_cons]; simp [hx])

theorem Lines.head_nl {l : Bytes} {ls : List Bytes} (h : Lines (l :: ls)) (hne : ls ≠ []) :
    l.getLast? = some 0x0A := by
  cases ls with
  | nil => exact absurd rfl hne
  | cons y ys => exact h.complete l (by rw [List.dropLast_cons_cons]; simp)

theorem split_getLast {α} {l : List α} {x : α} (h : l.getLast? = some x) : l = l.dropLast ++ [x] := by
  have hne : l ≠ [] := by rintro rfl; simp at h
  have hd := List.dropLast_concat_getLast hne
  rw [List.getLast?_eq_some_getLast hne] at h
  rw [Option.some.inj h] at hd
  exact hd.symm

/-- A byte stream has only one decomposition into lines. -/
theorem Lines.unique {ls ls' : List Bytes} (h : Lines ls) (h' : Lines ls')
    (heq : ls.flatten = ls'.flatten) : ls = ls' := by
  have key : ∀ {a b f g : Bytes} {ls ls' : List Bytes}, Lines (a :: ls) → Lines (b :: ls') →
      ls.flatten = f → ls'.flatten = g → a ++ f = b ++ g → ¬ a.length < b.length := by
    intro a b f g ls ls' h h' hf hg heq hlt
    have hfne : f ≠ [] := by
      rintro rfl
      have := congrArg List.length heq
      simp at this; omega
    have hls : ls ≠ [] := by rintro rfl; exact hfne (by simpa using hf.symm)
    have hnl := h.head_nl hls
    have hpre : a <+: b.dropLast := by
      have h1 : a <+: b ++ g := ⟨f, heq⟩
      have hb := List.dropLast_concat_getLast (h'.nonempty b (by simp))
      have h2 : b.dropLast <+: b ++ g := by
        refine ⟨[b.getLast (h'.nonempty b (by simp))] ++ g, ?_⟩
        rw [← List.append_assoc, hb]
      exact List.prefix_of_prefix_length_le h1 h2 (by simp; omega)
    have hmem : (0x0A : UInt8) ∈ a := by
      rw [split_getLast hnl]; simp
    exact h'.inner b (by simp) (hpre.subset hmem)
  induction ls generalizing ls' with
  | nil =>
    cases ls' with
    | nil => rfl
    | cons l' ls1 =>
      have := h'.nonempty l' (by simp)
      simp at heq
      exact absurd heq.1 this
  | cons l ls ih =>
    cases ls' with
    | nil =>
      have := h.nonempty l (by simp)
      simp at heq
      exact absurd heq.1 this
    | cons l' ls1 =>
      simp only [List.flatten_cons] at heq
      have h1 := key h h' rfl rfl heq
      have h2 := key h' h rfl rfl heq.symm
      have hl : l.length = l'.length := by omega
      obtain ⟨e1, e2⟩ := List.append_inj heq hl
      rw [e1, ih h.tail h'.tail e2]

/-- Reading text lines from byte lines is decoding the stream and cutting it at newlines. -/
theorem readLines_spec (errors : Errors) (ls : List Bytes) (h : Lines ls) :
    (∀ t, decodeAll utf8Step errors ls.flatten = .ok t →
      (readLines (decodeAll utf8Step errors) ls).2 = none ∧
      (readLines (decodeAll utf8Step errors) ls).1.flatten = t) ∧
    (∀ e, decodeAll utf8Step errors ls.flatten = .error e →
      (readLines (decodeAll utf8Step errors) ls).2 = some e) := by
  induction ls with
  | nil => simp [readLines, decodeAll, decodeLoop, Except.map]
  | cons l ls ih =>
    have ih := ih h.tail
    have happ : decodeAll utf8Step errors (l :: ls).flatten =
        match decodeAll utf8Step errors l with
        | .error e => .error e
        | .ok t =>
          match decodeAll utf8Step errors ls.flatten with
          | .error e => .error e
          | .ok t' => .ok (t ++ t') := by
      rw [List.flatten_cons]
      by_cases hls : ls = []
      · subst hls
        simp only [List.flatten_nil, List.append_nil]
        cases decodeAll utf8Step errors l <;> simp [decodeAll, decodeLoop, Except.map]
      · exact decodeAll_newline_append errors l _ (h.head_nl hls)
    rw [happ]
    simp only [readLines]
    cases decodeAll utf8Step errors l with
    | error e => simp
    | ok t =>
      cases hd : decodeAll utf8Step errors ls.flatten with
      | error e =>
        have := ih.2 e hd
        simp [this]
      | ok t' =>
        have := ih.1 t' hd
        simp [this]

theorem decodeAll_ok {step errors a t} (h : decodeAll step errors a = .ok t) :
    ∃ r, decodeLoop step errors true a = .ok (t, r) := by
  simp only [decodeAll, Except.map] at h
  cases hd : decodeLoop step errors true a with
  | error e => rw [hd] at h; cases h
  | ok v => rw [hd] at h; cases h; exact ⟨v.2, rfl⟩

/-- Every text line is the decoding of a byte line, at its place. -/
theorem readLines_get (decode : Bytes → Except Exc Text) (ls : List Bytes) :
    (readLines decode ls).1.length ≤ ls.length ∧
    ∀ (i : Nat) t, (readLines decode ls).1[i]? = some t → ∃ l, ls[i]? = some l ∧ decode l = .ok t := by
  induction ls with
  | nil => simp [readLines]
  | cons l ls ih =>
    simp only [readLines]
    split
    · simp
    · rename_i t hd
      refine ⟨by simpa using ih.1, ?_⟩
      intro i u hu
      cases i with
      | zero => simp at hu; subst hu; exact ⟨l, rfl, hd⟩
      | succ i => exact ih.2 i u hu

theorem mem_dropLast_iff {α} (l : List α) (x : α) :
    x ∈ l.dropLast ↔ ∃ i, i + 1 < l.length ∧ l[i]? = some x := by
  rw [List.dropLast_eq_take, List.mem_take_iff_getElem]
  constructor
  · rintro ⟨i, hi, rfl⟩
    have hl : i < l.length := by omega
    exact ⟨i, by omega, List.getElem?_eq_getElem hl⟩
  · rintro ⟨i, hi, hx⟩
    have hl : i < l.length := by omega
    rw [List.getElem?_eq_getElem hl] at hx
    exact ⟨i, by omega, Option.some.inj hx⟩

theorem readLines_shape (errors : Errors) (ls : List Bytes) (h : Lines ls) :
    (∀ l ∈ (readLines (decodeAll utf8Step errors) ls).1, '\n' ∉ l.dropLast) ∧
    (∀ l ∈ (readLines (decodeAll utf8Step errors) ls).1.dropLast, l.getLast? = some '\n') ∧
    (errors ≠ .ignore → ∀ l ∈ (readLines (decodeAll utf8Step errors) ls).1, l ≠ []) := by
  obtain ⟨hlen, hget⟩ := readLines_get (decodeAll utf8Step errors) ls
  have nl : ∀ l t, l ∈ ls → decodeAll utf8Step errors l = .ok t → l.getLast? = some 0x0A →
      ∃ t', t = t' ++ ['\n'] ∧ '\n' ∉ t' := by
    intro l t hl hd hg
    obtain ⟨r, hr⟩ := decodeAll_ok hd
    rw [split_getLast hg] at hr
    exact decodeLoop_line errors _ t r (h.inner l hl) hr
  refine ⟨?_, ?_, ?_⟩
  · intro t ht
    obtain ⟨i, hi⟩ := List.mem_iff_getElem?.mp ht
    obtain ⟨l, hl, hd⟩ := hget i t hi
    have hm := List.mem_iff_getElem?.mpr ⟨i, hl⟩
    by_cases hg : l.getLast? = some 0x0A
    · obtain ⟨t', rfl, ht'⟩ := nl l t hm hd hg
      simpa using ht'
    · obtain ⟨r, hr⟩ := decodeAll_ok hd
      have hno : (0x0A : UInt8) ∉ l := by
        intro hc
        have hne := h.nonempty l hm
        have := List.dropLast_concat_getLast hne
        rw [← this] at hc
        rcases List.mem_append.mp hc with h1 | h1
        · exact h.inner l hm h1
        · simp at h1
          rw [List.getLast?_eq_some_getLast hne, ← h1] at hg
          exact hg rfl
      intro hc
      exact decodeLoop_no_newline errors true l t r hno hr (List.dropLast_subset _ hc)
  · intro t ht
    obtain ⟨i, hi, hit⟩ := (mem_dropLast_iff _ _).mp ht
    obtain ⟨l, hl, hd⟩ := hget i t hit
    have hm := List.mem_iff_getElem?.mpr ⟨i, hl⟩
    have hg := h.complete l ((mem_dropLast_iff _ _).mpr ⟨i, by omega, hl⟩)
    obtain ⟨t', rfl, _⟩ := nl l t hm hd hg
    simp
  · intro he t ht
    obtain ⟨i, hi⟩ := List.mem_iff_getElem?.mp ht
    obtain ⟨l, hl, hd⟩ := hget i t hi
    have hm := List.mem_iff_getElem?.mpr ⟨i, hl⟩
    obtain ⟨r, hr⟩ := decodeAll_ok hd
    exact decodeLoop_nonempty errors l t r he (h.nonempty l hm) hr

/-- **C19.** (UTF-8) When an iteration has come to its end, the text lines handed out are the decoding
of the whole output cut after each newline; in strict mode the iteration fails iff the output does not
decode. Missing from the full claim: see `C19_long_line_false` and `C19_utf16_false`; with
`errors="ignore"` the last line may be empty. -/
theorem C19_lines_partial (limit : Nat) (errors : Errors) (evs : List SEv)
    (hdone : (lineRun limit evs).st = .done) :
    let out := readLines (decodeAll utf8Step errors) (lineRun limit evs).lines
    (∀ t, decodeAll utf8Step errors (written evs) = .ok t →
      out.2 = none ∧ out.1.flatten = t ∧ (errors ≠ .ignore → TextLines out.1)) ∧
    (∀ e, decodeAll utf8Step errors (written evs) = .error e → out.2 = some e) := by
  have inv := lines_inv limit evs
  have hc := inv.content (by rw [hdone]; simp)
  rw [(inv.done hdone).1, List.append_nil] at hc
  have hs := readLines_spec errors _ inv.lines
  have hsh := readLines_shape errors _ inv.lines
  rw [← hc]
  refine ⟨?_, hs.2⟩
  intro t ht
  exact ⟨(hs.1 t ht).1, (hs.1 t ht).2, fun he => ⟨hsh.2.2 he, hsh.1, hsh.2.1⟩⟩

/-- **C19.** At every moment (also when the iteration is interrupted), the byte lines handed out are
a prefix of the output cut at newlines: none is lost, split or handed out twice. -/
theorem C19_prefix (limit : Nat) (evs : List SEv) :
    Lines (lineRun limit evs).lines ∧
    ((∀ a b c, written evs = a ++ b ++ c → (0x0A : UInt8) ∉ b → b.length ≤ limit) →
      SEv.exc .valueError ∉ evs →
      (lineRun limit evs).lines.flatten <+: written evs) := by
  have inv := lines_inv limit evs
  refine ⟨inv.lines, fun hshort hno => ⟨_, inv.content ?_⟩⟩
  intro hr
  rcases inv.raised _ hr with h | ⟨_, a, b, c, h1, h2, h3⟩
  · exact hno h
  · have := hshort a b c h1 h2; omega

/-- **C19.** The lines do not depend on how the output was split into chunks, nor on how reading and
writing interleave. -/
theorem C19_chunk_independent (limit limit' : Nat) (evs evs' : List SEv)
    (hd : (lineRun limit evs).st = .done) (hd' : (lineRun limit' evs').st = .done)
    (hw : written evs = written evs') :
    (lineRun limit evs).lines = (lineRun limit' evs').lines := by
  have i1 := lines_inv limit evs
  have i2 := lines_inv limit' evs'
  apply i1.lines.unique i2.lines
  have c1 := i1.content (by rw [hd]; simp)
  have c2 := i2.content (by rw [hd']; simp)
  rw [(i1.done hd).1, List.append_nil] at c1
  rw [(i2.done hd').1, List.append_nil] at c2
  rw [c1, c2, hw]

/-- **C19.** The iteration ends: once the child closed its output, an undisturbed iteration over lines
no longer than the limit reaches its end (with all of the output, by `C19_lines_partial`). -/
theorem C19_terminates (limit : Nat) (evs : List SEv) (hend : ended evs = true)
    (hexc : ∀ e, SEv.exc e ∉ evs)
    (hshort : ∀ a b c, written evs = a ++ b ++ c → (0x0A : UInt8) ∉ b → b.length ≤ limit) :
    ∃ k, (lineRun limit (evs ++ List.replicate k .go)).st = .done := by
  have hstop : ∀ n, ∀ s : LineSt, s.sr.eof = true → s.sr.buffer.length ≤ n →
      ∃ k, ((List.replicate k SEv.go).foldl (lineStep limit) s).st ≠ .running := by
    intro n
    induction n with
    | zero =>
      intro s he hb
      have hb : s.sr.buffer = [] := by simpa using hb
      refine ⟨1, ?_⟩
      simp only [List.replicate_one, List.foldl_cons, List.foldl_nil, lineStep, hb]
      split
      · assumption
      · simp [he]
    | succ n ih =>
      intro s he hb
      by_cases hr : s.st = .running
      · have step : ∃ s', lineStep limit s .go = s' ∧ s'.sr.eof = true ∧
            (s'.st ≠ .running ∨ s'.sr.buffer.length ≤ n) := by
          refine ⟨_, rfl, ?_⟩
          simp only [lineStep, hr, ne_eq, not_true_eq_false, if_false]
          split
          · split
            · exact ⟨he, .inl (by simp)⟩
            · exact ⟨he, .inr (by simp; omega)⟩
          · split
            · exact ⟨he, .inl (by simp)⟩
            · simp only [he, if_true]
              split
              · exact ⟨he, .inl (by simp)⟩
              · exact ⟨rfl, .inr (by simp)⟩
        obtain ⟨s', hs, he', h | h⟩ := step
        · exact ⟨1, by simpa [hs] using h⟩
        · obtain ⟨k, hk⟩ := ih s' he' h
          exact ⟨k + 1, by rw [List.replicate_succ, List.foldl_cons, hs]; exact hk⟩
      · exact ⟨0, by simpa using hr⟩
  have inv := lines_inv limit evs
  obtain ⟨k, hk⟩ := hstop _ _ (inv.eof.trans hend) (Nat.le_refl _)
  refine ⟨k, ?_⟩
  have hrun : (lineRun limit (evs ++ List.replicate k .go)) =
      (List.replicate k SEv.go).foldl (lineStep limit) (lineRun limit evs) := by
    simp [lineRun, List.foldl_append]
  rw [← hrun] at hk
  have inv2 := lines_inv limit (evs ++ List.replicate k .go)
  have hw : written (evs ++ List.replicate k .go) = written evs := by
    clear hk inv2 hrun
    induction k with
    | zero => simp
    | succ k ih =>
      rw [List.replicate_succ', ← List.append_assoc, written_snoc, ih]; simp [evData]
  cases hst : (lineRun limit (evs ++ List.replicate k .go)).st with
  | running => exact absurd hst hk
  | done => rfl
  | raised e =>
    rcases inv2.raised e hst with h | ⟨_, a, b, c, h1, h2, h3⟩
    · rcases List.mem_append.mp h with h | h
      · exact absurd h (hexc e)
      · have := List.eq_of_mem_replicate h; cases this
    · rw [hw] at h1
      have := hshort a b c h1 h2
      omega

/-- Witness: a character and a line cut in the middle. -/
example :
    (lineRun 65536 [.feed [0x61, 0xC3], .go, .feed [0xA9, 0x0A, 0x62], .go, .eof, .go, .go]).lines
      = [[0x61, 0xC3, 0xA9, 0x0A], [0x62]] ∧
    (lineRun 65536 [.feed [0x61, 0xC3], .go, .feed [0xA9, 0x0A, 0x62], .go, .eof, .go, .go]).st
      = .done := by decide

/-- **C19** fails for a line longer than the stream limit (64 KiB, asyncio's default, which shellous
does not change): `ValueError` and the line is lost. -/
theorem C19_long_line_false :
    ∃ evs : List SEv, (∀ e, SEv.exc e ∉ evs) ∧ written evs = List.replicate 65537 0x61 ++ [0x0A] ∧
      (lineRun 65536 evs).st = .raised .valueError ∧ (lineRun 65536 evs).lines = [] := by
  have gen : ∀ n limit, limit < n → ∃ evs : List SEv, (∀ e, SEv.exc e ∉ evs) ∧
      written evs = List.replicate n 0x61 ++ [0x0A] ∧
      (lineRun limit evs).st = .raised .valueError ∧ (lineRun limit evs).lines = [] := by
    intro n limit hn
    refine ⟨[.feed (List.replicate n 0x61 ++ [0x0A]), .eof, .go], by simp, ?_, ?_⟩
    · rw [show [SEv.feed (List.replicate n 0x61 ++ [0x0A]), .eof, .go] =
        (([] ++ [SEv.feed (List.replicate n 0x61 ++ [0x0A])]) ++ [.eof]) ++ [.go] from rfl]
      simp only [written_snoc, evData, ite_self, List.append_nil]
      rfl
    · have hidx : ∀ n, ((List.replicate n (0x61 : UInt8)) ++ [0x0A]).idxOf? 0x0A = some n := by
        intro n
        induction n with
        | zero => rfl
        | succ n ih => rw [List.replicate_succ, List.cons_append, List.idxOf?_cons, ih]; rfl
      simp [lineRun, lineStep, SR.feed, hidx, hn]
  exact gen 65537 65536 (by omega)

/-- **C19** fails for encodings in which the byte 0x0A does not stand for a newline by itself, such as
UTF-16: the lines of "a\n" decode to something else. -/
theorem C19_utf16_false :
    let out := lineRun 65536 [.feed [0x61, 0x00, 0x0A, 0x00], .eof, .go, .go, .go]
    out.st = .done ∧ decodeAll utf16leStep .strict [0x61, 0x00, 0x0A, 0x00] = .ok ['a', '\n'] ∧
    readLines (decodeAll utf16leStep .strict) out.lines = ([], some .unicodeError) := by
  refine ⟨by decide, ?_, ?_⟩
  · simp [decodeAll, decodeLoop, utf16leStep, Except.map]
  · have : (lineRun 65536 [.feed [0x61, 0x00, 0x0A, 0x00], .eof, .go, .go, .go]).lines =
        [[0x61, 0x00, 0x0A], [0x00]] := by decide
    rw [this]
    simp [readLines, decodeAll, decodeLoop, utf16leStep, Except.map, Errors.subst]

end Shellous.Props
