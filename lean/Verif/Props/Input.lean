import Verif.Model.Streams
import Verif.Lemmas.Basic

/-!
# C16: input streams
-/

namespace Shellous.Props

open Shellous

/-- The bytes a source `StreamReader` carries according to an event list: everything fed before its
first EOF. -/
def sourceBytes : List WEv → Bytes
  | [] => []
  | .feed b :: r => b ++ sourceBytes r
  | .srcEof :: _ => []
  | _ :: r => sourceBytes r

/-- The source has ended. -/
def sourceEnded : List WEv → Bool
  | [] => false
  | .srcEof :: _ => true
  | _ :: r => sourceEnded r

/-- The child has closed its end of the pipe (or died). -/
def childGone (evs : List WEv) : Prop := WEv.brk ∈ evs

/-- What has to follow the input: nothing on a pipe or a raw terminal; on a canonical terminal one EOF
character at the beginning of a line, else two. -/
def trailer (eof : Option Bytes) (atLineStart : Bool) : Bytes :=
  match eof with
  | none => []
  | some e => if atLineStart then e else e ++ e

/-- Source bytes carried by an event. -/
def wevData : WEv → Bytes
  | .feed b => b
  | _ => []

/-- The event is the source's EOF. -/
def wevEof : WEv → Bool
  | .srcEof => true
  | _ => false

theorem sourceBytes_snoc (evs : List WEv) (ev : WEv) :
    sourceBytes (evs ++ [ev]) =
      sourceBytes evs ++ (if sourceEnded evs then [] else wevData ev) := by
  induction evs with
  | nil => cases ev <;> simp [sourceBytes, sourceEnded, wevData]
  | cons e evs ih => cases e <;> simp [sourceBytes, sourceEnded, ih] <;> rfl

theorem sourceEnded_snoc (evs : List WEv) (ev : WEv) :
    sourceEnded (evs ++ [ev]) = (sourceEnded evs || wevEof ev) := by
  induction evs with
  | nil => cases ev <;> simp [sourceEnded, wevEof]
  | cons e evs ih => cases e <;> simp [sourceEnded, ih]

/-- Writer facts that hold whatever the coroutine does. -/
structure WOk (s : WriteSt) (evs : List WEv) : Prop where
  gone : s.w.broken = true ↔ childGone evs
  deliv : s.w.delivered ≤ s.w.accepted.length

/-- Invariant of `write_stream`. -/
structure WSInv (input : Bytes) (eof : Option Bytes) (s : WriteSt) (evs : List WEv) : Prop where
  ok : WOk s evs
  start : s.pc = .start → s.w.accepted = [] ∧ s.w.closed = false
  drain : s.pc = .drain → s.w.accepted = input ∧ s.w.closed = false
  fin : s.pc = .drainEof ∨ s.pc = .done →
    (s.w.accepted = input ++ trailer eof (input.getLast? = some 0x0A) ∨
      (s.w.broken = true ∧ s.w.accepted = input)) ∧ (s.w.closed = true ↔ eof = none)
  raised : ∀ e, s.pc = .raised e → s.w.closed = false ∧
    s.w.accepted <+: input ++ trailer eof (input.getLast? = some 0x0A) ∧
    ((WEv.exc e ∈ evs ∧ isPipeError e = false) ∨ (e = .brokenPipe ∧ input ≠ [] ∧ childGone evs ∧ s.w.accepted = []))
  noreading : s.pc ≠ .reading
  onTty : s.pc = .drainEof → eof ≠ none

theorem writeEnd_spec (eof : Option Bytes) (one : Bool) (s : WriteSt) :
    ((writeEnd eof one s).w.broken = s.w.broken) ∧
    ((writeEnd eof one s).w.delivered = s.w.delivered) ∧
    ((writeEnd eof one s).sr = s.sr) ∧ ((writeEnd eof one s).endsNl = s.endsNl) ∧
    ((writeEnd eof one s).pc = .drainEof ∨ (writeEnd eof one s).pc = .done) ∧
    ((writeEnd eof one s).w.closed = true ↔ eof = none ∨ s.w.closed = true) ∧
    ((writeEnd eof one s).pc = .drainEof → eof ≠ none) ∧
    ((writeEnd eof one s).w.accepted = s.w.accepted ++ trailer eof one ∨
      (s.w.isClosing = true ∧ (writeEnd eof one s).w.accepted = s.w.accepted)) := by
  cases eof with
  | none => simp [writeEnd, Writer.close, trailer]
  | some e =>
    simp only [writeEnd, trailer]
    by_cases he : e = []
    · subst he; simp
    · simp only [List.isEmpty_iff, he, if_false, Writer.write]
      cases hc : s.w.isClosing <;> simp

theorem env_gone (s : WriteSt) (evs : List WEv) (ev : WEv) (h : WOk s evs)
    (hev : ∀ e, ev ≠ .exc e) (hgo : ev ≠ .go) : WOk (writeEnv s ev) (evs ++ [ev]) := by
  obtain ⟨h1, h2⟩ := h
  constructor
  · cases ev <;> simp_all [writeEnv, childGone]
  · cases ev <;> simp only [writeEnv] <;> try exact h2
    split
    · exact h2
    · omega

theorem gone_snoc {s s' : WriteSt} {evs : List WEv} {ev : WEv} (h : WOk s evs) (hne : ev ≠ .brk)
    (hb : s'.w.broken = s.w.broken) (hd : s'.w.delivered = s.w.delivered)
    (ha : s.w.accepted.length ≤ s'.w.accepted.length) : WOk s' (evs ++ [ev]) := by
  refine ⟨?_, ?_⟩
  · rw [hb, h.gone]; simp [childGone]
    intro h; exact absurd h.symm hne
  · rw [hd]; exact Nat.le_trans h.deliv ha

theorem writeStream_inv (input : Bytes) (eof : Option Bytes) (evs : List WEv) :
    WSInv input eof (writeStream input eof evs) evs := by
  induction evs using snocInduction with
  | nil =>
    refine ⟨⟨by simp [writeStream, childGone], by simp [writeStream]⟩, ?_, ?_, ?_, ?_, ?_, ?_⟩ <;>
      simp [writeStream]
  | snoc evs ev ih =>
    have hrun : writeStream input eof (evs ++ [ev]) =
        writeStreamStep input eof (writeStream input eof evs) ev := by
      simp [writeStream, List.foldl_append]
    rw [hrun]
    generalize writeStream input eof evs = s at *
    have hraise : ∀ e, s.pc = .raised e → s.w.closed = false ∧
        s.w.accepted <+: input ++ trailer eof (input.getLast? = some 0x0A) ∧
        ((WEv.exc e ∈ evs ++ [ev] ∧ isPipeError e = false) ∨
          (e = .brokenPipe ∧ input ≠ [] ∧ childGone (evs ++ [ev]) ∧ s.w.accepted = [])) := by
      intro e he
      obtain ⟨h1, h2, h3⟩ := ih.raised e he
      refine ⟨h1, h2, ?_⟩
      rcases h3 with h | ⟨a, b, c, d⟩
      · exact .inl ⟨by simp [h.1], h.2⟩
      · exact .inr ⟨a, b, List.mem_append_left _ c, d⟩
    have same : ev ≠ .brk → WSInv input eof s (evs ++ [ev]) := fun hne =>
      ⟨gone_snoc ih.ok hne rfl rfl (Nat.le_refl _), ih.start, ih.drain, ih.fin, hraise, ih.noreading, ih.onTty⟩
    have hend : ∀ s0 : WriteSt, s0.w.accepted = input → s0.w.closed = false →
        s0.w.broken = s.w.broken → s0.w.delivered = s.w.delivered →
        s.w.accepted.length ≤ s0.w.accepted.length → ev ≠ .brk →
        WSInv input eof (writeEnd eof (input.getLast? = some 0x0A) s0) (evs ++ [ev]) := by
      intro s0 ha hc hb hd hl hne
      obtain ⟨b1, b2, b3, b4, b5, b6, b8, b7⟩ := writeEnd_spec eof (input.getLast? = some 0x0A) s0
      refine ⟨gone_snoc ih.ok hne (b1.trans hb) (b2.trans hd) ?_, ?_, ?_, ?_, ?_, ?_, b8⟩
      · rcases b7 with h | ⟨_, h⟩ <;> rw [h] <;> (try rw [List.length_append]) <;> omega
      · intro h; rcases b5 with h' | h' <;> rw [h] at h' <;> cases h'
      · intro h; rcases b5 with h' | h' <;> rw [h] at h' <;> cases h'
      · intro _
        refine ⟨?_, by rw [b6, hc]; simp⟩
        rcases b7 with h | ⟨h1, h2⟩
        · left; rw [h, ha]
        · right; rw [b1, h2, ha]
          simp [Writer.isClosing, hc] at h1
          exact ⟨h1, rfl⟩
      · intro e h; rcases b5 with h' | h' <;> rw [h] at h' <;> cases h'
      · intro h; rcases b5 with h' | h' <;> rw [h] at h' <;> cases h'
    have toRaised : ∀ e, ev = .exc e → isPipeError e = false → s.w.closed = false →
        s.w.accepted <+: input ++ trailer eof (input.getLast? = some 0x0A) →
        WSInv input eof { s with pc := .raised e } (evs ++ [ev]) := by
      intro e he hp hc ha
      refine ⟨gone_snoc ih.ok (by rw [he]; simp) rfl rfl (Nat.le_refl _), by simp, by simp, by simp, ?_, by simp, by simp⟩
      intro e' h'
      simp only [WPc.raised.injEq] at h'
      subst h'
      exact ⟨hc, ha, .inl ⟨by simp [he], hp⟩⟩
    have env : (∀ e, ev ≠ .exc e) → ev ≠ .go → WSInv input eof (writeEnv s ev) (evs ++ [ev]) := by
      intro h1 h2
      have hp : (writeEnv s ev).pc = s.pc := by cases ev <;> rfl
      have ha : (writeEnv s ev).w.accepted = s.w.accepted := by cases ev <;> rfl
      have hc : (writeEnv s ev).w.closed = s.w.closed := by cases ev <;> rfl
      have hb : s.w.broken = true → (writeEnv s ev).w.broken = true := by
        cases ev <;> simp [writeEnv]
      refine ⟨env_gone s evs ev ih.ok h1 h2, ?_, ?_, ?_, ?_, ?_, ?_⟩
      · rw [hp, ha, hc]; exact ih.start
      · rw [hp, ha, hc]; exact ih.drain
      · rw [hp, ha, hc]
        intro h
        obtain ⟨f1, f2⟩ := ih.fin h
        refine ⟨f1.imp id (fun h => ⟨hb h.1, h.2⟩), f2⟩
      · rw [hp, ha, hc]; exact hraise
      · rw [hp]; exact ih.noreading
      · rw [hp]; exact ih.onTty
    cases ev with
    | feed b => exact env (by simp) (by simp)
    | srcEof => exact env (by simp) (by simp)
    | deliver n => exact env (by simp) (by simp)
    | brk => exact env (by simp) (by simp)
    | go =>
      simp only [writeStreamStep]
      split
      · rename_i hpc
        obtain ⟨ha, hc⟩ := ih.start hpc
        split
        · rename_i hi
          have hi : input = [] := by simpa using hi
          exact hend s (by rw [ha, hi]) hc rfl rfl (Nat.le_refl _) (by simp)
        · rename_i hi
          have hi : input ≠ [] := by simpa using hi
          split
          · rename_i hcl
            refine ⟨gone_snoc ih.ok (by simp) rfl rfl (Nat.le_refl _), by simp, by simp, by simp, ?_, by simp, by simp⟩
            intro e' h'
            simp only [WPc.raised.injEq] at h'
            subst h'
            refine ⟨hc, by simp [ha], .inr ⟨rfl, hi, ?_, ha⟩⟩
            simp only [Writer.isClosing, hc, Bool.or_false] at hcl
            have := ih.ok.gone.mp hcl
            simp [childGone] at this ⊢; exact this
          · rename_i hcl
            have hw : s.w.write input = { s.w with accepted := input } := by
              simp [Writer.write, hcl, ha]
            refine ⟨gone_snoc ih.ok (by simp) (by simp [hw]) (by simp [hw]) (by simp [hw, ha]), by simp, ?_, by simp, by simp, by simp, by simp⟩
            intro _; simp [hw, hc]
      · rename_i hpc
        obtain ⟨ha, hc⟩ := ih.drain hpc
        exact hend s ha hc rfl rfl (Nat.le_refl _) (by simp)
      · rename_i hpc
        exact ⟨gone_snoc ih.ok (by simp) rfl rfl (Nat.le_refl _), by simp, by simp,
          fun _ => ih.fin (.inl hpc), by simp, by simp, by simp⟩
      · exact same (by simp)
    | exc e =>
      simp only [writeStreamStep]
      split
      · rename_i hpc
        obtain ⟨ha, hc⟩ := ih.start hpc
        split
        · rename_i hca
          exact toRaised e rfl (by rw [hca]; rfl) hc (by simp [ha])
        · exact same (by simp)
      · rename_i hpc
        obtain ⟨ha, hc⟩ := ih.drain hpc
        split
        · exact hend s ha hc rfl rfl (Nat.le_refl _) (by simp)
        · rename_i hpe
          exact toRaised e rfl (by simpa using hpe) hc (by simp [ha])
      · rename_i hpc
        obtain ⟨f1, f2⟩ := ih.fin (.inl hpc)
        split
        · exact ⟨gone_snoc ih.ok (by simp) rfl rfl (Nat.le_refl _), by simp, by simp,
            fun _ => ih.fin (.inl hpc), by simp, by simp, by simp⟩
        · rename_i hpe
          have hcl : s.w.closed = false := by
            cases hc : s.w.closed with
            | false => rfl
            | true =>
              exact absurd (f2.mp hc) (ih.onTty hpc)
          refine toRaised e rfl (by simpa using hpe) hcl ?_
          rcases f1 with h | ⟨_, h⟩ <;> rw [h] <;> simp
      · exact same (by simp)


/-- The input is at the beginning of a line. -/
def atLineStart (input : Bytes) : Bool := input.isEmpty || input.getLast? = some 0x0A

/-- An error that `write_reader` takes for the end of the input. -/
def pipeErrorIn (evs : List WEv) : Prop := ∃ e, WEv.exc e ∈ evs ∧ isPipeError e = true

/-- Invariant of `write_reader`; `c` is what has been read from the source. -/
structure WRInv (eof : Option Bytes) (s : WriteSt) (evs : List WEv) (c : Bytes) : Prop where
  ok : WOk s evs
  src : c ++ s.sr.buffer = sourceBytes evs
  srcEof : s.sr.eof = sourceEnded evs
  nl : s.endsNl = atLineStart c
  start : s.pc = .start → c = []
  loop : s.pc = .start ∨ s.pc = .reading ∨ s.pc = .drain →
    (s.w.accepted = c ∨ (s.w.broken = true ∧ s.w.accepted <+: c)) ∧ s.w.closed = false
  fin : s.pc = .drainEof ∨ s.pc = .done →
    (s.w.accepted = c ++ trailer eof (atLineStart c) ∨ (s.w.broken = true ∧ s.w.accepted <+: c)) ∧
    (s.w.closed = true ↔ eof = none) ∧
    ((sourceEnded evs = true ∧ s.sr.buffer = []) ∨ pipeErrorIn evs)
  raised : ∀ e, s.pc = .raised e → s.w.closed = false ∧
    (s.w.accepted <+: c ∨ (s.w.accepted <+: c ++ trailer eof (atLineStart c) ∧
      ((sourceEnded evs = true ∧ s.sr.buffer = []) ∨ pipeErrorIn evs))) ∧ WEv.exc e ∈ evs ∧
    isPipeError e = false
  onTty : s.pc = .drainEof → eof ≠ none

theorem atLineStart_append (c d : Bytes) (h : d ≠ []) :
    atLineStart (c ++ d) = decide (d.getLast? = some 0x0A) := by
  simp only [atLineStart]
  have : (c ++ d).isEmpty = false := by simp [h]
  rw [this, Bool.false_or, List.getLast?_append, List.getLast?_eq_some_getLast h]
  simp

theorem writeReader_inv (eof : Option Bytes) (evs : List WEv) :
    ∃ c, WRInv eof (writeReader eof evs) evs c := by
  induction evs using snocInduction with
  | nil =>
    refine ⟨[], ⟨by simp [writeReader, childGone], by simp [writeReader]⟩, ?_, ?_, ?_, ?_, ?_, ?_, ?_, ?_⟩ <;>
      simp [writeReader, sourceBytes, sourceEnded, atLineStart]
  | snoc evs ev ih =>
    obtain ⟨c, ih⟩ := ih
    have hrun : writeReader eof (evs ++ [ev]) = writeReaderStep eof (writeReader eof evs) ev := by
      simp [writeReader, List.foldl_append]
    rw [hrun]
    generalize writeReader eof evs = s at *
    have hb := sourceBytes_snoc evs ev
    have he := sourceEnded_snoc evs ev
    have hpe : pipeErrorIn evs → pipeErrorIn (evs ++ [ev]) :=
      fun ⟨e, h1, h2⟩ => ⟨e, List.mem_append_left _ h1, h2⟩
    have hraise : wevData ev = [] → wevEof ev = false → ∀ e, s.pc = .raised e → s.w.closed = false ∧
        (s.w.accepted <+: c ∨ (s.w.accepted <+: c ++ trailer eof (atLineStart c) ∧
          ((sourceEnded (evs ++ [ev]) = true ∧ s.sr.buffer = []) ∨ pipeErrorIn (evs ++ [ev])))) ∧
        WEv.exc e ∈ evs ++ [ev] ∧ isPipeError e = false := by
      intro h1 h2 e h
      obtain ⟨a, b, d, f⟩ := ih.raised e h
      refine ⟨a, b.imp id (fun b => ⟨b.1, b.2.imp ?_ hpe⟩), List.mem_append_left _ d, f⟩
      rw [he, h2, Bool.or_false]; exact id
    -- the trivial steps
    have same : ev = .go ∨ (∃ e, ev = .exc e) → WRInv eof s (evs ++ [ev]) c := by
      intro hev
      have hd : wevData ev = [] := by rcases hev with h | ⟨e, h⟩ <;> rw [h] <;> rfl
      have hd' : wevEof ev = false := by rcases hev with h | ⟨e, h⟩ <;> rw [h] <;> rfl
      have hne : ev ≠ .brk := by rcases hev with h | ⟨e, h⟩ <;> rw [h] <;> simp
      rw [hd, ite_self, List.append_nil] at hb
      rw [hd', Bool.or_false] at he
      refine ⟨gone_snoc ih.ok hne rfl rfl (Nat.le_refl _), by rw [hb]; exact ih.src,
        by rw [he]; exact ih.srcEof, ih.nl, ih.start, ih.loop, ?_, hraise hd hd', ih.onTty⟩
      intro h
      obtain ⟨f1, f2, f3⟩ := ih.fin h
      exact ⟨f1, f2, f3.imp (by rw [he]; exact id) hpe⟩
    have hend : ∀ (s0 : WriteSt), (ev = .go ∨ ∃ e, ev = .exc e) → s0.w = s.w → s0.sr = s.sr →
        s0.endsNl = s.endsNl → (s.pc = .start ∨ s.pc = .reading ∨ s.pc = .drain) →
        ((sourceEnded (evs ++ [ev]) = true ∧ s.sr.buffer = []) ∨ pipeErrorIn (evs ++ [ev])) →
        WRInv eof (writeEnd eof s0.endsNl s0) (evs ++ [ev]) c := by
      intro s0 hev hw hsr hnl hpc hwhy
      obtain ⟨b1, b2, b3, b4, b5, b6, b8, b7⟩ := writeEnd_spec eof s0.endsNl s0
      have sm := same hev
      obtain ⟨l1, l2⟩ := ih.loop hpc
      have hcl : s0.w.closed = false := by rw [hw]; exact l2
      refine ⟨gone_snoc ih.ok (by rcases hev with h | ⟨e, h⟩ <;> rw [h] <;> simp)
          (b1.trans (by rw [hw])) (b2.trans (by rw [hw])) ?_, ?_, ?_, ?_, ?_, ?_, ?_, ?_, b8⟩
      · rcases b7 with h | ⟨_, h⟩ <;> rw [h, hw] <;> (try rw [List.length_append]) <;> omega
      · rw [b3, hsr]; exact sm.src
      · rw [b3, hsr]; exact sm.srcEof
      · rw [b4, hnl]; exact sm.nl
      · intro h; rcases b5 with h' | h' <;> rw [h] at h' <;> cases h'
      · intro h; rcases b5 with h' | h' <;> rw [h'] at h <;> simp at h
      · intro _
        refine ⟨?_, by rw [b6, hcl]; simp, by rw [b3, hsr]; exact hwhy⟩
        rw [b1, hw]
        rcases b7 with h | ⟨h1, h2⟩
        · rw [h, hw]
          rcases l1 with l | ⟨l, l'⟩
          · left; rw [l, hnl, ih.nl]
          · -- broken: nothing is written
            right
            refine ⟨l, ?_⟩
            rw [← hw, ← h]
            have : (writeEnd eof s0.endsNl s0).w.accepted = s0.w.accepted := by
              cases eof with
              | none => rfl
              | some e =>
                simp only [writeEnd]
                split
                · rfl
                · simp [Writer.write, Writer.isClosing, hw, l]
            rw [this, hw]; exact l'
        · simp [Writer.isClosing, hcl] at h1
          rw [h2, hw]
          right
          refine ⟨by rw [← hw]; exact h1, ?_⟩
          rcases l1 with l | ⟨_, l'⟩
          · rw [l]; exact List.prefix_refl _
          · exact l'
      · intro e h; rcases b5 with h' | h' <;> rw [h'] at h <;> cases h
    have toRaised : ∀ e, ev = .exc e → s.w.closed = false →
        (s.w.accepted <+: c ∨ (s.w.accepted <+: c ++ trailer eof (atLineStart c) ∧
          ((sourceEnded evs = true ∧ s.sr.buffer = []) ∨ pipeErrorIn evs))) →
        isPipeError e = false →
        WRInv eof { s with pc := .raised e } (evs ++ [ev]) c := by
      intro e hev hc ha hp
      have sm := same (.inr ⟨e, hev⟩)
      refine ⟨gone_snoc ih.ok (by rw [hev]; simp) rfl rfl (Nat.le_refl _), sm.src, sm.srcEof, sm.nl,
        by simp, by simp, by simp, ?_, by simp⟩
      intro e' h'
      simp only [WPc.raised.injEq] at h'
      subst h'
      refine ⟨hc, ha.imp id (fun b => ⟨b.1, b.2.imp ?_ hpe⟩), by simp [hev], hp⟩
      rw [he, hev]; simp [wevEof]
    have toDone : (ev = .go ∨ ∃ e, ev = .exc e) → s.pc = .drainEof →
        WRInv eof { s with pc := .done } (evs ++ [ev]) c := by
      intro hev hpc
      have sm := same hev
      exact ⟨gone_snoc ih.ok (by rcases hev with h | ⟨e, h⟩ <;> rw [h] <;> simp) rfl rfl (Nat.le_refl _),
        sm.src, sm.srcEof, sm.nl, by simp, by simp, fun _ => sm.fin (.inl hpc), by simp, by simp⟩
    have env : (∀ e, ev ≠ .exc e) → ev ≠ .go → WRInv eof (writeEnv s ev) (evs ++ [ev]) c := by
      intro h1 h2
      have hp : (writeEnv s ev).pc = s.pc := by cases ev <;> rfl
      have ha : (writeEnv s ev).w.accepted = s.w.accepted := by cases ev <;> rfl
      have hc : (writeEnv s ev).w.closed = s.w.closed := by cases ev <;> rfl
      have hn : (writeEnv s ev).endsNl = s.endsNl := by cases ev <;> rfl
      have hbr : s.w.broken = true → (writeEnv s ev).w.broken = true := by
        cases ev <;> simp [writeEnv]
      have hsrc : (writeEnv s ev).sr.buffer =
          s.sr.buffer ++ (if sourceEnded evs then [] else wevData ev) := by
        rw [← ih.srcEof]
        cases ev <;> simp [writeEnv, wevData, SR.feed]
        split <;> simp [*]
      have hse : (writeEnv s ev).sr.eof = sourceEnded (evs ++ [ev]) := by
        rw [he, ← ih.srcEof]
        cases ev <;> simp [writeEnv, wevEof, SR.feed]
        split <;> simp [*]
      refine ⟨env_gone s evs ev ih.ok h1 h2, ?_, hse, ?_, ?_, ?_, ?_, ?_, ?_⟩
      · rw [hsrc, hb, ← ih.src, List.append_assoc]
      · rw [hn]; exact ih.nl
      · rw [hp]; exact ih.start
      · rw [hp, ha, hc]
        intro h
        obtain ⟨f1, f2⟩ := ih.loop h
        exact ⟨f1.imp id (fun h => ⟨hbr h.1, h.2⟩), f2⟩
      · rw [hp, ha, hc]
        intro h
        obtain ⟨f1, f2, f3⟩ := ih.fin h
        refine ⟨f1.imp id (fun h => ⟨hbr h.1, h.2⟩), f2, f3.imp ?_ hpe⟩
        rintro ⟨g1, g2⟩
        rw [hsrc, he, g1, g2]; simp
      · rw [hp, ha, hc]
        intro e h
        obtain ⟨a, b, d, f⟩ := ih.raised e h
        refine ⟨a, b.imp id (fun b => ⟨b.1, b.2.imp ?_ hpe⟩), List.mem_append_left _ d, f⟩
        rintro ⟨g1, g2⟩
        rw [hsrc, he, g1, g2]; simp
      · rw [hp]; exact ih.onTty
    cases ev with
    | feed b => exact ⟨c, env (by simp) (by simp)⟩
    | srcEof => exact ⟨c, env (by simp) (by simp)⟩
    | deliver n => exact ⟨c, env (by simp) (by simp)⟩
    | brk => exact ⟨c, env (by simp) (by simp)⟩
    | go =>
      have body : (s.pc = .start ∨ s.pc = .reading ∨ s.pc = .drain) → ∃ c', WRInv eof
          (match s.sr.read chunkSize with
            | none => { s with pc := .reading }
            | some (data, sr) =>
              if data.isEmpty then writeEnd eof s.endsNl { s with sr := sr }
              else { s with sr := sr, endsNl := data.getLast? = some 0x0A, w := s.w.write data,
                            pc := .drain }) (evs ++ [.go]) c' := by
        intro hpc
        have sm := same (.inl rfl)
        obtain ⟨l1, l2⟩ := ih.loop hpc
        simp only [SR.read]
        split
        · exact ⟨c, ⟨sm.ok.gone, sm.ok.deliv⟩, sm.src, sm.srcEof, sm.nl, by simp, fun _ => ih.loop hpc, by simp, by simp, by simp⟩
        · rename_i data sr hrd
          split at hrd
          · cases hrd
          · rename_i hnw
            simp only [Option.some.injEq, Prod.mk.injEq] at hrd
            obtain ⟨hd, hsr⟩ := hrd
            subst hsr
            split
            · rename_i hdata
              have hbe : s.sr.buffer = [] := by
                have h0 : s.sr.buffer.take chunkSize = [] := by rw [hd]; simpa using hdata
                rw [List.take_eq_nil_iff] at h0
                exact h0.resolve_left (by decide)
              have hs : ({ s with sr := { s.sr with buffer := s.sr.buffer.drop chunkSize } } : WriteSt) = s := by
                rw [hbe]; simp only [List.drop_nil]; rw [← hbe]
              rw [hs]
              refine ⟨c, hend s (.inl rfl) rfl rfl rfl hpc (.inl ⟨?_, hbe⟩)⟩
              rw [← sm.srcEof]
              simpa [hbe] using hnw
            · rename_i hdata
              have hdne : data ≠ [] := by simpa using hdata
              have hsplit : data ++ s.sr.buffer.drop chunkSize = s.sr.buffer := by
                rw [← hd]; exact List.take_append_drop _ _
              refine ⟨c ++ data, ?_, ?_, sm.srcEof, ?_, by simp, ?_, by simp, by simp, by simp⟩
              · refine gone_snoc ih.ok (by simp) ?_ ?_ ?_ <;> simp only [Writer.write] <;> split <;> simp
              · rw [List.append_assoc]; simp only; rw [hsplit]; exact sm.src
              · exact (atLineStart_append c data hdne).symm
              · intro _
                simp only [Writer.write, Writer.isClosing, l2, Bool.or_false]
                cases hbk : s.w.broken with
                | true =>
                  refine ⟨.inr ⟨hbk, ?_⟩, l2⟩
                  simp only [if_true]
                  rcases l1 with l | ⟨_, l⟩
                  · rw [l]; exact List.prefix_append _ _
                  · exact l.trans (List.prefix_append _ _)
                | false =>
                  refine ⟨.inl ?_, rfl⟩
                  rcases l1 with l | ⟨l, _⟩
                  · simp [l]
                  · rw [hbk] at l; cases l
      simp only [writeReaderStep]
      split
      · rename_i hpc; exact body (.inl hpc)
      · rename_i hpc; exact body (.inr (.inl hpc))
      · rename_i hpc; exact body (.inr (.inr hpc))
      · rename_i hpc; exact ⟨c, toDone (.inl rfl) hpc⟩
      · exact ⟨c, same (.inl rfl)⟩
    | exc e =>
      have body : (s.pc = .start ∨ s.pc = .reading ∨ s.pc = .drain) → WRInv eof
          (if isPipeError e then writeEnd eof s.endsNl s else { s with pc := .raised e })
            (evs ++ [.exc e]) c := by
        intro hpc
        obtain ⟨l1, l2⟩ := ih.loop hpc
        split
        · rename_i hp
          exact hend s (.inr ⟨e, rfl⟩) rfl rfl rfl hpc (.inr ⟨e, by simp, hp⟩)
        · rename_i hp
          refine toRaised e rfl l2 (.inl ?_) (by simpa using hp)
          rcases l1 with l | ⟨_, l⟩
          · rw [l]; exact List.prefix_refl _
          · exact l
      simp only [writeReaderStep]
      split
      · rename_i hpc
        have hc := ih.start hpc
        obtain ⟨l1, l2⟩ := ih.loop (.inl hpc)
        have ha : s.w.accepted = [] := by
          rcases l1 with l | ⟨_, l⟩
          · rw [l, hc]
          · rw [hc] at l; exact List.prefix_nil.mp l
        split
        · rename_i hca
          exact ⟨c, toRaised e rfl l2 (by simp [ha]) (by rw [hca]; rfl)⟩
        · exact ⟨c, same (.inr ⟨e, rfl⟩)⟩
      · rename_i hpc; exact ⟨c, body (.inr (.inl hpc))⟩
      · rename_i hpc; exact ⟨c, body (.inr (.inr hpc))⟩
      · rename_i hpc
        obtain ⟨f1, f2, f3⟩ := ih.fin (.inl hpc)
        split
        · exact ⟨c, toDone (.inr ⟨e, rfl⟩) hpc⟩
        · rename_i hp
          have hcl : s.w.closed = false := by
            cases hc : s.w.closed with
            | false => rfl
            | true => exact absurd (f2.mp hc) (ih.onTty hpc)
          refine ⟨c, toRaised e rfl hcl ?_ (by simpa using hp)⟩
          rcases f1 with h | ⟨_, h⟩
          · exact .inr ⟨by rw [h]; exact List.prefix_refl _, f3⟩
          · exact .inl h
      · exact ⟨c, same (.inr ⟨e, rfl⟩)⟩


theorem closed_frozen {step : WriteSt → WEv → WriteSt}
    (h : ∀ s ev, s.pc = .done → (step s ev).pc = .done ∧ (step s ev).w.accepted = s.w.accepted)
    (s : WriteSt) (evs : List WEv) (hs : s.pc = .done) :
    (evs.foldl step s).w.accepted = s.w.accepted := by
  induction evs generalizing s with
  | nil => rfl
  | cons ev evs ih =>
    rw [List.foldl_cons, ih _ (h s ev hs).1, (h s ev hs).2]

theorem writeStreamStep_done (input eof) (s : WriteSt) (ev : WEv) (h : s.pc = .done) :
    (writeStreamStep input eof s ev).pc = .done ∧
      (writeStreamStep input eof s ev).w.accepted = s.w.accepted := by
  cases ev <;> simp [writeStreamStep, h, writeEnv]

theorem writeReaderStep_done (eof) (s : WriteSt) (ev : WEv) (h : s.pc = .done) :
    (writeReaderStep eof s ev).pc = .done ∧
      (writeReaderStep eof s ev).w.accepted = s.w.accepted := by
  cases ev <;> simp [writeReaderStep, h, writeEnv]

/-- **C16.** Input given as bytes/str/BytesIO/StringIO, on a pipe, at every moment of every schedule:
the child has received a prefix of the input; when it sees end-of-file it has received exactly the
input; once the pipe is closed no byte is added; the copy ends by closing the pipe; and the only
exceptions it ever raises are `BrokenPipeError` when the child had closed the pipe before anything was
written, and whatever its awaits raise other than broken-pipe errors (e.g. cancellation). -/
theorem C16_bytes (input : Bytes) (evs : List WEv) :
    let s := writeStream input none evs
    s.w.received <+: input ∧
    (s.w.childAtEof → s.w.received = input) ∧
    (s.w.closed = true → ∀ more, (writeStream input none (evs ++ more)).w.accepted = s.w.accepted) ∧
    (s.pc = .done → s.w.closed = true ∧ s.w.accepted = input) ∧
    (∀ e, s.pc = .raised e →
      (WEv.exc e ∈ evs ∧ e ≠ .brokenPipe ∧ e ≠ .connectionReset) ∨
      (e = .brokenPipe ∧ input ≠ [] ∧ childGone evs ∧ s.w.accepted = [])) := by
  intro s
  have inv : WSInv input none s evs := writeStream_inv input none evs
  have hnd : s.pc ≠ .drainEof := fun h => inv.onTty h rfl
  have hfin : s.pc = .done → s.w.closed = true ∧ s.w.accepted = input := by
    intro h
    obtain ⟨f1, f2⟩ := inv.fin (.inr h)
    refine ⟨f2.mpr rfl, ?_⟩
    rcases f1 with f | f
    · simpa [trailer] using f
    · exact f.2
  have hpre : s.w.accepted <+: input := by
    cases hpc : s.pc with
    | start => rw [(inv.start hpc).1]; exact List.nil_prefix
    | reading => exact absurd hpc inv.noreading
    | drain => rw [(inv.drain hpc).1]; exact List.prefix_refl _
    | drainEof => exact absurd hpc hnd
    | done => rw [(hfin hpc).2]; exact List.prefix_refl _
    | raised e => simpa [trailer] using (inv.raised e hpc).2.1
  have hclosed : s.w.closed = true → s.pc = .done := by
    intro hc
    cases hpc : s.pc with
    | start => rw [(inv.start hpc).2] at hc; cases hc
    | reading => exact absurd hpc inv.noreading
    | drain => rw [(inv.drain hpc).2] at hc; cases hc
    | drainEof => exact absurd hpc hnd
    | done => rfl
    | raised e => rw [(inv.raised e hpc).1] at hc; cases hc
  refine ⟨(List.take_prefix _ _).trans hpre, ?_, ?_, hfin, ?_⟩
  · rintro ⟨h1, _, h3⟩
    rw [Writer.received, h3, List.take_length]
    exact (hfin (hclosed h1)).2
  · intro hc more
    rw [show writeStream input none (evs ++ more) = more.foldl (writeStreamStep input none) s from by
      simp [writeStream, s, List.foldl_append]]
    exact closed_frozen (writeStreamStep_done input none) s more (hclosed hc)
  · intro e he
    rcases (inv.raised e he).2.2 with h | h
    · refine .inl ⟨h.1, ?_, ?_⟩ <;> rintro rfl <;> simp [isPipeError] at h
    · exact .inr h

/-- **C16.** The same for input from a `StreamReader`, whose own failure must not be a broken-pipe
error (see `C16_source_reset_false`): every broken-pipe error comes from a child that stopped
reading. -/
theorem C16_reader_partial (evs : List WEv) (hsrc : pipeErrorIn evs → childGone evs) :
    let s := writeReader none evs
    s.w.received <+: sourceBytes evs ∧
    (s.w.childAtEof → s.w.received = sourceBytes evs ∧ sourceEnded evs = true) ∧
    (s.w.closed = true → ∀ more, (writeReader none (evs ++ more)).w.accepted = s.w.accepted) ∧
    (s.pc = .done → s.w.closed = true) ∧
    (∀ e, s.pc = .raised e → WEv.exc e ∈ evs ∧ e ≠ .brokenPipe ∧ e ≠ .connectionReset) := by
  intro s
  obtain ⟨c, inv⟩ : ∃ c, WRInv none s evs c := writeReader_inv none evs
  have hnd : s.pc ≠ .drainEof := fun h => inv.onTty h rfl
  have hcs : c <+: sourceBytes evs := ⟨_, inv.src⟩
  have hacc : s.w.accepted <+: c := by
    have l : (s.w.accepted = c ∨ (s.w.broken = true ∧ s.w.accepted <+: c)) → s.w.accepted <+: c := by
      rintro (h | h)
      · rw [h]; exact List.prefix_refl _
      · exact h.2
    cases hpc : s.pc with
    | start => exact l (inv.loop (.inl hpc)).1
    | reading => exact l (inv.loop (.inr (.inl hpc))).1
    | drain => exact l (inv.loop (.inr (.inr hpc))).1
    | drainEof => exact absurd hpc hnd
    | done => exact l (by simpa [trailer] using (inv.fin (.inr hpc)).1)
    | raised e => exact (inv.raised e hpc).2.1.elim id (fun h => by simpa [trailer] using h.1)
  have hclosed : s.w.closed = true → s.pc = .done := by
    intro hc
    cases hpc : s.pc with
    | start => rw [(inv.loop (.inl hpc)).2] at hc; cases hc
    | reading => rw [(inv.loop (.inr (.inl hpc))).2] at hc; cases hc
    | drain => rw [(inv.loop (.inr (.inr hpc))).2] at hc; cases hc
    | drainEof => exact absurd hpc hnd
    | done => rfl
    | raised e => rw [(inv.raised e hpc).1] at hc; cases hc
  refine ⟨((List.take_prefix _ _).trans hacc).trans hcs, ?_, ?_, ?_, ?_⟩
  · rintro ⟨h1, h2, h3⟩
    obtain ⟨f1, _, f3⟩ := inv.fin (.inr (hclosed h1))
    have hng : ¬ childGone evs := by
      intro h; rw [inv.ok.gone.mpr h] at h2; cases h2
    obtain ⟨g1, g2⟩ := f3.resolve_right (fun h => hng (hsrc h))
    rw [Writer.received, h3, List.take_length]
    refine ⟨?_, g1⟩
    rcases f1 with f | f
    · rw [f, ← inv.src, g2]; simp [trailer]
    · rw [h2] at f; cases f.1
  · intro hc more
    rw [show writeReader none (evs ++ more) = more.foldl (writeReaderStep none) s from by
      simp [writeReader, s, List.foldl_append]]
    exact closed_frozen (writeReaderStep_done none) s more (hclosed hc)
  · intro h; exact (inv.fin (.inr h)).2.1.mpr rfl
  · intro e he
    obtain ⟨_, _, h1, h2⟩ := inv.raised e he
    refine ⟨h1, ?_, ?_⟩ <;> rintro rfl <;> simp [isPipeError] at h2

/-- **C16** fails if the source itself breaks: a `ConnectionResetError` of the source reader is taken
for the end of the input; the child sees a regular end-of-file and no exception is raised. -/
theorem C16_source_reset_false :
    ∃ evs : List WEv, ¬ childGone evs ∧ sourceBytes evs = [0x61, 0x62] ∧ sourceEnded evs = false ∧
      (writeReader none evs).pc = .done ∧ (writeReader none evs).w.childAtEof ∧
      (writeReader none evs).w.received = [0x61] :=
  ⟨[.feed [0x61], .go, .go, .exc .connectionReset, .feed [0x62], .deliver 1],
    by simp [childGone], by simp [sourceBytes], by simp [sourceEnded], rfl, ⟨rfl, rfl, rfl⟩, rfl⟩

/-- **C16.** The input does arrive: if the child keeps reading and nothing disturbs the copy, the child
gets all of the input and end-of-file. -/
theorem C16_bytes_delivered (input : Bytes) (evs : List WEv)
    (hexc : ∀ e, WEv.exc e ∉ evs) (hgone : ¬ childGone evs) :
    ∃ more, (∀ ev ∈ more, ev = WEv.go ∨ ∃ n, ev = .deliver n) ∧
      (writeStream input none (evs ++ more)).w.childAtEof ∧
      (writeStream input none (evs ++ more)).w.received = input := by
  have key : ∀ evs, (∀ e, WEv.exc e ∉ evs) → ¬ childGone evs →
      (writeStream input none (evs ++ [.go, .go])).pc = .done := by
    intro evs hexc hgone
    have inv := writeStream_inv input none evs
    rw [show writeStream input none (evs ++ [.go, .go]) =
      [WEv.go, .go].foldl (writeStreamStep input none) (writeStream input none evs) from by
        simp [writeStream, List.foldl_append]]
    generalize writeStream input none evs = s at *
    have hb : s.w.broken = false := by
      cases h : s.w.broken with
      | false => rfl
      | true => exact absurd (inv.ok.gone.mp h) hgone
    cases hpc : s.pc with
    | start =>
      by_cases hi : input = [] <;>
        simp [writeStreamStep, hpc, hi, writeEnd, Writer.isClosing, hb, (inv.start hpc).2]
    | reading => exact absurd hpc inv.noreading
    | drain => simp [writeStreamStep, hpc, writeEnd]
    | drainEof => exact absurd rfl (inv.onTty hpc)
    | done => simp [writeStreamStep, hpc]
    | raised e =>
      rcases (inv.raised e hpc).2.2 with h | h
      · exact absurd h.1 (hexc e)
      · exact absurd h.2.2.1 hgone
  have hd := key evs hexc hgone
  have c16 := C16_bytes input (evs ++ [.go, .go])
  obtain ⟨hcl, hacc⟩ := c16.2.2.2.1 hd
  have inv := writeStream_inv input none (evs ++ [.go, .go])
  have hb : (writeStream input none (evs ++ [.go, .go])).w.broken = false := by
    cases h : (writeStream input none (evs ++ [.go, .go])).w.broken with
    | false => rfl
    | true =>
      have := inv.ok.gone.mp h
      simp [childGone] at this
      exact absurd this hgone
  refine ⟨[.go, .go, .deliver input.length], ?_, ?_⟩
  · intro ev hev; simp at hev; rcases hev with rfl | rfl <;> simp
  · rw [show evs ++ [WEv.go, .go, .deliver input.length] =
      (evs ++ [.go, .go]) ++ [.deliver input.length] from by simp]
    rw [show writeStream input none ((evs ++ [.go, .go]) ++ [.deliver input.length]) =
      writeStreamStep input none (writeStream input none (evs ++ [.go, .go]))
        (.deliver input.length) from by simp [writeStream, List.foldl_append]]
    generalize writeStream input none (evs ++ [.go, .go]) = s at *
    have hm : min (s.w.delivered + input.length) s.w.accepted.length = input.length := by
      rw [hacc]; omega
    rw [hacc] at hm
    simp only [writeStreamStep, writeEnv, hb, Bool.false_eq_true, if_false, hm, Writer.childAtEof,
      Writer.received, hacc, hcl, List.take_length, and_self]

/-- **C16.** The same for a `StreamReader` source that has ended. -/
theorem C16_reader_delivered (evs : List WEv) (hexc : ∀ e, WEv.exc e ∉ evs)
    (hgone : ¬ childGone evs) (hend : sourceEnded evs = true) :
    ∃ more, (∀ ev ∈ more, ev = WEv.go ∨ ∃ n, ev = .deliver n) ∧
      (writeReader none (evs ++ more)).w.childAtEof ∧
      (writeReader none (evs ++ more)).w.received = sourceBytes evs := by
  have stop : ∀ n (s : WriteSt), s.sr.eof = true → s.sr.buffer.length ≤ n →
      (s.pc ≠ .drainEof ∧ ∀ e, s.pc ≠ .raised e) →
      ∃ k, ((List.replicate k WEv.go).foldl (writeReaderStep none) s).pc = .done := by
    intro n
    induction n with
    | zero =>
      intro s he hb hpc
      have hb : s.sr.buffer = [] := by simpa using hb
      refine ⟨1, ?_⟩
      simp only [List.replicate_one, List.foldl_cons, List.foldl_nil, writeReaderStep]
      cases h : s.pc <;> simp [SR.read, he, hb, writeEnd, h]
      · exact absurd h (hpc.2 _)
    | succ n ih =>
      intro s he hb hpc
      by_cases hd : s.pc = .done
      · exact ⟨0, by simpa using hd⟩
      · by_cases hbe : s.sr.buffer = []
        · refine ⟨1, ?_⟩
          simp only [List.replicate_one, List.foldl_cons, List.foldl_nil, writeReaderStep]
          cases h : s.pc <;> simp [SR.read, he, hbe, writeEnd, h]
          · exact absurd h (hpc.2 _)
        · have hstep : writeReaderStep none s .go =
              { s with sr := { s.sr with buffer := s.sr.buffer.drop chunkSize },
                       endsNl := (s.sr.buffer.take chunkSize).getLast? = some 0x0A,
                       w := s.w.write (s.sr.buffer.take chunkSize), pc := .drain } := by
            simp only [writeReaderStep]
            have ht : (s.sr.buffer.take chunkSize).isEmpty = false := by
              simp [chunkSize, hbe]
            cases h : s.pc <;> simp [SR.read, hbe, chunkSize] <;> simp_all <;> rfl
          have hl : s.sr.buffer.length ≠ 0 := by simpa using hbe
          obtain ⟨k, hk⟩ := ih (writeReaderStep none s .go) (by rw [hstep]; exact he)
            (by rw [hstep]; simp [chunkSize]; omega) (by rw [hstep]; simp)
          exact ⟨k + 1, by rw [List.replicate_succ, List.foldl_cons]; exact hk⟩
  obtain ⟨c, inv⟩ := writeReader_inv none evs
  obtain ⟨k, hk⟩ := stop _ _ (inv.srcEof.trans hend) (Nat.le_refl _)
    ⟨fun h => inv.onTty h rfl, fun e he => hexc e (inv.raised e he).2.2.1⟩
  have hexc' : ∀ e, WEv.exc e ∉ evs ++ List.replicate k .go := by
    intro e he
    rcases List.mem_append.mp he with h | h
    · exact hexc e h
    · have := List.eq_of_mem_replicate h; cases this
  have hg' : ¬ childGone (evs ++ List.replicate k .go) := by
    intro he
    rcases List.mem_append.mp he with h | h
    · exact hgone h
    · have := List.eq_of_mem_replicate h; cases this
  have hsb : sourceBytes (evs ++ List.replicate k .go) = sourceBytes evs := by
    clear hk hexc' hg'
    induction k with
    | zero => simp
    | succ k ih => rw [List.replicate_succ', ← List.append_assoc, sourceBytes_snoc, ih]; simp [wevData]
  have hrun : writeReader none (evs ++ List.replicate k .go) =
      (List.replicate k WEv.go).foldl (writeReaderStep none) (writeReader none evs) := by
    simp [writeReader, List.foldl_append]
  rw [← hrun] at hk
  obtain ⟨c', inv'⟩ := writeReader_inv none (evs ++ List.replicate k .go)
  have hb : (writeReader none (evs ++ List.replicate k .go)).w.broken = false := by
    cases h : (writeReader none (evs ++ List.replicate k .go)).w.broken with
    | false => rfl
    | true => exact absurd (inv'.ok.gone.mp h) hg'
  obtain ⟨f1, f2, f3⟩ := inv'.fin (.inr hk)
  have hacc : (writeReader none (evs ++ List.replicate k .go)).w.accepted = sourceBytes evs := by
    obtain ⟨_, g2⟩ := f3.resolve_right (fun ⟨e, h, _⟩ => hexc' e h)
    rcases f1 with f | f
    · rw [f, ← hsb, ← inv'.src, g2]; simp [trailer]
    · rw [hb] at f; cases f.1
  have hcl := f2.mpr rfl
  refine ⟨List.replicate k .go ++ [.deliver (sourceBytes evs).length], ?_, ?_⟩
  · intro ev hev
    rcases List.mem_append.mp hev with h | h
    · exact .inl (List.eq_of_mem_replicate h)
    · simp at h; exact .inr ⟨_, h⟩
  · rw [← List.append_assoc]
    rw [show writeReader none ((evs ++ List.replicate k .go) ++ [.deliver (sourceBytes evs).length]) =
      writeReaderStep none (writeReader none (evs ++ List.replicate k .go))
        (.deliver (sourceBytes evs).length) from by simp [writeReader, List.foldl_append]]
    generalize writeReader none (evs ++ List.replicate k .go) = s at *
    have hm : min (s.w.delivered + (sourceBytes evs).length) s.w.accepted.length =
        (sourceBytes evs).length := by
      rw [hacc]; omega
    rw [hacc] at hm
    simp only [writeReaderStep, writeEnv, hb, Bool.false_eq_true, if_false, hm, Writer.childAtEof,
      Writer.received, hacc, hcl, List.take_length, and_self]

/-- Witness: two chunks, the child reads one byte before the second arrives. -/
example :
    let s := writeReader none [.feed [1, 2], .go, .deliver 1, .go, .feed [3], .srcEof, .go, .go, .deliver 9]
    s.w.childAtEof ∧ s.w.received = [1, 2, 3] := by
  refine ⟨⟨by decide, by decide, by decide⟩, by decide⟩

/-- Witness: the child stops reading; the copy ends quietly. -/
example :
    let s := writeStream [1, 2, 3] none [.go, .deliver 1, .brk, .exc .brokenPipe]
    s.pc = .done ∧ s.w.received = [1] := by decide

end Shellous.Props
