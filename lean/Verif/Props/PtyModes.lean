import Verif.Model.PtyModes
import Verif.Props.Tty
import Verif.Props.Streams

/-!
# C72: terminals
-/

namespace Shellous.Props

/-! ## Specification -/

/-- The switches of the word `w'` are those of `w`, except that the ones in `off` are off. -/
def SwitchedOff (off : List Nat) (w w' : BitVec 32) : Prop :=
  ∀ k, w'.getLsbD k = (w.getLsbD k && !off.contains k)

/-- The local modes (Linux, bit numbers in `c_lflag`). -/
def ISIG : Nat := 0
@[inherit_doc ISIG] def ICANONbit : Nat := 1
@[inherit_doc ISIG] def ECHObit : Nat := 3
@[inherit_doc ISIG] def ECHOE : Nat := 4
@[inherit_doc ISIG] def ECHOK : Nat := 5
@[inherit_doc ISIG] def ECHONL : Nat := 6
@[inherit_doc ISIG] def NOFLSH : Nat := 7
@[inherit_doc ISIG] def TOSTOP : Nat := 8
@[inherit_doc ISIG] def IEXTEN : Nat := 15

/-- Sizes that a terminal can have. -/
def ValidSize (rows cols : Int) : Prop := 0 ≤ rows ∧ rows ≤ 65535 ∧ 0 ≤ cols ∧ cols ≤ 65535

/-- The size of `t'` is the one asked for, or that of `t` if none was asked for (or the terminal cannot be resized). -/
def SizeSet (rows cols : Int) (t t' : Term) : Prop :=
  if (rows ≠ 0 ∨ cols ≠ 0) ∧ t.winszOk = true then (t'.rows : Int) = rows ∧ (t'.cols : Int) = cols
  else t'.rows = t.rows ∧ t'.cols = t.cols

/-! ## Proof -/

theorem getLsbD_off (w m : BitVec 32) (off : List Nat) (hm : ∀ k : Fin 32, m.getLsbD k = off.contains k.val) :
    SwitchedOff off w (w &&& ~~~m) := by
  intro k
  by_cases hk : k < 32
  · have := hm ⟨k, hk⟩
    simp only [BitVec.getLsbD_and, BitVec.getLsbD_not, hk, decide_true, Bool.true_and]
    rw [← this]
  · rw [BitVec.getLsbD_of_ge _ _ (by omega), BitVec.getLsbD_of_ge w _ (by omega)]
    rfl

theorem bit_of (w m : BitVec 32) (j : Nat) (hj : j < 32) (hm : ∀ k : Fin 32, m.getLsbD k = decide (k.val = j)) :
    ((w &&& m) != 0#32) = w.getLsbD j := by
  cases h : w.getLsbD j with
  | true =>
    refine bne_iff_ne.2 fun h0 => ?_
    have := congrArg (·.getLsbD j) h0
    simp only [BitVec.getLsbD_and, h, Bool.true_and] at this
    rw [show m.getLsbD j = true from (hm ⟨j, hj⟩).trans (by simp)] at this
    simp at this
  | false =>
    have : w &&& m = 0#32 := by
      apply BitVec.eq_of_getLsbD_eq
      intro k hk
      rw [BitVec.getLsbD_and, show m.getLsbD k = decide (k = j) from hm ⟨k, hk⟩]
      by_cases hkj : k = j
      · subst hkj; rw [h]; simp
      · simp [hkj]
    rw [this]; rfl

theorem canon_bit (w : BitVec 32) : ((w &&& ICANON) != 0#32) = w.getLsbD 1 := bit_of w ICANON 1 (by decide) (by decide)

theorem echo_bit (w : BitVec 32) : ((w &&& ECHO) != 0#32) = w.getLsbD 3 := bit_of w ECHO 3 (by decide) (by decide)

theorem getEof_off {a : TermAttrs} (h : a.lflag.getLsbD 1 = false) : getEof a = [] := by
  unfold getEof
  rw [canon_bit, h]; rfl

theorem maybeSize_ok {rows cols : Int} (h : ValidSize rows cols) (t : Term) :
    ∃ t', t.maybeSize rows cols = .ok t' ∧ t'.attrs = t.attrs ∧ t'.winszOk = t.winszOk ∧ SizeSet rows cols t t' := by
  unfold Term.maybeSize
  obtain ⟨h1, h2, h3, h4⟩ := h
  by_cases hr : rows ≠ 0 ∨ cols ≠ 0
  · rw [if_pos hr]
    unfold Term.setSize
    rw [if_neg (by omega)]
    by_cases hw : t.winszOk = true
    · rw [if_pos hw]
      refine ⟨_, rfl, rfl, rfl, ?_⟩
      unfold SizeSet
      rw [if_pos ⟨hr, hw⟩]
      exact ⟨Int.toNat_of_nonneg h1, Int.toNat_of_nonneg h3⟩
    · rw [if_neg hw]
      refine ⟨_, rfl, rfl, rfl, ?_⟩
      unfold SizeSet
      rw [if_neg (fun h => hw h.2)]
      exact ⟨rfl, rfl⟩
  · rw [if_neg hr]
    refine ⟨_, rfl, rfl, rfl, ?_⟩
    unfold SizeSet
    rw [if_neg (fun h => hr h.1)]
    exact ⟨rfl, rfl⟩

/-- The control characters are kept, but VMIN (6) is 1 and VTIME (5) is 0. -/
def OneByte (cc cc' : List Bytes) : Prop := cc'.length = cc.length ∧
  ∀ k : Nat, k < cc.length → cc'[k]? = if k = 6 then some [1] else if k = 5 then some [0] else cc[k]?

theorem oneByte_set (cc : List Bytes) : OneByte cc (setMinTime cc) := by
  refine ⟨by simp [setMinTime], fun k hk => ?_⟩
  unfold setMinTime
  rw [List.getElem?_set, List.getElem?_set]
  simp only [List.length_set]
  by_cases h6 : k = 6
  · subst h6; simp [hk]
  · by_cases h5 : k = 5
    · subst h5; simp [hk]
    · have h6' : ¬ 6 = k := fun h => h6 h.symm
      have h5' : ¬ 5 = k := fun h => h5 h.symm
      simp [h5, h6, h5', h6']

/-- **C72: `pty.raw(rows, cols)`**, for every terminal: input is neither edited nor echoed nor turned into signals, output is
not processed, characters have 8 bits (CS8, no parity), a read waits for one byte (VMIN = 1, VTIME = 0), and no EOF character
will be sent. -/
theorem C72_raw (rows cols : Int) (h : ValidSize rows cols) (t : Term) : ∃ t', ptyRaw rows cols t = .ok t' ∧
    SwitchedOff [ISIG, ICANONbit, ECHObit, ECHOE, ECHOK, ECHONL, NOFLSH, TOSTOP, IEXTEN] t.attrs.lflag t'.attrs.lflag ∧
    SwitchedOff [0, 1, 2, 3, 4, 5, 6, 7, 8, 10, 11, 12] t.attrs.iflag t'.attrs.iflag ∧
    SwitchedOff [0] t.attrs.oflag t'.attrs.oflag ∧ getEof t'.attrs = [] ∧ getTermEcho t'.attrs = false ∧
    SizeSet rows cols t t' ∧
    (∀ k, t'.attrs.cflag.getLsbD k = if k = 4 ∨ k = 5 then true else if k = 8 then false else t.attrs.cflag.getLsbD k) ∧
    OneByte t.attrs.cc t'.attrs.cc := by
  obtain ⟨t', h1, h2, _, h4⟩ := maybeSize_ok h { t with attrs := makeRaw t.attrs }
  have hl : SwitchedOff [ISIG, ICANONbit, ECHObit, ECHOE, ECHOK, ECHONL, NOFLSH, TOSTOP, IEXTEN] t.attrs.lflag t'.attrs.lflag := by
    rw [h2]; exact getLsbD_off _ _ _ (by decide)
  have he : getEof t'.attrs = [] := getEof_off (by rw [hl 1]; simp [ISIG, ICANONbit])
  refine ⟨t', ?_, hl, ?_, ?_, he, ?_, h4, ?_, ?_⟩
  rotate_left 4
  · intro k
    rw [h2]
    show ((t.attrs.cflag &&& ~~~(0x130#32)) ||| 0x30#32).getLsbD k = _
    by_cases hk : k < 32
    · have : ∀ k : Fin 32, (0x130#32).getLsbD k = decide (k.val = 4 ∨ k.val = 5 ∨ k.val = 8) ∧
        (0x30#32).getLsbD k = decide (k.val = 4 ∨ k.val = 5) := by decide
      obtain ⟨a, b⟩ := this ⟨k, hk⟩
      dsimp only at a b
      rw [BitVec.getLsbD_or, BitVec.getLsbD_and, BitVec.getLsbD_not, a, b]
      simp only [hk, decide_true, Bool.true_and]
      by_cases h4 : k = 4 ∨ k = 5
      · simp [h4]
      · by_cases h8 : k = 8
        · simp [h8]
        · have h3 : ¬ (k = 4 ∨ k = 5 ∨ k = 8) := by omega
          simp [h4, h8, h3]
    · have h4 : ¬ (k = 4 ∨ k = 5) := by omega
      have h8 : ¬ k = 8 := by omega
      rw [if_neg h4, if_neg h8, BitVec.getLsbD_of_ge _ _ (by omega), BitVec.getLsbD_of_ge _ _ (by omega)]
  · rw [h2]; exact oneByte_set _
  · simp only [ptyRaw, h1, bind, Except.bind, Term.assertEof]
    rw [if_pos he]
  · rw [h2]; exact getLsbD_off _ _ _ (by decide)
  · rw [h2]; exact getLsbD_off _ _ _ (by decide)
  · unfold getTermEcho
    rw [echo_bit, hl 3]; simp [ISIG, ICANONbit, ECHObit]

/-- **C72: `pty.cbreak(rows, cols)`**, for every terminal: input is neither edited nor echoed, but the characters that cause
signals still do; no EOF character will be sent. -/
theorem C72_cbreak (rows cols : Int) (h : ValidSize rows cols) (t : Term) : ∃ t', ptyCbreak rows cols t = .ok t' ∧
    SwitchedOff [ICANONbit, ECHObit] t.attrs.lflag t'.attrs.lflag ∧ t'.attrs.iflag = t.attrs.iflag ∧
    t'.attrs.oflag = t.attrs.oflag ∧ t'.attrs.cflag = t.attrs.cflag ∧ getEof t'.attrs = [] ∧ getTermEcho t'.attrs = false ∧
    SizeSet rows cols t t' ∧ OneByte t.attrs.cc t'.attrs.cc := by
  obtain ⟨t', h1, h2, _, h4⟩ := maybeSize_ok h { t with attrs := makeCbreak t.attrs }
  have hl : SwitchedOff [ICANONbit, ECHObit] t.attrs.lflag t'.attrs.lflag := by
    rw [h2]; exact getLsbD_off _ _ _ (by decide)
  have he : getEof t'.attrs = [] := getEof_off (by rw [hl 1]; simp [ICANONbit])
  refine ⟨t', ?_, hl, by rw [h2]; rfl, by rw [h2]; rfl, by rw [h2]; rfl, he, ?_, h4, (by rw [h2]; exact oneByte_set _)⟩
  · simp only [ptyCbreak, h1, bind, Except.bind, Term.assertEof]
    rw [if_pos he]
  · unfold getTermEcho
    rw [echo_bit, hl 3]; simp [ICANONbit, ECHObit]

/-- **C72: `pty.cooked(rows, cols, echo)`** leaves a terminal in canonical mode, with ^D as EOF character, as it is, except
that with `echo=False` it switches the echo off. On any other terminal it raises AssertionError. -/
theorem C72_cooked (rows cols : Int) (h : ValidSize rows cols) (echo : Bool) (t : Term) :
    (t.attrs.lflag.getLsbD ICANONbit = true → t.attrs.cc.getD VEOF [] = [4] → ∃ t', ptyCooked rows cols echo t = .ok t' ∧
      SwitchedOff (if echo then [] else [ECHObit]) t.attrs.lflag t'.attrs.lflag ∧
      t'.attrs = { t.attrs with lflag := t'.attrs.lflag } ∧ getEof t'.attrs = [4] ∧ SizeSet rows cols t t') ∧
    (¬ (t.attrs.lflag.getLsbD ICANONbit = true ∧ t.attrs.cc.getD VEOF [] = [4]) →
      ptyCooked rows cols echo t = .error .assertionError) := by
  obtain ⟨t', h1, h2, _, h4⟩ := maybeSize_ok h t
  -- the terminal whose EOF character is checked
  obtain ⟨t2, e1, e2, e3, e4⟩ : ∃ t2 : Term, ptyCooked rows cols echo t = t2.assertEof [4] ∧
      SwitchedOff (if echo then [] else [ECHObit]) t.attrs.lflag t2.attrs.lflag ∧
      t2.attrs = { t.attrs with lflag := t2.attrs.lflag } ∧ SizeSet rows cols t t2 := by
    simp only [ptyCooked, h1, bind, Except.bind]
    cases echo with
    | true =>
      refine ⟨t', rfl, ?_, by rw [h2], h4⟩
      intro k; rw [h2]; simp
    | false =>
      unfold setTermEcho
      cases hb : t'.attrs.lflag.getLsbD 3 with
      | true =>
        refine ⟨{ t' with attrs := { t'.attrs with lflag := t'.attrs.lflag &&& ~~~ECHO } }, ?_, ?_, ?_, h4⟩
        · simp [echo_bit, hb]
        · simp only [h2]
          exact getLsbD_off _ ECHO [ECHObit] (by decide)
        · simp only [h2]
      | false =>
        refine ⟨t', ?_, ?_, by rw [h2], h4⟩
        · simp only [echo_bit, hb]; rfl
        · intro k
          rw [← h2]
          by_cases hk : k = 3
          · subst hk; rw [hb]; rfl
          · simp [ECHObit, hk]
  have hk : t2.attrs.lflag.getLsbD 1 = t.attrs.lflag.getLsbD 1 := by
    rw [e2 1]
    cases echo <;> simp [ECHObit]
  have hcc : t2.attrs.cc = t.attrs.cc := by rw [e3]
  have heof : getEof t2.attrs = if t.attrs.lflag.getLsbD 1 then t.attrs.cc.getD VEOF [] else [] := by
    unfold getEof
    rw [canon_bit, hk, hcc]
  constructor
  · intro hc hv
    have : getEof t2.attrs = [4] := by
      rw [heof, show t.attrs.lflag.getLsbD 1 = true from hc, hv]; rfl
    refine ⟨t2, ?_, e2, e3, this, e4⟩
    rw [e1, Term.assertEof, if_pos this]
  · intro hn
    rw [e1, Term.assertEof, if_neg]
    rw [heof]
    intro hx
    by_cases hc : t.attrs.lflag.getLsbD 1 = true
    · rw [if_pos hc] at hx; exact hn ⟨hc, hx⟩
    · rw [if_neg hc] at hx; cases hx

/-- C72: a size that does not fit in 16 bits is an error (of `struct.pack`) that the adapters do not catch. -/
theorem C72_bad_size (rows cols : Int) (h : ¬ ValidSize rows cols) (t : Term) (echo : Bool) :
    ptyRaw rows cols t = .error structError ∧ ptyCbreak rows cols t = .error structError ∧
    ptyCooked rows cols echo t = .error structError := by
  have : ∀ t : Term, t.maybeSize rows cols = .error structError := by
    intro t
    unfold Term.maybeSize Term.setSize
    unfold ValidSize at h
    rw [if_pos (by omega), if_pos (by omega)]
  simp [ptyRaw, ptyCbreak, ptyCooked, this, bind, Except.bind]

/-- **C72, with C17: what the child reads from the terminal.** With a terminal prepared by `cooked()` the program gets
exactly the input and then end of file (for input without special characters and with lines that fit). -/
theorem C72_cooked_input (rows cols : Int) (h : ValidSize rows cols) (echo : Bool) (t t' : Term)
    (ht : ptyCooked rows cols echo t = .ok t') (ctl : UInt8 → Option (Tty → Tty)) (input : Bytes) (hp : Plain 4 ctl input)
    (evs : List WEv) (n : Nat) :
    let s := writeStream input (some (getEof t'.attrs)) evs
    let tty := Tty.run 4 ctl (s.w.accepted.take n)
    tty.received <+: input ∧ (tty.sawEof = true → tty.received = input) ∧
    (s.pc = .done → ¬ childGone evs → s.w.accepted.length ≤ n → tty.sawEof = true) := by
  obtain ⟨h1, h2⟩ := C72_cooked rows cols h echo t
  have he : getEof t'.attrs = [4] := by
    by_cases hc : t.attrs.lflag.getLsbD ICANONbit = true ∧ t.attrs.cc.getD VEOF [] = [4]
    · obtain ⟨t2, e1, _, _, e4, _⟩ := h1 hc.1 hc.2
      rw [ht] at e1
      cases e1
      exact e4
    · rw [h2 hc] at ht; cases ht
  rw [he]
  exact C17_canonical_bytes 4 ctl input hp (by decide) evs n

/-- **C72, with C17.** With a terminal prepared by `raw()` or `cbreak()` exactly the input is written to it, and nothing
else: the end of the input is not marked, and the terminal stays open. -/
theorem C72_raw_input (rows cols : Int) (h : ValidSize rows cols) (t t' : Term)
    (ht : ptyRaw rows cols t = .ok t' ∨ ptyCbreak rows cols t = .ok t') (input : Bytes) (evs : List WEv) :
    (writeStream input (some (getEof t'.attrs)) evs).w.accepted <+: input ∧
    (writeStream input (some (getEof t'.attrs)) evs).w.closed = false := by
  have he : getEof t'.attrs = [] := by
    rcases ht with ht | ht
    · obtain ⟨t2, e1, _, _, _, e, _⟩ := C72_raw rows cols h t
      rw [ht] at e1; cases e1; exact e
    · obtain ⟨t2, e1, _, _, _, _, e, _⟩ := C72_cbreak rows cols h t
      rw [ht] at e1; cases e1; exact e
  rw [he]
  exact ⟨(C17_raw input evs).1, (C17_raw input evs).2.1⟩

/-! ### The end of the output of a terminal -/

/-- What happens at the reader of the terminal: the copy is run (`none`), or its transport reports something. -/
def ptySeen (l : List (Option PtyEv)) : List SEv := l.map fun
  | none => .go
  | some e => e.seen

/-- The data that arrived before the end of the connection. -/
def ptyData : List (Option PtyEv) → Bytes
  | [] => []
  | some (.data b) :: r => b ++ ptyData r
  | some (.lost _) :: _ => []
  | none :: r => ptyData r

/-- The connection ended, if at all, with end of file or EIO. -/
def NoOtherError (l : List (Option PtyEv)) : Prop := ∀ e, some (.lost (some (false, e))) ∉ l

theorem ptySeen_spec (l : List (Option PtyEv)) (h : NoOtherError l) (hl : ∃ x, some (.lost x) ∈ l) :
    written (ptySeen l) = ptyData l ∧ ended (ptySeen l) = true ∧ ∀ e, SEv.exc e ∉ ptySeen l := by
  have noexc : ∀ e, SEv.exc e ∉ ptySeen l := by
    intro e hm
    obtain ⟨x, hx, hxe⟩ := List.mem_map.1 hm
    cases x with
    | none => cases hxe
    | some p =>
      cases p with
      | data b => cases hxe
      | lost err =>
        rcases err with _ | ⟨eio, e'⟩
        · cases hxe
        · cases eio with
          | true => cases hxe
          | false => exact h e' hx
  refine ⟨?_, ?_, noexc⟩
  · clear hl noexc
    induction l with
    | nil => rfl
    | cons x r ih =>
      have ih := ih (fun e he => h e (List.mem_cons_of_mem _ he))
      rcases x with _ | ⟨b⟩ | ⟨_ | ⟨eio, e⟩⟩
      · exact ih
      · show b ++ written (ptySeen r) = b ++ ptyData r
        rw [ih]
      · rfl
      · cases eio with
        | true => rfl
        | false => exact absurd (List.mem_cons_self ..) (h e)
  · clear noexc
    induction l with
    | nil => obtain ⟨x, hx⟩ := hl; cases hx
    | cons x r ih =>
      have ih := ih (fun e he => h e (List.mem_cons_of_mem _ he))
      rcases x with _ | ⟨b⟩ | ⟨_ | ⟨eio, e⟩⟩
      · exact ih (by obtain ⟨x, hx⟩ := hl; exact ⟨x, by simpa using hx⟩)
      · exact ih (by obtain ⟨x, hx⟩ := hl; exact ⟨x, by simpa using hx⟩)
      · rfl
      · cases eio with
        | true => rfl
        | false => exact absurd (List.mem_cons_self ..) (h e)

/-- **C72: the end of the output.** On Linux a read from a terminal whose other side was closed fails with EIO. This ends the
output, like a proper end of file: the copy of the output completes, with all the data that had arrived. -/
theorem C72_output_end (dest : Bytes) (l : List (Option PtyEv)) (h : NoOtherError l) (hl : ∃ x, some (.lost x) ∈ l) :
    ∃ n, (copyBytearray dest (ptySeen (l ++ List.replicate n none))).st = .done ∧
      (copyBytearray dest (ptySeen (l ++ List.replicate n none))).dest = dest ++ ptyData l := by
  obtain ⟨h1, h2, h3⟩ := ptySeen_spec l h hl
  obtain ⟨n, hn⟩ := C14_complete dest (ptySeen l) h2 h3
  refine ⟨n, ?_⟩
  have : ptySeen (l ++ List.replicate n none) = ptySeen l ++ List.replicate n .go := by
    simp [ptySeen]
  rw [this, ← h1]
  exact hn

/-- C72: until then nothing is taken for the end: a copy that has completed has seen the end of the connection, and has got
all the data. -/
theorem C72_output_complete (dest : Bytes) (l : List (Option PtyEv)) (h : NoOtherError l)
    (hd : (copyBytearray dest (ptySeen l)).st = .done) :
    (∃ x, some (.lost x) ∈ l) ∧ (copyBytearray dest (ptySeen l)).dest = dest ++ ptyData l := by
  obtain ⟨_, c1, c2, hd'⟩ := copy_plain (fun (d x : Bytes) => d ++ x) dest (ptySeen l)
  have he := (hd' hd).2
  have hl : ∃ x, some (.lost x) ∈ l := by
    clear hd hd' h c1 c2
    induction l with
    | nil => cases he
    | cons x r ih =>
      rcases x with _ | ⟨b⟩ | ⟨err⟩
      · obtain ⟨x, hx⟩ := ih he; exact ⟨x, List.mem_cons_of_mem _ hx⟩
      · obtain ⟨x, hx⟩ := ih he; exact ⟨x, List.mem_cons_of_mem _ hx⟩
      · exact ⟨err, List.mem_cons_self ..⟩
  exact ⟨hl, by rw [← (ptySeen_spec l h hl).1]; exact (C14_bytearray_sink dest _).2 hd⟩

/-- C72: another error of the terminal is not taken for the end of the output: it is raised by the copy of the output. -/
theorem C72_output_error (dest : Bytes) (l more : List (Option PtyEv)) (hl : ∀ x, some (.lost x) ∉ l) (e : Exc) :
    (copyBytearray dest (ptySeen (l ++ some (.lost (some (false, e))) :: more))).st = .raised e := by
  have stay : ∀ (l : List (Option PtyEv)) (s : CopySt Bytes), s.st = .raised e →
      ((ptySeen l).foldl (copyStep (fun d x => d ++ x) plainFinal) s).st = .raised e := by
    intro l
    induction l with
    | nil => exact fun s h => h
    | cons x r ih =>
      intro s h
      refine ih (copyStep (fun d x => d ++ x) plainFinal s _) ?_
      rcases x with _ | ⟨b⟩ | ⟨_ | ⟨_ | _, e'⟩⟩ <;> simp [copyStep, PtyEv.seen, h]
  have run : ∀ (l : List (Option PtyEv)), (∀ x, some (.lost x) ∉ l) → ∀ (s : CopySt Bytes), s.st = .running →
      s.sr.eof = false → ((ptySeen l).foldl (copyStep (fun d x => d ++ x) plainFinal) s).st = .running := by
    intro l
    induction l with
    | nil => exact fun _ s h _ => h
    | cons x r ih =>
      intro hl s h he
      have hl' : ∀ x, some (.lost x) ∉ r := fun x hx => hl x (List.mem_cons_of_mem _ hx)
      rcases x with _ | ⟨b⟩ | ⟨err⟩
      · refine ih hl' (copyStep (fun d x => d ++ x) plainFinal s .go) ?_ ?_
        all_goals
          cases hb : s.sr.buffer with
          | nil => simp [copyStep, SR.read, h, he, hb]
          | cons a t => simp [copyStep, SR.read, h, he, hb, chunkSize]
      · exact ih hl' (copyStep (fun d x => d ++ x) plainFinal s (.feed b)) h (by simp [copyStep, SR.feed, he])
      · exact absurd (List.mem_cons_self ..) (hl err)
  unfold copyBytearray copyRun
  have : ptySeen (l ++ some (.lost (some (false, e))) :: more) = ptySeen l ++ .exc e :: ptySeen more := by
    simp [ptySeen, PtyEv.seen]
  rw [this, List.foldl_append, List.foldl_cons]
  refine stay more _ ?_
  have := run l hl { dest := dest } rfl rfl
  simp [copyStep, this, plainFinal]

/-- A terminal with echo, canonical mode and ^D as EOF character, as `openpty` makes it. -/
def freshTerm : Term :=
  { attrs := { iflag := 0x500#32, oflag := 0x5#32, cflag := 0xbf#32, lflag := 0x8a3b#32, ispeed := 15, ospeed := 15
               cc := [[3], [28], [127], [21], [4], [0], [1]] }, rows := 0, cols := 0 }

example : (ptyCooked 24 80 false freshTerm).toOption.map (fun t => (getTermEcho t.attrs, getEof t.attrs, t.rows, t.cols)) =
    some (false, [4], 24, 80) := by decide +kernel

example : (ptyRaw 0 0 freshTerm).toOption.map (fun t => (getTermEcho t.attrs, getEof t.attrs, t.rows, t.cols)) =
    some (false, [], 0, 0) := by decide +kernel

example : ptySeen [some (.data [104]), none, some (.data [105]), some (.lost (some (true, .osError)))] =
    [.feed [104], .go, .feed [105], .eof] := rfl

end Shellous.Props
