import Verif.Model.PtyFds

/-!
C81: the two descriptors of a terminal. Statements are about the descriptor table of the process (`table`), about the list
of descriptors that shellous has closed (`closed`), and about what the child was given (`given`).
-/
namespace Shellous.PtyFds

/-- Nobody else calls a descriptor the run's own. -/
def Foreign (table : Nat → Option Owner) : Prop := ∀ n o, table n = some o → ∃ k, o = .other k

/-- Whether the number is one of the terminal's. -/
def Holds (s : S) : Prop := ∃ n, s.table n = some .child ∨ s.table n = some .parent

/-- The invariant of every history. -/
structure Inv (p : Plat) (s : S) : Prop where
  child : ∀ n : Nat, s.table n = some .child ↔ s.childFd = n
  num : s.childFd = -1 ∨ s.childFd = s.childNum
  parent : ∀ n : Nat, s.table n = some .parent ↔ n = s.parentFd ∧ s.writer ≠ .lost
  late : s.phase = .streams ∨ s.phase = .spawned ∨ s.phase = .cleaned → s.writer ≠ .absent
  early : s.phase = .opened ∨ s.phase = .reading → s.writer = .absent
  nodup : s.closed.Nodup
  only : ∀ o ∈ s.closed, o = some .child ∨ o = some .parent
  cchild : some .child ∈ s.closed ↔ s.childFd = -1
  cparent : some .parent ∈ s.closed ↔ s.writer = .lost

theorem Inv.childClose {p : Plat} {s : S} (h : Inv p s) : Inv p s.childClose := by
  obtain ⟨h1, h2, h3, h4, h5, h6, h7, h8, h9⟩ := h
  unfold S.childClose
  split
  · next hp =>
    have hn : s.childFd = s.childNum := by omega
    have ht : s.table s.childFd.toNat = some .child := (h1 _).2 (by omega)
    constructor <;> simp only [S.osClose]
    · grind
    · grind
    · grind
    · exact h4
    · exact h5
    · rw [ht]; grind
    · rw [ht]; grind
    · rw [ht]; grind
    · rw [ht]; grind
  · exact ⟨h1, h2, h3, h4, h5, h6, h7, h8, h9⟩

theorem Inv.protoClose {p : Plat} {s : S} (h : Inv p s) : Inv p s.protoClose := by
  unfold S.protoClose
  split
  · obtain ⟨h1, h2, h3, h4, h5, h6, h7, h8, h9⟩ := h.childClose
    exact ⟨h1, h2, h3, h4, h5, h6, h7, h8, h9⟩
  · exact h

theorem Inv.writerLost {p : Plat} {s : S} (h : Inv p s) (hw : s.writer ≠ .lost)
    (hq : ¬ (s.phase = .opened ∨ s.phase = .reading)) : Inv p s.writerLost := by
  obtain ⟨h1, h2, h3, h4, h5, h6, h7, h8, h9⟩ := h
  have ht : s.table s.parentFd = some .parent := (h3 _).2 ⟨rfl, hw⟩
  constructor <;> simp only [S.writerLost, S.osClose]
  · grind
  · grind
  · grind
  · grind
  · grind
  · rw [ht]; grind
  · rw [ht]; grind
  · rw [ht]; grind
  · rw [ht]; grind

theorem Inv.readerLost {p : Plat} {s : S} (h : Inv p s) : Inv p s.readerLost := by
  unfold S.readerLost
  split
  · obtain ⟨h1, h2, h3, h4, h5, h6, h7, h8, h9⟩ := h
    exact ⟨h1, h2, h3, h4, h5, h6, h7, h8, h9⟩
  · exact h

theorem Inv.writerClose {p : Plat} {s : S} (h : Inv p s) (hq : s.phase = .cleaned) : Inv p s.writerClose := by
  unfold S.writerClose
  apply Inv.readerLost
  split
  · split
    · exact h.writerLost (by grind) (by grind)
    · obtain ⟨h1, h2, h3, h4, h5, h6, h7, h8, h9⟩ := h
      constructor <;> simp only <;> first | assumption | grind
  · exact h

theorem childClose_phase (s : S) : s.childClose.phase = s.phase := by
  unfold S.childClose; split <;> rfl

theorem childClose_writer (s : S) : s.childClose.writer = s.writer := by
  unfold S.childClose; split <;> rfl

theorem Inv.step {p : Plat} {s : S} (h : Inv p s) (e : Ev) : Inv p (step p s e) := by
  cases e with
  | foreignOpen n k =>
    simp only [PtyFds.step]
    split
    · obtain ⟨h1, h2, h3, h4, h5, h6, h7, h8, h9⟩ := h
      constructor <;> simp only <;> first | assumption | grind
    · exact h
  | foreignClose n =>
    simp only [PtyFds.step]
    split
    · obtain ⟨h1, h2, h3, h4, h5, h6, h7, h8, h9⟩ := h
      constructor <;> simp only <;> first | assumption | grind
    · exact h
  | connectRead ok =>
    simp only [PtyFds.step]
    repeat' split
    all_goals first | exact h | skip
    all_goals
      obtain ⟨h1, h2, h3, h4, h5, h6, h7, h8, h9⟩ := h
      constructor <;> simp only <;> first | assumption | grind
  | connectWrite ok =>
    simp only [PtyFds.step]
    repeat' split
    · obtain ⟨h1, h2, h3, h4, h5, h6, h7, h8, h9⟩ := h
      constructor <;> simp only <;> first | assumption | grind
    · next hr _ =>
      have hw : s.writer ≠ .lost := by rw [h.early (.inr hr)]; decide
      have h' : Inv p { s with phase := .failed } := by
        obtain ⟨h1, h2, h3, h4, h5, h6, h7, h8, h9⟩ := h
        constructor <;> simp only <;> first | assumption | grind
      have := h'.writerLost hw (by simp)
      exact this
    · exact h
  | spawn ok =>
    simp only [PtyFds.step]
    repeat' split
    all_goals first | exact h | skip
    all_goals
      obtain ⟨h1, h2, h3, h4, h5, h6, h7, h8, h9⟩ := h
      constructor <;> simp only <;> first | assumption | grind
  | cleanup =>
    have hc : Inv p (if p.bsd then s else s.childClose) := by
      split
      · exact h
      · exact h.childClose
    have hw : (if p.bsd then s else s.childClose).writer = s.writer := by
      split
      · rfl
      · exact childClose_writer s
    simp only [PtyFds.step]
    split
    · next hs =>
      have hl := h.late (.inr (.inl hs))
      obtain ⟨h1, h2, h3, h4, h5, h6, h7, h8, h9⟩ := hc
      constructor <;> simp only <;> first | assumption | grind
    · split
      · exact hc
      · exact h
  | data =>
    simp only [PtyFds.step]
    repeat' split
    all_goals first | exact h | exact h.protoClose
  | hangup =>
    simp only [PtyFds.step]
    split
    · exact h.readerLost
    · exact h
  | timer =>
    simp only [PtyFds.step]
    split
    · obtain ⟨h1, h2, h3, h4, h5, h6, h7, h8, h9⟩ := h.protoClose
      exact ⟨h1, h2, h3, h4, h5, h6, h7, h8, h9⟩
    · exact h
  | write n =>
    simp only [PtyFds.step]
    split
    · obtain ⟨h1, h2, h3, h4, h5, h6, h7, h8, h9⟩ := h
      exact ⟨h1, h2, h3, h4, h5, h6, h7, h8, h9⟩
    · exact h
  | flush =>
    simp only [PtyFds.step]
    repeat' split
    · exact h.writerLost (by grind) (by have := h.early; grind)
    · obtain ⟨h1, h2, h3, h4, h5, h6, h7, h8, h9⟩ := h
      exact ⟨h1, h2, h3, h4, h5, h6, h7, h8, h9⟩
    · exact h
  | writeError =>
    simp only [PtyFds.step]
    split
    · exact h.writerLost (by grind) (by have := h.early; grind)
    · exact h
  | userClose =>
    simp only [PtyFds.step]
    split
    · exact h.writerClose (by assumption)
    · exact h
  | close =>
    simp only [PtyFds.step]
    split
    · next hq =>
      unfold S.fdsClose
      have := h.late (.inr (.inr hq))
      simp only [childClose_writer]
      rw [if_pos this]
      exact h.childClose.writerClose (by rw [childClose_phase]; exact hq)
    · exact h

theorem Inv.run {p : Plat} {s : S} (h : Inv p s) (es : List Ev) : Inv p (run p s es) := by
  induction es generalizing s with
  | nil => exact h
  | cons e es ih => exact ih (h.step e)

theorem start_inv (p : Plat) {table : Nat → Option Owner} (ht : Foreign table) {c q : Nat} (hcq : c ≠ q) :
    Inv p (start table c q) := by
  constructor <;> simp only [start]
  · intro n
    have := ht n .child
    grind
  · grind
  · intro n
    have := ht n .parent
    grind
  all_goals simp

/-- **C81** nobody else's descriptor is ever closed, and each of the two is closed at most once: whatever the order of
data, timer, hangups, closes by the user and by the run, and whatever numbers the rest of the process opens and closes. -/
theorem C81_only_ours (p : Plat) {table : Nat → Option Owner} (ht : Foreign table) {c q : Nat} (hcq : c ≠ q)
    (es : List Ev) :
    (run p (start table c q) es).closed.Nodup ∧
    ∀ o ∈ (run p (start table c q) es).closed, o = some .child ∨ o = some .parent :=
  let h := (start_inv p ht hcq).run es
  ⟨h.nodup, h.only⟩

/-- Once the run has closed its terminal, the child's side is closed and stays so, and the other side is being closed. -/
structure Done (s : S) : Prop where
  cleaned : s.phase = .cleaned
  child : s.childFd = -1
  writer : s.writer = .closing ∨ s.writer = .lost
  reader : s.reader ≠ .active

theorem childClose_childFd {p : Plat} {s : S} (h : Inv p s) : s.childClose.childFd = -1 := by
  have := h.num
  unfold S.childClose
  split
  · rfl
  · omega

theorem writerClose_done {p : Plat} {s : S} (h : Inv p s) (hq : s.phase = .cleaned) :
    s.writerClose.phase = .cleaned ∧ (s.writerClose.writer = .closing ∨ s.writerClose.writer = .lost) ∧
    s.writerClose.reader ≠ .active ∧ s.writerClose.childFd = s.childFd ∧
    (s.buf = 0 ∧ s.writer ≠ .closing → s.writerClose.writer = .lost) := by
  have hw := h.late (.inr (.inr hq))
  unfold S.writerClose S.readerLost S.writerLost S.osClose
  rcases hs : s.writer <;> simp_all <;> grind

theorem close_done {p : Plat} {s : S} (h : Inv p s) (hq : s.phase = .cleaned) :
    Done (step p s .close) ∧ (s.buf = 0 ∧ s.writer ≠ .closing → (step p s .close).writer = .lost) := by
  have hw := h.late (.inr (.inr hq))
  simp only [step, if_pos hq, S.fdsClose, childClose_writer, if_pos hw]
  have hb : s.childClose.buf = s.buf := by unfold S.childClose; split <;> rfl
  obtain ⟨a, b, c, d, e⟩ := writerClose_done h.childClose (by rw [childClose_phase]; exact hq)
  rw [hb, childClose_writer] at e
  exact ⟨⟨a, d.trans (childClose_childFd h), b, c⟩, e⟩

theorem Done.step {p : Plat} {s : S} (h : Inv p s) (hd : Done s) (e : Ev) : Done (step p s e) := by
  obtain ⟨a, b, c, d⟩ := hd
  have hc : s.childClose = s := by unfold S.childClose; rw [if_neg (by omega)]
  have hp : s.protoClose.phase = s.phase ∧ s.protoClose.childFd = s.childFd ∧ s.protoClose.writer = s.writer ∧
      s.protoClose.reader = s.reader := by
    unfold S.protoClose; rw [hc]; split <;> simp
  obtain ⟨p1, p2, p3, p4⟩ := hp
  cases e <;> simp only [PtyFds.step]
  case close =>
    rw [if_pos a]
    have := (close_done h a).1
    simpa only [PtyFds.step, if_pos a] using this
  case userClose =>
    rw [if_pos a]
    obtain ⟨x, y, z, w, _⟩ := writerClose_done h a
    exact ⟨x, w.trans b, y, z⟩
  all_goals
    repeat' split
    all_goals first
      | exact ⟨a, b, c, d⟩
      | exact ⟨p1.trans a, p2.trans b, by rw [p3]; exact c, by rw [p4]; exact d⟩
      | (constructor <;> (try simp only [S.writerLost, S.osClose, S.readerLost]) <;> grind)

theorem Done.run {p : Plat} {s : S} (h : Inv p s) (hd : Done s) (es : List Ev) : Done (run p s es) := by
  induction es generalizing s with
  | nil => exact hd
  | cons e es ih => exact ih (h.step e) (hd.step h e)

theorem writerClose_lost {s : S} (hl : s.writer = .lost) : s.writerClose.writer = .lost := by
  unfold S.writerClose S.readerLost
  rw [hl]
  simp only [reduceCtorEq, if_false]
  split <;> exact hl

theorem lost_step {p : Plat} {s : S} (hq : s.phase = .cleaned) (hl : s.writer = .lost) (e : Ev) : (step p s e).writer = .lost := by
  have hp : s.protoClose.writer = s.writer := by
    unfold S.protoClose
    split
    · exact childClose_writer s
    · rfl
  have hc := childClose_writer s
  have hw := writerClose_lost hl
  have hw' : s.childClose.writerClose.writer = .lost := writerClose_lost (by rw [hc, hl])
  cases e <;> simp only [PtyFds.step, S.fdsClose, S.readerLost] <;> (repeat' split) <;>
    first
      | assumption
      | exact hc.trans hl
      | exact hp.trans hl
      | rfl
      | simp_all

theorem lost_run {p : Plat} {s : S} (h : Inv p s) (hd : Done s) (hl : s.writer = .lost) (es : List Ev) :
    (run p s es).writer = .lost := by
  induction es generalizing s with
  | nil => exact hl
  | cons e es ih => exact ih (h.step e) (hd.step h e) (lost_step hd.cleaned hl e)

theorem drained {p : Plat} {s : S} (h : Inv p s) (hd : Done s) (es : List Ev) (he : .flush ∈ es ∨ .writeError ∈ es) :
    (run p s es).writer = .lost := by
  induction es generalizing s with
  | nil => simp at he
  | cons e es ih =>
    by_cases hx : e = .flush ∨ e = .writeError
    · refine lost_run (h.step e) (hd.step h e) ?_ es
      have := hd.writer
      rcases hx with rfl | rfl <;> simp only [PtyFds.step, S.writerLost, S.osClose] <;> grind
    · exact ih (h.step e) (hd.step h e) (by simp at he; grind)

/-- **C81** after the run has closed its terminal no descriptor of it is left: the child's side is closed at once, the
other side when the input that is still buffered has been written, or cannot be written. -/
theorem C81_released (p : Plat) {table : Nat → Option Owner} (ht : Foreign table) {c q : Nat} (hcq : c ≠ q)
    (es es' : List Ev) (hq : (run p (start table c q) es).phase = .cleaned)
    (he : (run p (start table c q) es).buf = 0 ∧ (run p (start table c q) es).writer ≠ .closing ∨
      .flush ∈ es' ∨ .writeError ∈ es') :
    ¬ Holds (run p (start table c q) (es ++ .close :: es')) := by
  have h := (start_inv p ht hcq).run es
  have hr : run p (start table c q) (es ++ .close :: es') = run p (step p (run p (start table c q) es) .close) es' := by
    simp [run]
  rw [hr]
  obtain ⟨hd, hl⟩ := close_done h hq
  have hi := h.step .close
  have hw : (run p (step p (run p (start table c q) es) .close) es').writer = .lost := by
    rcases he with he | he
    · exact lost_run hi hd (hl he) es'
    · exact drained hi hd es' he
  rintro ⟨n, hn | hn⟩
  · have := ((hi.run es').child n).1 hn
    have := (hd.run hi es').child
    omega
  · exact (((hi.run es').parent n).1 hn).2 hw

/-- Nothing is buffered if there is no writer. -/
def Idle (s : S) : Prop := s.writer = .active ∨ s.writer = .closing ∨ s.buf = 0

theorem Idle.step (p : Plat) {s : S} (h : Idle s) (e : Ev) : Idle (step p s e) := by
  unfold Idle at *
  cases e <;>
    simp only [PtyFds.step, S.childClose, S.osClose, S.protoClose, S.writerLost, S.readerLost, S.writerClose, S.fdsClose] <;> grind

theorem Idle.run (p : Plat) {s : S} (h : Idle s) (es : List Ev) : Idle (run p s es) := by
  induction es generalizing s with
  | nil => exact h
  | cons e es ih => exact ih (h.step p e)

/-- All that was written has been taken by the terminal. -/
def Flushed (s : S) : Prop := s.buf = 0 ∧ s.writer ≠ .closing

theorem Flushed.step (p : Plat) {s : S} (h : Flushed s) (e : Ev) (he : ∀ n, e ≠ .write n) : Flushed (step p s e) := by
  unfold Flushed at *
  cases e <;>
    simp only [PtyFds.step, S.childClose, S.osClose, S.protoClose, S.writerLost, S.readerLost, S.writerClose, S.fdsClose] <;> grind

theorem Flushed.run (p : Plat) {s : S} (h : Flushed s) (es : List Ev) (he : ∀ n, .write n ∉ es) : Flushed (run p s es) := by
  induction es generalizing s with
  | nil => exact h
  | cons e es ih =>
    exact ih (h.step p e fun n hn => he n (by simp [hn])) fun n hn => he n (by simp [hn])

/-- **C81** in particular at once, if the input was written before. -/
theorem C81_flushed (p : Plat) {table : Nat → Option Owner} (ht : Foreign table) {c q : Nat} (hcq : c ≠ q) (es es' es'' : List Ev)
    (hw : ∀ n, .write n ∉ es') (hq : (run p (start table c q) (es ++ .flush :: es')).phase = .cleaned) :
    ¬ Holds (run p (start table c q) (es ++ .flush :: es' ++ .close :: es'')) := by
  have hf : Flushed (step p (run p (start table c q) es) .flush) := by
    have hi : Idle (run p (start table c q) es) := Idle.run p (by simp [Idle, start]) es
    unfold Idle at hi
    unfold Flushed
    simp only [PtyFds.step, S.writerLost, S.osClose]
    grind
  have hr : run p (start table c q) (es ++ .flush :: es') = run p (step p (run p (start table c q) es) .flush) es' := by simp [run]
  have := Flushed.run p hf es' hw
  rw [← hr] at this
  exact C81_released p ht hcq _ es'' hq (.inl this)

/-- **C81** in any case the child's side is closed, and the reader has stopped watching. -/
theorem C81_child_released (p : Plat) {table : Nat → Option Owner} (ht : Foreign table) {c q : Nat} (hcq : c ≠ q)
    (es es' : List Ev) (hq : (run p (start table c q) es).phase = .cleaned) :
    (∀ n, (run p (start table c q) (es ++ .close :: es')).table n ≠ some .child) ∧
    (run p (start table c q) (es ++ .close :: es')).reader ≠ .active := by
  have h := (start_inv p ht hcq).run es
  have hr : run p (start table c q) (es ++ .close :: es') = run p (step p (run p (start table c q) es) .close) es' := by
    simp [run]
  rw [hr]
  obtain ⟨hd, -⟩ := close_done h hq
  have hi := h.step .close
  refine ⟨fun n hn => ?_, (hd.run hi es').reader⟩
  have := ((hi.run es').child n).1 hn
  have := (hd.run hi es').child
  omega

/-- What keeps the child's side open until the launch. -/
structure Early (p : Plat) (s : S) : Prop where
  num : s.childFd = s.childNum ∨ s.phase = .spawned ∨ s.phase = .cleaned ∨ s.phase = .failed
  timer : p ≠ .freebsd → s.timer = false
  given : ∀ o, s.given = some o → o = some .child
  linux : p = .linux → s.phase = .cleaned → s.childFd = -1

theorem step_phase_mono {p : Plat} {s : S} {e : Ev} (h : s.phase = .spawned ∨ s.phase = .cleaned ∨ s.phase = .failed) :
    (step p s e).phase = .spawned ∨ (step p s e).phase = .cleaned ∨ (step p s e).phase = .failed := by
  cases e <;> simp only [step, S.fdsClose, S.writerClose, S.readerLost, S.writerLost, S.protoClose, S.childClose,
      S.osClose] <;> grind

theorem Early.step {p : Plat} {s : S} (hi : Inv p s) (h : Early p s) (e : Ev) (hf : p = .freebsd → e ≠ .timer) :
    Early p (step p s e) := by
  have htc := hi.child s.childNum
  have hnum := hi.num
  obtain ⟨h1, h2, h3, h4⟩ := h
  cases p <;> cases e <;>
    simp only [PtyFds.step, S.fdsClose, S.writerClose, S.readerLost, S.writerLost, S.protoClose, S.childClose,
      S.osClose, Plat.bsd] <;>
    constructor <;> grind

theorem Early.run {p : Plat} {s : S} (hi : Inv p s) (h : Early p s) (es : List Ev)
    (hf : p = .freebsd → .timer ∉ es) : Early p (run p s es) := by
  induction es generalizing s with
  | nil => exact h
  | cons e es ih =>
    exact ih (hi.step e) (h.step hi e (fun x y => hf x (by simp [y]))) (fun x y => hf x (by simp [y]))

theorem start_early (p : Plat) (table : Nat → Option Owner) (c q : Nat) : Early p (start table c q) := by
  constructor <;> simp [start]

/-- **C81** the child is given the terminal that was opened for it, and not whatever has got its number since: on Linux and
macOS always, on FreeBSD if the two seconds of the timer have not passed. -/
theorem C81_given (p : Plat) {table : Nat → Option Owner} (ht : Foreign table) {c q : Nat} (hcq : c ≠ q)
    (es : List Ev) (hf : p = .freebsd → .timer ∉ es) {o : Option Owner}
    (hg : (run p (start table c q) es).given = some o) : o = some .child :=
  ((start_early p table c q).run (start_inv p ht hcq) es hf).given o hg

/-- **C81** on Linux the process keeps no descriptor of the child's side after the launch: so the reader sees the end when
the child exits. -/
theorem C81_linux {table : Nat → Option Owner} (ht : Foreign table) {c q : Nat} (hcq : c ≠ q) (es : List Ev)
    (hq : (run .linux (start table c q) es).phase = .cleaned) (n : Nat) :
    (run .linux (start table c q) es).table n ≠ some .child := by
  have hi := (start_inv .linux ht hcq).run es
  have := ((start_early .linux table c q).run (start_inv .linux ht hcq) es (by simp)).linux rfl hq
  intro hn
  have := (hi.child n).1 hn
  omega

/-- Whatever step of the launch fails (the event is one that is due, with the outcome "raises"). -/
inductive Fails : Phase → Ev → Prop
  | connectRead : Fails .opened (.connectRead false)
  | connectWrite : Fails .reading (.connectWrite false)
  | spawn : Fails .streams (.spawn false)

/-- **C81** on Linux also a launch that fails leaves no descriptor of the child's side, whichever of its steps raises. -/
theorem C81_failed {table : Nat → Option Owner} (ht : Foreign table) {c q : Nat} (hcq : c ≠ q) (es : List Ev) (e : Ev)
    (he : Fails (run .linux (start table c q) es).phase e) (n : Nat) :
    (run .linux (start table c q) (es ++ [e, .cleanup])).table n ≠ some .child := by
  have hi := (start_inv .linux ht hcq).run es
  have hrun : run .linux (start table c q) (es ++ [e, .cleanup]) = step .linux (step .linux (run .linux (start table c q) es) e) .cleanup := by
    simp [run, List.foldl_append]
  rw [hrun]
  generalize run .linux (start table c q) es = s at hi he
  have hf : (step .linux s e).phase = .failed := by
    generalize hp : s.phase = ph at he
    cases he <;> simp [step, hp]
  have h1 := hi.step e
  have h2 : step .linux (step .linux s e) .cleanup = (step .linux s e).childClose := by
    generalize step .linux s e = s1 at hf
    simp [step, hf, Plat.bsd]
  rw [h2]
  intro hn
  have := (h1.childClose.child n).1 hn
  have := childClose_childFd h1
  omega

/-- **C81** is false for the parent's side of a launch that fails: it stays open if the transport for reading cannot be connected. -/
theorem C81_failed_parent_false :
    ∃ es e, Fails (run .linux (start (fun _ => none) 5 6) es).phase e ∧
      (run .linux (start (fun _ => none) 5 6) (es ++ [e, .cleanup])).table 6 = some .parent :=
  ⟨[], .connectRead false, .connectRead, by decide⟩

example : Fails (run .linux (start (fun _ => none) 5 6) [.connectRead true, .foreignOpen 7 1, .connectWrite true]).phase (.spawn false) ∧
    (run .linux (start (fun _ => none) 5 6) [.connectRead true, .foreignOpen 7 1, .connectWrite true]).table 5 = some .child :=
  ⟨.spawn, by decide⟩

/-- The protocol's reference and the state of the child's side. -/
def Ref (p : Plat) (s : S) : Prop :=
  s.reader = .active → (p.bsd → s.protoRef ∨ s.childFd = -1)

theorem Ref.step {p : Plat} {s : S} (hi : Inv p s) (h : Ref p s) (e : Ev) : Ref p (step p s e) := by
  have hnum := hi.num
  unfold Ref at *
  cases e <;>
    simp only [PtyFds.step, S.fdsClose, S.writerClose, S.readerLost, S.writerLost, S.protoClose, S.childClose,
      S.osClose] <;> grind

theorem Ref.run {p : Plat} {s : S} (hi : Inv p s) (h : Ref p s) (es : List Ev) : Ref p (run p s es) := by
  induction es generalizing s with
  | nil => exact h
  | cons e es ih => exact ih (hi.step e) (h.step hi e)

/-- **C81** on BSD the process gives up the child's side when the first output arrives. -/
theorem C81_bsd {p : Plat} (hp : p.bsd) {table : Nat → Option Owner} (ht : Foreign table) {c q : Nat} (hcq : c ≠ q)
    (es : List Ev) (hq : (run p (start table c q) es).phase = .cleaned)
    (hr : (run p (start table c q) es).reader = .active) (n : Nat) :
    (run p (start table c q) (es ++ [.data])).table n ≠ some .child := by
  have hi := (start_inv p ht hcq).run es
  have href := Ref.run (start_inv p ht hcq) (fun h => by simp [start] at h) es hr hp
  have hi' := hi.step .data
  have hrun : run p (start table c q) (es ++ [.data]) = step p (run p (start table c q) es) .data := by simp [run]
  rw [hrun]
  intro hn
  have hc := (hi'.child n).1 hn
  have hx : (step p (run p (start table c q) es) .data).childFd = -1 := by
    simp only [step]
    rw [if_pos ⟨hr, Or.inr hq⟩, if_pos hp]
    unfold S.protoClose
    split
    · exact childClose_childFd hi
    · next hf => rcases href with h | h
                 · exact absurd h hf
                 · exact h
  omega

/-- The timer of FreeBSD. -/
def Timed (p : Plat) (s : S) : Prop :=
  (s.reader = .active → p = .freebsd → s.timer = true ∧ s.protoRef = true ∨ s.childFd = -1) ∧ (s.reader ≠ .active → s.timer = false)

theorem Timed.step {p : Plat} {s : S} (hi : Inv p s) (h : Timed p s) (e : Ev) : Timed p (step p s e) := by
  have hnum := hi.num
  have hearly := hi.early
  unfold Timed at *
  cases e <;>
    simp only [PtyFds.step, S.fdsClose, S.writerClose, S.readerLost, S.writerLost, S.protoClose, S.childClose,
      S.osClose, Plat.bsd] <;> grind

theorem Timed.run {p : Plat} {s : S} (hi : Inv p s) (h : Timed p s) (es : List Ev) : Timed p (run p s es) := by
  induction es generalizing s with
  | nil => exact h
  | cons e es ih => exact ih (hi.step e) (h.step hi e)

/-- **C81** on FreeBSD the process gives up the child's side when the timer fires, if no output has arrived by then: a
child that exits without output does not leave the reader waiting. -/
theorem C81_freebsd {table : Nat → Option Owner} (ht : Foreign table) {c q : Nat} (hcq : c ≠ q) (es : List Ev)
    (hr : (run .freebsd (start table c q) es).reader = .active) (n : Nat) :
    (run .freebsd (start table c q) (es ++ [.timer])).table n ≠ some .child := by
  have hi := (start_inv .freebsd ht hcq).run es
  have htm := (Timed.run (p := .freebsd) (start_inv .freebsd ht hcq) (by simp [Timed, start]) es).1 hr rfl
  have hi' := hi.step .timer
  have hrun : run .freebsd (start table c q) (es ++ [.timer]) =
      step .freebsd (run .freebsd (start table c q) es) .timer := by simp [run]
  rw [hrun]
  intro hn
  have hc := (hi'.child n).1 hn
  have hx : (step .freebsd (run .freebsd (start table c q) es) .timer).childFd = -1 := by
    have := childClose_childFd hi
    simp only [step, S.protoClose]
    grind
  omega

/-- **C81** when the reader has ended, no timer is left in the event loop. -/
theorem C81_timer_stopped (p : Plat) {table : Nat → Option Owner} (ht : Foreign table) {c q : Nat} (hcq : c ≠ q)
    (es : List Ev) (hr : (run p (start table c q) es).reader ≠ .active) : (run p (start table c q) es).timer = false :=
  (Timed.run (start_inv p ht hcq) (by simp [Timed, start]) es).2 hr

/-- What the reader watches. -/
def Watch (s : S) : Prop := s.reader = .active → s.writer ≠ .lost ∧ s.writer ≠ .closing

theorem Watch.step {p : Plat} {s : S} (hi : Inv p s) (h : Watch s) (e : Ev) (hn : e ≠ .writeError)
    (hc : e ≠ .connectWrite false) : Watch (step p s e) := by
  have := hi.early
  unfold Watch at *
  cases e <;>
    simp only [PtyFds.step, S.fdsClose, S.writerClose, S.readerLost, S.writerLost, S.protoClose, S.childClose,
      S.osClose] <;> grind

theorem Watch.run {p : Plat} {s : S} (hi : Inv p s) (h : Watch s) (es : List Ev) (hn : .writeError ∉ es)
    (hc : .connectWrite false ∉ es) : Watch (run p s es) := by
  induction es generalizing s with
  | nil => exact h
  | cons e es ih =>
    simp only [List.mem_cons, not_or] at hn hc
    exact ih (hi.step e) (h.step hi e (fun x => hn.1 x.symm) (fun x => hc.1 x.symm)) hn.2 hc.2

/-- **C81** as long as no write fails, the reader only ever watches the terminal. -/
theorem C81_reader_partial (p : Plat) {table : Nat → Option Owner} (ht : Foreign table) {c q : Nat} (hcq : c ≠ q)
    (es : List Ev) (hn : .writeError ∉ es) (hc : .connectWrite false ∉ es)
    (hr : (run p (start table c q) es).reader = .active) :
    (run p (start table c q) es).table (run p (start table c q) es).parentFd = some .parent := by
  have hi := start_inv p ht hcq
  have := Watch.run hi (fun h => by simp [start] at h) es hn hc hr
  exact ((hi.run es).parent _).2 ⟨rfl, this.1⟩

/-- Nobody watches the terminal, and no timer will fire. -/
def Quiet (s : S) : Prop := s.phase ≠ .opened ∧ s.timer = false

theorem Quiet.step (p : Plat) {s : S} (h : Quiet s) (e : Ev) : Quiet (step p s e) := by
  obtain ⟨h1, h2⟩ := h
  unfold Quiet PtyFds.step S.fdsClose S.writerClose S.readerLost S.protoClose S.childClose S.writerLost S.osClose
  cases e <;> grind

theorem unread_step (p : Plat) {s : S} (h : s.phase ≠ .opened ∧ s.reader ≠ .active) (e : Ev) :
    (step p s e).phase ≠ .opened ∧ (step p s e).reader ≠ .active := by
  obtain ⟨h1, h2⟩ := h
  unfold PtyFds.step S.fdsClose S.writerClose S.readerLost S.protoClose S.childClose S.writerLost S.osClose
  cases e <;> grind

/-- **C81** once the terminal has hung up (the reader got end-of-file or EIO), its number is never watched again, and the timer is off. -/
theorem C81_hangup (p : Plat) {table : Nat → Option Owner} {c q : Nat} (es es' : List Ev)
    (hq : (run p (start table c q) es).phase = .spawned ∨ (run p (start table c q) es).phase = .cleaned)
    (hr : (run p (start table c q) es).reader = .active) :
    (run p (start table c q) (es ++ .hangup :: es')).reader ≠ .active ∧ (run p (start table c q) (es ++ .hangup :: es')).timer = false := by
  have hrun : run p (start table c q) (es ++ .hangup :: es') = run p (step p (run p (start table c q) es) .hangup) es' := by
    simp [run, List.foldl_append]
  rw [hrun]
  generalize run p (start table c q) es = s at hq hr
  have h1 : (step p s .hangup).phase ≠ .opened ∧ (step p s .hangup).reader ≠ .active ∧ (step p s .hangup).timer = false := by
    simp only [step, if_pos hq, S.readerLost, if_pos hr]
    exact ⟨by rcases hq with h | h <;> simp [h], by simp, by simp⟩
  generalize step p s .hangup = s1 at h1
  obtain ⟨a, b, c⟩ := h1
  have : ∀ (es : List Ev) (s : S), Quiet s → s.reader ≠ .active → (run p s es).reader ≠ .active ∧ (run p s es).timer = false := by
    intro es
    induction es with
    | nil => intro s h1 h2; exact ⟨h2, h1.2⟩
    | cons e es ih => intro s h1 h2; exact ih _ (h1.step p e) (unread_step p ⟨h1.1, h2⟩ e).2
  exact this es' s1 ⟨a, c⟩ b

/-- **C81** the timer fires at most once. -/
theorem C81_timer_once (p : Plat) {table : Nat → Option Owner} {c q : Nat} (es es' : List Ev)
    (hq : (run p (start table c q) es).phase ≠ .opened) :
    (run p (start table c q) (es ++ .timer :: es')).timer = false := by
  have hrun : run p (start table c q) (es ++ .timer :: es') = run p (step p (run p (start table c q) es) .timer) es' := by
    simp [run, List.foldl_append]
  rw [hrun]
  generalize run p (start table c q) es = s at hq
  have h1 : Quiet (step p s .timer) := by
    refine ⟨?_, ?_⟩
    · simp only [step]
      split
      · simp only [S.protoClose]
        split
        · simp only [childClose_phase]; exact hq
        · exact hq
      · exact hq
    · simp only [step]
      split
      · rfl
      · next h => simpa using h
  generalize step p s .timer = s1 at h1
  have : ∀ (es : List Ev) (s : S), Quiet s → (run p s es).timer = false := by
    intro es
    induction es with
    | nil => intro s h1; exact h1.2
    | cons e es ih => intro s h1; exact ih _ (h1.step p e)
  exact this es' s1 h1

/-- A launch that goes well. -/
def launchEvs : List Ev := [.connectRead true, .connectWrite true, .spawn true, .cleanup]

/-- No other descriptors. -/
def noTable : Nat → Option Owner := fun _ => none

theorem noTable_foreign : Foreign noTable := by intro n o h; simp [noTable] at h

/-- **C81** without that condition it is false: the child exits with part of its input unread, the write fails, the file is
closed, and the reader, which may have output of the child still to read, watches a number that belongs to somebody else. -/
theorem C81_reader_false :
    ∃ es : List Ev, (run .linux (start noTable 5 6) es).reader = .active ∧
      (run .linux (start noTable 5 6) es).table 6 = some (.other 0) :=
  ⟨launchEvs ++ [.write 10, .writeError, .foreignOpen 6 0], by decide, by decide⟩

/-- **C81** without the condition on the timer `C81_given` is false: if a launch on FreeBSD takes longer than two seconds,
the child gets whatever has been opened under the number of its terminal. -/
theorem C81_given_false :
    ∃ es : List Ev, (run .freebsd (start noTable 5 6) es).given = some (some (.other 0)) :=
  ⟨[.connectRead true, .connectWrite true, .timer, .foreignOpen 5 0, .spawn true], by decide⟩

/-- **C81** while input is buffered the parent's side stays open, although the run is over. -/
theorem C81_pending_false :
    ∃ es : List Ev, (run .linux (start noTable 5 6) (es ++ [.close])).phase = .cleaned ∧
      Holds (run .linux (start noTable 5 6) (es ++ [.close])) :=
  ⟨launchEvs ++ [.write 10], by decide, 6, by decide⟩

example : (run .linux (start noTable 5 6) (launchEvs ++ [.write 3] ++ .flush :: [.data, .hangup])).phase = .cleaned := by decide

/-- Non-trivial histories that meet the hypotheses. -/
example : (run .linux (start noTable 5 6) (launchEvs ++ [.foreignOpen 5 1, .data, .write 3])).phase = .cleaned ∧
    (run .linux (start noTable 5 6) (launchEvs ++ [.foreignOpen 5 1, .data, .write 3] ++ .close :: [.flush])).closed =
      [some .parent, some .child] ∧
    (run .linux (start noTable 5 6) (launchEvs ++ [.foreignOpen 5 1, .data, .write 3] ++ .close :: [.flush])).table 5 =
      some (.other 1) := by decide

example : (run .freebsd (start noTable 5 6) (launchEvs ++ [.data, .foreignOpen 5 1, .timer, .userClose, .close])).closed =
      [some .parent, some .child] ∧
    (run .freebsd (start noTable 5 6) launchEvs).reader = .active ∧
    (run .freebsd (start noTable 5 6) launchEvs).table 5 = some .child ∧
    (run .macos (start noTable 5 6) launchEvs).given = some (some .child) := by decide

example : ¬ Holds (run .linux (start noTable 5 6) ((launchEvs ++ [.write 3]) ++ .close :: [.writeError])) :=
  C81_released .linux noTable_foreign (by decide) _ _ (by decide) (.inr (.inr (by decide)))

example : (run .freebsd (start noTable 5 6) launchEvs).timer = true ∧
    (run .freebsd (start noTable 5 6) (launchEvs ++ [.timer])).closed = [some .child] ∧
    (run .freebsd (start noTable 5 6) (launchEvs ++ [.hangup])).reader = .lost := by decide

example : (run .freebsd (start noTable 5 6) launchEvs).phase = .cleaned ∧ (run .freebsd (start noTable 5 6) launchEvs).timer = true ∧
    (run .freebsd (start noTable 5 6) (launchEvs ++ .hangup :: [.foreignOpen 7 1, .timer])).table 5 = some .child := by decide

end Shellous.PtyFds
