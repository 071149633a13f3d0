import Verif.Lemmas.Wiring
import Verif.Props.FdsFail

/-!
# C11, C12: standard streams of a launched command
-/

namespace Shellous

/-- All tasks copy from `x`. -/
def allFrom (x : Stream) (ts : List IoTask) : Prop := ∀ t ∈ ts, ∃ k l, t = .copy x k l

/-- All tasks write to `x`. -/
def allTo (x : Stream) (ts : List IoTask) : Prop :=
  ∀ t ∈ ts, (∃ b e, t = .writeStream b x e) ∨ ∃ i e, t = .writeReader i x e

theorem sink_from (x : Stream) (k : Sink) (l : Option Int) : allFrom x (setupOutputSink x k l).1 := by
  unfold setupOutputSink
  intro t ht
  split at ht <;> simp at ht <;> exact ⟨_, _, ht⟩

theorem source_to {sys : Sys} {o : Options} {s : LS} {x : Stream} {r}
    (h : setupInputSource sys o s x = .ok r) : allTo x r.1 := by
  unfold setupInputSource at h
  dsimp only at h
  split at h
  · cases h; intro t ht; simp at ht; exact Or.inl ⟨_, _, ht⟩
  · split at h
    · cases h; intro t ht; simp at ht; exact Or.inr ⟨_, _, ht⟩
    · cases h; intro t ht; simp at ht; exact Or.inl ⟨_, _, ht⟩
    · split at h
      · cases h
      · cases h; intro t ht; simp at ht; exact Or.inl ⟨_, _, ht⟩
    · cases h; intro t ht; simp at ht

/-- The library's ends of stdin, stdout and stderr. -/
def ins (s : LS) : Option Stream :=
  if s.pty.isSome then some .ptyWriter else if s.stdin = PIPE then some .procStdin else none
@[inherit_doc ins]
def outs (s : LS) : Option Stream :=
  if s.pty.isSome then some .ptyReader else if s.stdout = PIPE then some .procStdout else none

theorem wireStreams_ok {s : LS} {r} (h : wireStreams s = .ok r) : r = (ins s, outs s) := by
  unfold wireStreams at h
  unfold ins outs
  dsimp only at h
  split at h
  · next hp =>
    cases hb : ((if s.stdin = PIPE then some Stream.procStdin else none).isNone &&
      (if s.stdout = PIPE then some Stream.procStdout else none).isNone)
    · simp only [hb, Bool.false_eq_true, if_false] at h; cases h
    · simp only [hb, if_true] at h; cases h; simp [hp]
  · next hp => cases h; simp [hp]

theorem wire_ok {sys : Sys} {o : Options} {s : LS} {w : Wired} (h : wire sys o s = .ok w) :
    ∃ t1 t3, w.tasks = t1 ++ (wireOut o s (outs s)).1 ++ t3 ∧
      wireErr o s (outs s) = .ok (t1, w.stderr) ∧ w.stdout = (wireOut o s (outs s)).2 ∧
      wireIn sys o s (ins s) = .ok (t3, w.stdin) := by
  unfold wire at h
  split at h
  · cases h
  · next hr =>
    have := wireStreams_ok hr
    simp only [Prod.mk.injEq] at this
    obtain ⟨rfl, rfl⟩ := this
    split at h
    · cases h
    · next h1 =>
      split at h
      · cases h
      · next h2 =>
        cases h
        exact ⟨_, _, rfl, h1, rfl, h2⟩

theorem wireErr_from {o : Options} {s : LS} {x r} (h : wireErr o s x = .ok r) :
    allFrom .procStderr r.1 := by
  unfold wireErr at h
  split at h
  · split at h
    · cases h; exact sink_from _ _ _
    · split at h
      · split at h
        · cases h
        · split at h <;> cases h
          exact sink_from _ _ _
      · cases h; exact sink_from _ _ _
  · cases h; intro t ht; simp at ht

theorem wireOut_from {o : Options} {s : LS} {x} : allFrom x (wireOut o s (some x)).1 := by
  unfold wireOut
  dsimp only
  split <;> exact sink_from _ _ _

/-! ## Filtering the tasks -/

theorem readers_allFrom_self {x : Stream} {ts : List IoTask} (h : allFrom x ts) :
    (ts.filter (IoTask.readsFrom x)) = ts := by
  rw [List.filter_eq_self]
  intro t ht
  obtain ⟨k, l, rfl⟩ := h t ht
  simp [IoTask.readsFrom]

theorem readers_allFrom_ne {x y : Stream} (hxy : x ≠ y) {ts : List IoTask} (h : allFrom x ts) :
    (ts.filter (IoTask.readsFrom y)) = [] := by
  rw [List.filter_eq_nil_iff]
  intro t ht
  obtain ⟨k, l, rfl⟩ := h t ht
  simpa [IoTask.readsFrom] using hxy

theorem readers_allTo {x y : Stream} {ts : List IoTask} (h : allTo x ts) :
    (ts.filter (IoTask.readsFrom y)) = [] := by
  rw [List.filter_eq_nil_iff]
  intro t ht
  rcases h t ht with ⟨_, _, rfl⟩ | ⟨_, _, rfl⟩ <;> simp [IoTask.readsFrom]

theorem writers_allFrom {x y : Stream} {ts : List IoTask} (h : allFrom x ts) :
    (ts.filter (IoTask.writesTo y)) = [] := by
  rw [List.filter_eq_nil_iff]
  intro t ht
  obtain ⟨k, l, rfl⟩ := h t ht
  simp [IoTask.writesTo]

theorem writers_allTo {x : Stream} {ts : List IoTask} (h : allTo x ts) :
    (ts.filter (IoTask.writesTo x)) = ts := by
  rw [List.filter_eq_self]
  intro t ht
  rcases h t ht with ⟨_, _, rfl⟩ | ⟨_, _, rfl⟩ <;> simp [IoTask.writesTo]

theorem outs_ne (s : LS) (x : Stream) (h : outs s = some x) : x ≠ .procStderr := by
  unfold outs at h
  split at h
  · cases h; simp
  · split at h <;> cases h; simp

/-- The readers and writers of the streams, by part. -/
theorem wire_parts {sys : Sys} {o : Options} {s : LS} {w : Wired} (h : wire sys o s = .ok w) :
    (∃ t1, wireErr o s (outs s) = .ok (t1, w.stderr) ∧ w.readers .procStderr = t1) ∧
    (∀ x, outs s = some x → w.readers x = (wireOut o s (some x)).1 ∧ w.stdout = (wireOut o s (some x)).2) ∧
    (outs s = none → w.stdout = none ∧ ∀ x, x ≠ .procStderr → w.readers x = []) ∧
    (∀ x, ins s = some x → setupInputSource sys o s x = .ok (w.writers x, w.stdin)) ∧
    (ins s = none → w.stdin = none ∧ ∀ x, w.writers x = []) ∧
    (∀ x, x ≠ .procStderr → outs s ≠ some x → w.readers x = []) ∧
    (∀ t ∈ w.tasks, t ∈ w.readers .procStderr ∨ (∃ x, outs s = some x ∧ t ∈ w.readers x) ∨
      ∃ x, ins s = some x ∧ t ∈ w.writers x) := by
  obtain ⟨t1, t3, ht, he, ho, hi⟩ := wire_ok h
  have f1 : allFrom .procStderr t1 := wireErr_from he
  have f3 : ∀ x, ins s = some x → allTo x t3 := by
    intro x hx; rw [hx] at hi; exact source_to hi
  have f3n : ins s = none → t3 = [] ∧ w.stdin = none := by
    intro hx; rw [hx] at hi
    simp only [wireIn, Except.ok.injEq, Prod.mk.injEq] at hi
    exact ⟨hi.1.symm, hi.2.symm⟩
  have r3 : ∀ y, (t3.filter (IoTask.readsFrom y)) = [] := by
    intro y
    cases hx : ins s with
    | none => rw [(f3n hx).1]; rfl
    | some x => exact readers_allTo (f3 x hx)
  have f2 : ∀ x, outs s = some x → allFrom x (wireOut o s (outs s)).1 := by
    intro x hx; rw [hx]; exact wireOut_from
  have f2n : outs s = none → (wireOut o s (outs s)).1 = [] := by intro hx; rw [hx]; rfl
  have r2 : ∀ y, outs s ≠ some y →
      ((wireOut o s (outs s)).1.filter (IoTask.readsFrom y)) = [] := by
    intro y hy
    cases hx : outs s with
    | none => rw [← hx, f2n hx]; rfl
    | some x => rw [← hx]; exact readers_allFrom_ne (by rintro rfl; exact hy hx) (f2 x hx)
  have w2 : ∀ y, ((wireOut o s (outs s)).1.filter (IoTask.writesTo y)) = [] := by
    intro y
    cases hx : outs s with
    | none => rw [← hx, f2n hx]; rfl
    | some x => rw [← hx]; exact writers_allFrom (f2 x hx)
  have hrd : ∀ y, w.readers y = (t1.filter (IoTask.readsFrom y)) ++
      ((wireOut o s (outs s)).1.filter (IoTask.readsFrom y)) := by
    intro y
    unfold Wired.readers
    rw [ht, List.filter_append, List.filter_append, r3, List.append_nil]
  have hwr : ∀ y, w.writers y = (t3.filter (IoTask.writesTo y)) := by
    intro y
    unfold Wired.writers
    rw [ht, List.filter_append, List.filter_append, w2, writers_allFrom f1]
    simp
  refine ⟨⟨t1, he, ?_⟩, ?_, ?_, ?_, ?_, ?_, ?_⟩
  · rw [hrd, readers_allFrom_self f1, r2 _ (fun hx => outs_ne s _ hx rfl), List.append_nil]
  · intro x hx
    rw [← hx]
    refine ⟨?_, ho⟩
    rw [hrd, readers_allFrom_ne (outs_ne s x hx).symm f1, readers_allFrom_self (f2 x hx)]
    simp
  · intro hx
    refine ⟨by rw [ho, hx]; rfl, fun y hy => ?_⟩
    rw [hrd, readers_allFrom_ne hy.symm f1, r2 y (by simp [hx])]
    rfl
  · intro x hx
    rw [hwr, writers_allTo (f3 x hx)]
    rw [hx] at hi
    exact hi
  · intro hx
    exact ⟨(f3n hx).2, fun y => by rw [hwr, (f3n hx).1]; rfl⟩
  · intro y hy hx
    rw [hrd, readers_allFrom_ne hy.symm f1, r2 y hx]
    rfl
  · intro t hm
    rw [ht] at hm
    simp only [List.mem_append] at hm
    rcases hm with (hm | hm) | hm
    · left
      rw [hrd, readers_allFrom_self f1]
      simp [hm]
    · right; left
      cases hx : outs s with
      | none => rw [f2n hx] at hm; simp at hm
      | some x =>
        refine ⟨x, rfl, ?_⟩
        rw [hrd, readers_allFrom_self (f2 x hx)]
        simp [hm]
    · right; right
      cases hx : ins s with
      | none => rw [(f3n hx).1] at hm; simp at hm
      | some x => exact ⟨x, rfl, by rw [hwr, writers_allTo (f3 x hx)]; exact hm⟩

/-! ## C11 -/

theorem stdin_pipe {s : LS} {h0 : Handle} (h : s.stdin = viaPty s.pty h0) (hp : h0 = PIPE) :
    s.stdin = (inEnds s.pty).child ∧ ins s = some (inEnds s.pty).lib := by
  subst hp
  cases hq : s.pty with
  | none => simp [viaPty, hq] at h; simp [inEnds, ins, hq, h]
  | some p => simp [viaPty, hq] at h; simp [inEnds, ins, hq, h]

theorem stdin_direct {s : LS} {h0 : Handle} (h : s.stdin = viaPty s.pty h0) (hp : h0 ≠ PIPE) :
    s.stdin = h0 ∧ ins s = s.pty.map fun _ => Stream.ptyWriter := by
  cases hq : s.pty with
  | none => simp [viaPty, hq] at h; subst h; simp [ins, hq, hp]
  | some p => simp [viaPty, hq, hp] at h; subst h; simp [ins, hq]

/-- C11. The stdin of a launched command is what the table `StdinSpec` says for the configured input. -/
theorem C11_stdin {sys : Sys} (c : Command) (s : LS) {s' : LS} {w : Wired}
    (h : launch sys c s = (.ok (), s')) (hw : wire sys c.options s' = .ok w) :
    StdinSpec s' w sys c.options.input := by
  obtain ⟨hpty, _, ⟨h0, hin, hst⟩, _⟩ := launch_res h
  obtain ⟨_, _, _, p4, p5, _, p7⟩ := wire_parts hw
  have fed : ∀ task, h0 = PIPE → (∀ x, setupInputSource sys c.options s' x =
      .ok ([task x (s'.pty.map (·.eof))], none)) → InFed s' w task := by
    intro task hp hsrc
    obtain ⟨a, b⟩ := stdin_pipe hst hp
    have := p4 _ b
    rw [hsrc] at this
    simp only [Except.ok.injEq, Prod.mk.injEq] at this
    exact ⟨a, this.1.symm, this.2.symm⟩
  have caller : h0 = PIPE → (∀ x, setupInputSource sys c.options s' x = .ok ([], some x)) →
      InCaller s' w := by
    intro hp hsrc
    obtain ⟨a, b⟩ := stdin_pipe hst hp
    have := p4 _ b
    rw [hsrc] at this
    simp only [Except.ok.injEq, Prod.mk.injEq] at this
    exact ⟨a, this.1.symm, this.2.symm⟩
  have direct : ∀ hh, h0 = hh → hh ≠ PIPE → (∀ x, setupInputSource sys c.options s' x = .ok ([], some x)) →
      InDirect s' w hh := by
    rintro hh rfl hp hsrc
    obtain ⟨a, b⟩ := stdin_direct hst hp
    refine ⟨a, ?_, ?_⟩
    · rw [List.all_eq_true]
      intro t ht
      rcases p7 t ht with h1 | ⟨x, _, h1⟩ | ⟨x, hx, h1⟩
      · simp only [Wired.readers, List.mem_filter] at h1
        cases t <;> simp [IoTask.readsFrom] at h1 ⊢
      · simp only [Wired.readers, List.mem_filter] at h1
        cases t <;> simp [IoTask.readsFrom] at h1 ⊢
      · have := p4 _ hx
        rw [hsrc] at this
        simp only [Except.ok.injEq, Prod.mk.injEq] at this
        rw [← this.1] at h1
        simp at h1
    · cases hq : s'.pty with
      | none => rw [hq] at b; exact (p5 b).1
      | some p =>
        rw [hq] at b
        have := p4 _ b
        rw [hsrc] at this
        simp only [Except.ok.injEq, Prod.mk.injEq] at this
        exact this.2.symm
  have nosrc : s'.inputBytes = none → (∀ i, c.options.input ≠ .streamReader i) →
      (∀ i, c.options.input ≠ .bytesIO i) → (∀ i, c.options.input ≠ .stringIO i) →
      ∀ x, setupInputSource sys c.options s' x = .ok ([], some x) := by
    intro h1 h2 h3 h4 x
    simp only [setupInputSource, h1]
  have withb : ∀ b, s'.inputBytes = some b → ∀ x, setupInputSource sys c.options s' x =
      .ok ([.writeStream b x (s'.pty.map (·.eof))], none) := by
    intro b hb x; simp only [setupInputSource, hb]
  cases ht : c.options.input with
  | bytes b =>
    rw [ht] at hin; simp only [fromDefault, InRes] at hin
    exact fed _ hin.1 (withb _ hin.2)
  | bytearray id =>
    rw [ht] at hin; simp only [fromDefault, InRes] at hin
    exact fed _ hin.1 (withb _ hin.2)
  | str x =>
    rw [ht] at hin; simp only [fromDefault, InRes] at hin
    obtain ⟨a, b, hb, hb'⟩ := hin
    exact ⟨b, hb, fed _ a (withb _ hb')⟩
  | bytesIO id =>
    rw [ht] at hin; simp only [fromDefault, InRes] at hin
    exact fed _ hin.1 (by intro x; simp only [setupInputSource, hin.2, ht])
  | stringIO id =>
    rw [ht] at hin; simp only [fromDefault, InRes] at hin
    cases he : sys.encode (sys.textOf id) with
    | ok b => exact ⟨b, he, fed _ hin.1 (by intro x; simp only [setupInputSource, hin.2, ht, he])⟩
    | error e =>
      have := p4 _ (stdin_pipe hst hin.1).2
      simp only [setupInputSource, hin.2, ht, he] at this
      cases this
  | streamReader id =>
    rw [ht] at hin; simp only [fromDefault, InRes] at hin
    exact fed _ hin.1 (by intro x; simp only [setupInputSource, hin.2, ht])
  | path p =>
    have hn := nosrc
    rw [ht] at hin hn; simp only [fromDefault, InRes] at hin
    obtain ⟨n, hn', rfl, hb⟩ := hin
    exact ⟨n, hn', direct _ rfl (by simp) (hn hb (by simp) (by simp) (by simp))⟩
  | int n =>
    have hn := nosrc
    rw [ht] at hin hn; simp only [fromDefault, InRes] at hin
    obtain ⟨rfl, hb⟩ := hin
    simp only [StdinSpec]
    split
    · next h1 => subst h1; exact caller rfl (hn hb (by simp) (by simp) (by simp))
    · next h1 => exact direct _ rfl (by simpa using h1) (hn hb (by simp) (by simp) (by simp))
  | redirect q =>
    have hn := nosrc
    rw [ht] at hin hn
    cases q with
    | inherit =>
      simp only [fromDefault, InRes] at hin
      exact direct _ hin.1 (by simp) (hn hin.2 (by simp) (by simp) (by simp))
    | devnull =>
      simp only [fromDefault, InRes] at hin
      exact direct _ hin.1 (by simp) (hn hin.2 (by simp) (by simp) (by simp))
    | stdout =>
      simp only [fromDefault, InRes] at hin
      exact direct _ hin.1 (by simp) (hn hin.2 (by simp) (by simp) (by simp))
    | capture =>
      simp only [fromDefault, InRes] at hin
      exact caller hin.1 (hn hin.2 (by simp) (by simp) (by simp))
    | buffer => simp only [fromDefault, InRes] at hin
    | default =>
      simp only [StdinSpec, hpty]
      cases hp : c.options.pty.truthy
      · simp only [fromDefault, hp, defaultRedirection, InRes] at hin
        simp only [Bool.false_eq_true, if_false]
        exact fed _ hin.1 (withb _ hin.2)
      · simp only [fromDefault, hp, defaultRedirection, InRes] at hin
        simp only [if_true]
        exact caller hin.1 (hn hin.2 (by simp) (by simp) (by simp))
  | pathLike p => rw [ht] at hin; exact hin
  | ioBase id => rw [ht] at hin; exact hin
  | logger id => rw [ht] at hin; exact hin
  | streamWriter id => rw [ht] at hin; exact hin
  | command => rw [ht] at hin; exact hin
  | none => rw [ht] at hin; exact hin
  | other id => rw [ht] at hin; exact hin

/-- Inputs that are not supported. -/
def Target.badInput : Target → Bool
  | .redirect .buffer | .ioBase _ | .logger _ | .streamWriter _ | .pathLike _ | .command | .none
  | .other _ => true
  | _ => false

/-- C11. BUFFER and unsupported objects as stdin never launch anything; without process substitutions the
exception is TypeError. -/
theorem C11_rejected {sys : Sys} (hc : sys.closesOk) (c : Command) (s : LS)
    (hbad : c.options.input.badInput = true) :
    (∀ s', launch sys c s ≠ (.ok (), s')) ∧
    (usesProcSub c.args = false → ∃ s', launch sys c s = (.error .typeError, s') ∧ s'.opened = s.opened) := by
  refine ⟨?_, ?_⟩
  · intro s' h
    obtain ⟨_, _, ⟨h0, hin, _⟩, _⟩ := launch_res h
    cases ht : c.options.input <;> rw [ht] at hbad hin <;> simp [Target.badInput] at hbad <;>
      try exact hin
    next q => cases q <;> simp at hbad; exact hin
  · intro hu
    have hraise : ∀ s, setupInput sys (fromDefault c.options.input 0 c.options.pty) c.options.inputClose s =
        (.error .typeError, s) := by
      intro s
      cases ht : c.options.input <;> rw [ht] at hbad <;> simp [Target.badInput] at hbad <;> try rfl
      next q => cases q <;> simp at hbad; rfl
    have hbody : ∃ s1, enterBody sys c s = (.error .typeError, s1) ∧ s1.opened = s.opened := by
      refine ⟨{ s.newRun with posArgs := c.args.map PArg.leaf }, ?_, rfl⟩
      simp only [enterBody, M.bind_err, modify_ok, modify_err, false_or]
      refine ⟨(), _, rfl, Or.inr ⟨(), { s.newRun with posArgs := c.args.map PArg.leaf }, ?_, Or.inl ?_⟩⟩
      · simp [setupArgs, hu]
      · simp only [setupRedirects, M.bind_err]
        exact Or.inl (hraise _)
    obtain ⟨s1, hb, ho⟩ := hbody
    have hcl := closeAll_noerr hc (cleanupEntries c.options) s1
    refine ⟨(cleanup sys c.options s1).1, ?_, ?_⟩
    · have : (cleanup sys c.options s1).2 = false := hcl
      simp [launch, enter, hb, this]
    · rw [← ho]; exact (closeAll_frame (sys := sys) (cleanupEntries c.options) s1).2.1

/-! ## C12 -/

theorem stdout_pipe {s : LS} {h0 : Handle} (h : s.stdout = viaPty s.pty h0) (hp : h0 = PIPE) :
    s.stdout = (outEnds s.pty).child ∧ outs s = some (outEnds s.pty).lib := by
  subst hp
  cases hq : s.pty with
  | none => simp [viaPty, hq] at h; simp [outEnds, outs, hq, h]
  | some p => simp [viaPty, hq] at h; simp [outEnds, outs, hq, h]

theorem stdout_direct {s : LS} {h0 : Handle} (h : s.stdout = viaPty s.pty h0) (hp : h0 ≠ PIPE) :
    s.stdout = h0 ∧ outs s = s.pty.map fun _ => Stream.ptyReader := by
  cases hq : s.pty with
  | none => simp [viaPty, hq] at h; subst h; simp [outs, hq, hp]
  | some p => simp [viaPty, hq, hp] at h; subst h; simp [outs, hq]

/-- With `stdout=DEVNULL, stderr=STDOUT` on a terminal the streams cannot be set up. -/
theorem wire_stderrOnly {sys : Sys} {c : Command} {s s' : LS} {w : Wired}
    (h : launch sys c s = (.ok (), s')) (hw : wire sys c.options s' = .ok w)
    (hso : s'.stderrOnly = true) : s'.pty = none := by
  obtain ⟨_, _, _, _, _, h6, _⟩ := launch_res h
  obtain ⟨⟨t1, p1, _⟩, _⟩ := wire_parts hw
  obtain ⟨a, b, c⟩ := h6 hso
  cases hq : s'.pty with
  | none => rfl
  | some p => simp [wireErr, a, b, c, hso, outs, hq] at p1

/-- **C12.** The child is attached to a pseudo-terminal exactly when the command asked for one with
`pty`. -/
theorem C12_terminal {sys : Sys} (c : Command) (s : LS) {s' : LS}
    (h : launch sys c s = (.ok (), s')) : s'.pty ≠ none ↔ c.options.pty ≠ .off := by
  have h1 := (launch_res h).1
  cases hq : s'.pty <;> cases hp : c.options.pty <;> simp [hq, hp, PtyOpt.truthy] at h1 ⊢

/-- C12. The stdout of a launched command is what the table `StdoutSpec` says. -/
theorem C12_stdout {sys : Sys} (c : Command) (s : LS) {s' : LS} {w : Wired}
    (h : launch sys c s = (.ok (), s')) (hw : wire sys c.options s' = .ok w) :
    StdoutSpec s' w c.options.outputAppend c.options.output := by
  obtain ⟨hpty, hso, _, ⟨h0, hout, hst⟩, hns, hs, _⟩ := launch_res h
  obtain ⟨_, p2, p3, _⟩ := wire_parts hw
  have only := wire_stderrOnly h hw
  -- the buffer is used iff stdout is buffered, or there is no stream at all
  have hbuf : h0 = PIPE → s'.outputBuf =
      decide (fromDefault c.options.output 1 c.options.pty = .redirect .buffer) := by
    intro hp
    cases hb : s'.stderrOnly
    · exact (hns hb).2.1
    · rw [hb] at hso
      have he : c.options.output.eqR .devnull = true := by
        have := hso.symm; simp at this; exact this.1
      cases hte : c.options.output <;> rw [hte] at he hout <;> simp [Target.eqR] at he
      · subst he; subst hp; simp [fromDefault, OutRes] at hout
      · subst he; subst hp; simp [fromDefault, OutRes, Redirect.val] at hout
  have copied : ∀ k, h0 = PIPE → (∀ x, wireOut c.options s' (some x) = ([.copy x k none], none)) →
      OutCopied w (outEnds s'.pty) s'.stdout w.stdout k none := by
    intro k hp hsrc
    obtain ⟨a, b⟩ := stdout_pipe hst hp
    have := p2 _ b
    rw [hsrc] at this
    exact ⟨a, this.1, this.2⟩
  have caller : h0 = PIPE → (∀ x, wireOut c.options s' (some x) = ([], some x)) →
      OutCaller w (outEnds s'.pty) s'.stdout w.stdout := by
    intro hp hsrc
    obtain ⟨a, b⟩ := stdout_pipe hst hp
    have := p2 _ b
    rw [hsrc] at this
    exact ⟨a, this.1, this.2⟩
  have direct : ∀ hh, h0 = hh → hh ≠ PIPE →
      (s'.pty ≠ none → ∀ x, wireOut c.options s' (some x) = ([], some x)) →
      OutDirect w s'.stdout hh w.stdout (s'.pty.map fun _ => .ptyReader) (outEnds s'.pty).lib := by
    rintro hh rfl hp hsrc
    obtain ⟨a, b⟩ := stdout_direct hst hp
    refine ⟨a, ?_⟩
    cases hq : s'.pty with
    | none =>
      rw [hq] at b
      exact ⟨(p3 b).2 _ (by simp [outEnds]), (p3 b).1⟩
    | some p =>
      rw [hq] at b
      have := p2 _ b
      rw [hsrc (by simp [hq])] at this
      exact this
  have nb : fromDefault c.options.output 1 c.options.pty ≠ .redirect .buffer → s'.pty ≠ none →
      s'.outputBuf = false := by
    intro h1 h2
    cases hb : s'.stderrOnly
    · rw [(hns hb).2.1]; simpa using h1
    · exact (h2 (only hb)).elim
  cases ht : c.options.output with
  | redirect q =>
    rw [ht] at hout hbuf nb
    cases q with
    | default =>
      have hd : fromDefault (.redirect .default) 1 c.options.pty = .redirect .buffer := by
        simp only [fromDefault]; cases c.options.pty.truthy <;> rfl
      rw [hd] at hout hbuf
      exact copied _ hout (by intro x; simp [wireOut, hbuf hout, setupOutputSink])
    | buffer => exact copied _ hout (by intro x; simp [wireOut, hbuf hout, setupOutputSink, fromDefault])
    | capture =>
      exact caller hout (by intro x; simp [wireOut, hbuf hout, setupOutputSink, fromDefault, ht])
    | inherit =>
      exact direct _ hout (by simp) (by
        intro hp x; simp [wireOut, nb (by simp [fromDefault]) hp, setupOutputSink, ht])
    | devnull =>
      exact direct _ hout (by simp) (by
        intro hp x; simp [wireOut, nb (by simp [fromDefault]) hp, setupOutputSink, ht])
    | stdout =>
      exact direct _ hout (by simp) (by
        intro hp x; simp [wireOut, nb (by simp [fromDefault]) hp, setupOutputSink, ht])
  | int n =>
    rw [ht] at hout hbuf nb
    simp only [StdoutSpec]
    split
    · next h1 =>
      subst h1
      exact caller hout (by intro x; simp [wireOut, hbuf hout, setupOutputSink, fromDefault, ht])
    · next h1 =>
      exact direct _ hout (by simpa using h1) (by
        intro hp x; simp [wireOut, nb (by simp [fromDefault]) hp, setupOutputSink, ht])
  | path p =>
    rw [ht] at hout nb
    obtain ⟨n, hn, hout⟩ := hout
    exact ⟨n, hn, direct _ hout (by simp) (by
        intro hp x; simp [wireOut, nb (by simp [fromDefault]) hp, setupOutputSink, ht])⟩
  | pathLike p =>
    rw [ht] at hout nb
    obtain ⟨n, hn, hout⟩ := hout
    exact ⟨n, hn, direct _ hout (by simp) (by
        intro hp x; simp [wireOut, nb (by simp [fromDefault]) hp, setupOutputSink, ht])⟩
  | ioBase id =>
    rw [ht] at hout nb
    exact direct _ hout (by simp) (by
        intro hp x; simp [wireOut, nb (by simp [fromDefault]) hp, setupOutputSink, ht])
  | stringIO id =>
    rw [ht] at hout hbuf
    exact copied _ hout (by intro x; simp [wireOut, hbuf hout, setupOutputSink, fromDefault, ht])
  | bytesIO id =>
    rw [ht] at hout hbuf
    exact copied _ hout (by intro x; simp [wireOut, hbuf hout, setupOutputSink, fromDefault, ht])
  | bytearray id =>
    rw [ht] at hout hbuf
    exact copied _ hout (by intro x; simp [wireOut, hbuf hout, setupOutputSink, fromDefault, ht])
  | logger id =>
    rw [ht] at hout hbuf
    exact copied _ hout (by intro x; simp [wireOut, hbuf hout, setupOutputSink, fromDefault, ht])
  | streamWriter id =>
    rw [ht] at hout hbuf
    exact copied _ hout (by intro x; simp [wireOut, hbuf hout, setupOutputSink, fromDefault, ht])
  | str x => rw [ht] at hout; exact hout
  | bytes x => rw [ht] at hout; exact hout
  | streamReader x => rw [ht] at hout; exact hout
  | command => rw [ht] at hout; exact hout
  | none => rw [ht] at hout; exact hout
  | other x => rw [ht] at hout; exact hout

/-- C12. The stderr of a launched command is what the table `StderrSpec` says, except with stdout=DEVNULL
and stderr=STDOUT (`C12_stderr_only`). -/
theorem C12_stderr {sys : Sys} (hs : sys.Ok) (c : Command) (s : LS) {s' : LS} {w : Wired}
    (h : launch sys c s = (.ok (), s')) (hw : wire sys c.options s' = .ok w)
    (hno : ¬ (c.options.output.eqR .devnull = true ∧ c.options.error.eqR .stdout = true)) :
    StderrSpec s' w c.options.errorAppend c.options.errorLimit c.options.error := by
  obtain ⟨hpty, hso, _, _, hns, _, _⟩ := launch_res h
  have hso' : s'.stderrOnly = false := by
    rw [hso]
    cases h1 : c.options.output.eqR .devnull <;> cases h2 : c.options.error.eqR .stdout <;> simp_all
  obtain ⟨⟨h0, hout, hst⟩, _, hbuf⟩ := hns hso'
  obtain ⟨⟨t1, p1, p2⟩, _⟩ := wire_parts hw
  have pipe : h0 = PIPE → s'.stderr = PIPE := by
    rintro rfl
    rw [hst]
    cases hq : s'.pty <;> simp [viaPtyErr]
  have copied : ∀ k l, h0 = PIPE → (s'.stderr = PIPE → wireErr c.options s' (outs s') = .ok ([.copy .procStderr k l], none)) →
      OutCopied w errEnds s'.stderr w.stderr k l := by
    intro k l hp hsrc
    rw [hsrc (pipe hp)] at p1
    simp only [Except.ok.injEq, Prod.mk.injEq] at p1
    exact ⟨pipe hp, by rw [← p1.1] at p2; exact p2, p1.2.symm⟩
  have caller : h0 = PIPE → (s'.stderr = PIPE → wireErr c.options s' (outs s') = .ok ([], some .procStderr)) →
      OutCaller w errEnds s'.stderr w.stderr := by
    intro hp hsrc
    rw [hsrc (pipe hp)] at p1
    simp only [Except.ok.injEq, Prod.mk.injEq] at p1
    exact ⟨pipe hp, by rw [← p1.1] at p2; exact p2, p1.2.symm⟩
  have direct : ∀ hh, s'.stderr = hh → hh ≠ PIPE → OutDirect w s'.stderr hh w.stderr none .procStderr := by
    rintro hh rfl hp
    simp only [wireErr, hp, if_false, Except.ok.injEq, Prod.mk.injEq] at p1
    exact ⟨rfl, by rw [← p1.1] at p2; exact p2, p1.2.symm⟩
  have keep : h0 ≠ .int (-2) → s'.stderr = h0 := by
    intro hne
    rw [hst]
    cases hq : s'.pty <;> simp [viaPtyErr, hne]
  have merged : h0 = .int (-2) → ErrMerged s' w := by
    rintro rfl
    unfold ErrMerged
    refine direct _ ?_ ?_
    · rw [hst]; cases hq : s'.pty <;> simp [viaPtyErr]
    · cases hq : s'.pty with
      | none => simp
      | some p =>
        -- the child side of the terminal is a descriptor, not PIPE
        have := launch_child hs h p hq
        simp
        omega
  cases ht : c.options.error with
  | redirect q =>
    rw [ht] at hout hbuf
    cases q with
    | default =>
      simp only [StderrSpec, hpty]
      cases hp : c.options.pty.truthy
      · simp only [fromDefault, hp, defaultRedirection] at hout hbuf
        simp only [Bool.false_eq_true, if_false]
        exact copied _ _ hout (by intro hp; simp [wireErr, hp, hbuf, setupOutputSink])
      · simp only [fromDefault, hp, defaultRedirection] at hout hbuf
        simp only [if_true]
        exact merged hout
    | buffer => exact copied _ _ hout (by intro hp; simp [wireErr, hp, hbuf, setupOutputSink, fromDefault])
    | capture =>
      exact caller hout (by intro hp; simp [wireErr, hp, hbuf, setupOutputSink, fromDefault, hso', ht])
    | inherit =>
      simp only [fromDefault, OutRes] at hout
      subst hout; exact direct _ (keep (by simp)) (by simp)
    | devnull =>
      simp only [fromDefault, OutRes] at hout
      subst hout; exact direct _ (keep (by simp)) (by simp)
    | stdout =>
      simp only [fromDefault, OutRes] at hout
      exact merged hout
  | int n =>
    rw [ht] at hout hbuf
    simp only [StderrSpec]
    simp only [fromDefault, OutRes] at hout
    split
    · next h1 =>
      subst h1
      exact caller hout (by intro hp; simp [wireErr, hp, hbuf, setupOutputSink, fromDefault, hso', ht])
    · next h1 =>
      split
      · next h2 => subst h2; exact merged hout
      · next h2 => subst hout; exact direct _ (keep (by simpa using h2)) (by simpa using h1)
  | path p =>
    rw [ht] at hout
    obtain ⟨n, hn, rfl⟩ := hout
    exact ⟨n, hn, direct _ (keep (by simp)) (by simp)⟩
  | pathLike p =>
    rw [ht] at hout
    obtain ⟨n, hn, rfl⟩ := hout
    exact ⟨n, hn, direct _ (keep (by simp)) (by simp)⟩
  | ioBase id =>
    rw [ht] at hout
    simp only [fromDefault, OutRes] at hout
    subst hout; exact direct _ (keep (by simp)) (by simp)
  | stringIO id =>
    rw [ht] at hout hbuf
    exact copied _ _ hout (by intro hp; simp [wireErr, hp, hbuf, setupOutputSink, fromDefault, hso', ht])
  | bytesIO id =>
    rw [ht] at hout hbuf
    exact copied _ _ hout (by intro hp; simp [wireErr, hp, hbuf, setupOutputSink, fromDefault, hso', ht])
  | bytearray id =>
    rw [ht] at hout hbuf
    exact copied _ _ hout (by intro hp; simp [wireErr, hp, hbuf, setupOutputSink, fromDefault, hso', ht])
  | logger id =>
    rw [ht] at hout hbuf
    exact copied _ _ hout (by intro hp; simp [wireErr, hp, hbuf, setupOutputSink, fromDefault, hso', ht])
  | streamWriter id =>
    rw [ht] at hout hbuf
    exact copied _ _ hout (by intro hp; simp [wireErr, hp, hbuf, setupOutputSink, fromDefault, hso', ht])
  | str x => rw [ht] at hout; exact hout
  | bytes x => rw [ht] at hout; exact hout
  | streamReader x => rw [ht] at hout; exact hout
  | command => rw [ht] at hout; exact hout
  | none => rw [ht] at hout; exact hout
  | other x => rw [ht] at hout; exact hout

/-- C12. With stdout=DEVNULL and stderr=STDOUT the standard error is what `Result.output` holds, and
standard output is discarded. -/
theorem C12_stderr_only {sys : Sys} (c : Command) (s : LS) {s' : LS} {w : Wired}
    (h : launch sys c s = (.ok (), s')) (hw : wire sys c.options s' = .ok w)
    (h1 : c.options.output.eqR .devnull = true) (h2 : c.options.error.eqR .stdout = true) :
    s'.stdout = .int (-3) ∧ OutCopied w errEnds s'.stderr w.stderr .outputBytes none ∧
      w.stdout = none ∧ w.tasks.filter (fun t => match t with
        | .copy _ .outputBytes _ => true
        | _ => false) = [.copy .procStderr .outputBytes none] := by
  obtain ⟨hpty, hso, _, ⟨h0, hout, hst⟩, _, hs, _⟩ := launch_res h
  have hso' : s'.stderrOnly = true := by rw [hso, h1, h2]; rfl
  have hq := wire_stderrOnly h hw hso'
  obtain ⟨a, b, d⟩ := hs hso'
  have ho : s'.stdout = .int (-3) := by
    rw [hst, hq]
    cases hte : c.options.output <;> rw [hte] at h1 hout <;> simp [Target.eqR] at h1
    · subst h1; exact hout
    · subst h1; exact hout
  obtain ⟨⟨t1, p1, p2⟩, _, p3, _, _, _, p7⟩ := wire_parts hw
  have hon : outs s' = none := by simp [outs, hq, ho]
  simp only [wireErr, a, b, d, hso', hon, Option.isSome_none, if_true, Bool.false_eq_true, if_false,
    setupOutputSink, Except.ok.injEq, Prod.mk.injEq] at p1
  obtain ⟨t1', t3, ht, he, _, hi⟩ := wire_ok hw
  refine ⟨ho, ⟨a, p2.trans p1.1.symm, p1.2.symm⟩, (p3 hon).1, ?_⟩
  simp only [wireErr, a, b, d, hso', hon, Option.isSome_none, if_true, Bool.false_eq_true, if_false,
    setupOutputSink, Except.ok.injEq, Prod.mk.injEq] at he
  rw [ht, hon, ← he.1]
  have h3 : ∀ x, ins s' = some x → allTo x t3 := by
    intro x hx; rw [hx] at hi; exact source_to hi
  have h3' : t3.filter (fun t => match t with
        | .copy _ .outputBytes _ => true
        | _ => false) = [] := by
    rw [List.filter_eq_nil_iff]
    intro t htm
    cases hx : ins s' with
    | none =>
      rw [hx] at hi
      simp only [wireIn, Except.ok.injEq, Prod.mk.injEq] at hi
      rw [← hi.1] at htm; simp at htm
    | some x => rcases h3 x hx t htm with ⟨_, _, rfl⟩ | ⟨_, _, rfl⟩ <;> simp
  simp [List.filter_append, wireOut, h3']

/-- C12. No stream is ever read by two readers: counting background copies and the caller, each stream
has at most one. -/
theorem C12_single_reader {sys : Sys} (c : Command) (s : LS) {s' : LS} {w : Wired}
    (h : launch sys c s = (.ok (), s')) (hw : wire sys c.options s' = .ok w) (x : Stream) :
    (w.readers x).length + (if w.stdout = some x then 1 else 0) + (if w.stderr = some x then 1 else 0) ≤ 1 ∧
    (w.writers x).length + (if w.stdin = some x then 1 else 0) ≤ 1 := by
  obtain ⟨⟨t1, p1, p2⟩, p3, p4, p5, p6, p7, _⟩ := wire_parts hw
  have sink : ∀ y k l, (setupOutputSink y k l).1.length +
      (if (setupOutputSink y k l).2 = some y then 1 else 0) ≤ 1 ∧
      ((setupOutputSink y k l).2 = some y ∨ (setupOutputSink y k l).2 = none) := by
    intro y k l
    unfold setupOutputSink
    split <;> simp
  have herr : t1.length + (if w.stderr = some .procStderr then 1 else 0) ≤ 1 ∧
      (w.stderr = some .procStderr ∨ w.stderr = none) := by
    unfold wireErr at p1
    split at p1
    · split at p1
      · simp only [Except.ok.injEq, Prod.ext_iff] at p1
        rw [← p1.1, ← p1.2]; exact sink _ _ _
      · split at p1
        · split at p1
          · cases p1
          · split at p1
            · simp only [Except.ok.injEq, Prod.ext_iff] at p1
              rw [← p1.1, ← p1.2]; exact sink _ _ _
            · cases p1
        · simp only [Except.ok.injEq, Prod.ext_iff] at p1
          rw [← p1.1, ← p1.2]; exact sink _ _ _
    · simp only [Except.ok.injEq, Prod.ext_iff] at p1
      rw [← p1.1, ← p1.2]; simp
  have hout : ∀ y, outs s' = some y → (w.readers y).length + (if w.stdout = some y then 1 else 0) ≤ 1 ∧
      (w.stdout = some y ∨ w.stdout = none) := by
    intro y hy
    obtain ⟨a, b⟩ := p3 y hy
    rw [a, b]
    unfold wireOut
    dsimp only
    split <;> exact sink _ _ _
  have hin : ∀ y, ins s' = some y → (w.writers y).length + (if w.stdin = some y then 1 else 0) ≤ 1 ∧
      (w.stdin = some y ∨ w.stdin = none) := by
    intro y hy
    have := p5 y hy
    unfold setupInputSource at this
    dsimp only at this
    split at this
    · simp only [Except.ok.injEq, Prod.ext_iff] at this; rw [← this.1, ← this.2]; simp
    · split at this
      · simp only [Except.ok.injEq, Prod.ext_iff] at this; rw [← this.1, ← this.2]; simp
      · simp only [Except.ok.injEq, Prod.ext_iff] at this; rw [← this.1, ← this.2]; simp
      · split at this
        · cases this
        · simp only [Except.ok.injEq, Prod.ext_iff] at this; rw [← this.1, ← this.2]; simp
      · simp only [Except.ok.injEq, Prod.ext_iff] at this; rw [← this.1, ← this.2]; simp
  have hwr : ∀ y, ins s' ≠ some y → w.writers y = [] := by
    intro y hy
    obtain ⟨_, t3, ht, he, _, hi⟩ := wire_ok hw
    unfold Wired.writers
    rw [List.filter_eq_nil_iff]
    intro t htm
    rw [ht] at htm
    simp only [List.mem_append] at htm
    rcases htm with (htm | htm) | htm
    · obtain ⟨_, _, rfl⟩ := wireErr_from he t htm; simp [IoTask.writesTo]
    · cases ho : outs s' with
      | none => rw [ho] at htm; simp [wireOut] at htm
      | some z => rw [ho] at htm; obtain ⟨_, _, rfl⟩ := wireOut_from t htm; simp [IoTask.writesTo]
    · cases hx : ins s' with
      | none =>
        rw [hx] at hi
        simp only [wireIn, Except.ok.injEq, Prod.mk.injEq] at hi
        rw [← hi.1] at htm; simp at htm
      | some z =>
        rw [hx] at hi hy
        have hzy : z ≠ y := by simpa using hy
        rcases source_to hi t htm with ⟨_, _, rfl⟩ | ⟨_, _, rfl⟩ <;> simpa [IoTask.writesTo] using hzy
  refine ⟨?_, ?_⟩
  · by_cases hx : x = .procStderr
    · subst hx
      have hso : w.stdout ≠ some .procStderr := by
        cases ho : outs s' with
        | none => rw [(p4 ho).1]; simp
        | some y =>
          rcases (hout y ho).2 with h | h
          · rw [h]; simpa using outs_ne s' y ho
          · rw [h]; simp
      rw [p2]
      simpa [hso] using herr.1
    · have hse : w.stderr ≠ some x := by
        rcases herr.2 with h | h <;> rw [h] <;> simp
        exact fun h => hx h.symm
      by_cases ho : outs s' = some x
      · simpa [hse] using (hout x ho).1
      · have hso : w.stdout ≠ some x := by
          cases ho' : outs s' with
          | none => rw [(p4 ho').1]; simp
          | some y =>
            rw [ho'] at ho
            rcases (hout y ho').2 with h | h <;> rw [h]
            · exact ho
            · simp
        rw [p7 x hx ho]
        simp [hse, hso]
  · by_cases hi : ins s' = some x
    · exact (hin x hi).1
    · rw [hwr x hi]
      have : w.stdin ≠ some x := by
        cases hi' : ins s' with
        | none => rw [(p6 hi').1]; simp
        | some y =>
          rw [hi'] at hi
          rcases (hin y hi').2 with h | h <;> rw [h]
          · exact hi
          · simp
      simp [this]

end Shellous
