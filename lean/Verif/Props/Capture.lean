import Verif.Props.Wiring

/-!
# C12 (corners) and C13: captured streams
-/

namespace Shellous

/-! ## C12: positions, failures -/

/-- C12. Before the launch every in-memory or file object used as stdout or stderr is positioned once
(truncated, or moved to its end with `append`), stdout first; no other object is touched. -/
theorem C12_positioned {sys : Sys} (c : Command) (T : List Int) {s' : LS}
    (h : launch sys c { tab := T } = (.ok (), s')) :
    s'.positioned = positions c.options.outputAppend c.options.output ++
      positions c.options.errorAppend c.options.error := by
  obtain ⟨_, _, _, _, _, _, h⟩ := launch_res h
  simpa using h

/-- C12. Once the program was launched, its streams are set up unless stdout=DEVNULL and stderr=STDOUT
on a terminal, or the text of a StringIO used as stdin cannot be encoded. -/
theorem C12_set_up {sys : Sys} (hs : sys.Ok) (c : Command) (s : LS) {s' : LS}
    (h : launch sys c s = (.ok (), s'))
    (h1 : ¬ (c.options.pty.truthy = true ∧ c.options.output.eqR .devnull = true ∧
      c.options.error.eqR .stdout = true))
    (h2 : ∀ id, c.options.input = .stringIO id → ∃ b, sys.encode (sys.textOf id) = .ok b) :
    ∃ w, wire sys c.options s' = .ok w := by
  obtain ⟨hpty, hso, ⟨h0, hin, hst⟩, ⟨h1', hout, hst1⟩, hns, hs6, _⟩ := launch_res h
  have hch := launch_child hs h
  have hstr : wireStreams s' = .ok (ins s', outs s') := by
    unfold wireStreams ins outs
    cases hq : s'.pty with
    | none => simp
    | some p =>
      have hne : Handle.int p.child ≠ PIPE := by have := hch p hq; simp; omega
      have e0 : s'.stdin ≠ PIPE := by
        rw [hst, hq]; unfold viaPty; dsimp only; split
        · exact hne
        · assumption
      have e1 : s'.stdout ≠ PIPE := by
        rw [hst1, hq]; unfold viaPty; dsimp only; split
        · exact hne
        · assumption
      simp [e0, e1]
  have hsrc : ∀ x, ∃ r, setupInputSource sys c.options s' x = .ok r := by
    intro x
    unfold setupInputSource
    dsimp only
    split
    · exact ⟨_, rfl⟩
    · split
      · exact ⟨_, rfl⟩
      · exact ⟨_, rfl⟩
      · next id hid =>
        obtain ⟨b, hb⟩ := h2 id hid
        simp [hb]
      · exact ⟨_, rfl⟩
  have hwi : ∃ r, wireIn sys c.options s' (ins s') = .ok r := by
    unfold wireIn
    split
    · exact ⟨_, rfl⟩
    · exact hsrc _
  have hwe : ∃ r, wireErr c.options s' (outs s') = .ok r := by
    unfold wireErr
    split
    · split
      · exact ⟨_, rfl⟩
      · split
        · next hso' =>
          obtain ⟨a, b, _⟩ := hs6 hso'
          have hboth : c.options.output.eqR .devnull = true ∧ c.options.error.eqR .stdout = true := by
            rw [hso', eq_comm, Bool.and_eq_true] at hso; exact hso
          have hpf : s'.pty = none := by
            cases hq : s'.pty with
            | none => rfl
            | some p => rw [hq] at hpty; exact (h1 ⟨hpty.symm, hboth⟩).elim
          have hod : s'.stdout ≠ PIPE := by
            rw [hst1, hpf]
            have he := hboth.1
            cases hte : c.options.output <;> rw [hte] at he hout <;> simp [Target.eqR] at he
            · subst he; simp [fromDefault, OutRes] at hout; subst hout; simp [viaPty]
            · subst he; simp [fromDefault, OutRes, Redirect.val] at hout; subst hout; simp [viaPty]
          simp [outs, hpf, hod, b]
        · exact ⟨_, rfl⟩
    · exact ⟨_, rfl⟩
  obtain ⟨⟨t1, e1⟩, he⟩ := hwe
  obtain ⟨⟨t3, e3⟩, hi⟩ := hwi
  unfold wire
  rw [hstr]
  dsimp only
  rw [he]
  dsimp only
  rw [hi]
  exact ⟨_, rfl⟩

/-- Outputs that are not supported. -/
def Target.badOutput : Target → Bool
  | .str _ | .bytes _ | .streamReader _ | .command | .none | .other _ => true
  | _ => false

/-- C12. Unsupported objects as stdout or stderr never launch anything. -/
theorem C12_rejected {sys : Sys} (c : Command) (s : LS)
    (hbad : c.options.output.badOutput = true ∨ c.options.error.badOutput = true) :
    ∀ s', launch sys c s ≠ (.ok (), s') := by
  intro s' h
  obtain ⟨_, hso, _, ⟨h1, hout, _⟩, hns, _, _⟩ := launch_res h
  rcases hbad with hb | hb
  · cases ht : c.options.output <;> rw [ht] at hb hout <;> simp [Target.badOutput] at hb <;> exact hout
  · have hf : s'.stderrOnly = false := by
      rw [hso]
      cases ht : c.options.error <;> rw [ht] at hb <;> simp [Target.badOutput] at hb <;> simp [Target.eqR]
    obtain ⟨⟨h2, hout, _⟩, _⟩ := hns hf
    cases ht : c.options.error <;> rw [ht] at hb hout <;> simp [Target.badOutput] at hb <;> exact hout

/-- Evaluate a launch followed by the set-up of the streams. -/
theorem eval_wire {sys : Sys} {c : Command} {s : LS} {P : LS → Wired → Prop}
    (h : okB (launch sys c s).1 = true) (hp : ∃ w, wire sys c.options (launch sys c s).2 = .ok w ∧
      P (launch sys c s).2 w) :
    ∃ s' w, launch sys c s = (.ok (), s') ∧ wire sys c.options s' = .ok w ∧ P s' w := by
  obtain ⟨w, hw, hp⟩ := hp
  obtain ⟨s', a, b⟩ := eval_ok (P := fun s' => s' = (launch sys c s).2) h rfl
  exact ⟨s', w, a, by rw [b]; exact hw, by rw [b]; exact hp⟩

/-- The wiring, if it was set up. -/
def wired? (sys : Sys) (c : Command) (s : LS) : Option Wired :=
  match launch sys c s with
  | (.ok (), s') =>
    match wire sys c.options s' with
    | .ok w => some w
    | .error _ => none
  | _ => none

theorem wired?_some {sys : Sys} {c : Command} {s : LS} {w : Wired} (h : wired? sys c s = some w) :
    ∃ s', launch sys c s = (.ok (), s') ∧ wire sys c.options s' = .ok w := by
  unfold wired? at h
  split at h
  · next s' h1 =>
    split at h
    · next w' h2 => simp only [Option.some.injEq] at h; subst h; exact ⟨s', h1, h2⟩
    · cases h
  · cases h

-- A command with input, a captured stdout and a logger for stderr (hypotheses of C11, C12).
example : ∃ s' w, launch (exSys []) (exCmd "cat" []
      { input := .bytes [1, 2], output := .redirect .capture, error := .logger 4 }) { tab := [0, 1, 2] } =
        (.ok (), s') ∧
    wire (exSys []) { input := .bytes [1, 2], output := .redirect .capture, error := .logger 4 } s' = .ok w ∧
    w = { tasks := [.copy .procStderr (.user (.logger 4)) none, .writeStream [1, 2] .procStdin none],
          stdout := some .procStdout } := by
  have h : wired? (exSys []) (exCmd "cat" []
      { input := .bytes [1, 2], output := .redirect .capture, error := .logger 4 }) { tab := [0, 1, 2] } =
      some { tasks := [.copy .procStderr (.user (.logger 4)) none, .writeStream [1, 2] .procStdin none],
             stdout := some .procStdout } := by decide +kernel
  obtain ⟨s', a, b⟩ := wired?_some h
  exact ⟨s', _, a, b, rfl⟩

/-- Did the program start, and the set-up of its streams fail with `e`? -/
def wireFails (sys : Sys) (c : Command) (s : LS) (e : Exc) : Bool :=
  match launch sys c s with
  | (.ok (), s') =>
    match wire sys c.options s' with
    | .ok _ => false
    | .error e' => e = e'
  | _ => false

theorem wireFails_iff {sys : Sys} {c : Command} {s : LS} {e : Exc} (h : wireFails sys c s e = true) :
    ∃ s', launch sys c s = (.ok (), s') ∧ wire sys c.options s' = .error e := by
  unfold wireFails at h
  split at h
  · next s' h1 =>
    split at h
    · cases h
    · next e' h2 => simp only [decide_eq_true_eq] at h; subst h; exact ⟨s', h1, h2⟩
  · cases h

/-- C12 fails on a terminal with stdout=DEVNULL and stderr=STDOUT: the program is started, and then
setting up its streams fails with AssertionError. -/
theorem C12_pty_stderr_only_false :
    let c := exCmd "ls" [] { pty := .on, output := .redirect .devnull, error := .redirect .stdout }
    ∃ s', launch (exSys []) c { tab := [0, 1, 2] } = (.ok (), s') ∧
      wire (exSys []) c.options s' = .error .assertionError :=
  wireFails_iff (by decide +kernel)

/-- C12 fails on a terminal with stdout redirected to a file: standard error does not go where standard
output goes (descriptor 3 is the file), but to the terminal (child side 5), which is handed to the caller. -/
theorem C12_pty_default_stderr_false :
    let c := exCmd "ls" [] { pty := .on, output := .path "out".toList }
    ∃ s' w, launch (exSys []) c { tab := [0, 1, 2] } = (.ok (), s') ∧ wire (exSys []) c.options s' = .ok w ∧
      s'.stdout = .file 3 "out".toList .wb ∧ s'.stderr = .int 5 ∧ w.stdout = some .ptyReader ∧
      w.readers .ptyReader = [] := by
  have h : wired? (exSys []) (exCmd "ls" [] { pty := .on, output := .path "out".toList })
      { tab := [0, 1, 2] } = some { stdin := some .ptyWriter, stdout := some .ptyReader } := by
    decide +kernel
  obtain ⟨s', a, b⟩ := wired?_some h
  obtain ⟨s'', a', b'⟩ := eval_ok (m := launch (exSys []) (exCmd "ls" [] { pty := .on, output := .path "out".toList }))
    (s := { tab := [0, 1, 2] })
    (P := fun s' => s'.stdout = .file 3 "out".toList .wb ∧ s'.stderr = .int 5) (by decide +kernel) (by decide +kernel)
  rw [a'] at a
  simp only [Prod.mk.injEq, true_and] at a
  subst a
  exact ⟨_, _, a', b, b'.1, b'.2, rfl, by decide⟩

/-! ## C13 -/

theorem cmd_stdout_capture {c : Command} (ha : c.args ≠ []) :
    c.stdout (.redirect .capture) = .ok (.mk c.args { c.options with
      output := .redirect .capture, outputAppend := false, outputClose := false }) := by
  have : c.args.length ≠ 0 := by simpa using ha
  simp [Command.stdout, Options.setStdout, Target.eqR, Command.make, this, bind, Except.bind]

theorem cmd_stderr_capture {c : Command} (ha : c.args ≠ []) :
    c.stderr (.redirect .capture) = .ok (.mk c.args { c.options with
      error := .redirect .capture, errorAppend := false, errorClose := false }) := by
  have : c.args.length ≠ 0 := by simpa using ha
  simp [Command.stderr, Options.setStderr, Command.make, this, bind, Except.bind]

theorem preflight_refused {c : Command} (ha : c.args ≠ [])
    (ho : c.options.output = .redirect .default ∨ c.options.output = .redirect .capture)
    (he : c.options.error = .redirect .capture) : aiterPreflight c = .error .runtimeError := by
  obtain ⟨args, o⟩ := c
  rcases ho with ho | ho
  · have : aiterRedirect (.mk args o) = _ := if_pos (by rw [ho]; rfl)
    rw [aiterPreflight, this, cmd_stdout_capture ha]
    dsimp only [Command.options] at he ⊢
    rw [he]
    rfl
  · have e1 : aiterRedirect (.mk args o) = .ok (.mk args o) := by
      unfold aiterRedirect
      rw [ho]
      rfl
    rw [aiterPreflight, e1]
    dsimp only
    rw [ho, he]
    rfl

/-- C13. `async for` over a command that would capture both streams (stdout CAPTURE, or not redirected,
and stderr CAPTURE) raises RuntimeError; nothing was started, opened or closed. -/
theorem C13_iteration_refused {sys : Sys} (c : Command) (ha : c.args ≠ []) (s : LS)
    (ho : c.options.output = .redirect .default ∨ c.options.output = .redirect .capture)
    (he : c.options.error = .redirect .capture) : iterStart sys c s = (.error .runtimeError, s) := by
  have := preflight_refused ha ho he
  simp [iterStart, this]

/-- C13. `async for` over a command that would not capture both streams is not refused: a command is launched (which one: see
`C13_iteration_command`), and the iteration fails only if the launch does. -/
theorem C13_iteration_accepted (sys : Sys) (c : Command) (ha : c.args ≠ []) (s : LS)
    (h : c.options.error.eqR .capture = false ∨
      (c.options.output.eqR .default = false ∧ c.options.output.eqR .capture = false)) :
    ∃ d, (iterStart sys c s).2 = (launch sys d s).2 ∧
      ((iterStart sys c s).1 = .ok d ↔ (launch sys d s).1 = .ok ()) ∧
      ∀ e, (iterStart sys c s).1 = .error e ↔ (launch sys d s).1 = .error e := by
  have key : ∃ d, aiterPreflight c = .ok d := by
    obtain ⟨args, o⟩ := c
    have hsd : ∀ {t : Target} {a b : Redirect}, t.eqR a = true → t.eqR b = true → a.val = b.val := by
      intro t a b h1 h2
      cases t <;> simp [Target.eqR] at h1 h2
      · rw [← h1, ← h2]
      · rw [← h1, ← h2]
    dsimp only [Command.options] at h
    cases h1 : o.output.eqR .default with
    | true =>
      have e1 : aiterRedirect (.mk args o) = _ := if_pos h1
      rw [aiterPreflight, e1, cmd_stdout_capture ha]
      rcases h with h | h
      · exact ⟨_, if_neg (by dsimp only [Command.options]; rw [h, Bool.and_false]; decide)⟩
      · rw [h.1] at h1; cases h1
    | false =>
      cases h2 : o.output.eqR .devnull && o.error.eqR .stdout with
      | true =>
        have e1 : aiterRedirect (.mk args o) = (Command.mk args o).stderr (.redirect .capture) :=
          (if_neg (by dsimp only [Command.options]; rw [h1]; decide)).trans (if_pos h2)
        rw [aiterPreflight, e1, cmd_stderr_capture ha]
        rw [Bool.and_eq_true] at h2
        have : o.output.eqR .capture = false := by
          cases hx : o.output.eqR .capture with
          | false => rfl
          | true => have := hsd hx h2.1; revert this; decide
        exact ⟨_, if_neg (by dsimp only [Command.options]; rw [this, Bool.false_and]; decide)⟩
      | false =>
        have e1 : aiterRedirect (.mk args o) = .ok (.mk args o) :=
          (if_neg (by dsimp only [Command.options]; rw [h1]; decide)).trans
            (if_neg (by dsimp only [Command.options]; rw [h2]; decide))
        rw [aiterPreflight, e1]
        rcases h with h | h
        · exact ⟨_, if_neg (by dsimp only [Command.options]; rw [h, Bool.and_false]; decide)⟩
        · exact ⟨_, if_neg (by dsimp only [Command.options]; rw [h.2, Bool.false_and]; decide)⟩
  obtain ⟨d, hd⟩ := key
  refine ⟨d, ?_⟩
  unfold iterStart
  rw [hd]
  dsimp only
  rcases launch sys d s with ⟨o, s'⟩
  cases o <;> simp

/-- The hypothesis is met by a command with the default options. -/
example : (exCmd "ls" [] {}).options.error.eqR .capture = false := by decide

/-- C13. What an accepted iteration launches: the given command, with stdout CAPTURE if stdout was not
redirected, with stderr CAPTURE if the user asked for stderr only, and otherwise unchanged. -/
theorem C13_iteration_command {sys : Sys} (c d : Command) (ha : c.args ≠ []) (s s' : LS)
    (h : iterStart sys c s = (.ok d, s')) :
    launch sys d s = (.ok (), s') ∧ d.args = c.args ∧
    ¬ (d.options.output.eqR .capture = true ∧ d.options.error.eqR .capture = true) ∧
    (c.options.output.eqR .default = true → d.options = { c.options with
      output := .redirect .capture, outputAppend := false, outputClose := false }) ∧
    (c.options.output.eqR .devnull = true → c.options.error.eqR .stdout = true →
      d.options = { c.options with
        error := .redirect .capture, errorAppend := false, errorClose := false }) ∧
    (c.options.output.eqR .default = false →
      ¬ (c.options.output.eqR .devnull = true ∧ c.options.error.eqR .stdout = true) → d = c) := by
  unfold iterStart at h
  split at h
  · cases h
  · next d' hd =>
    split at h
    · cases h
    · next s'' hl =>
      simp only [Prod.mk.injEq, Except.ok.injEq] at h
      obtain ⟨rfl, rfl⟩ := h
      unfold aiterPreflight at hd
      split at hd
      · cases hd
      · next r hr =>
        split at hd
        · cases hd
        · next hno =>
          simp only [Except.ok.injEq] at hd
          subst hd
          have dv : c.options.output.eqR .devnull = true → c.options.output.eqR .default = false := by
            intro h1
            cases ht : c.options.output <;> rw [ht] at h1 <;> simp [Target.eqR] at h1 ⊢
            · subst h1; decide
            · subst h1; decide
          unfold aiterRedirect at hr
          by_cases hdef : c.options.output.eqR .default = true
          · rw [if_pos hdef, cmd_stdout_capture ha] at hr
            simp only [Except.ok.injEq] at hr
            subst hr
            refine ⟨hl, rfl, by simpa using hno, fun _ => rfl, ?_, ?_⟩
            · intro h1; rw [dv h1] at hdef; cases hdef
            · intro h1; rw [h1] at hdef; cases hdef
          · rw [if_neg hdef] at hr
            by_cases hds : (c.options.output.eqR .devnull && c.options.error.eqR .stdout) = true
            · rw [if_pos hds, cmd_stderr_capture ha] at hr
              simp only [Except.ok.injEq] at hr
              subst hr
              refine ⟨hl, rfl, by simpa using hno, fun h1 => absurd h1 hdef, fun _ _ => rfl, ?_⟩
              intro _ h1; exact (h1 (by simpa using hds)).elim
            · rw [if_neg hds] at hr
              simp only [Except.ok.injEq] at hr
              subst hr
              refine ⟨hl, rfl, by simpa using hno, fun h1 => absurd h1 hdef, ?_, fun _ _ => rfl⟩
              intro h1 h2; simp [h1, h2] at hds

/-- The caller gets stderr only for CAPTURE (or the constant `subprocess.PIPE`). -/
theorem stderr_caller {sys : Sys} (hs : sys.Ok) (c : Command) (s : LS) {s' : LS} {w : Wired}
    (h : launch sys c s = (.ok (), s')) (hw : wire sys c.options s' = .ok w)
    (hc : c.options.error ≠ .redirect .capture) (hp : c.options.error ≠ .int (-1)) : w.stderr = none := by
  by_cases hno : c.options.output.eqR .devnull = true ∧ c.options.error.eqR .stdout = true
  · exact (C12_stderr_only c s h hw hno.1 hno.2).2.1.2.2
  · have := C12_stderr hs c s h hw hno
    cases ht : c.options.error with
    | redirect q =>
      rw [ht] at this hc
      cases q <;> simp [StderrSpec, ErrMerged, OutDirect, OutCopied] at this hc
      · exact this.2.2
      · exact this.2.2
      · exact this.2.2
      · exact this.2.2
      · split at this
        · exact this.2.2
        · exact this.2.2
    | int n =>
      rw [ht] at this hp
      simp only [StderrSpec] at this
      rw [if_neg (by simpa using hp)] at this
      split at this
      · exact this.2.2
      · exact this.2.2
    | path p => rw [ht] at this; obtain ⟨_, _, h⟩ := this; exact h.2.2
    | pathLike p => rw [ht] at this; obtain ⟨_, _, h⟩ := this; exact h.2.2
    | ioBase p => rw [ht] at this; exact this.2.2
    | stringIO p => rw [ht] at this; exact this.2.2
    | bytesIO p => rw [ht] at this; exact this.2.2
    | bytearray p => rw [ht] at this; exact this.2.2
    | logger p => rw [ht] at this; exact this.2.2
    | streamWriter p => rw [ht] at this; exact this.2.2
    | str p => rw [ht] at this; exact this.elim
    | bytes p => rw [ht] at this; exact this.elim
    | streamReader p => rw [ht] at this; exact this.elim
    | command => rw [ht] at this; exact this.elim
    | none => rw [ht] at this; exact this.elim
    | other p => rw [ht] at this; exact this.elim

/-- Without a terminal, the caller gets stdout only for CAPTURE (or the constant `subprocess.PIPE`). -/
theorem stdout_caller {sys : Sys} (c : Command) (s : LS) {s' : LS} {w : Wired}
    (h : launch sys c s = (.ok (), s')) (hw : wire sys c.options s' = .ok w)
    (hpty : c.options.pty.truthy = false)
    (hc : c.options.output ≠ .redirect .capture) (hp : c.options.output ≠ .int (-1)) : w.stdout = none := by
  have hq : s'.pty = none := by
    have := (launch_res h).1
    rw [hpty] at this
    cases hq : s'.pty with
    | none => rfl
    | some p => rw [hq] at this; cases this
  have := C12_stdout c s h hw
  cases ht : c.options.output with
  | redirect q =>
    rw [ht] at this hc
    cases q <;> simp [StdoutSpec, OutDirect, OutCopied, hq] at this hc
    all_goals exact this.2.2
  | int n =>
    rw [ht] at this hp
    simp only [StdoutSpec] at this
    rw [if_neg (by simpa using hp)] at this
    simp only [OutDirect, hq, Option.map_none] at this
    exact this.2.2
  | path p => rw [ht] at this; obtain ⟨_, _, h⟩ := this; simp only [OutDirect, hq, Option.map_none] at h; exact h.2.2
  | pathLike p => rw [ht] at this; obtain ⟨_, _, h⟩ := this; simp only [OutDirect, hq, Option.map_none] at h; exact h.2.2
  | ioBase p => rw [ht] at this; simp only [StdoutSpec, OutDirect, hq, Option.map_none] at this; exact this.2.2
  | stringIO p => rw [ht] at this; exact this.2.2
  | bytesIO p => rw [ht] at this; exact this.2.2
  | bytearray p => rw [ht] at this; exact this.2.2
  | logger p => rw [ht] at this; exact this.2.2
  | streamWriter p => rw [ht] at this; exact this.2.2
  | str p => rw [ht] at this; exact this.elim
  | bytes p => rw [ht] at this; exact this.elim
  | streamReader p => rw [ht] at this; exact this.elim
  | command => rw [ht] at this; exact this.elim
  | none => rw [ht] at this; exact this.elim
  | other p => rw [ht] at this; exact this.elim

/-- C13. With stdout not redirected, iteration captures stdout (or the terminal) and nothing else. -/
theorem C13_iteration_stdout {sys : Sys} (hs : sys.Ok) (c d : Command) (ha : c.args ≠ []) (s s' : LS)
    (w : Wired) (h : iterStart sys c s = (.ok d, s')) (hw : wire sys d.options s' = .ok w)
    (ho : c.options.output = .redirect .default) (hp : c.options.error ≠ .int (-1)) :
    w.stdout = some (outEnds s'.pty).lib ∧ w.stderr = none := by
  obtain ⟨hl, _, hno, hd, _, _⟩ := C13_iteration_command c d ha s s' h
  have hd := hd (by rw [ho]; rfl)
  have hout : d.options.output = .redirect .capture := by rw [hd]
  have herr : d.options.error = c.options.error := by rw [hd]
  have h1 := C12_stdout d s hl hw
  rw [hout] at h1
  refine ⟨h1.2.2, stderr_caller hs d s hl hw ?_ (by rw [herr]; exact hp)⟩
  intro h2
  exact hno ⟨by rw [hout]; rfl, by rw [h2]; rfl⟩

/-- C13. With stdout=DEVNULL and stderr=STDOUT, iteration captures stderr and, without a terminal,
nothing else. -/
theorem C13_iteration_stderr {sys : Sys} (hs : sys.Ok) (c d : Command) (ha : c.args ≠ []) (s s' : LS)
    (w : Wired) (h : iterStart sys c s = (.ok d, s')) (hw : wire sys d.options s' = .ok w)
    (hpty : c.options.pty.truthy = false)
    (ho : c.options.output = .redirect .devnull) (he : c.options.error = .redirect .stdout) :
    w.stdout = none ∧ w.stderr = some .procStderr := by
  obtain ⟨hl, _, hno, _, hd, _⟩ := C13_iteration_command c d ha s s' h
  have hd := hd (by rw [ho]; rfl) (by rw [he]; rfl)
  have hout : d.options.output = .redirect .devnull := by rw [hd]; exact ho
  have herr : d.options.error = .redirect .capture := by rw [hd]
  have h2 := C12_stderr hs d s hl hw (by rw [herr]; simp [Target.eqR])
  rw [herr] at h2
  exact ⟨stdout_caller d s hl hw (by rw [hd]; exact hpty) (by rw [hout]; simp) (by rw [hout]; simp), h2.2.2⟩

/-- C13. Without a terminal, iteration never captures both streams (`subprocess.PIPE`, which is not a
documented redirection, excepted), and captures none if the user redirected both elsewhere. -/
theorem C13_iteration_single {sys : Sys} (hs : sys.Ok) (c d : Command) (ha : c.args ≠ []) (s s' : LS)
    (w : Wired) (h : iterStart sys c s = (.ok d, s')) (hw : wire sys d.options s' = .ok w)
    (hpty : c.options.pty.truthy = false)
    (hp1 : c.options.output ≠ .int (-1)) (hp2 : c.options.error ≠ .int (-1)) :
    (w.stdout = none ∨ w.stderr = none) ∧
    (c.options.output.eqR .default = false → c.options.output.eqR .devnull = false →
      c.options.output ≠ .redirect .capture → c.options.error ≠ .redirect .capture →
      w.stdout = none ∧ w.stderr = none) := by
  obtain ⟨hl, _, hno, hd1, hd2, hd3⟩ := C13_iteration_command c d ha s s' h
  have hpd : d.options.pty.truthy = false ∧ d.options.output ≠ .int (-1) ∧ d.options.error ≠ .int (-1) := by
    by_cases h1 : c.options.output.eqR .default = true
    · rw [hd1 h1]; exact ⟨hpty, by simp, hp2⟩
    · by_cases h2 : c.options.output.eqR .devnull = true ∧ c.options.error.eqR .stdout = true
      · rw [hd2 h2.1 h2.2]; exact ⟨hpty, hp1, by simp⟩
      · rw [hd3 (by simpa using h1) h2]; exact ⟨hpty, hp1, hp2⟩
  obtain ⟨k1, k2, k3⟩ := hpd
  refine ⟨?_, ?_⟩
  · by_cases h1 : d.options.output = .redirect .capture
    · right
      refine stderr_caller hs d s hl hw ?_ k3
      intro h2
      exact hno ⟨by rw [h1]; rfl, by rw [h2]; rfl⟩
    · left; exact stdout_caller d s hl hw k1 h1 k2
  · intro g1 g2 g3 g4
    have : d = c := hd3 g1 (by simp [g2])
    subst this
    exact ⟨stdout_caller d s hl hw k1 g3 k2, stderr_caller hs d s hl hw g4 k3⟩

/-- C13. The same check for a pipeline concerns its last command. -/
theorem C13_pipeline_refused (p : Pipeline) (c : Command) (cs : List Command) (hp : p.commands = cs ++ [c])
    (ha : c.args ≠ [])
    (ho : c.options.output = .redirect .default ∨ c.options.output = .redirect .capture)
    (he : c.options.error = .redirect .capture) : aiterPreflightPipe p = .error .runtimeError := by
  have := preflight_refused ha ho he
  simp [aiterPreflightPipe, Pipeline.modifyLast, hp, this, bind, Except.bind]

/-- C13. `await` of a command with both streams captured raises ValueError, starts and opens nothing,
and closes each descriptor handed to it exactly once. -/
theorem C13_await_refused {sys : Sys} (hc : sys.closesOk) (c : Command) (T : List Int) (hT : T.Nodup)
    (hown : ∀ x ∈ handed c.options, x ∈ T) (hd : (handed c.options).Nodup)
    (ho : c.options.output = .redirect .capture) (he : c.options.error = .redirect .capture) :
    ∃ s', runCommandStart sys c false { tab := T } = (.error .valueError, s') ∧
      s'.opened = [] ∧ s'.closed = handed c.options ∧ s'.ebadf = [] ∧
      ∀ x, x ∈ s'.tab ↔ x ∈ T ∧ x ∉ handed c.options := by
  have hm : isMultipleCapture c.options = true := by
    simp [isMultipleCapture, ho, he, fromDefault, Target.eqR]
  have hcl : (cleanup sys c.options { tab := T }).2 = false := closeAll_noerr hc _ _
  refine ⟨(cleanup sys c.options { tab := T }).1, ?_, ?_⟩
  · simp [runCommandStart, hm, hcl]
  · have hm' : ∀ x ∈ fds (cleanupEntries c.options), x ∈ T := by
      intro x hx; rw [fds_cleanupEntries] at hx; exact hown x hx
    have hcl' : closeAll sys (cleanupEntries c.options) { tab := T } =
        ((cleanup sys c.options { tab := T }).1, false) := by
      refine Prod.ext rfl ?_
      exact hcl
    obtain ⟨_, b2, b3, _, b5, _, b7⟩ := closeAll_ok _ hcl' hT (by rw [fds_cleanupEntries]; exact hd) hm'
    rw [fds_cleanupEntries] at b2 b3
    exact ⟨by rw [b7], by simpa using b3, b5, b2⟩

/-- C13. Inside a pipeline that is iterated or entered (its ends are in the caller's hands), the first and
last command may have both streams captured: they are launched like any other. -/
theorem C13_pipeline_ends_accepted (sys : Sys) (c : Command) (s : LS) :
    runCommandStart sys c true s = launch sys c s := by simp [runCommandStart]

/-- C13. `await` of a command that does not have both streams CAPTURE is not refused: the command is launched. -/
theorem C13_await_accepted (sys : Sys) (c : Command) (s : LS)
    (h : c.options.output.eqR .capture = false ∨ c.options.error.eqR .capture = false) :
    runCommandStart sys c false s = launch sys c s := by
  have key : ∀ (t : Target) (fd : Fin 3) (b : PtyOpt), fd ≠ 0 → t.eqR .capture = false →
      (fromDefault t fd b).eqR .capture = false := by
    intro t fd b hfd ht
    unfold fromDefault
    split
    · cases b.truthy <;> (revert fd; decide)
    · exact ht
  have hm : isMultipleCapture c.options = false := by
    unfold isMultipleCapture
    rcases h with h | h
    · rw [key _ _ _ (by decide) h]; rfl
    · rw [key _ 2 _ (by decide) h, Bool.and_false]
  simp [runCommandStart, hm]

/-- The hypothesis is met by a command whose stdout alone is CAPTURE. -/
example : (exCmd "ls" [] { output := .redirect .capture }).options.output.eqR .capture = true ∧
    (exCmd "ls" [] { output := .redirect .capture }).options.error.eqR .capture = false := by decide

/-- C13. An accepted `await` never leaves both streams to the caller, without a terminal. -/
theorem C13_await_single {sys : Sys} (hs : sys.Ok) (c : Command) (s s' : LS) (w : Wired)
    (h : runCommandStart sys c false s = (.ok (), s')) (hw : wire sys c.options s' = .ok w)
    (hpty : c.options.pty.truthy = false)
    (hp1 : c.options.output ≠ .int (-1)) (hp2 : c.options.error ≠ .int (-1)) :
    launch sys c s = (.ok (), s') ∧ (w.stdout = none ∨ w.stderr = none) := by
  unfold runCommandStart at h
  split at h
  · cases h
  · next hm =>
    refine ⟨h, ?_⟩
    by_cases h1 : c.options.output = .redirect .capture
    · right
      refine stderr_caller hs c s h hw ?_ hp2
      intro h2
      apply hm
      simp [isMultipleCapture, h1, h2, fromDefault, Target.eqR]
    · left; exact stdout_caller c s h hw hpty h1 hp1

-- The hypotheses of the theorems on iteration are met by a command that is not redirected.
example : ∃ s', iterStart (exSys []) (exCmd "ls") { tab := [0, 1, 2] } =
    (.ok (exCmd "ls" [] { output := .redirect .capture }), s') ∧ s'.stdout = PIPE := by
  obtain ⟨s', h, h'⟩ := eval_ok (m := launch (exSys []) (exCmd "ls" [] { output := .redirect .capture }))
    (s := { tab := [0, 1, 2] }) (P := fun s' => s'.stdout = PIPE) (by decide +kernel) (by decide +kernel)
  refine ⟨s', ?_, h'⟩
  have : aiterPreflight (exCmd "ls") = .ok (exCmd "ls" [] { output := .redirect .capture }) := rfl
  rw [iterStart, this]
  dsimp only
  rw [h]

-- and those of `C13_await_refused` by a command that was handed descriptors.
example : (handed { input := .int 5, inputClose := true, output := .redirect .capture, error := .redirect .capture, passFds := [6], passFdsClose := true }) = [5, 6] := by decide

/-- C13 fails for the constant `subprocess.PIPE` (-1), which is accepted as a redirection: `await
sh("ls").stdout(PIPE).stderr(PIPE)` starts the program with both streams left to a caller who is not
there. -/
theorem C13_pipe_constant_false :
    let c := exCmd "ls" [] { output := .int (-1), error := .int (-1) }
    ∃ s' w, runCommandStart (exSys []) c false { tab := [0, 1, 2] } = (.ok (), s') ∧
      wire (exSys []) c.options s' = .ok w ∧ w.stdout = some .procStdout ∧ w.stderr = some .procStderr := by
  have h : wired? (exSys []) (exCmd "ls" [] { output := .int (-1), error := .int (-1) })
      { tab := [0, 1, 2] } = some { tasks := [.writeStream [] .procStdin none], stdout := some .procStdout, stderr := some .procStderr } := by decide +kernel
  obtain ⟨s', a, b⟩ := wired?_some h
  exact ⟨s', _, a, b, rfl, rfl⟩

/-- C13 fails on a terminal: with stdout redirected to a file and stderr captured, `await` starts the
program and leaves both the terminal and stderr to a caller who is not there. -/
theorem C13_pty_false :
    let c := exCmd "ls" [] { pty := .on, output := .path "out".toList, error := .redirect .capture }
    ∃ s' w, runCommandStart (exSys []) c false { tab := [0, 1, 2] } = (.ok (), s') ∧
      wire (exSys []) c.options s' = .ok w ∧ w.stdout = some .ptyReader ∧ w.stderr = some .procStderr := by
  have h : wired? (exSys []) (exCmd "ls" []
      { pty := .on, output := .path "out".toList, error := .redirect .capture })
      { tab := [0, 1, 2] } = some { stdin := some .ptyWriter, stdout := some .ptyReader, stderr := some .procStderr } := by decide +kernel
  obtain ⟨s', a, b⟩ := wired?_some h
  exact ⟨s', _, a, b, rfl, rfl⟩

/-- C13: a refused iteration does not close the descriptors it was handed (awaiting does). -/
theorem C13_iteration_keeps_descriptors :
    let c := exCmd "cat" [] { input := .int 5, inputClose := true, error := .redirect .capture }
    iterStart (exSys []) c { tab := [0, 1, 2, 5] } = (.error .runtimeError, { tab := [0, 1, 2, 5] }) :=
  C13_iteration_refused _ (by simp [Command.args]) _ (Or.inl rfl) rfl

end Shellous
