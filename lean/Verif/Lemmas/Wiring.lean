import Verif.Lemmas.Launch
import Verif.Spec.Wiring

/-!
# Lemmas for C11 - C13
-/

namespace Shellous

/-! ## Results of the set-up functions -/

theorem openFile_res {sys : Sys} {s s' : LS} {n : Int} (h : openFile sys s = (.ok n, s')) :
    n ∈ s'.opened ∧ s'.rest = s.rest ∧ (∀ x ∈ s.opened, x ∈ s'.opened) ∧ s'.positioned = s.positioned := by
  simp only [openFile, M.bind_ok, call_ok, newFd] at h
  obtain ⟨_, s1, ⟨_, rfl⟩, h⟩ := h
  simp only [Prod.mk.injEq, Except.ok.injEq] at h
  obtain ⟨rfl, rfl⟩ := h
  exact ⟨by simp, rfl, fun x hx => by simp [hx], rfl⟩

/-- The handle and the bytes for a configured input. -/
def InRes (sys : Sys) (s : LS) (h : Handle) (ib : Option Bytes) : Target → Prop
  | .bytes b => h = PIPE ∧ ib = some b
  | .bytearray id => h = PIPE ∧ ib = some (sys.bytesOf id)
  | .str x => h = PIPE ∧ ∃ b, sys.encode x = .ok b ∧ ib = some b
  | .bytesIO _ | .stringIO _ | .streamReader _ => h = PIPE ∧ ib = none
  | .path p => ∃ n ∈ s.opened, h = .file n p .rb ∧ ib = none
  | .int n => h = .int n ∧ ib = none
  | .redirect .inherit => h = .sys 0 ∧ ib = none
  | .redirect .devnull => h = .int (-3) ∧ ib = none
  | .redirect .stdout => h = .int (-2) ∧ ib = none
  | .redirect .capture => h = PIPE ∧ ib = none
  | _ => False

theorem setupInput_res {sys : Sys} {t : Target} {close : Bool} {s s' : LS} {r}
    (h : setupInput sys t close s = (.ok r, s')) :
    InRes sys s' r.1 r.2 t ∧ s'.rest = s.rest ∧ (∀ x ∈ s.opened, x ∈ s'.opened) ∧
      s'.positioned = s.positioned := by
  cases t <;> simp only [setupInput, M.bind_ok, M.pure_ok, raise_ok] at h
  case bytes b => obtain ⟨rfl, rfl⟩ := h; simp [InRes]
  case bytearray b => obtain ⟨rfl, rfl⟩ := h; simp [InRes]
  case streamReader b => obtain ⟨rfl, rfl⟩ := h; simp [InRes]
  case stringIO b => obtain ⟨rfl, rfl⟩ := h; simp [InRes]
  case bytesIO b => obtain ⟨rfl, rfl⟩ := h; simp [InRes]
  case str x =>
    cases hx : sys.encode x <;> simp [hx] at h
    obtain ⟨rfl, rfl⟩ := h; simp [InRes, hx]
  case path p =>
    obtain ⟨n, s1, h1, _, s2, h2, rfl, rfl⟩ := h
    simp at h2; subst h2
    obtain ⟨a, b, c, d⟩ := openFile_res h1
    exact ⟨⟨n, a, rfl, rfl⟩, b, c, d⟩
  case int n =>
    cases close <;> simp at h <;> obtain ⟨rfl, rfl⟩ := h <;> simp [InRes, LS.rest]
  case redirect q =>
    cases q <;> simp only [M.pure_ok, raise_ok] at h
    case inherit => obtain ⟨rfl, rfl⟩ := h; simp [InRes]
    case capture => obtain ⟨rfl, rfl⟩ := h; simp [InRes]
    all_goals cases close <;> simp at h <;> obtain ⟨rfl, rfl⟩ := h <;> simp [InRes, LS.rest, Redirect.val]

/-- The handle for a configured output. -/
def OutRes (fd : Fin 3) (append : Bool) (s : LS) (h : Handle) : Target → Prop
  | .redirect .buffer => h = PIPE
  | .redirect .capture => h = PIPE
  | .redirect .inherit => h = .sys fd
  | .redirect .devnull => h = .int (-3)
  | .redirect .stdout => h = .int (-2)
  | .int n => h = .int n
  | .path p | .pathLike p => ∃ n ∈ s.opened, h = .file n p (if append then .ab else .wb)
  | .ioBase id => h = .obj id
  | .stringIO _ | .bytesIO _ | .bytearray _ | .logger _ | .streamWriter _ => h = PIPE
  | _ => False

/-- Everything in `LS.rest` but the two buffers. -/
def LS.rest3 (s : LS) :=
  (s.subcmds, s.passFds, s.posArgs, s.inputBytes, s.stderrOnly, s.pty, s.stdin, s.stdout, s.stderr)

theorem LS.rest3_of_rest {s s' : LS} (h : s'.rest = s.rest) :
    s'.rest3 = s.rest3 ∧ s'.outputBuf = s.outputBuf ∧ s'.errorBuf = s.errorBuf := by
  simp only [LS.rest, LS.rest3, Prod.mk.injEq] at *
  simp_all

theorem setupOutput_res {sys : Sys} {fd : Fin 3} {t : Target} {ap close : Bool}
    {s s' : LS} {r} (hso : (s.stderrOnly && fd == 2) = false)
    (h : setupOutput sys fd t ap close s = (.ok r, s')) :
    OutRes fd ap s' r t ∧ s'.rest3 = s.rest3 ∧
      s'.outputBuf = (s.outputBuf || (decide (t = .redirect .buffer) && decide (fd = 1))) ∧
      s'.errorBuf = (s.errorBuf || (decide (t = .redirect .buffer) && !decide (fd = 1))) ∧
      (∀ x ∈ s.opened, x ∈ s'.opened) ∧ s'.positioned = s.positioned ++ positions ap t := by
  simp only [setupOutput, M.bind_ok, getS_ok] at h
  obtain ⟨_, _, ⟨rfl, rfl⟩, h⟩ := h
  cases t <;> simp only [hso, M.bind_ok, M.pure_ok, raise_ok, addFd_ok, Bool.false_eq_true,
    if_false] at h
  case path p =>
    obtain ⟨n, s1, h1, _, s2, h2, rfl, rfl⟩ := h
    subst h2
    obtain ⟨a, b, c, d⟩ := openFile_res h1
    obtain ⟨b1, b2, b3⟩ := LS.rest3_of_rest b
    exact ⟨⟨n, a, rfl⟩, b1, by simp [b2], by simp [b3], c, by simp [d, positions]⟩
  case pathLike p =>
    obtain ⟨n, s1, h1, _, s2, h2, rfl, rfl⟩ := h
    subst h2
    obtain ⟨a, b, c, d⟩ := openFile_res h1
    obtain ⟨b1, b2, b3⟩ := LS.rest3_of_rest b
    exact ⟨⟨n, a, rfl⟩, b1, by simp [b2], by simp [b3], c, by simp [d, positions]⟩
  case int n =>
    cases close <;> simp at h <;> obtain ⟨rfl, rfl⟩ := h <;> simp [OutRes, LS.rest3, positions]
  case redirect q =>
    cases q <;> simp only [M.pure_ok, raise_ok, M.bind_ok, modify_ok] at h
    case inherit => obtain ⟨rfl, rfl⟩ := h; simp [OutRes, positions]
    case capture => obtain ⟨rfl, rfl⟩ := h; simp [OutRes, positions]
    case buffer =>
      obtain ⟨_, s1, h1, rfl, rfl⟩ := h
      by_cases hfd : fd = 1
      · simp [hfd] at h1; subst h1; simp [OutRes, LS.rest3, positions, hfd]
      · simp [hfd] at h1; subst h1; simp [OutRes, LS.rest3, positions, hfd]
    all_goals
      cases close <;> simp at h <;> obtain ⟨rfl, rfl⟩ := h <;> simp [OutRes, LS.rest3, positions, Redirect.val]
  all_goals
    obtain ⟨_, s1, h1, rfl, rfl⟩ := h
    simp [setPosition] at h1
    obtain ⟨_, ⟨_, rfl⟩, rfl⟩ := h1
    simp [OutRes, LS.rest3, positions]

theorem setupOutput_only {sys : Sys} {t : Target} {ap close : Bool} {s s' : LS} {r}
    (hso : s.stderrOnly = true) (ht : t.eqR .stdout = true)
    (h : setupOutput sys 2 t ap close s = (.ok r, s')) :
    r = PIPE ∧ s' = { s with outputBuf := true } := by
  have : (∃ q, t = .redirect q) ∨ ∃ n, t = .int n := by
    cases t <;> simp [Target.eqR] at ht <;> simp
  rcases this with ⟨q, rfl⟩ | ⟨n, rfl⟩ <;>
  · simp only [setupOutput, M.bind_ok, getS_ok] at h
    obtain ⟨_, _, ⟨rfl, rfl⟩, h⟩ := h
    simp only [hso, Bool.true_and, beq_self_eq_true, if_true, M.bind_ok, modify_ok, M.pure_ok] at h
    obtain ⟨_, _, rfl, rfl, rfl⟩ := h
    exact ⟨rfl, by simp [hso]⟩

theorem setupOutput_pty {sys : Sys} {fd : Fin 3} {t : Target} {ap close : Bool}
    {s s' : LS} {r} (h : setupOutput sys fd t ap close s = (.ok r, s')) : s'.pty = s.pty := by
  by_cases hso : (s.stderrOnly && fd == 2) = true
  · by_cases hp : (∃ p, t = .path p) ∨ ∃ p, t = .pathLike p
    · simp only [setupOutput, M.bind_ok, getS_ok] at h
      obtain ⟨_, _, ⟨rfl, rfl⟩, h⟩ := h
      rcases hp with ⟨p, rfl⟩ | ⟨p, rfl⟩ <;>
      · simp only [M.bind_ok, M.pure_ok, addFd_ok] at h
        obtain ⟨n, s1, h1, _, s2, h2, rfl, rfl⟩ := h
        subst h2
        have := (openFile_res h1).2.1
        simp only [LS.rest, Prod.mk.injEq] at this
        exact this.2.2.2.2.2.2.2.1
    · simp only [setupOutput, M.bind_ok, getS_ok] at h
      obtain ⟨_, _, ⟨rfl, rfl⟩, h⟩ := h
      cases t <;> first
        | (exfalso; exact hp (Or.inl ⟨_, rfl⟩))
        | (exfalso; exact hp (Or.inr ⟨_, rfl⟩))
        | (simp only [hso, if_true, M.bind_ok, modify_ok, M.pure_ok] at h
           obtain ⟨_, _, rfl, _, rfl⟩ := h
           rfl)
  · rw [Bool.not_eq_true] at hso
    have := (setupOutput_res hso h).2.1
    simp only [LS.rest3, Prod.mk.injEq] at this
    exact this.2.2.2.2.2.1

/-- The handle after the terminal has been set up. -/
def viaPty (p : Option Pty) (h : Handle) : Handle :=
  match p with
  | some p => if h = PIPE then .int p.child else h
  | none => h

/-- The stderr handle after the terminal has been set up. -/
def viaPtyErr (p : Option Pty) (h : Handle) : Handle :=
  match p with
  | some p => if h = .int (-2) then .int p.child else h
  | none => h

theorem openPair_res {sys : Sys} {s s' : LS} {p} (h : openPair sys s = (.ok p, s')) :
    s'.rest = s.rest ∧ (∀ x ∈ s.opened, x ∈ s'.opened) ∧ s'.positioned = s.positioned := by
  simp only [openPair, M.bind_ok, call_ok, newFd, M.pure_ok, Prod.mk.injEq, Except.ok.injEq] at h
  obtain ⟨_, _, ⟨_, rfl⟩, _, _, ⟨_, rfl⟩, _, _, ⟨_, rfl⟩, _, rfl⟩ := h
  exact ⟨rfl, fun x hx => by simp [hx], rfl⟩

theorem setupPty_res {sys : Sys} {o : Options} {hh r : Handle × Handle × Handle} {s s' : LS}
    (hp : s.pty = none) (h : setupPty sys o hh s = (.ok r, s')) :
    s'.pty.isSome = o.pty.truthy ∧
    r = (viaPty s'.pty hh.1, viaPty s'.pty hh.2.1, viaPtyErr s'.pty hh.2.2) ∧
    s'.stderrOnly = s.stderrOnly ∧ s'.outputBuf = s.outputBuf ∧ s'.errorBuf = s.errorBuf ∧
    (∀ x ∈ s.opened, x ∈ s'.opened) ∧ s'.positioned = s.positioned := by
  unfold setupPty at h
  cases ht : o.pty.truthy
  · simp [ht] at h
    obtain ⟨rfl, rfl⟩ := h
    simp [hp, viaPty, viaPtyErr]
  · simp only [ht, if_true] at h
    split at h
    · simp at h
    · simp only [setupPty1, M.bind_ok, modify_ok, call_ok, addFd_ok, M.pure_ok] at h
      obtain ⟨⟨a, b⟩, s1, h1, _, _, ⟨_, rfl⟩, _, _, rfl, _, _, rfl, _, _, ⟨_, rfl⟩, rfl, rfl⟩ := h
      obtain ⟨r1, o1, p1⟩ := openPair_res h1
      simp only [LS.rest, Prod.mk.injEq] at r1
      obtain ⟨_, _, _, _, a5, a6, a7, _⟩ := r1
      exact ⟨rfl, rfl, a7, a5, a6, o1, p1⟩

/-- The result of setting up the redirections. -/
theorem setupRedirects_res {sys : Sys} {o : Options} {s s' : LS} {u : Unit}
    (hp : s.pty = none) (hso : s.stderrOnly = false) (hob : s.outputBuf = false)
    (heb : s.errorBuf = false) (h : setupRedirects sys o s = (.ok u, s')) :
    s'.pty.isSome = o.pty.truthy ∧
    s'.stderrOnly = (o.output.eqR .devnull && o.error.eqR .stdout) ∧
    (∃ h0, InRes sys s' h0 s'.inputBytes (fromDefault o.input 0 o.pty) ∧ s'.stdin = viaPty s'.pty h0) ∧
    (∃ h1, OutRes 1 o.outputAppend s' h1 (fromDefault o.output 1 o.pty) ∧ s'.stdout = viaPty s'.pty h1) ∧
    (s'.stderrOnly = false →
      (∃ h2, OutRes 2 o.errorAppend s' h2 (fromDefault o.error 2 o.pty) ∧ s'.stderr = viaPtyErr s'.pty h2) ∧
      s'.outputBuf = decide (fromDefault o.output 1 o.pty = .redirect .buffer) ∧
      s'.errorBuf = decide (fromDefault o.error 2 o.pty = .redirect .buffer)) ∧
    (s'.stderrOnly = true → s'.stderr = PIPE ∧ s'.outputBuf = true ∧ s'.errorBuf = false) ∧
    (∀ x ∈ s.opened, x ∈ s'.opened) ∧
    s'.positioned = s.positioned ++ positions o.outputAppend o.output ++ positions o.errorAppend o.error := by
  simp only [setupRedirects, M.bind_ok, modify_ok] at h
  obtain ⟨⟨stdin, ib⟩, s1, h1, _, s2, h2, stdout, s3, h3, stderr, s4, h4, hh, s5, h5, h6⟩ := h
  obtain ⟨i1, i2, i3, i4⟩ := setupInput_res h1
  dsimp only at i1
  have e2 : s2.stderrOnly = (o.output.eqR .devnull && o.error.eqR .stdout) ∧ s2.opened = s1.opened ∧
      s2.positioned = s1.positioned ∧ s2.pty = s1.pty ∧ s2.outputBuf = s1.outputBuf ∧
      s2.errorBuf = s1.errorBuf := by
    simp only [LS.rest, Prod.mk.injEq] at i2
    simp only [noteStderrOnly, modify_ok] at h2
    by_cases hb : (o.output.eqR .devnull && o.error.eqR .stdout) = true
    · rw [if_pos hb] at h2; subst h2; simp [hb]
    · rw [if_neg hb] at h2; subst h2
      rw [Bool.not_eq_true] at hb
      simp [hb, i2, hso]
  obtain ⟨e2a, e2b, e2c, e2d, e2e, e2f⟩ := e2
  obtain ⟨o1, o2, o3, o4, o5, o6⟩ := setupOutput_res (by simp) h3
  simp only [LS.rest, Prod.mk.injEq] at i2
  simp only [LS.rest3, Prod.mk.injEq] at o2
  have hp3 : s3.pty = none := by rw [o2.2.2.2.2.2.1, e2d, i2.2.2.2.2.2.2.2.1, hp]
  have hso3 : s3.stderrOnly = s2.stderrOnly := o2.2.2.2.2.1
  have hob3 : s3.outputBuf = decide (fromDefault o.output 1 o.pty = .redirect .buffer) := by
    rw [o3, e2e, i2.2.2.2.2.1, hob]; simp
  have heb3 : s3.errorBuf = false := by
    rw [o4, e2f, i2.2.2.2.2.2.1, heb]; simp
  have hposd : ∀ ap t fd p, positions ap (fromDefault t fd p) = positions ap t := by
    intro ap t fd p
    cases t with
    | redirect q =>
      cases q <;> try rfl
      simp only [fromDefault, positions]
      match fd, p.truthy with
      | 0, true => rfl
      | 0, false => rfl
      | 1, true => rfl
      | 1, false => rfl
      | 2, true => rfl
      | 2, false => rfl
    | _ => rfl
  -- monotonicity of the tables in the state
  have inMono : ∀ (a b : LS), (∀ x ∈ a.opened, x ∈ b.opened) → ∀ h ib t, InRes sys a h ib t → InRes sys b h ib t := by
    intro a b hab h ib t ht
    cases t <;> try exact ht
    case redirect q => cases q <;> exact ht
    obtain ⟨n, hn, h'⟩ := ht
    exact ⟨n, hab n hn, h'⟩
  have outMono : ∀ (a b : LS), (∀ x ∈ a.opened, x ∈ b.opened) → ∀ fd ap h t, OutRes fd ap a h t → OutRes fd ap b h t := by
    intro a b hab fd ap h t ht
    cases t <;> try exact ht
    case redirect q => cases q <;> exact ht
    all_goals
      obtain ⟨n, hn, h'⟩ := ht
      exact ⟨n, hab n hn, h'⟩
  have op2 : ∀ x ∈ s1.opened, x ∈ s3.opened := fun x hx => o5 x (by rw [e2b]; exact hx)
  by_cases hS : s3.stderrOnly = true
  · have hS2 : (o.output.eqR .devnull && o.error.eqR .stdout) = true := by rw [← e2a, ← hso3]; exact hS
    have herr : (fromDefault o.error 2 o.pty).eqR .stdout = true := by
      have he : o.error.eqR .stdout = true := by simp at hS2; exact hS2.2
      cases hte : o.error <;> rw [hte] at he <;> simp [Target.eqR] at he
      · subst he; rfl
      · subst he; rfl
    have hout : fromDefault o.output 1 o.pty ≠ .redirect .buffer := by
      have he : o.output.eqR .devnull = true := by simp at hS2; exact hS2.1
      cases hte : o.output <;> rw [hte] at he <;> simp [Target.eqR] at he
      · subst he; simp [fromDefault]
      · simp [fromDefault]
    obtain ⟨rfl, rfl⟩ := setupOutput_only hS herr h4
    obtain ⟨p1, p2, p3, p4, p5, p6, p7⟩ := setupPty_res (by simpa using hp3) h5
    subst p2
    subst h6
    dsimp only at p1 p3 p4 p5 p6 p7 ⊢
    refine ⟨p1, by rw [p3, hso3, e2a], ⟨_, inMono _ _ (fun x hx => p6 x (op2 x hx)) _ _ _ i1, rfl⟩,
      ⟨_, outMono _ _ p6 _ _ _ _ o1, rfl⟩, ?_, ?_, fun x hx => p6 x (op2 x (i3 x hx)), ?_⟩
    · intro h; rw [p3, hS] at h; cases h
    · intro _
      refine ⟨?_, p4, by rw [p5, heb3]⟩
      cases s5.pty <;> simp [viaPtyErr]
    · rw [p7, o6, hposd, e2c, i4]
      have : positions o.errorAppend o.error = [] := by
        have he : o.error.eqR .stdout = true := by simp at hS2; exact hS2.2
        cases hte : o.error <;> rw [hte] at he <;> simp [Target.eqR] at he <;> rfl
      simp [this]
  · rw [Bool.not_eq_true] at hS
    obtain ⟨q1, q2, q3, q4, q5, q6⟩ := setupOutput_res (by simp [hS]) h4
    simp only [LS.rest3, Prod.mk.injEq] at q2
    obtain ⟨p1, p2, p3, p4, p5, p6, p7⟩ := setupPty_res (by rw [q2.2.2.2.2.2.1]; exact hp3) h5
    subst p2
    subst h6
    dsimp only at p1 p3 p4 p5 p6 p7 ⊢
    have p3' : s5.stderrOnly = false := by rw [p3, q2.2.2.2.2.1, hS]
    refine ⟨p1, by rw [p3', ← e2a, ← hso3, hS], ⟨_, inMono _ _ (fun x hx => p6 x (q5 x (op2 x hx))) _ _ _ i1, rfl⟩,
      ⟨_, outMono _ _ (fun x hx => p6 x (q5 x hx)) _ _ _ _ o1, rfl⟩, ?_, ?_,
      fun x hx => p6 x (q5 x (op2 x (i3 x hx))), ?_⟩
    · intro _
      refine ⟨⟨_, outMono _ _ p6 _ _ _ _ q1, rfl⟩, ?_, ?_⟩
      · rw [p4, q3, hob3]; simp
      · rw [p5, q4, heb3]; simp
    · intro h; rw [p3'] at h; cases h
    · rw [p7, q6, hposd, o6, hposd, e2c, i4]

/-! ## The rest of the launch keeps these results -/

theorem osClose_frame (n : Int) (s : LS) :
    (osClose n s).rest = s.rest ∧ (osClose n s).opened = s.opened ∧
      (osClose n s).positioned = s.positioned := by
  unfold osClose; split <;> exact ⟨rfl, rfl, rfl⟩

theorem closeAll_frame {sys : Sys} : ∀ (es : List Ent) (s : LS),
    (closeAll sys es s).1.rest = s.rest ∧ (closeAll sys es s).1.opened = s.opened ∧
      (closeAll sys es s).1.positioned = s.positioned
  | [], s => ⟨rfl, rfl, rfl⟩
  | e :: es, s => by
    have h1 : (closeEnt sys e s).1.rest = s.rest ∧ (closeEnt sys e s).1.opened = s.opened ∧
        (closeEnt sys e s).1.positioned = s.positioned := by
      cases e with
      | fd n =>
        by_cases h0 : 0 ≤ n <;> simp only [closeEnt, h0, if_true, if_false]
        · exact osClose_frame n s
        · simp
      | file n =>
        simp only [closeEnt]
        split
        · exact osClose_frame n s
        · exact ⟨rfl, rfl, rfl⟩
      | childFd n => exact osClose_frame n s
      | obj id => exact ⟨rfl, rfl, rfl⟩
    unfold closeAll
    split
    · next s' h => rw [h] at h1; exact h1
    · next s' h =>
      rw [h] at h1
      obtain ⟨a, b, c⟩ := closeAll_frame es s'
      exact ⟨a.trans h1.1, b.trans h1.2.1, c.trans h1.2.2⟩

theorem procSubLoop_frame {sys : Sys} : ∀ (args : List Leaf) {s s' : LS} {r},
    procSubLoop sys args s = (.ok r, s') →
    s'.pty = s.pty ∧ s'.stderrOnly = s.stderrOnly ∧ s'.outputBuf = s.outputBuf ∧
      s'.errorBuf = s.errorBuf ∧ s'.positioned = s.positioned
  | [], s, s', r, h => by
    simp [procSubLoop] at h; obtain ⟨_, rfl⟩ := h; exact ⟨rfl, rfl, rfl, rfl, rfl⟩
  | a :: rest, s, s', r, h => by
    unfold procSubLoop at h
    cases hsub : a.sub? with
    | none =>
      rw [hsub] at h
      simp only [M.bind_ok, M.pure_ok] at h
      obtain ⟨_, s1, h1, _, rfl⟩ := h
      exact procSubLoop_frame rest h1
    | some sub =>
      rw [hsub] at h
      simp only [M.bind_ok, M.pure_ok] at h
      obtain ⟨⟨x, y⟩, s1, h1, h⟩ := h
      have f1 : s1.pty = s.pty ∧ s1.stderrOnly = s.stderrOnly ∧ s1.outputBuf = s.outputBuf ∧
          s1.errorBuf = s.errorBuf ∧ s1.positioned = s.positioned := by
        simp only [osPipe, M.bind_ok, M.pure_ok, modify_ok] at h1
        obtain ⟨_, s2, h2, _, _, rfl, _, rfl⟩ := h1
        obtain ⟨r1, _, p1⟩ := openPair_res h2
        simp only [LS.rest, Prod.mk.injEq] at r1
        simp_all
      split at h <;>
      · simp only [M.bind_ok, M.pure_ok, liftE_ok, modify_ok] at h
        obtain ⟨_, s2, ⟨_, rfl⟩, _, s3, rfl, _, s4, h4, _, rfl⟩ := h
        have := procSubLoop_frame rest h4
        simp_all

/-- The state of a launched command agrees with the one after setting up the redirections. -/
theorem launch_res {sys : Sys} {c : Command} {s s' : LS} {u : Unit}
    (h : launch sys c s = (.ok u, s')) :
    s'.pty.isSome = c.options.pty.truthy ∧
    s'.stderrOnly = (c.options.output.eqR .devnull && c.options.error.eqR .stdout) ∧
    (∃ h0, InRes sys s' h0 s'.inputBytes (fromDefault c.options.input 0 c.options.pty) ∧
      s'.stdin = viaPty s'.pty h0) ∧
    (∃ h1, OutRes 1 c.options.outputAppend s' h1 (fromDefault c.options.output 1 c.options.pty) ∧
      s'.stdout = viaPty s'.pty h1) ∧
    (s'.stderrOnly = false →
      (∃ h2, OutRes 2 c.options.errorAppend s' h2 (fromDefault c.options.error 2 c.options.pty) ∧
        s'.stderr = viaPtyErr s'.pty h2) ∧
      s'.outputBuf = decide (fromDefault c.options.output 1 c.options.pty = .redirect .buffer) ∧
      s'.errorBuf = decide (fromDefault c.options.error 2 c.options.pty = .redirect .buffer)) ∧
    (s'.stderrOnly = true → s'.stderr = PIPE ∧ s'.outputBuf = true ∧ s'.errorBuf = false) ∧
    s'.positioned = s.positioned ++ positions c.options.outputAppend c.options.output ++
      positions c.options.errorAppend c.options.error := by
  obtain ⟨s1, h1, h2⟩ := launch_ok h
  simp only [enterBody, M.bind_ok, modify_ok, call_ok] at h1
  obtain ⟨_, _, rfl, _, s3, g1, _, s4, g2, _, s5, g3, _, rfl⟩ := h1
  have f3 : s3.pty = none ∧ s3.stderrOnly = false ∧ s3.outputBuf = false ∧ s3.errorBuf = false ∧
      s3.positioned = s.positioned := by
    unfold setupArgs at g1
    split at g1
    · simp only [M.bind_ok, modify_ok] at g1
      obtain ⟨_, s2, g, rfl⟩ := g1
      exact procSubLoop_frame _ g
    · simp only [modify_ok] at g1
      subst g1
      exact ⟨rfl, rfl, rfl, rfl, rfl⟩
  obtain ⟨a1, a2, a3, a4, a5, a6, a7, a8⟩ := setupRedirects_res f3.1 f3.2.1 f3.2.2.1 f3.2.2.2.1 g2
  have f5 : s5.pty = s4.pty ∧ s5.stderrOnly = s4.stderrOnly ∧ s5.outputBuf = s4.outputBuf ∧
      s5.errorBuf = s4.errorBuf ∧ s5.positioned = s4.positioned ∧ s5.inputBytes = s4.inputBytes ∧
      s5.stdin = s4.stdin ∧ s5.stdout = s4.stdout ∧ s5.stderr = s4.stderr ∧ s5.opened = s4.opened := by
    unfold setupPassFds at g3
    split at g3
    · simp at g3; subst g3; simp
    · simp only [M.bind_ok, modify_ok] at g3
      obtain ⟨_, _, rfl, g3⟩ := g3
      split at g3
      · simp at g3; subst g3; simp
      · simp at g3; subst g3; simp
  obtain ⟨s6, h3, rfl⟩ := exit_ok h2
  obtain ⟨c1, c2, c3⟩ := closeAll_frame (sys := sys) s5.openFds { s5 with calls := s5.calls + 1 + 1 }
  dsimp only at h3 c1 c2 c3
  rw [h3] at c1 c2 c3
  simp only [LS.rest, Prod.mk.injEq] at c1
  dsimp only
  obtain ⟨_, _, _, c1d, c1e, c1f, c1g, c1h, c1i, c1j, c1k⟩ := c1
  obtain ⟨d1, d2, d3, d4, d5, d6, d7, d8, d9, d10⟩ := f5
  have hop : s6.opened = s4.opened := c2.trans d10
  have inEq : ∀ h t, InRes sys s4 h s4.inputBytes t →
      InRes sys { s6 with openFds := [] } h s6.inputBytes t := by
    intro h t ht
    rw [c1d, d6]
    cases t <;> try exact ht
    case redirect q => cases q <;> exact ht
    obtain ⟨n, hn, h'⟩ := ht
    exact ⟨n, by rw [← hop] at hn; exact hn, h'⟩
  have outEq : ∀ fd ap h t, OutRes fd ap s4 h t → OutRes fd ap { s6 with openFds := [] } h t := by
    intro fd ap h t ht
    cases t <;> try exact ht
    case redirect q => cases q <;> exact ht
    all_goals
      obtain ⟨n, hn, h'⟩ := ht
      exact ⟨n, by rw [← hop] at hn; exact hn, h'⟩
  rw [c1h, d1, c1g, d2, c1i, d7, c1j, d8, c1k, d9, c1e, d3, c1f, d4, c3]
  refine ⟨a1, a2, ?_, ?_, ?_, a6, ?_⟩
  · obtain ⟨h0, b, b'⟩ := a3; exact ⟨h0, inEq _ _ b, b'⟩
  · obtain ⟨h0, b, b'⟩ := a4; exact ⟨h0, outEq _ _ _ _ b, b'⟩
  · intro hf
    obtain ⟨⟨h0, b, b'⟩, r⟩ := a5 hf
    exact ⟨⟨h0, outEq _ _ _ _ b, b'⟩, r⟩
  · rw [← f3.2.2.2.2]; exact d5.trans a8

theorem setupPty_child {sys : Sys} (hs : sys.Ok) {o : Options} {hh r : Handle × Handle × Handle} {s s' : LS}
    (hp : s.pty = none) (h : setupPty sys o hh s = (.ok r, s')) : ∀ p, s'.pty = some p → 0 ≤ p.child := by
  unfold setupPty at h
  cases ht : o.pty.truthy
  · simp [ht] at h
    obtain ⟨rfl, rfl⟩ := h
    simp [hp]
  · simp only [ht, if_true] at h
    split at h
    · simp at h
    · simp only [setupPty1, M.bind_ok, modify_ok, call_ok, addFd_ok, M.pure_ok] at h
      obtain ⟨⟨a, b⟩, s1, h1, _, _, ⟨_, rfl⟩, _, _, rfl, _, _, rfl, _, _, ⟨_, rfl⟩, rfl, rfl⟩ := h
      simp only [openPair, M.bind_ok, call_ok, newFd, M.pure_ok, Prod.mk.injEq, Except.ok.injEq] at h1
      obtain ⟨_, _, ⟨_, rfl⟩, _, _, ⟨_, rfl⟩, _, _, ⟨rfl, rfl⟩, ⟨_, rfl⟩, rfl⟩ := h1
      intro p hp'
      simp only [Option.some.injEq] at hp'
      subst hp'
      exact hs.nonneg _

/-- The child's side of the terminal is a real descriptor. -/
theorem launch_child {sys : Sys} (hs : sys.Ok) {c : Command} {s s' : LS} {u : Unit}
    (h : launch sys c s = (.ok u, s')) : ∀ p, s'.pty = some p → 0 ≤ p.child := by
  obtain ⟨s1, h1, h2⟩ := launch_ok h
  simp only [enterBody, M.bind_ok, modify_ok, call_ok] at h1
  obtain ⟨_, _, rfl, _, s3, g1, _, s4, g2, _, s5, g3, _, rfl⟩ := h1
  have f3 : s3.pty = none := by
    unfold setupArgs at g1
    split at g1
    · simp only [M.bind_ok, modify_ok] at g1
      obtain ⟨_, s2, g, rfl⟩ := g1
      exact (procSubLoop_frame _ g).1
    · simp only [modify_ok] at g1
      subst g1
      rfl
  have f4 : ∀ p, s4.pty = some p → 0 ≤ p.child := by
    simp only [setupRedirects, M.bind_ok, modify_ok] at g2
    obtain ⟨⟨stdin, ib⟩, t1, k1, _, t2, k2, stdout, t3, k3, stderr, t4, k4, hh, t5, k5, k6⟩ := g2
    subst k6
    dsimp only
    refine setupPty_child hs ?_ k5
    obtain ⟨_, i2, _⟩ := setupInput_res k1
    simp only [LS.rest, Prod.mk.injEq] at i2
    have e2 : t2.pty = none := by
      simp only [noteStderrOnly, modify_ok] at k2
      subst k2
      split
      · exact i2.2.2.2.2.2.2.2.1.trans f3
      · exact i2.2.2.2.2.2.2.2.1.trans f3
    have e3 : t3.pty = none := by
      have := (setupOutput_res (by simp) k3).2.1
      simp only [LS.rest3, Prod.mk.injEq] at this
      rw [this.2.2.2.2.2.1, e2]
    by_cases hso : t3.stderrOnly = true
    · have ht : t4.pty = t3.pty := setupOutput_pty k4
      rw [ht, e3]
    · rw [Bool.not_eq_true] at hso
      have := (setupOutput_res (by simp [hso]) k4).2.1
      simp only [LS.rest3, Prod.mk.injEq] at this
      rw [this.2.2.2.2.2.1, e3]
  have f5 : s5.pty = s4.pty := by
    unfold setupPassFds at g3
    split at g3
    · simp at g3; subst g3; simp
    · simp only [M.bind_ok, modify_ok] at g3
      obtain ⟨_, _, rfl, g3⟩ := g3
      split at g3
      · simp at g3; subst g3; simp
      · simp at g3; subst g3; simp
  obtain ⟨s6, h3, rfl⟩ := exit_ok h2
  have c1 := (closeAll_frame (sys := sys) s5.openFds { s5 with calls := s5.calls + 1 + 1 }).1
  dsimp only at h3 c1
  rw [h3] at c1
  simp only [LS.rest, Prod.mk.injEq] at c1
  obtain ⟨_, _, _, _, _, _, _, c1h, _⟩ := c1
  dsimp only
  rw [c1h, f5]
  exact f4

end Shellous
