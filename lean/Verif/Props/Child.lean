import Verif.Props.Fds
import Verif.Lemmas.Wiring
import Verif.Spec.Child

/-!
# C89: what the child process is given
-/

namespace Shellous
namespace Props

/-! ## Keyword arguments -/

/-- `m` leaves `f` of the state as it was. -/
def Keeps {α β : Type} (f : LS → β) (m : M α) : Prop := ∀ s, f (m s).2 = f s

section keeps
variable {α β γ : Type} {f : LS → γ}

theorem keeps_pure (a : α) : Keeps f (pure a : M α) := fun _ => rfl
theorem keeps_raise (e : Exc) : Keeps f (raise e : M α) := fun _ => rfl
theorem keeps_get : Keeps f getS := fun _ => rfl
theorem keeps_modify {g : LS → LS} (h : ∀ s, f (g s) = f s) : Keeps f (modify g) := h
theorem keeps_liftE (x : Except Exc α) : Keeps f (liftE x) := by cases x <;> exact fun _ => rfl
theorem keeps_bind {m : M α} {k : α → M β} (h : Keeps f m) (hk : ∀ a, Keeps f (k a)) :
    Keeps f (m >>= k) := by
  intro s
  show f (M.bind m k s).2 = f s
  have h1 := h s
  unfold M.bind
  split
  · next e => rw [e] at h1; exact h1
  · next e => rw [e] at h1; exact (hk _ _).trans h1
theorem keeps_ite {p : Prop} [Decidable p] {a b : M α} (ha : Keeps f a) (hb : Keeps f b) :
    Keeps f (if p then a else b) := by split <;> assumption

end keeps

/-- The keyword arguments other than the standard streams. -/
def LS.kw (s : LS) := (s.closeFds, s.env, s.session, s.preexec)

section kw
variable {sys : Sys}

theorem kw_call : Keeps LS.kw (call sys) := by
  intro s; simp only [call]; split <;> rfl
theorem kw_openFile : Keeps LS.kw (openFile sys) := keeps_bind kw_call fun _ _ => rfl
theorem kw_openPair : Keeps LS.kw (openPair sys) :=
  keeps_bind kw_call fun _ => keeps_bind (fun _ => rfl) fun _ => keeps_bind (fun _ => rfl) fun _ => keeps_pure _
theorem kw_setPosition (t : Target) (ap : Bool) : Keeps LS.kw (setPosition sys t ap) :=
  keeps_bind kw_call fun _ => keeps_modify fun _ => rfl
theorem kw_addFd (e : Ent) : Keeps LS.kw (addFd e) := keeps_modify fun _ => rfl

theorem kw_setupInput (t : Target) (close : Bool) : Keeps LS.kw (setupInput sys t close) := by
  unfold setupInput
  split
  all_goals first
    | exact keeps_pure _
    | exact keeps_raise _
    | (split <;> first | exact keeps_raise _ | exact keeps_pure _)
    | exact keeps_bind kw_openFile fun _ => keeps_bind (kw_addFd _) fun _ => keeps_pure _
    | (cases close <;> first | exact keeps_pure _ | exact keeps_bind (kw_addFd _) fun _ => keeps_pure _)

theorem kw_setupOutput (fd : Fin 3) (t : Target) (ap close : Bool) :
    Keeps LS.kw (setupOutput sys fd t ap close) := by
  unfold setupOutput
  refine keeps_bind keeps_get fun s => ?_
  split
  · exact keeps_bind kw_openFile fun _ => keeps_bind (kw_addFd _) fun _ => keeps_pure _
  · exact keeps_bind kw_openFile fun _ => keeps_bind (kw_addFd _) fun _ => keeps_pure _
  · refine keeps_ite (keeps_bind (keeps_modify fun _ => rfl) fun _ => keeps_pure _) ?_
    split
    all_goals first
      | exact keeps_pure _
      | exact keeps_raise _
      | exact keeps_bind (kw_setPosition _ _) fun _ => keeps_pure _
      | exact keeps_bind (keeps_modify fun _ => by split <;> rfl) fun _ => keeps_pure _
      | (cases close <;> first | exact keeps_pure _ | exact keeps_bind (kw_addFd _) fun _ => keeps_pure _)

theorem kw_setupPty (o : Options) (h : Handle × Handle × Handle) : Keeps LS.kw (setupPty sys o h) := by
  unfold setupPty
  refine keeps_ite (keeps_ite (keeps_raise _) ?_) (keeps_pure _)
  exact keeps_bind kw_openPair fun _ => keeps_bind kw_call fun _ =>
    keeps_bind (keeps_modify fun _ => rfl) fun _ => keeps_bind (kw_addFd _) fun _ =>
    keeps_bind kw_call fun _ => keeps_pure _

theorem kw_osPipe : Keeps LS.kw (osPipe sys) :=
  keeps_bind kw_openPair fun _ => keeps_bind (keeps_modify fun _ => rfl) fun _ => keeps_pure _

theorem kw_procSubLoop : ∀ args : List Leaf, Keeps LS.kw (procSubLoop sys args)
  | [] => keeps_pure _
  | a :: rest => by
    unfold procSubLoop
    split
    · exact keeps_bind (kw_procSubLoop rest) fun _ => keeps_pure _
    · refine keeps_bind kw_osPipe fun _ => keeps_ite ?_ ?_ <;>
        exact keeps_bind (keeps_liftE _) fun _ => keeps_bind (keeps_modify fun _ => rfl) fun _ =>
          keeps_bind (kw_procSubLoop rest) fun _ => keeps_pure _

theorem kw_closeAll : ∀ (es : List Ent) (s : LS), LS.kw (closeAll sys es s).1 = LS.kw s
  | [], _ => rfl
  | e :: es, s => by
    have h1 : LS.kw (closeEnt sys e s).1 = LS.kw s := by
      have hc : ∀ n, LS.kw (osClose n s) = LS.kw s := fun n => by unfold osClose; split <;> rfl
      cases e <;> simp only [closeEnt]
      · split
        · exact hc _
        · rfl
      · split
        · exact hc _
        · rfl
      · exact hc _
      · rfl
    unfold closeAll
    split
    · next s' h => rw [h] at h1; exact h1
    · next s' h => rw [h] at h1; exact (kw_closeAll es s').trans h1

theorem Keeps.eq {α γ : Type} {f : LS → γ} {m : M α} (h : Keeps f m) {s s' : LS} {r} (e : m s = (r, s')) :
    f s' = f s := by have := h s; rw [e] at this; exact this

/-- The keyword arguments after a successful `__enter__`. -/
theorem enterBody_kw {c : Command} {s s' : LS} {u : Unit} (h : enterBody sys c s = (.ok u, s')) :
    s'.closeFds = some (if usesProcSub c.args || !c.options.passFds.isEmpty then true else c.options.closeFds) ∧
    s'.env = c.options.runtimeEnv sys.environ ∧
    s'.session = (c.options.pty.truthy || c.options.startNewSession) ∧
    s'.preexec = (match s'.pty with
      | some p => some (.setCtty p.child)
      | none => c.options.preexecFn.map .user) ∧
    (c.options.pty.truthy = true → c.options.preexecFn = none) := by
  simp only [enterBody, M.bind_ok, modify_ok, call_ok] at h
  obtain ⟨_, _, rfl, _, s1, h1, _, s2, h2, _, s3, h3, _, rfl⟩ := h
  have hcf : s1.closeFds = if usesProcSub c.args then some true else none := by
    unfold setupArgs at h1
    by_cases hu : usesProcSub c.args = true
    · simp only [hu, if_true, M.bind_ok, modify_ok] at h1
      obtain ⟨_, _, _, rfl⟩ := h1
      simp [hu]
    · rw [Bool.not_eq_true] at hu
      simp [hu] at h1
      subst h1
      simp [hu, LS.newRun]
  have hpty1 : s1.pty = none := by
    unfold setupArgs at h1
    by_cases hu : usesProcSub c.args = true
    · simp only [hu, if_true, M.bind_ok, modify_ok] at h1
      obtain ⟨_, _, g, rfl⟩ := h1
      have := (procSubLoop_frame c.args g).1
      simp [LS.newRun] at this ⊢
      simp_all [LS.rest]
    · rw [Bool.not_eq_true] at hu
      simp [hu] at h1
      subst h1
      simp [LS.newRun]
  simp only [setupRedirects, M.bind_ok, modify_ok] at h2
  obtain ⟨i, t1, g1, _, t2, g2, so, t3, g3, se, t4, g4, hh, t5, g5, rfl⟩ := h2
  have k1 := (kw_setupInput _ _).eq g1
  have k2 : LS.kw t2 = LS.kw t1 := by
    simp only [noteStderrOnly, modify_ok] at g2; subst g2; split <;> rfl
  have k3 := (kw_setupOutput _ _ _ _).eq g3
  have k4 := (kw_setupOutput _ _ _ _).eq g4
  have k5 := (kw_setupPty _ _).eq g5
  have hk : t5.closeFds = s1.closeFds := congrArg Prod.fst ((((k5.trans k4).trans k3).trans k2).trans k1)
  have hp4 : t4.pty = none := by
    rw [setupOutput_pty g4, setupOutput_pty g3]
    have : t2.pty = t1.pty := by
      simp only [noteStderrOnly, modify_ok] at g2; subst g2; split <;> rfl
    rw [this]
    have := (setupInput_res g1).2.1
    simp only [LS.rest, Prod.mk.injEq] at this
    rw [this.2.2.2.2.2.2.2.1, hpty1]
  obtain ⟨p1, -⟩ := setupPty_res hp4 g5
  have hpre : c.options.pty.truthy = true → c.options.preexecFn = none := by
    intro ht
    unfold setupPty at g5
    simp only [ht, if_true] at g5
    split at g5
    · simp at g5
    · next hn => simpa using hn
  have fin : s3.closeFds = some (if usesProcSub c.args || !c.options.passFds.isEmpty then true else c.options.closeFds) ∧
      s3.env = c.options.runtimeEnv sys.environ ∧
      s3.session = (c.options.pty.truthy || c.options.startNewSession) ∧
      s3.preexec = (if c.options.pty.truthy then t5.pty.map (fun p => .setCtty p.child)
        else c.options.preexecFn.map .user) ∧ s3.pty = t5.pty := by
    have hses : (if c.options.pty.truthy then true else c.options.startNewSession) =
        (c.options.pty.truthy || c.options.startNewSession) := by cases c.options.pty.truthy <;> rfl
    unfold setupPassFds at h3
    cases he : c.options.passFds.isEmpty
    · simp only [he, Bool.false_eq_true, if_false, M.bind_ok, modify_ok] at h3
      obtain ⟨_, _, rfl, h3⟩ := h3
      cases hc : c.options.passFdsClose <;> simp [hc] at h3 <;> subst h3 <;> simp [hses]
    · simp only [he, if_true, modify_ok] at h3
      subst h3
      cases hu : usesProcSub c.args <;> simp [hk, hcf, hu, hses]
  obtain ⟨f1, f2, f3, f4, f5⟩ := fin
  refine ⟨f1, f2, f3, ?_, hpre⟩
  show s3.preexec = match s3.pty with
    | some p => some (.setCtty p.child)
    | none => c.options.preexecFn.map .user
  rw [f4, f5]
  cases ht : c.options.pty.truthy <;> rw [ht] at p1 <;> cases hp : t5.pty <;> simp [hp] at p1 <;> simp

end kw

/-- C89. The options reach the child process: its environment is the one computed from the options; it
runs in its own session if asked to, and always if it has a terminal; the function run in front of the
program is the user's or, with a terminal, the one that makes that terminal the controlling one (the two
cannot be combined); descriptors that are not passed are closed if the options say so, and always if there
is something to pass, be it `_pass_fds` or a process substitution. -/
theorem C89_options {sys : Sys} {c : Command} {s s' : LS} (h : launch sys c s = (.ok (), s')) :
    s'.env = c.options.runtimeEnv sys.environ ∧
    s'.session = (c.options.pty.truthy || c.options.startNewSession) ∧
    s'.preexec = (match s'.pty with
      | some p => some (.setCtty p.child)
      | none => c.options.preexecFn.map .user) ∧
    s'.pty.isSome = c.options.pty.truthy ∧
    (c.options.pty.truthy = true → c.options.preexecFn = none) ∧
    (s'.closeFds = some true ↔
      c.options.closeFds = true ∨ c.options.passFds ≠ [] ∨ ∃ a ∈ c.args, a.sub? ≠ none) := by
  obtain ⟨s1, h1, h2⟩ := launch_ok h
  obtain ⟨a1, a2, a3, a4, a5⟩ := enterBody_kw h1
  obtain ⟨s2, h3, rfl⟩ := exit_ok h2
  have k : LS.kw s2 = LS.kw s1 := by
    have := kw_closeAll (sys := sys) s1.openFds { s1 with calls := s1.calls + 1 }
    rw [h3] at this; exact this
  have hp : s2.pty = s1.pty := by
    have := (closeAll_frame (sys := sys) s1.openFds { s1 with calls := s1.calls + 1 }).1
    rw [h3] at this
    simp only [LS.rest, Prod.mk.injEq] at this
    exact this.2.2.2.2.2.2.2.1
  simp only [LS.kw, Prod.mk.injEq] at k
  obtain ⟨k1, k2, k3, k4⟩ := k
  refine ⟨k2.trans a2, k3.trans a3, ?_, (launch_res h).1, a5, ?_⟩
  · show s2.preexec = match s2.pty with
      | some p => some (.setCtty p.child)
      | none => c.options.preexecFn.map .user
    rw [k4, a4, hp]
  · show s2.closeFds = some true ↔ _
    rw [k1, a1]
    have hu : usesProcSub c.args = true ↔ ∃ a ∈ c.args, a.sub? ≠ none := by
      simp [usesProcSub, Option.isSome_iff_ne_none]
    rw [← hu]
    cases usesProcSub c.args <;> cases c.options.closeFds <;> cases hp : c.options.passFds <;> simp

/-! ## Descriptors -/

theorem mem_fds {es : List Ent} {n : Int} :
    n ∈ fds es ↔ (Ent.fd n ∈ es ∧ 0 ≤ n) ∨ Ent.file n ∈ es ∨ Ent.childFd n ∈ es := by
  simp only [fds, List.mem_filterMap]
  constructor
  · rintro ⟨e, he, h⟩
    cases e with
    | fd m =>
      simp only at h
      split at h
      · cases h; exact Or.inl ⟨he, by assumption⟩
      · cases h
    | file m => cases h; exact Or.inr (Or.inl he)
    | childFd m => cases h; exact Or.inr (Or.inr he)
    | obj m => cases h
  · rintro (⟨h, h0⟩ | h | h)
    · exact ⟨_, h, by simp [h0]⟩
    · exact ⟨_, h, rfl⟩
    · exact ⟨_, h, rfl⟩

theorem Eff.fds_mono {s s' : LS} {new ents} (e : Eff s s' new ents) {n : Int} (h : n ∈ fds s.openFds) :
    n ∈ fds s'.openFds := by
  rw [e.openFds, fds_append]; exact List.mem_append_left _ h

theorem fromDefault_fd (t : Target) (fd : Fin 3) (p : PtyOpt) : (fromDefault t fd p).fd = t.fd := by
  cases t with
  | redirect q =>
    cases q <;> try rfl
    simp only [fromDefault]
    match fd, p.truthy with
    | 0, true => rfl
    | 0, false => rfl
    | 1, true => rfl
    | 1, false => rfl
    | 2, true => rfl
    | 2, false => rfl
  | _ => rfl

section handles
variable {sys : Sys}

theorem setupInput_fd {t : Target} {close : Bool} {s s' : LS} {r}
    (h : setupInput sys t close s = (.ok r, s')) {n : Int} (hn : r.1.fd? = some n) :
    n ∈ t.fd ∨ n ∈ fds s'.openFds := by
  cases t <;> simp only [setupInput, M.bind_ok, M.pure_ok, raise_ok] at h
  case path p =>
    obtain ⟨m, s1, h1, _, s2, h2, rfl, rfl⟩ := h
    simp at h2; subst h2
    cases hn
    exact Or.inr (mem_fds.2 (Or.inr (Or.inl (by simp))))
  case int m =>
    cases close <;> simp at h <;> obtain ⟨rfl, rfl⟩ := h <;>
      simp only [Handle.fd?] at hn <;> split at hn <;> cases hn <;>
      exact Or.inl (by simp [Target.fd, *])
  case redirect q =>
    cases q <;> simp only [M.pure_ok, raise_ok] at h
    case inherit => obtain ⟨rfl, rfl⟩ := h; cases hn
    case capture => obtain ⟨rfl, rfl⟩ := h; cases hn
    all_goals cases close <;> simp at h <;> obtain ⟨rfl, rfl⟩ := h <;> simp [Handle.fd?, Redirect.val] at hn
  case str x =>
    cases hx : sys.encode x <;> simp [hx] at h
    obtain ⟨rfl, rfl⟩ := h; cases hn
  all_goals obtain ⟨rfl, rfl⟩ := h; cases hn

theorem setupOutput_fd {fd : Fin 3} {t : Target} {ap close : Bool} {s s' : LS} {r}
    (h : setupOutput sys fd t ap close s = (.ok r, s')) {n : Int} (hn : r.fd? = some n) :
    n ∈ t.fd ∨ n ∈ fds s'.openFds := by
  simp only [setupOutput, M.bind_ok, getS_ok] at h
  obtain ⟨_, _, ⟨rfl, rfl⟩, h⟩ := h
  have pipe : ∀ {a b : LS}, (∃ (u : Unit) (s1 : LS), modify (fun s : LS => { s with outputBuf := true }) a = (.ok u, s1) ∧
      PIPE = r ∧ s1 = b) → False := by
    rintro a b ⟨_, _, _, rfl, _⟩; cases hn
  by_cases hso : (s.stderrOnly && fd == 2) = true
  all_goals
    cases t <;> simp only [hso, M.bind_ok, M.pure_ok, raise_ok, addFd_ok, Bool.false_eq_true,
      if_false, if_true] at h
  case pos.path | neg.path | pos.pathLike | neg.pathLike =>
    obtain ⟨m, s1, h1, _, s2, h2, rfl, rfl⟩ := h
    subst h2
    cases hn
    exact Or.inr (mem_fds.2 (Or.inr (Or.inl (by simp))))
  case neg.int m =>
    cases close <;> simp at h <;> obtain ⟨rfl, rfl⟩ := h <;>
      simp only [Handle.fd?] at hn <;> split at hn <;> cases hn <;>
      exact Or.inl (by simp [Target.fd, *])
  case neg.redirect q =>
    cases q <;> simp only [M.pure_ok, raise_ok, M.bind_ok, modify_ok] at h
    case inherit => obtain ⟨rfl, rfl⟩ := h; cases hn
    case capture => obtain ⟨rfl, rfl⟩ := h; cases hn
    case buffer => obtain ⟨_, _, _, rfl, _⟩ := h; cases hn
    all_goals cases close <;> simp at h <;> obtain ⟨rfl, rfl⟩ := h <;> simp [Handle.fd?, Redirect.val] at hn
  all_goals first
    | exact (pipe h).elim
    | (obtain ⟨_, _, _, rfl, _⟩ := h; cases hn)

theorem enterBody_fd (hs : sys.Ok) {c : Command} {s s' : LS} {u : Unit}
    (h : enterBody sys c s = (.ok u, s')) {n : Int}
    (hn : s'.stdin.fd? = some n ∨ s'.stdout.fd? = some n ∨ s'.stderr.fd? = some n) :
    n ∈ named c.options ∨ n ∈ fds s'.openFds := by
  simp only [enterBody, M.bind_ok, modify_ok, call_ok] at h
  obtain ⟨_, _, rfl, _, s1, h1, _, s2, h2, _, s3, h3, _, rfl⟩ := h
  obtain ⟨_, _, _, _, _, _, t1, so1, _⟩ := setupArgs_ok hs (s := s.newRun) rfl rfl h1
  have hstd : s3.stdin = s2.stdin ∧ s3.stdout = s2.stdout ∧ s3.stderr = s2.stderr := by
    unfold setupPassFds at h3
    split at h3
    · simp only [modify_ok] at h3; subst h3; exact ⟨rfl, rfl, rfl⟩
    · simp only [M.bind_ok, modify_ok] at h3
      obtain ⟨_, _, rfl, h3⟩ := h3
      cases hc : c.options.passFdsClose <;> simp [hc] at h3 <;> subst h3 <;> exact ⟨rfl, rfl, rfl⟩
  obtain ⟨e3, -⟩ := setupPassFds_ok h3
  suffices n ∈ named c.options ∨ n ∈ fds s2.openFds from this.imp id (Eff.fds_mono e3)
  replace hn : s2.stdin.fd? = some n ∨ s2.stdout.fd? = some n ∨ s2.stderr.fd? = some n := by
    rw [← hstd.1, ← hstd.2.1, ← hstd.2.2]; exact hn
  simp only [setupRedirects, M.bind_ok, modify_ok] at h2
  obtain ⟨⟨si, ib⟩, a1, g1, _, a2, g2, so, a3, g3, se, a4, g4, ⟨hi, ho, he⟩, a5, g5, rfl⟩ := h2
  have k2 : a2.openFds = a1.openFds := by
    simp only [noteStderrOnly, modify_ok] at g2; subst g2; split <;> rfl
  have hso2 : a2.stderrOnly = true → c.options.error.eqR .stdout = true := by
    have := (setupInput_res g1).2.1
    simp only [LS.rest, Prod.mk.injEq] at this
    intro h
    by_cases hb : (c.options.output.eqR .devnull && c.options.error.eqR .stdout) = true
    · simp at hb; exact hb.2
    · simp only [noteStderrOnly, modify_ok] at g2
      rw [if_neg hb] at g2
      subst g2
      rw [this.2.2.2.2.2.2.1, so1] at h
      cases h
  obtain ⟨_, _, e3', q3, _⟩ := setupOutput_ok hs (by simp) g3
  have hso3 : a3.stderrOnly = a2.stderrOnly := by
    simp only [LS.rest2, Prod.mk.injEq] at q3; exact q3.2.2.2.1
  obtain ⟨_, _, e4', _⟩ := setupOutput_ok hs (by
    intro h
    simp [hso3] at h
    have he := hso2 h
    cases hte : c.options.error <;> rw [hte] at he <;> simp [Target.eqR] at he
    · subst he; rfl
    · subst he; rfl) g4
  have m1 : ∀ n, n ∈ fds a1.openFds → n ∈ fds a4.openFds := fun n hn => by
    rw [← k2] at hn
    exact Eff.fds_mono e4' (Eff.fds_mono e3' hn)
  have i1 : ∀ n, si.fd? = some n → n ∈ named c.options ∨ n ∈ fds a4.openFds := fun n hn => by
    rcases setupInput_fd g1 hn with h | h
    · rw [fromDefault_fd] at h; exact Or.inl (by simp [named, h])
    · exact Or.inr (m1 n h)
  have i2 : ∀ n, so.fd? = some n → n ∈ named c.options ∨ n ∈ fds a4.openFds := fun n hn => by
    rcases setupOutput_fd g3 hn with h | h
    · rw [fromDefault_fd] at h; exact Or.inl (by simp [named, h])
    · exact Or.inr (Eff.fds_mono e4' h)
  have i3 : ∀ n, se.fd? = some n → n ∈ named c.options ∨ n ∈ fds a4.openFds := fun n hn => by
    rcases setupOutput_fd g4 hn with h | h
    · rw [fromDefault_fd] at h; exact Or.inl (by simp [named, h])
    · exact Or.inr h
  unfold setupPty at g5
  split at g5
  · split at g5
    · simp at g5
    · obtain ⟨p, ch, e5, _, _, _, _, _, _, _, _, hr⟩ := setupPty1_ok hs g5
      simp only [Prod.mk.injEq] at hr
      obtain ⟨rfl, rfl, rfl⟩ := hr
      have hch : ch ∈ fds a5.openFds := by
        rw [e5.openFds, fds_append]; simp [fds]
      have key : ∀ (x y : Handle), (∀ n, x.fd? = some n → n ∈ named c.options ∨ n ∈ fds a4.openFds) →
          (y = x ∨ y = .int ch) → y.fd? = some n → n ∈ named c.options ∨ n ∈ fds a5.openFds := by
        rintro x y hx (rfl | rfl) hy
        · exact (hx n hy).imp id (Eff.fds_mono e5)
        · simp only [Handle.fd?] at hy
          split at hy
          · cases hy; exact Or.inr hch
          · cases hy
      dsimp only at hn
      rcases hn with hn | hn | hn
      · exact key _ _ i1 (by split <;> simp) hn
      · exact key _ _ i2 (by split <;> simp) hn
      · exact key _ _ i3 (by split <;> simp) hn
  · simp only [M.pure_ok, Prod.mk.injEq] at g5
    obtain ⟨⟨rfl, rfl, rfl⟩, rfl⟩ := g5
    dsimp only at hn
    rcases hn with hn | hn | hn
    · exact i1 n hn
    · exact i2 n hn
    · exact i3 n hn

end handles

theorem handed_named {o : Options} {x : Int} (hx : x ∈ handed o) : x ∈ named o := by
  have g : ∀ cl t, x ∈ givenBy cl t → x ∈ Target.fd t := by
    intro cl t hx
    cases t <;> simp [givenBy] at hx
    obtain ⟨⟨_, h0⟩, rfl⟩ := hx
    simp [Target.fd, h0]
  simp only [handed, List.mem_append] at hx
  simp only [named, List.mem_append]
  rcases hx with ((hx | hx) | hx) | hx
  · exact Or.inl (Or.inl (Or.inl (g _ _ hx)))
  · exact Or.inl (Or.inl (Or.inr (g _ _ hx)))
  · exact Or.inl (Or.inr (g _ _ hx))
  · refine Or.inr ?_
    split at hx
    · exact (List.mem_filter.1 hx).1
    · cases hx

theorem subst_plain {args : List Leaf} {pa subs passed kept ps} (h : Subst args pa subs passed kept ps)
    (hp : ∀ a ∈ args, a.sub? = none) : passed = [] := by
  induction h with
  | nil => rfl
  | plain a _ _ ih => exact ih fun b hb => hp b (List.mem_cons_of_mem _ hb)
  | reading a sub _ _ _ ha => rw [hp a (by simp)] at ha; cases ha
  | writing a sub _ _ _ ha => rw [hp a (by simp)] at ha; cases ha

theorem enter_body {sys : Sys} {c : Command} {s s' : LS} (h : enter sys c s = (.ok (), s')) :
    enterBody sys c s = (.ok (), s') := by
  unfold enter at h
  split at h
  · next s'' h1 => cases h; exact h1
  · cases h

/-- The descriptors a child process can hold: those its options mention, those that the library opened for
it and closes once it runs, and, if nothing is passed and `close_fds` is off, the inheritable ones. -/
theorem childHolds_cases {sys : Sys} (hs : sys.Ok) {c : Command} {s s1 : LS} {inh : Int → Prop}
    (h : enterBody sys c s = (.ok (), s1)) {n : Int} (hn : ChildHolds inh s1 n) :
    n ∈ named c.options ∨ n ∈ fds s1.openFds ∨
      (2 < n ∧ inh n ∧ c.options.closeFds = false ∧ c.options.passFds = [] ∧ usesProcSub c.args = false) := by
  obtain ⟨new, ents, own, kept, passed, ps, e, hS, hpf, hperm, hfds, hpo, hpi, hpp⟩ := enterBody_ok hs h
  have hopen : s1.openFds = ents := by rw [e.openFds]; rfl
  rcases hn with hn | hn | hn | ⟨h2, -, hn | ⟨h3, h4, h5⟩⟩
  · exact (enterBody_fd hs h (Or.inl hn)).imp id Or.inl
  · exact (enterBody_fd hs h (Or.inr (Or.inl hn))).imp id Or.inl
  · exact (enterBody_fd hs h (Or.inr (Or.inr hn))).imp id Or.inl
  · rw [hpf, List.mem_append] at hn
    rcases hn with hn | hn
    · refine Or.inr (Or.inl ?_)
      rw [hopen]
      exact hfds.symm.subset (List.mem_append_right _ (hpo n hn))
    · exact Or.inl (by simp [named, hn])
  · obtain ⟨a1, -⟩ := enterBody_kw h
    rw [h3] at a1
    have hp : c.options.passFds = [] := by
      rw [hpf] at h4; exact (List.append_eq_nil_iff.1 h4).2
    refine Or.inr (Or.inr ⟨h2, h5, ?_, hp, ?_⟩)
    · revert a1
      cases usesProcSub c.args <;> cases c.options.closeFds <;> simp [hp]
    · revert a1
      cases usesProcSub c.args <;> simp

/-- C89. What a child process holds, beside its standard streams. `T` is the table of open descriptors at
the start; the descriptors 0, 1 and 2 are open, the user mentions only open descriptors, and new
descriptors are not inheritable (PEP 446). The child holds its ends of the pipes of its process
substitutions and what the user passes; it does not hold the other ends of these pipes nor the parent side
of its terminal; and of everything else that was open it holds nothing, unless the user switched
`close_fds` off, nothing is passed, and the descriptor is inheritable. -/
theorem C89_child {sys : Sys} (hs : sys.Ok) (c : Command) (T : List Int) (inh : Int → Prop)
    (h012 : ∀ n : Int, 0 ≤ n → n ≤ 2 → n ∈ T) (hnamed : ∀ n ∈ named c.options, n ∈ T)
    (hinh : ∀ n, inh n → n ∈ T) {s1 : LS} (h : enter sys c { tab := T } = (.ok (), s1)) :
    ∃ passed kept, Subst c.args s1.posArgs s1.subcmds passed kept s1.pipes ∧
      (∀ n, n ∈ passed ∨ (n ∈ c.options.passFds ∧ 2 < n) → ChildHolds inh s1 n) ∧
      (∀ n, n ∈ kept ∨ s1.pty.map (·.parent) = some n → ¬ ChildHolds inh s1 n) ∧
      (∀ n ∈ T, n ∉ named c.options → (ChildHolds inh s1 n ↔
        2 < n ∧ inh n ∧ c.options.closeFds = false ∧ c.options.passFds = [] ∧
          ∀ a ∈ c.args, a.sub? = none)) := by
  have hb := enter_body h
  obtain ⟨new, ents, own, kept, passed, ps, e, hS, hpf, hperm, hfds, hpo, hpi, hpp⟩ := enterBody_ok hs hb
  have hopen : s1.openFds = ents := by rw [e.openFds]; rfl
  have hpipes : s1.pipes = ps := by rw [hpi]; rfl
  have htab : ∀ x, x ∈ s1.tab ↔ x ∈ new ∨ x ∈ T := e.mem_tab
  have hfr : ∀ x ∈ new, x ∉ T := e.fresh
  have h2new : ∀ x ∈ new, 2 < x := fun x hx => by
    have h0 := e.nonneg x hx
    rcases Int.lt_or_le 2 x with h | h
    · exact h
    · exact (hfr x hx (h012 x h0 h)).elim
  have hownNew : ∀ x ∈ own, x ∈ new := fun x hx => hperm.symm.subset (by simp [hx])
  have hnd : (own ++ kept ++ s1.parent).Nodup := hperm.nodup_iff.1 e.nodup
  have hhanded : ∀ x ∈ handed c.options, x ∈ T := by
    exact fun x hx => hnamed x (handed_named hx)
  have hop : ∀ x, x ∈ fds s1.openFds ↔ x ∈ handed c.options ∨ x ∈ own := fun x => by
    rw [hopen, hfds.mem_iff, List.mem_append]
  have hsub : usesProcSub c.args = false ↔ ∀ a ∈ c.args, a.sub? = none := by
    simp [usesProcSub]
  refine ⟨passed, kept, by rw [hpipes]; exact hS, ?_, ?_, ?_⟩
  · rintro n (hn | ⟨hn, h2⟩)
    · have := hownNew n (hpo n hn)
      exact Or.inr (Or.inr (Or.inr ⟨h2new n this, (htab n).2 (Or.inl this), Or.inl (by simp [hpf, hn])⟩))
    · refine Or.inr (Or.inr (Or.inr ⟨h2, (htab n).2 (Or.inr (hnamed n (by simp [named, hn]))),
        Or.inl (by simp [hpf, hn])⟩))
  · intro n hn hc
    have hn' : n ∈ kept ++ s1.parent := by
      rcases hn with hn | hn
      · exact List.mem_append_left _ hn
      · refine List.mem_append_right _ ?_
        cases hp : s1.pty with
        | none => rw [hp] at hn; cases hn
        | some p => rw [hp] at hn; cases hn; simp [LS.parent, hp]
    have hnew : n ∈ new := hperm.symm.subset (by rw [List.append_assoc]; exact List.mem_append_right _ hn')
    rcases childHolds_cases hs hb hc with h | h | ⟨_, h, _⟩
    · exact hfr n hnew (hnamed n h)
    · rcases (hop n).1 h with h | h
      · exact hfr n hnew (hhanded n h)
      · rw [List.append_assoc] at hnd
        exact (List.nodup_append.1 hnd).2.2 n h n hn' rfl
    · exact hfr n hnew (hinh n h)
  · intro n hT hnn
    constructor
    · intro hc
      rcases childHolds_cases hs hb hc with h | h | ⟨h2, hi, h3, h4, h5⟩
      · exact (hnn h).elim
      · rcases (hop n).1 h with h | h
        · exact (hnn (handed_named h)).elim
        · exact (hfr n (hownNew n h) hT).elim
      · exact ⟨h2, hi, h3, h4, hsub.1 h5⟩
    · rintro ⟨h2, hi, h3, h4, h5⟩
      obtain ⟨a1, -⟩ := enterBody_kw hb
      rw [hsub.2 h5, h4, h3] at a1
      have hp : s1.passFds = [] := by
        have : passed = [] := subst_plain hS h5
        rw [hpf, this, h4]; rfl
      exact Or.inr (Or.inr (Or.inr ⟨h2, (htab n).2 (Or.inr hT), Or.inr ⟨by simpa using a1, hp, hi⟩⟩))

/-- C89, concurrency: however the launches of any number of commands, pipelines and process substitutions
are interleaved, a child process holds only descriptors of the caller that its options mention or that
are inheritable, and descriptors that were handed over to it or opened for it; never one that belongs to
another command in progress or still to be started, or to a terminal's parent side. Since the library
closes its own copy when the child runs, each end of each pipe ends up in exactly one process. -/
theorem C89_exclusive {sys : Sys} (hs : sys.Ok) (cmds : List SubCmd) (keep : List Int)
    (hd : (keep ++ cmds.flatMap SubCmd.owned).Nodup) (hclean : ∀ c ∈ cmds, c.clean)
    (inh : Int → Prop) (hinh : ∀ n, inh n → n ∈ keep)
    {q1 q2 : List LItem} {c : Command} {ps : List Int} {s s1 : LS}
    (hr : LSteps sys ⟨cmds.map .todo, [], { tab := keep ++ cmds.flatMap SubCmd.owned }⟩
      ⟨q1 ++ .todo (.cmd c) :: q2, ps, s⟩)
    (hnamed : ∀ n ∈ named c.options, n ∈ keep ∨ n ∈ handed c.options)
    (h : enter sys c s = (.ok (), s1)) {n : Int} (hn : ChildHolds inh s1 n) :
    (n ∈ keep ∧ (n ∈ named c.options ∨
      (inh n ∧ c.options.closeFds = false ∧ c.options.passFds = [] ∧ ∀ a ∈ c.args, a.sub? = none))) ∨
    (n ∈ fds s1.openFds ∧ n ∉ ps ∧ s1.pty.map (·.parent) ≠ some n ∧
      (∀ it ∈ q1 ++ q2, n ∉ it.pend) ∧ ∀ sub ∈ s1.subcmds, n ∉ sub.owned) := by
  have h0 : FdInv keep ⟨cmds.map .todo, [], { tab := keep ++ cmds.flatMap SubCmd.owned }⟩ := by
    refine ⟨hd, ?_, rfl, ?_⟩
    · have : (cmds.map LItem.todo).flatMap LItem.pend = cmds.flatMap SubCmd.owned := by
        rw [List.flatMap_map]; rfl
      simp [this]
    · intro x hx
      obtain ⟨c, hc, rfl⟩ := List.mem_map.1 hx
      exact hclean c hc
  have key : ∀ {a b : LConf}, LSteps sys a b → FdInv keep a → FdInv keep b := by
    intro a b h
    induction h with
    | refl => exact id
    | step h1 _ ih => exact fun ha => ih (FdInv.step hs ha h1)
  have hb := enter_body h
  have inv := FdInv.step hs (key hr h0) (LStep.enter q1 q2 c ps s s1 h)
  have hnodup := inv.perm.nodup_iff.1 inv.nodup
  simp only [List.flatMap_append, List.flatMap_cons, LItem.pend] at hnodup
  have owned : n ∈ fds s1.openFds → n ∉ ps ∧ s1.pty.map (·.parent) ≠ some n ∧
      (∀ it ∈ q1 ++ q2, n ∉ it.pend) ∧ ∀ sub ∈ s1.subcmds, n ∉ sub.owned := by
    intro hn
    have hc := List.nodup_iff_count.1 hnodup n
    simp only [List.count_append] at hc
    have h1 : 0 < List.count n (fds s1.openFds) := List.count_pos_iff.2 hn
    refine ⟨fun hp => ?_, fun hp => ?_, fun it hit hp => ?_, fun sub hsub hp => ?_⟩
    · have := List.count_pos_iff.2 hp; omega
    · have : n ∈ (s1.pty.map (·.parent)).toList := by rw [hp]; simp
      have := List.count_pos_iff.2 this; omega
    · rcases List.mem_append.1 hit with h | h
      · have := List.count_pos_iff.2 (List.mem_flatMap.2 ⟨it, h, hp⟩); omega
      · have := List.count_pos_iff.2 (List.mem_flatMap.2 ⟨it, h, hp⟩); omega
    · have := List.count_pos_iff.2 (List.mem_flatMap.2 ⟨sub, hsub, hp⟩); omega
  have hsub : usesProcSub c.args = false ↔ ∀ a ∈ c.args, a.sub? = none := by simp [usesProcSub]
  obtain ⟨new, ents, own, kept, passed, pp, e, hS, hpf, hperm, hfds, -⟩ := enterBody_ok hs hb
  have hopen : s1.openFds = ents := by rw [e.openFds]; rfl
  rcases childHolds_cases hs hb hn with h | h | ⟨_, hi, h3, h4, h5⟩
  · rcases hnamed n h with hk | hk
    · exact Or.inl ⟨hk, Or.inl h⟩
    · have : n ∈ fds s1.openFds := by rw [hopen]; exact hfds.symm.subset (List.mem_append_left _ hk)
      exact Or.inr ⟨this, owned this⟩
  · exact Or.inr ⟨h, owned h⟩
  · exact Or.inl ⟨hinh n hi, Or.inr ⟨hi, h3, h4, hsub.1 h5⟩⟩

/-! ## Examples -/

-- `diff <(sort) >(tee)` on a terminal, with a file as its input: the hypotheses of `C89_child` are met, the
-- keyword arguments are those of `C89_options`, and the child holds 8 and 11 but neither 9, 10 nor 13.
example :
    let c := exCmd "diff" [.cmd (exCmd "sort"), .cmd (exCmd "tee" [] { writable := true })]
      { input := .path ['i'], pty := .on, closeFds := false }
    (∀ n ∈ named c.options, n ∈ [0, 1, 2, 7]) ∧
    ∃ s1, enter (exSys []) c { tab := [0, 1, 2, 7] } = (.ok (), s1) ∧ s1.pipes = [(8, 9), (10, 11)] ∧
      s1.passFds = [8, 11] ∧ s1.closeFds = some true ∧ s1.session = true ∧
      s1.preexec = some (.setCtty 14) ∧ s1.pty.map (·.parent) = some 13 ∧
      (s1.stdin.fd?, s1.stdout.fd?, s1.stderr.fd?) = (some 12, some 14, some 14) :=
  ⟨by decide, eval_ok (by decide +kernel) (by decide +kernel)⟩

-- With `close_fds=False` and nothing to pass, an inheritable descriptor is inherited.
example :
    ∃ s1, enter (exSys []) (exCmd "ls" [] { closeFds := false, startNewSession := true })
        { tab := [0, 1, 2, 7] } = (.ok (), s1) ∧
      (s1.closeFds = some false ∧ s1.passFds = [] ∧ s1.session = true ∧ 7 ∈ s1.tab) :=
  eval_ok (by decide +kernel) (by decide +kernel)

/-- For the example: `cat <&7 | wc`, still to be started. -/
def exPipe0 : LConf :=
  let p := SubCmd.pipe ⟨[exCmd "cat" [] { input := .int 7, inputClose := true }, exCmd "wc"]⟩
  ⟨[p].map .todo, [], { tab := [0, 1, 2] ++ [p].flatMap SubCmd.owned }⟩

/-- For the example: the pipe was made and `cat` has entered. -/
def exPipe1 : LConf := (picks (exSys []) [0, 0] exPipe0).getD exPipe0

-- `C89_exclusive` in the middle of a pipeline: `cat` has entered, the pipe (8, 9) is open, `wc` enters.
example : LSteps (exSys []) exPipe0 exPipe1 ∧ exPipe1.st.tab = [9, 8, 0, 1, 2, 7] ∧
    exPipe1.items.map LItem.pend = [[7, 9], [8]] ∧
    ∃ s1, enter (exSys []) (exCmd "wc" [] { input := .int 8, inputClose := true }) exPipe1.st = (.ok (), s1) ∧
      (s1.stdin.fd? = some 8 ∧ s1.passFds = [] ∧ s1.closeFds = some true) := by
  refine ⟨picks_steps [0, 0] ?_, by decide +kernel, by decide +kernel,
    eval_ok (by decide +kernel) (by decide +kernel)⟩
  have hk : (picks (exSys []) [0, 0] exPipe0).isSome = true := by decide +kernel
  cases h : picks (exSys []) [0, 0] exPipe0 with
  | none => rw [h] at hk; cases hk
  | some k => simp [exPipe1, h]

end Props
end Shellous
