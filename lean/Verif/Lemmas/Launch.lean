import Verif.Spec.Launch

set_option linter.unusedSimpArgs false

namespace Shellous

/-! ## Inversion lemmas for the monad -/

section inv
variable {α β : Type} {s s' : LS}

@[simp] theorem M.bind_ok {m : M α} {f : α → M β} {b : β} :
    (m >>= f) s = (.ok b, s') ↔ ∃ a s1, m s = (.ok a, s1) ∧ f a s1 = (.ok b, s') := by
  show M.bind m f s = _ ↔ _
  unfold M.bind
  split
  · next h => constructor
              · intro h'; cases h'
              · rintro ⟨a, s1, h1, _⟩; rw [h1] at h; cases h
  · next h => constructor
              · intro h'; exact ⟨_, _, h, h'⟩
              · rintro ⟨a, s1, h1, h2⟩; rw [h1] at h; cases h; exact h2

@[simp] theorem M.bind_err {m : M α} {f : α → M β} {e : Exc} :
    (m >>= f) s = (.error e, s') ↔
      m s = (.error e, s') ∨ ∃ a s1, m s = (.ok a, s1) ∧ f a s1 = (.error e, s') := by
  show M.bind m f s = _ ↔ _
  unfold M.bind
  split
  · next h => constructor
              · intro h'; cases h'; exact Or.inl h
              · rintro (h' | ⟨a, s1, h1, _⟩)
                · rw [h] at h'; cases h'; rfl
                · rw [h1] at h; cases h
  · next h => constructor
              · intro h'; exact Or.inr ⟨_, _, h, h'⟩
              · rintro (h' | ⟨a, s1, h1, h2⟩)
                · rw [h] at h'; cases h'
                · rw [h1] at h; cases h; exact h2

@[simp] theorem M.pure_ok {a b : α} : (pure a : M α) s = (.ok b, s') ↔ a = b ∧ s = s' := by
  show ((.ok a, s) : Except Exc α × LS) = _ ↔ _; simp

@[simp] theorem M.pure_err {a : α} {e : Exc} : (pure a : M α) s = (.error e, s') ↔ False := by
  show ((.ok a, s) : Except Exc α × LS) = _ ↔ _; simp

@[simp] theorem raise_ok {a : α} {e : Exc} : (raise e : M α) s = (.ok a, s') ↔ False := by
  simp [raise]

@[simp] theorem raise_err {e e' : Exc} :
    (raise e : M α) s = (.error e', s') ↔ e = e' ∧ s = s' := by
  simp [raise]

@[simp] theorem modify_ok {f : LS → LS} {u : Unit} : modify f s = (.ok u, s') ↔ f s = s' := by
  simp [modify]

@[simp] theorem modify_err {f : LS → LS} {e : Exc} : modify f s = (.error e, s') ↔ False := by
  simp [modify]

@[simp] theorem getS_ok {x : LS} : getS s = (.ok x, s') ↔ s = x ∧ s = s' := by
  simp [getS]

@[simp] theorem getS_err {e : Exc} : getS s = (.error e, s') ↔ False := by
  simp [getS]

@[simp] theorem call_ok {sys : Sys} {u : Unit} :
    call sys s = (.ok u, s') ↔ sys.fail s.calls = none ∧ { s with calls := s.calls + 1 } = s' := by
  unfold call
  cases sys.fail s.calls <;> simp

@[simp] theorem call_err {sys : Sys} {e : Exc} :
    call sys s = (.error e, s') ↔
      sys.fail s.calls = some e ∧ { s with calls := s.calls + 1 } = s' := by
  unfold call
  cases sys.fail s.calls <;> simp

@[simp] theorem liftE_ok {x : Except Exc α} {a : α} :
    liftE x s = (.ok a, s') ↔ x = .ok a ∧ s = s' := by
  cases x <;> simp [liftE]

@[simp] theorem liftE_err {x : Except Exc α} {e : Exc} :
    liftE x s = (.error e, s') ↔ x = .error e ∧ s = s' := by
  cases x <;> simp [liftE]

@[simp] theorem addFd_ok {e : Ent} {u : Unit} :
    addFd e s = (.ok u, s') ↔ { s with openFds := s.openFds ++ [e] } = s' := by
  simp [addFd]

@[simp] theorem addFd_err {x : Ent} {e : Exc} : addFd x s = (.error e, s') ↔ False := by
  simp [addFd]

end inv

/-- The descriptors closed by `close_fds` for a list of entries. -/
def fds (es : List Ent) : List Int := es.filterMap fun
  | .fd n => if 0 ≤ n then some n else none
  | .file n => some n
  | .childFd n => some n
  | .obj _ => none

@[simp] theorem fds_nil : fds [] = [] := rfl
@[simp] theorem fds_append (a b : List Ent) : fds (a ++ b) = fds a ++ fds b := by simp [fds]
theorem fds_map_fd (l : List Int) : fds (l.map .fd) = l.filter (fun n => decide (0 ≤ n)) := by
  induction l with
  | nil => rfl
  | cons a l ih =>
    simp only [fds, List.map_cons, List.filterMap_cons, List.filter_cons] at ih ⊢
    by_cases h : 0 ≤ a <;> simp [h, ih]

/-! ## The effect of the set-up functions on descriptors -/

/-- The state grew by newly opened descriptors `new` and entries `ents`; nothing was closed. -/
structure Eff (s s' : LS) (new : List Int) (ents : List Ent) : Prop where
  tab : s'.tab = new.reverse ++ s.tab
  opened : s'.opened = s.opened ++ new
  tried : s'.tried = s.tried
  closed : s'.closed = s.closed
  ebadf : s'.ebadf = s.ebadf
  objClosed : s'.objClosed = s.objClosed
  openFds : s'.openFds = s.openFds ++ ents
  fresh : ∀ n ∈ new, n ∉ s.tab
  nonneg : ∀ n ∈ new, 0 ≤ n
  nodup : new.Nodup

/-- A state change that does not concern descriptors. -/
theorem Eff.same {s s' : LS} (h1 : s'.tab = s.tab) (h2 : s'.opened = s.opened)
    (h3 : s'.tried = s.tried) (h4 : s'.closed = s.closed) (h5 : s'.ebadf = s.ebadf)
    (h6 : s'.objClosed = s.objClosed) (h7 : s'.openFds = s.openFds) : Eff s s' [] [] :=
  ⟨by simpa, by simpa, h3, h4, h5, h6, by simpa, by simp, by simp, by simp⟩

theorem Eff.refl (s : LS) : Eff s s [] [] := .same rfl rfl rfl rfl rfl rfl rfl

theorem Eff.ents {s s' : LS} {es : List Ent} (h1 : s'.tab = s.tab) (h2 : s'.opened = s.opened)
    (h3 : s'.tried = s.tried) (h4 : s'.closed = s.closed) (h5 : s'.ebadf = s.ebadf)
    (h6 : s'.objClosed = s.objClosed) (h7 : s'.openFds = s.openFds ++ es) : Eff s s' [] es :=
  ⟨by simpa, by simpa, h3, h4, h5, h6, by simpa, by simp, by simp, by simp⟩

theorem Eff.trans {s s1 s2 : LS} {n1 n2 : List Int} {e1 e2 : List Ent}
    (h1 : Eff s s1 n1 e1) (h2 : Eff s1 s2 n2 e2) : Eff s s2 (n1 ++ n2) (e1 ++ e2) where
  tab := by rw [h2.tab, h1.tab]; simp
  opened := by rw [h2.opened, h1.opened]; simp
  tried := h2.tried.trans h1.tried
  closed := h2.closed.trans h1.closed
  ebadf := h2.ebadf.trans h1.ebadf
  objClosed := h2.objClosed.trans h1.objClosed
  openFds := by rw [h2.openFds, h1.openFds]; simp
  fresh := by
    intro n hn
    rcases List.mem_append.1 hn with h | h
    · exact h1.fresh n h
    · have := h2.fresh n h
      rw [h1.tab] at this
      simp at this
      exact this.2
  nonneg := by
    intro n hn
    rcases List.mem_append.1 hn with h | h
    · exact h1.nonneg n h
    · exact h2.nonneg n h
  nodup := by
    refine List.nodup_append.2 ⟨h1.nodup, h2.nodup, ?_⟩
    intro a ha b hb hab
    subst hab
    have := h2.fresh a hb
    rw [h1.tab] at this
    simp at this
    exact this.1 ha

theorem Eff.mem_tab {s s' : LS} {new ents} (h : Eff s s' new ents) (x : Int) :
    x ∈ s'.tab ↔ x ∈ new ∨ x ∈ s.tab := by rw [h.tab]; simp

theorem Eff.nodup_tab {s s' : LS} {new ents} (h : Eff s s' new ents) (hs : s.tab.Nodup) :
    s'.tab.Nodup := by
  rw [h.tab]
  refine List.nodup_append.2 ⟨(List.reverse_perm _).nodup_iff.2 h.nodup, hs, ?_⟩
  intro a ha b hb hab
  subst hab
  exact h.fresh a (by simpa using ha) hb

/-- The fields that opening descriptors does not touch. -/
def LS.rest (s : LS) :=
  (s.subcmds, s.passFds, s.posArgs, s.inputBytes, s.outputBuf, s.errorBuf, s.stderrOnly, s.pty,
    s.stdin, s.stdout, s.stderr)

theorem newFd_eff {sys : Sys} (hs : sys.Ok) {s s' : LS} {n : Int}
    (h : newFd sys s = (.ok n, s')) : Eff s s' [n] [] ∧ s'.rest = s.rest ∧ s'.pipes = s.pipes := by
  simp [newFd] at h
  obtain ⟨rfl, rfl⟩ := h
  exact ⟨⟨rfl, rfl, rfl, rfl, rfl, rfl, by simp, by simpa using hs.fresh _,
    by simpa using hs.nonneg _, by simp⟩, rfl, rfl⟩

@[simp] theorem newFd_err {sys : Sys} {s s' : LS} {e : Exc} :
    newFd sys s = (.error e, s') ↔ False := by simp [newFd]

theorem Eff.calls {s s' : LS} {k new ents} (h : Eff { s with calls := k } s' new ents) :
    Eff s s' new ents :=
  ⟨h.tab, h.opened, h.tried, h.closed, h.ebadf, h.objClosed, h.openFds, h.fresh, h.nonneg, h.nodup⟩

theorem openFile_eff {sys : Sys} (hs : sys.Ok) {s s' : LS} {n : Int}
    (h : openFile sys s = (.ok n, s')) : Eff s s' [n] [] ∧ s'.rest = s.rest ∧ s'.pipes = s.pipes := by
  simp only [openFile, M.bind_ok, call_ok] at h
  obtain ⟨_, _, ⟨_, rfl⟩, h⟩ := h
  obtain ⟨e, r, q⟩ := newFd_eff hs h
  exact ⟨e.calls, r, q⟩

theorem openFile_err {sys : Sys} {s s' : LS} {e : Exc}
    (h : openFile sys s = (.error e, s')) : Eff s s' [] [] := by
  simp [openFile] at h
  obtain ⟨_, rfl⟩ := h
  exact .same rfl rfl rfl rfl rfl rfl rfl

theorem openPair_eff {sys : Sys} (hs : sys.Ok) {s s' : LS} {p : Int × Int}
    (h : openPair sys s = (.ok p, s')) :
    Eff s s' [p.1, p.2] [] ∧ s'.rest = s.rest ∧ s'.pipes = s.pipes := by
  simp only [openPair, M.bind_ok, call_ok, M.pure_ok] at h
  obtain ⟨_, _, ⟨_, rfl⟩, a, s1, h1, b, s2, h2, rfl, rfl⟩ := h
  obtain ⟨e1, r1, q1⟩ := newFd_eff hs h1
  obtain ⟨e2, r2, q2⟩ := newFd_eff hs h2
  exact ⟨e1.calls.trans e2, r2.trans r1, q2.trans q1⟩

theorem openPair_err {sys : Sys} {s s' : LS} {e : Exc}
    (h : openPair sys s = (.error e, s')) : Eff s s' [] [] := by
  simp [openPair] at h
  obtain ⟨_, rfl⟩ := h
  exact .same rfl rfl rfl rfl rfl rfl rfl

theorem osPipe_eff {sys : Sys} (hs : sys.Ok) {s s' : LS} {p : Int × Int}
    (h : osPipe sys s = (.ok p, s')) :
    Eff s s' [p.1, p.2] [] ∧ s'.rest = s.rest ∧ s'.pipes = s.pipes ++ [p] := by
  simp [osPipe] at h
  obtain ⟨r, w, s1, h1, rfl, rfl⟩ := h
  obtain ⟨e1, r1, q1⟩ := openPair_eff hs h1
  exact ⟨⟨e1.tab, e1.opened, e1.tried, e1.closed, e1.ebadf, e1.objClosed, e1.openFds, e1.fresh,
    e1.nonneg, e1.nodup⟩, r1, by simp [q1]⟩

theorem osPipe_err {sys : Sys} {s s' : LS} {e : Exc}
    (h : osPipe sys s = (.error e, s')) : Eff s s' [] [] := by
  simp [osPipe] at h
  exact openPair_err h

/-! ## Process substitution -/

theorem isWritable_iff (sub : SubCmd) : sub.isWritable = true ↔ MarkedWritable sub := by
  cases sub with
  | cmd c => rfl
  | pipe p =>
    obtain ⟨cs⟩ := p
    cases cs with
    | nil => simp [SubCmd.isWritable, MarkedWritable, Pipeline.options]
    | cons c cs =>
      have hl : ∃ l, (c :: cs).getLast? = some l := ⟨_, List.getLast?_eq_some_getLast (by simp)⟩
      obtain ⟨l, hl⟩ := hl
      simp only [SubCmd.isWritable, MarkedWritable, Pipeline.options, hl, Option.map_some, Option.getD_some,
        List.head?_cons, Option.some.injEq, Bool.or_eq_true]
      constructor
      · rintro (h | h)
        · exact ⟨l, .inr rfl, h⟩
        · exact ⟨c, .inl rfl, h⟩
      · rintro ⟨x, rfl | rfl, h⟩
        · exact .inr h
        · exact .inl h

theorem isWritable_false_iff (sub : SubCmd) : sub.isWritable = false ↔ ¬ MarkedWritable sub := by
  rw [← isWritable_iff]; simp

theorem procSubLoop_eff {sys : Sys} (hs : sys.Ok) (args : List Leaf) :
    ∀ {s s' : LS} {r : List PArg × List Int}, procSubLoop sys args s = (.ok r, s') →
    ∃ subs kept new ps, Eff s s' new [] ∧ Subst args r.1 subs r.2 kept ps ∧
      s'.subcmds = s.subcmds ++ subs ∧ new.Perm (r.2 ++ kept) ∧
      s'.rest = { s with subcmds := s'.subcmds }.rest ∧
      s'.pipes = s.pipes ++ ps ∧ new = ps.flatMap (fun p => [p.1, p.2]) := by
  induction args with
  | nil =>
    intro s s' r h
    simp [procSubLoop] at h
    obtain ⟨rfl, rfl⟩ := h
    exact ⟨[], [], [], [], .refl _, .nil, by simp, by simp, rfl, by simp⟩
  | cons a as ih =>
    intro s s' r h
    cases hsub : a.sub? with
    | none =>
      simp [procSubLoop, hsub] at h
      obtain ⟨args, fds, h1, rfl⟩ := h
      obtain ⟨subs, kept, new, ps, e, hS, hc, hp, hr, hps⟩ := ih h1
      exact ⟨subs, kept, new, ps, e, .plain a hsub hS, hc, hp, hr, hps⟩
    | some sub =>
      simp only [procSubLoop, hsub, M.bind_ok] at h
      obtain ⟨⟨rd, wr⟩, s1, h1, h⟩ := h
      obtain ⟨e1, r1, q1⟩ := osPipe_eff hs h1
      simp only [LS.rest, Prod.mk.injEq] at r1
      dsimp only at h
      by_cases hw : sub.isWritable
      · simp [hw] at h
        obtain ⟨sub', _, ⟨hsub', rfl⟩, args, fds, h4, rfl⟩ := h
        obtain ⟨subs, kept, new, ps, e, hS, hc, hp, hr, hps, hnew⟩ := ih h4
        have e' : Eff s1 s' new [] := ⟨e.tab, e.opened, e.tried, e.closed, e.ebadf, e.objClosed,
          e.openFds, e.fresh, e.nonneg, e.nodup⟩
        refine ⟨sub' :: subs, rd :: kept, [rd, wr] ++ new, (rd, wr) :: ps, e1.trans e',
          .writing a sub sub' rd wr hsub ((isWritable_iff _).mp hw) hsub' hS, ?_, ?_, ?_, ?_, by simp [hnew]⟩
        · rw [hc]; simp [r1]
        · have h1 : ([rd, wr] ++ new).Perm (rd :: wr :: (fds ++ kept)) := (hp.cons wr).cons rd
          refine h1.trans ?_
          refine (List.Perm.swap wr rd (fds ++ kept)).trans ?_
          exact (List.perm_middle.symm).cons wr
        · simp only [LS.rest, Prod.mk.injEq] at hr ⊢
          simp_all
        · rw [hps]; simp [q1]
      · simp [hw] at h
        obtain ⟨sub', _, ⟨hsub', rfl⟩, args, fds, h4, rfl⟩ := h
        obtain ⟨subs, kept, new, ps, e, hS, hc, hp, hr, hps, hnew⟩ := ih h4
        have e' : Eff s1 s' new [] := ⟨e.tab, e.opened, e.tried, e.closed, e.ebadf, e.objClosed,
          e.openFds, e.fresh, e.nonneg, e.nodup⟩
        refine ⟨sub' :: subs, wr :: kept, [rd, wr] ++ new, (rd, wr) :: ps, e1.trans e',
          .reading a sub sub' rd wr hsub (fun h => hw ((isWritable_iff _).mpr h)) hsub' hS, ?_, ?_, ?_,
          ?_, by simp [hnew]⟩
        · rw [hc]; simp [r1]
        · have h1 : ([rd, wr] ++ new).Perm (rd :: wr :: (fds ++ kept)) := (hp.cons wr).cons rd
          exact h1.trans ((List.perm_middle.symm).cons rd)
        · simp only [LS.rest, Prod.mk.injEq] at hr ⊢
          simp_all
        · rw [hps]; simp [q1]

theorem procSubLoop_err {sys : Sys} (hs : sys.Ok) (args : List Leaf) :
    ∀ {s s' : LS} {e : Exc}, procSubLoop sys args s = (.error e, s') →
    ∃ new ents, Eff s s' new ents := by
  induction args with
  | nil => intro s s' e h; simp [procSubLoop] at h
  | cons a as ih =>
    intro s s' e h
    cases hsub : a.sub? with
    | none =>
      simp [procSubLoop, hsub] at h
      exact ih h
    | some sub =>
      simp only [procSubLoop, hsub, M.bind_err] at h
      rcases h with h | ⟨⟨rd, wr⟩, s1, h1, h⟩
      · exact ⟨_, _, osPipe_err h⟩
      obtain ⟨e1, r1, q1⟩ := osPipe_eff hs h1
      dsimp only at h
      by_cases hw : sub.isWritable
      · simp [hw] at h
        rcases h with ⟨_, rfl⟩ | ⟨sub', _, ⟨hsub', rfl⟩, h⟩
        · exact ⟨_, _, e1⟩
        · obtain ⟨n, es, e⟩ := ih h
          exact ⟨_, _, e1.trans (s2 := s') ⟨e.tab, e.opened, e.tried, e.closed, e.ebadf, e.objClosed,
            e.openFds, e.fresh, e.nonneg, e.nodup⟩⟩
      · simp [hw] at h
        rcases h with ⟨_, rfl⟩ | ⟨sub', _, ⟨hsub', rfl⟩, h⟩
        · exact ⟨_, _, e1⟩
        · obtain ⟨n, es, e⟩ := ih h
          exact ⟨_, _, e1.trans (s2 := s') ⟨e.tab, e.opened, e.tried, e.closed, e.ebadf, e.objClosed,
            e.openFds, e.fresh, e.nonneg, e.nodup⟩⟩

/-! ## Redirections -/

theorem fds_single_fd (close : Bool) (n : Int) :
    fds (if close = true then [Ent.fd n] else []) = givenBy close (.int n) := by
  cases close
  · simp [givenBy]
  · by_cases h : 0 ≤ n <;> simp [fds, givenBy, h]

theorem addFd_if {α : Type} {x y : α} {close : Bool} {e : Ent} {s s' : LS}
    (h : (if close = true then (do addFd e; pure x : M α) else pure x) s = (.ok y, s')) :
    Eff s s' [] (if close = true then [e] else []) ∧ s'.rest = s.rest ∧ s'.pipes = s.pipes ∧ x = y := by
  cases close
  · simp at h; obtain ⟨rfl, rfl⟩ := h; exact ⟨.refl _, rfl, rfl, rfl⟩
  · simp at h; obtain ⟨rfl, rfl⟩ := h
    exact ⟨.ents rfl rfl rfl rfl rfl rfl (by simp), rfl, rfl, rfl⟩

theorem setupInput_ok {sys : Sys} (hs : sys.Ok) {t : Target} {close : Bool} {s s' : LS} {r}
    (h : setupInput sys t close s = (.ok r, s')) :
    ∃ new ents, Eff s s' new ents ∧ s'.rest = s.rest ∧ s'.pipes = s.pipes ∧
      fds ents = givenBy close t ++ new := by
  have plain : ∀ t : Target, givenBy close t = [] → (s = s') → ∃ new ents, Eff s s' new ents ∧
      s'.rest = s.rest ∧ s'.pipes = s.pipes ∧ fds ents = givenBy close t ++ new := by
    rintro t ht rfl
    exact ⟨[], [], .refl _, rfl, rfl, by simp [ht]⟩
  cases t <;> simp only [setupInput, M.bind_ok, M.pure_ok, raise_ok] at h
  case bytes b => exact plain _ rfl h.2
  case bytearray id => exact plain _ rfl h.2
  case streamReader id => exact plain _ rfl h.2
  case stringIO id => exact plain _ rfl h.2
  case bytesIO id => exact plain _ rfl h.2
  case str x =>
    cases hx : sys.encode x <;> simp [hx] at h
    exact plain _ rfl h.2
  case path p =>
    obtain ⟨n, s1, h1, _, s2, h2, _, rfl⟩ := h
    obtain ⟨e, r, q⟩ := openFile_eff hs h1
    simp at h2; subst h2
    exact ⟨_, _, e.trans (.ents (es := [.file n]) rfl rfl rfl rfl rfl rfl rfl), r, q, rfl⟩
  case int n =>
    obtain ⟨e, r, q, _⟩ := addFd_if h
    exact ⟨_, _, e, r, q, by rw [fds_single_fd]; simp⟩
  case redirect q =>
    cases q <;> simp only [M.pure_ok, raise_ok] at h
    case inherit => exact plain _ rfl h.2
    case capture => exact plain _ rfl h.2
    all_goals
      obtain ⟨e, r, q, _⟩ := addFd_if h
      exact ⟨_, _, e, r, q, by rw [fds_single_fd]; simp [givenBy, Redirect.val]⟩

theorem setupInput_err {sys : Sys} {t : Target} {close : Bool} {s s' : LS} {e}
    (h : setupInput sys t close s = (.error e, s')) : ∃ new ents, Eff s s' new ents := by
  have plain : s = s' → ∃ new ents, Eff s s' new ents := by rintro rfl; exact ⟨_, _, .refl _⟩
  cases t <;> simp only [setupInput, M.bind_err, M.pure_err, raise_err] at h
  case path p =>
    rcases h with h | ⟨n, s1, h1, h⟩
    · exact ⟨_, _, openFile_err h⟩
    · simp at h
  case str x => cases hx : sys.encode x <;> simp [hx] at h; exact plain h.2
  case int n => cases close <;> simp at h
  case redirect q =>
    cases q <;> simp only [M.pure_err, raise_err] at h
    case buffer => exact plain h.2
    case default => exact plain h.2
    all_goals (cases close <;> simp at h)
  all_goals exact plain h.2

/-- The fields that setting up an output does not touch. -/
def LS.rest2 (s : LS) := (s.subcmds, s.passFds, s.posArgs, s.stderrOnly, s.pty, s.pipes)

theorem LS.rest2_of_rest {s s' : LS} (h : s'.rest = s.rest) (h' : s'.pipes = s.pipes) :
    s'.rest2 = s.rest2 := by
  simp only [LS.rest, LS.rest2, Prod.mk.injEq] at *
  simp_all

theorem setPosition_ok {sys : Sys} {t : Target} {ap : Bool} {s s' : LS} {u : Unit}
    (h : setPosition sys t ap s = (.ok u, s')) :
    Eff s s' [] [] ∧ s'.rest = s.rest ∧ s'.pipes = s.pipes := by
  simp [setPosition] at h
  obtain ⟨_, ⟨_, rfl⟩, rfl⟩ := h
  exact ⟨.same rfl rfl rfl rfl rfl rfl rfl, rfl, rfl⟩

theorem setPosition_err {sys : Sys} {t : Target} {ap : Bool} {s s' : LS} {e}
    (h : setPosition sys t ap s = (.error e, s')) : Eff s s' [] [] := by
  simp [setPosition] at h
  obtain ⟨_, rfl⟩ := h
  exact .same rfl rfl rfl rfl rfl rfl rfl

theorem setupOutput_ok {sys : Sys} (hs : sys.Ok) {fd : Fin 3} {t : Target} {ap close : Bool}
    {s s' : LS} {r} (hso : (s.stderrOnly && fd == 2) = true → t.eqR .stdout = true)
    (h : setupOutput sys fd t ap close s = (.ok r, s')) :
    ∃ new ents, Eff s s' new ents ∧ s'.rest2 = s.rest2 ∧ fds ents = givenBy close t ++ new := by
  have file : ∀ (p : Text) (t : Target), givenBy close t = [] →
      (∃ n s1, openFile sys s = (.ok n, s1) ∧ { s1 with openFds := s1.openFds ++ [.file n] } = s') →
      ∃ new ents, Eff s s' new ents ∧ s'.rest2 = s.rest2 ∧ fds ents = givenBy close t ++ new := by
    rintro p t ht ⟨n, s1, h1, rfl⟩
    obtain ⟨e, r, q⟩ := openFile_eff hs h1
    exact ⟨_, _, e.trans (.ents (es := [.file n]) rfl rfl rfl rfl rfl rfl rfl),
      LS.rest2_of_rest r q, by simp [ht]; rfl⟩
  by_cases hb : (s.stderrOnly && fd == 2) = true
  · have ht := hso hb
    cases t <;> simp [Target.eqR, Redirect.val] at ht
    · subst ht
      simp only [setupOutput, M.bind_ok, getS_ok] at h
      obtain ⟨_, _, ⟨rfl, rfl⟩, h⟩ := h
      simp [hb] at h
      obtain ⟨_, rfl⟩ := h
      exact ⟨[], [], .same rfl rfl rfl rfl rfl rfl rfl, rfl, by simp [givenBy]⟩
    · subst ht
      simp only [setupOutput, M.bind_ok, getS_ok] at h
      obtain ⟨_, _, ⟨rfl, rfl⟩, h⟩ := h
      simp [hb] at h
      obtain ⟨_, rfl⟩ := h
      exact ⟨[], [], .same rfl rfl rfl rfl rfl rfl rfl, rfl, by simp [givenBy]⟩
  · simp only [setupOutput, M.bind_ok, getS_ok] at h
    obtain ⟨_, _, ⟨rfl, rfl⟩, h⟩ := h
    rw [Bool.not_eq_true] at hb
    have plain : ∀ t : Target, givenBy close t = [] → (∀ s1, Eff s s1 [] [] ∧ s1.rest = s.rest ∧
        s1.pipes = s.pipes → s1 = s' → ∃ new ents, Eff s s' new ents ∧ s'.rest2 = s.rest2 ∧
        fds ents = givenBy close t ++ new) := by
      rintro t ht s1 ⟨he, hr, hp⟩ rfl
      exact ⟨[], [], he, LS.rest2_of_rest hr hp, by simp [ht]⟩
    cases t <;> simp only [hb, M.bind_ok, M.pure_ok, raise_ok, addFd_ok, Bool.false_eq_true,
      if_false] at h
    case path p =>
      obtain ⟨n, s1, h1, _, s2, h2, _, rfl⟩ := h
      exact file p _ rfl ⟨n, s1, h1, h2⟩
    case pathLike p =>
      obtain ⟨n, s1, h1, _, s2, h2, _, rfl⟩ := h
      exact file p _ rfl ⟨n, s1, h1, h2⟩
    case int n =>
      obtain ⟨e, r, q, _⟩ := addFd_if h
      exact ⟨_, _, e, LS.rest2_of_rest r q, by rw [fds_single_fd]; simp⟩
    case redirect q =>
      cases q <;> simp only [M.pure_ok, raise_ok, M.bind_ok, modify_ok] at h
      case inherit =>
        obtain ⟨_, rfl⟩ := h
        exact ⟨[], [], .refl _, rfl, by simp [givenBy]⟩
      case capture =>
        obtain ⟨_, rfl⟩ := h
        exact ⟨[], [], .refl _, rfl, by simp [givenBy]⟩
      case buffer =>
        obtain ⟨_, s1, h1, _, rfl⟩ := h
        by_cases hfd : fd = 1
        · simp [hfd] at h1; subst h1
          exact ⟨[], [], .same rfl rfl rfl rfl rfl rfl rfl, rfl, by simp [givenBy]⟩
        · simp [hfd] at h1; subst h1
          exact ⟨[], [], .same rfl rfl rfl rfl rfl rfl rfl, rfl, by simp [givenBy]⟩
      all_goals
        obtain ⟨e, r, q, _⟩ := addFd_if h
        exact ⟨_, _, e, LS.rest2_of_rest r q, by rw [fds_single_fd]; simp [givenBy, Redirect.val]⟩
    all_goals
      obtain ⟨_, s1, h1, _, rfl⟩ := h
      exact plain _ rfl _ (setPosition_ok h1) rfl

theorem setupOutput_err {sys : Sys} {fd : Fin 3} {t : Target} {ap close : Bool}
    {s s' : LS} {e} (h : setupOutput sys fd t ap close s = (.error e, s')) :
    ∃ new ents, Eff s s' new ents := by
  have plain : s = s' → ∃ new ents, Eff s s' new ents := by rintro rfl; exact ⟨_, _, .refl _⟩
  simp only [setupOutput, M.bind_err, getS_ok, getS_err, false_or] at h
  obtain ⟨_, _, ⟨rfl, rfl⟩, h⟩ := h
  by_cases hb : (s.stderrOnly && fd == 2) = true
  · cases t <;> simp only [hb, M.bind_err, M.pure_err, raise_err, if_true, modify_err, modify_ok,
      addFd_err, addFd_ok] at h
    case path p =>
      rcases h with h | ⟨n, s1, h1, h⟩
      · exact ⟨_, _, openFile_err h⟩
      · simp at h
    case pathLike p =>
      rcases h with h | ⟨n, s1, h1, h⟩
      · exact ⟨_, _, openFile_err h⟩
      · simp at h
    all_goals simp at h
  · rw [Bool.not_eq_true] at hb
    cases t <;> simp only [hb, M.bind_err, M.pure_err, raise_err, Bool.false_eq_true, if_false, modify_err,
      modify_ok, addFd_err, addFd_ok] at h
    case path p =>
      rcases h with h | ⟨n, s1, h1, h⟩
      · exact ⟨_, _, openFile_err h⟩
      · simp at h
    case pathLike p =>
      rcases h with h | ⟨n, s1, h1, h⟩
      · exact ⟨_, _, openFile_err h⟩
      · simp at h
    case int n => cases close <;> simp at h
    case redirect q =>
      cases q <;> simp only [M.pure_err, raise_err, M.bind_err, modify_err] at h
      case default => exact plain h.2
      case buffer => simp at h
      all_goals (cases close <;> simp at h)
    case stringIO => rcases h with h | ⟨_, _, _, h⟩ <;> first | exact ⟨_, _, setPosition_err h⟩ | simp at h
    case bytesIO => rcases h with h | ⟨_, _, _, h⟩ <;> first | exact ⟨_, _, setPosition_err h⟩ | simp at h
    case bytearray => rcases h with h | ⟨_, _, _, h⟩ <;> first | exact ⟨_, _, setPosition_err h⟩ | simp at h
    case logger => rcases h with h | ⟨_, _, _, h⟩ <;> first | exact ⟨_, _, setPosition_err h⟩ | simp at h
    case streamWriter => rcases h with h | ⟨_, _, _, h⟩ <;> first | exact ⟨_, _, setPosition_err h⟩ | simp at h
    case ioBase => rcases h with h | ⟨_, _, _, h⟩ <;> first | exact ⟨_, _, setPosition_err h⟩ | simp at h
    all_goals exact plain h.2

/-! ## Terminal -/

theorem setupPty1_ok {sys : Sys} (hs : sys.Ok) {a b c : Handle} {s s' : LS} {r}
    (h : setupPty1 sys a b c s = (.ok r, s')) :
    ∃ p ch, Eff s s' [p, ch] [.childFd ch] ∧ s'.pty = some ⟨p, ch, sys.ptyEof⟩ ∧
      s'.subcmds = s.subcmds ∧ s'.passFds = s.passFds ∧ s'.posArgs = s.posArgs ∧
      s'.pipes = s.pipes ∧ s'.outputBuf = s.outputBuf ∧ s'.errorBuf = s.errorBuf ∧
      s'.stderrOnly = s.stderrOnly ∧
      r = (if a = PIPE then .int ch else a, if b = PIPE then .int ch else b,
        if c = .int (-2) then .int ch else c) := by
  simp only [setupPty1, M.bind_ok, call_ok, modify_ok, addFd_ok, M.pure_ok] at h
  obtain ⟨⟨p, ch⟩, s1, h1, _, s2, ⟨_, rfl⟩, _, s3, rfl, _, s4, rfl, _, s5, ⟨_, rfl⟩, rfl, rfl⟩ := h
  obtain ⟨e, r, q⟩ := openPair_eff hs h1
  simp only [LS.rest, Prod.mk.injEq] at r
  refine ⟨p, ch, e.trans (.ents (es := [.childFd ch]) rfl rfl rfl rfl rfl rfl rfl), rfl, ?_⟩
  simp [r, q]

theorem setupPty1_err {sys : Sys} (hs : sys.Ok) {a b c : Handle} {s s' : LS} {e}
    (h : setupPty1 sys a b c s = (.error e, s')) : ∃ new ents, Eff s s' new ents := by
  simp only [setupPty1, M.bind_err, M.bind_ok, call_ok, call_err, modify_ok, modify_err, addFd_ok,
    addFd_err, M.pure_err, M.pure_ok] at h
  rcases h with h | ⟨⟨p, ch⟩, s1, h1, h⟩
  · exact ⟨_, _, openPair_err h⟩
  obtain ⟨e, r, q⟩ := openPair_eff hs h1
  rcases h with ⟨_, rfl⟩ | ⟨_, _, ⟨_, rfl⟩, h⟩
  · exact ⟨_, _, e.trans (.same rfl rfl rfl rfl rfl rfl rfl)⟩
  rcases h with h | ⟨_, _, rfl, h⟩
  · exact h.elim
  rcases h with h | ⟨_, _, rfl, h⟩
  · exact h.elim
  rcases h with ⟨_, rfl⟩ | ⟨_, _, _, h⟩
  · exact ⟨_, _, e.trans (.ents rfl rfl rfl rfl rfl rfl rfl)⟩
  · exact h.elim

theorem givenBy_fromDefault (close : Bool) (t : Target) (fd : Fin 3) (p : PtyOpt) :
    givenBy close (fromDefault t fd p) = givenBy close t := by
  cases t with
  | redirect r =>
    cases r <;> try rfl
    simp only [fromDefault, givenBy]
    match fd, p.truthy with
    | 0, true => rfl
    | 0, false => rfl
    | 1, true => rfl
    | 1, false => rfl
    | 2, true => rfl
    | 2, false => rfl
  | _ => rfl

/-- What the three redirections hand over. -/
def handed3 (o : Options) : List Int :=
  givenBy o.inputClose o.input ++ givenBy o.outputClose o.output ++ givenBy o.errorClose o.error

/-- The parent side of the terminal, if there is one. -/
def LS.parent (s : LS) : List Int := (s.pty.map (·.parent)).toList

theorem setupRedirects_ok {sys : Sys} (hs : sys.Ok) {o : Options} {s s' : LS} {u : Unit}
    (hp : s.pty = none) (hso : s.stderrOnly = false)
    (h : setupRedirects sys o s = (.ok u, s')) :
    ∃ new ents own, Eff s s' new ents ∧ new.Perm (own ++ s'.parent) ∧
      (fds ents).Perm (handed3 o ++ own) ∧
      s'.subcmds = s.subcmds ∧ s'.passFds = s.passFds ∧ s'.posArgs = s.posArgs ∧
      s'.pipes = s.pipes := by
  simp only [setupRedirects, M.bind_ok] at h
  obtain ⟨⟨stdin, ib⟩, s1, h1, _, s2, h2, stdout, s3, h3, stderr, s4, h4, hh, s5, h5, h6⟩ := h
  obtain ⟨n1, es1, e1, r1, q1, f1⟩ := setupInput_ok hs h1
  have r1 := LS.rest2_of_rest r1 q1
  obtain ⟨e2, b1, b2, b3, b4, b5, b6⟩ : Eff s1 s2 [] [] ∧ s2.subcmds = s.subcmds ∧
      s2.passFds = s.passFds ∧ s2.posArgs = s.posArgs ∧ s2.pipes = s.pipes ∧ s2.pty = none ∧
      (s2.stderrOnly = true → o.error.eqR .stdout = true) := by
    simp only [LS.rest2, Prod.mk.injEq] at r1
    obtain ⟨a1, a2, a3, a4, a5, a6⟩ := r1
    simp only [noteStderrOnly, modify_ok] at h2
    by_cases hb : (o.output.eqR .devnull && o.error.eqR .stdout) = true
    · rw [if_pos hb] at h2; subst h2
      refine ⟨.same rfl rfl rfl rfl rfl rfl rfl, a1, a2, a3, a6, a5.trans hp, ?_⟩
      intro _; simp at hb; exact hb.2
    · rw [if_neg hb] at h2; subst h2
      refine ⟨.refl _, a1, a2, a3, a6, a5.trans hp, ?_⟩
      rw [a4, hso]; simp
  obtain ⟨n3, es3, e3, r3, f3⟩ := setupOutput_ok hs (by simp) h3
  obtain ⟨n4, es4, e4, r4, f4⟩ := setupOutput_ok hs (by
    intro hb
    simp at hb
    simp only [LS.rest2, Prod.mk.injEq] at r3
    rw [r3.2.2.2.1] at hb
    have := b6 hb
    cases ht : o.error <;> simp [ht, Target.eqR] at this
    · subst this; rfl
    · simp [fromDefault, Target.eqR, this]) h4
  simp only [modify_ok] at h6
  simp only [LS.rest2, Prod.mk.injEq] at r3 r4
  rw [givenBy_fromDefault] at f1 f3 f4
  have e := (((e1.trans e2).trans e3).trans e4)
  unfold setupPty at h5
  by_cases hpty : o.pty.truthy = true
  · rw [if_pos hpty] at h5
    by_cases hpre : o.preexecFn.isSome = true
    · rw [if_pos hpre] at h5; simp at h5
    rw [if_neg hpre] at h5
    obtain ⟨p, ch, e5, g1, g2, g3, g4, g5, _⟩ := setupPty1_ok hs h5
    subst h6
    refine ⟨_, _, n1 ++ n3 ++ n4 ++ [ch], e.trans (e5.trans (.same rfl rfl rfl rfl rfl rfl rfl)),
      ?_, ?_, ?_, ?_, ?_, ?_⟩
    · simp only [LS.parent, g1]
      simp only [Option.map_some, Option.toList_some, List.append_nil, List.append_assoc]
      refine List.Perm.append_left _ (List.Perm.append_left _ (List.Perm.append_left _ ?_))
      exact List.Perm.swap ch p []
    · simp only [fds_append, f1, f3, f4, handed3, fds_nil, List.append_nil]
      have : fds [Ent.childFd ch] = [ch] := rfl
      rw [this]
      simp only [List.append_assoc]
      refine List.Perm.append_left _ ?_
      refine (List.perm_append_comm_assoc n1 _ _).trans (List.Perm.append_left _ ?_)
      have : (n1 ++ (n3 ++ (givenBy o.errorClose o.error ++ (n4 ++ [ch])))).Perm
          (n1 ++ (givenBy o.errorClose o.error ++ (n3 ++ (n4 ++ [ch])))) :=
        List.Perm.append_left _ (List.perm_append_comm_assoc _ _ _)
      exact this.trans (List.perm_append_comm_assoc _ _ _)
    · simp [g2, r4, r3, b1]
    · simp [g3, r4, r3, b2]
    · simp [g4, r4, r3, b3]
    · simp [g5, r4, r3, b4]
  · rw [if_neg hpty] at h5
    simp only [M.pure_ok] at h5
    obtain ⟨rfl, rfl⟩ := h5
    subst h6
    refine ⟨_, _, n1 ++ n3 ++ n4, e.trans (.same rfl rfl rfl rfl rfl rfl rfl),
      ?_, ?_, ?_, ?_, ?_, ?_⟩
    · simp [LS.parent, r4, r3, b5]
    · simp only [fds_append, f1, f3, f4, handed3, fds_nil, List.append_nil]
      simp only [List.append_assoc]
      refine List.Perm.append_left _ ?_
      refine (List.perm_append_comm_assoc n1 _ _).trans (List.Perm.append_left _ ?_)
      have : (n1 ++ (n3 ++ (givenBy o.errorClose o.error ++ n4))).Perm
          (n1 ++ (givenBy o.errorClose o.error ++ (n3 ++ n4))) :=
        List.Perm.append_left _ (List.perm_append_comm_assoc _ _ _)
      exact this.trans (List.perm_append_comm_assoc _ _ _)
    · simp [r4, r3, b1]
    · simp [r4, r3, b2]
    · simp [r4, r3, b3]
    · simp [r4, r3, b4]

theorem setupRedirects_err {sys : Sys} (hs : sys.Ok) {o : Options} {s s' : LS} {e}
    (h : setupRedirects sys o s = (.error e, s')) : ∃ new ents, Eff s s' new ents := by
  -- successful steps in front of the failing one
  have inOk : ∀ {t c a r b}, setupInput sys t c a = (.ok r, b) → ∃ n es, Eff a b n es := by
    intro t c a r b h; obtain ⟨n, es, e, _⟩ := setupInput_ok hs h; exact ⟨n, es, e⟩
  have outOk : ∀ {fd t ap c a r b}, setupOutput sys fd t ap c a = (.ok r, b) →
      ∃ n es, Eff a b n es := by
    intro fd t ap c a r b h
    by_cases hb : (a.stderrOnly && fd == 2) = true → t.eqR .stdout = true
    · obtain ⟨n, es, e, _⟩ := setupOutput_ok hs hb h; exact ⟨n, es, e⟩
    · simp only [Classical.not_imp] at hb
      obtain ⟨hb, _⟩ := hb
      simp only [setupOutput, M.bind_ok, getS_ok] at h
      obtain ⟨_, _, ⟨rfl, rfl⟩, h⟩ := h
      have file : (∃ n s1, openFile sys a = (.ok n, s1) ∧
          { s1 with openFds := s1.openFds ++ [.file n] } = b) → ∃ n es, Eff a b n es := by
        rintro ⟨n, s1, h1, rfl⟩
        obtain ⟨e, r, q⟩ := openFile_eff hs h1
        exact ⟨_, _, e.trans (.ents (es := [.file n]) rfl rfl rfl rfl rfl rfl rfl)⟩
      cases t <;> simp only [hb, M.bind_ok, M.pure_ok, modify_ok, addFd_ok, if_true] at h
      case path p => obtain ⟨n, s1, h1, _, s2, h2, _, rfl⟩ := h; exact file ⟨n, s1, h1, h2⟩
      case pathLike p => obtain ⟨n, s1, h1, _, s2, h2, _, rfl⟩ := h; exact file ⟨n, s1, h1, h2⟩
      all_goals
        obtain ⟨_, s1, rfl, _, rfl⟩ := h
        exact ⟨_, _, .same rfl rfl rfl rfl rfl rfl rfl⟩
  simp only [setupRedirects, M.bind_err] at h
  rcases h with h | ⟨⟨stdin, ib⟩, s1, h1, h⟩
  · exact setupInput_err h
  obtain ⟨n1, es1, e1⟩ := inOk h1
  dsimp only at h
  rcases h with h | ⟨_, s2, h2, h⟩
  · simp [noteStderrOnly] at h
  have e2 : Eff s1 s2 [] [] := by
    simp only [noteStderrOnly, modify_ok] at h2
    subst h2
    split
    · exact .same rfl rfl rfl rfl rfl rfl rfl
    · exact .refl _
  rcases h with h | ⟨stdout, s3, h3, h⟩
  · obtain ⟨_, _, e3⟩ := setupOutput_err h
    exact ⟨_, _, (e1.trans e2).trans e3⟩
  obtain ⟨_, _, e3⟩ := outOk h3
  rcases h with h | ⟨stderr, s4, h4, h⟩
  · obtain ⟨_, _, e4⟩ := setupOutput_err h
    exact ⟨_, _, ((e1.trans e2).trans e3).trans e4⟩
  obtain ⟨_, _, e4⟩ := outOk h4
  rcases h with h | ⟨hh, s5, h5, h⟩
  · unfold setupPty at h
    by_cases hpty : o.pty.truthy = true
    · rw [if_pos hpty] at h
      by_cases hpre : o.preexecFn.isSome = true
      · rw [if_pos hpre] at h; simp at h
        obtain ⟨_, rfl⟩ := h
        exact ⟨_, _, ((e1.trans e2).trans e3).trans e4⟩
      · rw [if_neg hpre] at h
        obtain ⟨_, _, e5⟩ := setupPty1_err hs h
        exact ⟨_, _, (((e1.trans e2).trans e3).trans e4).trans e5⟩
    · rw [if_neg hpty] at h; simp at h
  · simp at h

/-! ## The whole of `__enter__` -/

theorem Subst.all_plain : ∀ (args : List Leaf), usesProcSub args = false →
    Subst args (args.map PArg.leaf) [] [] [] []
  | [], _ => .nil
  | a :: as, h => by
    simp [usesProcSub] at h
    exact .plain a h.1 (Subst.all_plain as (by simpa [usesProcSub] using h.2))

theorem setupArgs_ok {sys : Sys} (hs : sys.Ok) {args : List Leaf} {s s' : LS} {u : Unit}
    (h0 : s.subcmds = []) (h0' : s.passFds = []) (h : setupArgs sys args s = (.ok u, s')) :
    ∃ new kept ps, Eff s s' new (s'.passFds.map Ent.fd) ∧
      Subst args s'.posArgs s'.subcmds s'.passFds kept ps ∧ new.Perm (s'.passFds ++ kept) ∧
      s'.pty = s.pty ∧ s'.stderrOnly = s.stderrOnly ∧
      s'.pipes = s.pipes ++ ps ∧ new = ps.flatMap (fun p => [p.1, p.2]) := by
  by_cases hu : usesProcSub args = true
  · simp only [setupArgs, if_pos hu, M.bind_ok, modify_ok] at h
    obtain ⟨⟨as, fs⟩, s1, h1, h2⟩ := h
    obtain ⟨subs, kept, new, ps, e, hS, hc, hp, hr, hps, hn⟩ := procSubLoop_eff hs args h1
    subst h2
    simp only [LS.rest, Prod.mk.injEq] at hr
    rw [h0] at hc
    simp at hc
    refine ⟨new, kept, ps, ?_, by simpa [hc] using hS, hp, hr.2.2.2.2.2.2.2.1, hr.2.2.2.2.2.2.1, hps, hn⟩
    have e' : Eff s1 { s1 with
        posArgs := as
        passFds := fs
        closeFds := some true
        openFds := s1.openFds ++ fs.map Ent.fd } [] (fs.map Ent.fd) :=
      .ents rfl rfl rfl rfl rfl rfl rfl
    simpa using e.trans e'
  · rw [Bool.not_eq_true] at hu
    simp [setupArgs, hu] at h
    subst h
    refine ⟨[], [], [], ?_, ?_, ?_, rfl, rfl, by simp, rfl⟩
    · simp only [h0']
      exact .same rfl rfl rfl rfl rfl rfl (by simp)
    · simp only [h0, h0']
      exact Subst.all_plain _ hu
    · simp [h0']

theorem setupArgs_err {sys : Sys} (hs : sys.Ok) {args : List Leaf} {s s' : LS} {e}
    (h : setupArgs sys args s = (.error e, s')) : ∃ new ents, Eff s s' new ents := by
  by_cases hu : usesProcSub args = true
  · simp only [setupArgs, if_pos hu, M.bind_err, modify_err, and_false, exists_false, or_false] at h
    exact procSubLoop_err hs args h
  · rw [Bool.not_eq_true] at hu
    simp [setupArgs, hu] at h

theorem setupPassFds_ok {o : Options} {s s' : LS} {u : Unit}
    (h : setupPassFds o s = (.ok u, s')) :
    Eff s s' [] (if o.passFdsClose then o.passFds.map Ent.fd else []) ∧
      s'.passFds = s.passFds ++ o.passFds ∧ s'.subcmds = s.subcmds ∧ s'.posArgs = s.posArgs ∧
      s'.pty = s.pty ∧ s'.pipes = s.pipes := by
  by_cases he : o.passFds = []
  · simp [setupPassFds, he] at h
    subst h
    simp only [he, List.map_nil, ite_self, List.append_nil]
    exact ⟨.same rfl rfl rfl rfl rfl rfl rfl, trivial, trivial, trivial, trivial, trivial⟩
  · have he' : o.passFds.isEmpty = false := by simpa using he
    simp only [setupPassFds, he', M.bind_ok, modify_ok, Bool.false_eq_true, if_false] at h
    obtain ⟨_, s1, rfl, h⟩ := h
    cases hc : o.passFdsClose
    · simp [hc] at h; subst h
      exact ⟨.same rfl rfl rfl rfl rfl rfl rfl, rfl, rfl, rfl, rfl, rfl⟩
    · simp [hc] at h; subst h
      exact ⟨.ents rfl rfl rfl rfl rfl rfl rfl, rfl, rfl, rfl, rfl, rfl⟩

theorem setupPassFds_err {o : Options} {s s' : LS} {e} :
    setupPassFds o s = (.error e, s') ↔ False := by
  simp only [setupPassFds]
  split
  · simp
  · cases o.passFdsClose <;> simp

theorem newRun_eff (s : LS) : s.openFds = [] → Eff s s.newRun [] [] := fun h =>
  .same rfl rfl rfl rfl rfl rfl (by simp [LS.newRun, h])

/-- The descriptors of a command after a successful `__enter__`. -/
theorem enterBody_ok {sys : Sys} (hs : sys.Ok) {c : Command} {s s' : LS} {u : Unit}
    (h : enterBody sys c s = (.ok u, s')) :
    ∃ new ents own kept passed ps, Eff s.newRun s' new ents ∧
      Subst c.args s'.posArgs s'.subcmds passed kept ps ∧
      s'.passFds = passed ++ c.options.passFds ∧
      new.Perm (own ++ kept ++ s'.parent) ∧ (fds ents).Perm (handed c.options ++ own) ∧
      (∀ x ∈ passed, x ∈ own) ∧
      s'.pipes = s.pipes ++ ps ∧ (ps.flatMap (fun p => [p.1, p.2])).Perm (passed ++ kept) := by
  simp only [enterBody, M.bind_ok, modify_ok, call_ok] at h
  obtain ⟨_, _, rfl, _, s1, h1, _, s2, h2, _, s3, h3, _, rfl⟩ := h
  obtain ⟨n1, kept, ps, e1, hS, p1, t1, so1, hps, hn1⟩ := setupArgs_ok hs (s := s.newRun) rfl rfl h1
  obtain ⟨n2, es2, own2, e2, p2, f2, c2, pf2, pa2, pi2⟩ :=
    setupRedirects_ok hs (t1.trans rfl) (so1.trans rfl) h2
  obtain ⟨e3, pf3, c3, pa3, t3, pi3⟩ := setupPassFds_ok h3
  refine ⟨_, _, s1.passFds ++ own2, kept, s1.passFds, ps,
    ((e1.trans e2).trans e3).trans (.same rfl rfl rfl rfl rfl rfl rfl), ?_, ?_, ?_, ?_, ?_, ?_, ?_⟩
  · simpa [pa3, pa2, c3, c2] using hS
  · simp [pf3, pf2]
  · have hpar : LS.parent { s3 with calls := s3.calls + 1 } = s2.parent := by
      simp [LS.parent, t3]
    rw [hpar]
    simp only [List.append_nil]
    refine (p1.append p2).trans ?_
    simp only [List.append_assoc]
    exact List.Perm.append_left _ (List.perm_append_comm_assoc _ _ _)
  · simp only [fds_append, fds_nil, List.append_nil]
    have hpass : fds (s1.passFds.map Ent.fd) = s1.passFds := by
      rw [fds_map_fd, List.filter_eq_self]
      intro a ha
      have : a ∈ n1 := p1.symm.subset (List.mem_append_left _ ha)
      simpa using e1.nonneg a this
    have hpc : fds (if c.options.passFdsClose = true then c.options.passFds.map Ent.fd else []) =
        (if c.options.passFdsClose then c.options.passFds.filter (fun n => decide (0 ≤ n)) else []) := by
      cases c.options.passFdsClose
      · rfl
      · simp [fds_map_fd]
    rw [hpass, hpc]
    have : handed c.options = handed3 c.options ++
      (if c.options.passFdsClose then c.options.passFds.filter (fun n => decide (0 ≤ n)) else []) := by
      simp [handed, handed3]
    rw [this]
    generalize (if c.options.passFdsClose then c.options.passFds.filter (fun n => decide (0 ≤ n))
      else []) = P
    refine ((List.Perm.append_left _ f2).append_right P).trans ?_
    simp only [List.append_assoc]
    refine (List.perm_append_comm_assoc _ _ _).trans (List.Perm.append_left _ ?_)
    have h1 : (s1.passFds ++ (own2 ++ P)).Perm (s1.passFds ++ (P ++ own2)) :=
      List.Perm.append_left _ List.perm_append_comm
    exact h1.trans (List.perm_append_comm_assoc _ _ _)
  · intro x hx; exact List.mem_append_left _ hx
  · simp [pi3, pi2, hps, LS.newRun]
  · rw [← hn1]; exact p1

theorem enterBody_err {sys : Sys} (hs : sys.Ok) {c : Command} {s s' : LS} {e}
    (h : enterBody sys c s = (.error e, s')) : ∃ new ents, Eff s.newRun s' new ents := by
  simp only [enterBody, M.bind_err, modify_err, modify_ok, call_err, false_or] at h
  obtain ⟨_, _, rfl, h⟩ := h
  rcases h with h | ⟨_, s1, h1, h⟩
  · exact setupArgs_err hs h
  obtain ⟨n1, _, _, e1, _, _, t1, so1, _⟩ := setupArgs_ok hs (s := s.newRun) rfl rfl h1
  rcases h with h | ⟨_, s2, h2, h⟩
  · obtain ⟨_, _, e2⟩ := setupRedirects_err hs h
    exact ⟨_, _, e1.trans e2⟩
  obtain ⟨_, _, _, e2, _⟩ := setupRedirects_ok hs (t1.trans rfl) (so1.trans rfl) h2
  rcases h with h | ⟨_, s3, h3, h⟩
  · exact (setupPassFds_err.1 h).elim
  obtain ⟨e3, _⟩ := setupPassFds_ok h3
  obtain ⟨_, rfl⟩ := h
  exact ⟨_, _, ((e1.trans e2).trans e3).trans (.same rfl rfl rfl rfl rfl rfl rfl)⟩

/-! ## Closing -/

/-- User objects among entries. -/
def objs (es : List Ent) : List Nat := es.filterMap fun
  | .obj id => some id
  | _ => none

/-- Closing a list of distinct, open descriptors closes exactly those, in order. -/
theorem closeAll_ok {sys : Sys} : ∀ (es : List Ent) {s s' : LS},
    closeAll sys es s = (s', false) → s.tab.Nodup → (fds es).Nodup → (∀ x ∈ fds es, x ∈ s.tab) →
    s'.tab.Nodup ∧ (∀ x, x ∈ s'.tab ↔ x ∈ s.tab ∧ x ∉ fds es) ∧
    s'.closed = s.closed ++ fds es ∧ s'.tried = s.tried ++ fds es ∧ s'.ebadf = s.ebadf ∧
    s'.objClosed = s.objClosed ++ objs es ∧
    s' = { s with tab := s'.tab, closed := s'.closed, tried := s'.tried, objClosed := s'.objClosed } := by
  intro es
  induction es with
  | nil =>
    intro s s' h hn _ _
    simp [closeAll] at h; subst h
    simp [hn, objs]
  | cons e es ih =>
    intro s s' h hn hd hm
    -- closing one open descriptor
    have one : ∀ n, fds (e :: es) = n :: fds es → objs (e :: es) = objs es →
        closeAll sys es (osClose n s) = (s', false) →
        s'.tab.Nodup ∧ (∀ x, x ∈ s'.tab ↔ x ∈ s.tab ∧ x ∉ fds (e :: es)) ∧
        s'.closed = s.closed ++ fds (e :: es) ∧ s'.tried = s.tried ++ fds (e :: es) ∧
        s'.ebadf = s.ebadf ∧ s'.objClosed = s.objClosed ++ objs (e :: es) ∧
        s' = { s with tab := s'.tab, closed := s'.closed, tried := s'.tried,
                      objClosed := s'.objClosed } := by
      intro n hf ho hc
      rw [hf] at hd hm
      have hnm : n ∈ s.tab := hm n (by simp)
      simp only [osClose, if_pos hnm] at hc
      have hd' := List.nodup_cons.1 hd
      obtain ⟨i1, i2, i3, i4, i5, i6, i7⟩ := ih hc (hn.erase n) hd'.2 (by
        intro x hx
        have hne : x ≠ n := by rintro rfl; exact hd'.1 hx
        exact (List.mem_erase_of_ne hne).2 (hm x (by simp [hx])))
      refine ⟨i1, ?_, ?_, ?_, i5, by simpa [ho] using i6, ?_⟩
      · intro x
        rw [i2 x, hf, hn.mem_erase_iff]
        simp only [List.mem_cons, not_or]
        constructor
        · rintro ⟨⟨a, b⟩, c⟩; exact ⟨b, a, c⟩
        · rintro ⟨b, a, c⟩; exact ⟨⟨a, b⟩, c⟩
      · rw [i3, hf]; simp
      · rw [i4, hf]; simp
      · rw [i7]
    have skip : fds (e :: es) = fds es → ∀ s1, s1.tab = s.tab → s1.closed = s.closed →
        s1.tried = s.tried → s1.ebadf = s.ebadf →
        s1.objClosed ++ objs es = s.objClosed ++ objs (e :: es) →
        s1 = { s with objClosed := s1.objClosed } → closeAll sys es s1 = (s', false) →
        s'.tab.Nodup ∧ (∀ x, x ∈ s'.tab ↔ x ∈ s.tab ∧ x ∉ fds (e :: es)) ∧
        s'.closed = s.closed ++ fds (e :: es) ∧ s'.tried = s.tried ++ fds (e :: es) ∧
        s'.ebadf = s.ebadf ∧ s'.objClosed = s.objClosed ++ objs (e :: es) ∧
        s' = { s with tab := s'.tab, closed := s'.closed, tried := s'.tried,
                      objClosed := s'.objClosed } := by
      intro hf s1 a1 a2 a3 a4 a5 a6 hc
      rw [hf] at hd hm ⊢
      obtain ⟨i1, i2, i3, i4, i5, i6, i7⟩ := ih hc (a1 ▸ hn) hd (by rw [a1]; exact hm)
      refine ⟨i1, by rw [← a1]; exact i2, by rw [i3, a2], by rw [i4, a3], by rw [i5, a4],
        by rw [i6, a5], ?_⟩
      rw [i7, a6]
    cases e with
    | fd n =>
      by_cases h0 : 0 ≤ n
      · simp only [closeAll, closeEnt, if_pos h0] at h
        exact one n (by simp [fds, h0]) (by simp [objs]) h
      · simp only [closeAll, closeEnt, if_neg h0] at h
        exact skip (by simp [fds, h0]) s rfl rfl rfl rfl (by simp [objs]) rfl h
    | file n =>
      have hnm : n ∈ s.tab := hm n (by simp [fds])
      simp only [closeAll, closeEnt, if_pos hnm] at h
      cases hb : sys.fileCloseErr n <;> simp [hb] at h
      exact one n (by simp [fds]) (by simp [objs]) h
    | childFd n =>
      simp only [closeAll, closeEnt] at h
      exact one n (by simp [fds]) (by simp [objs]) h
    | obj id =>
      simp only [closeAll, closeEnt] at h
      cases hb : sys.objCloseErr id <;> simp [hb] at h
      exact skip (by simp [fds]) { s with objClosed := s.objClosed ++ [id] } rfl rfl rfl rfl
        (by simp [objs]) rfl h

theorem enter_ok {sys : Sys} {c : Command} {s s' : LS} {u : Unit} :
    enter sys c s = (.ok u, s') ↔ enterBody sys c s = (.ok u, s') := by
  unfold enter
  split
  · next h => simp [h]
  · next h => simp [h]

/-- A successful `__exit__`. -/
theorem exit_ok {sys : Sys} {s s' : LS} (h : exit sys false s = (s', false)) :
    ∃ s1, closeAll sys s.openFds s = (s1, false) ∧ s' = { s1 with openFds := [] } := by
  unfold exit at h
  split at h
  · cases h
  · next s1 h1 => simp at h; exact ⟨s1, h1, h.symm⟩

/-- Effect of closing, for entries that are open. -/
theorem exit_ok_tab {sys : Sys} {s s' : LS} (h : exit sys false s = (s', false))
    (hn : s.tab.Nodup) (hd : (fds s.openFds).Nodup) (hm : ∀ x ∈ fds s.openFds, x ∈ s.tab) :
    s'.tab.Nodup ∧ (∀ x, x ∈ s'.tab ↔ x ∈ s.tab ∧ x ∉ fds s.openFds) ∧
    s'.closed = s.closed ++ fds s.openFds ∧ s'.tried = s.tried ++ fds s.openFds ∧
    s'.ebadf = s.ebadf ∧ s'.objClosed = s.objClosed ++ objs s.openFds ∧
    s'.opened = s.opened ∧ s'.pipes = s.pipes ∧
    s'.rest = s.rest := by
  obtain ⟨s1, h1, rfl⟩ := exit_ok h
  obtain ⟨a1, a2, a3, a4, a5, a6, a7⟩ := closeAll_ok _ h1 hn hd hm
  refine ⟨a1, a2, a3, a4, a5, a6, ?_, ?_, ?_⟩ <;> rw [a7] <;> rfl

theorem launch_ok {sys : Sys} {c : Command} {s s' : LS} {u : Unit}
    (h : launch sys c s = (.ok u, s')) :
    ∃ s1, enterBody sys c s = (.ok (), s1) ∧
      exit sys false { s1 with calls := s1.calls + 1 } = (s', false) := by
  unfold launch at h
  split at h
  · cases h
  · next s1 h1 =>
    split at h
    · cases h
    · next s2 h2 =>
      simp at h2
      obtain ⟨_, rfl⟩ := h2
      cases hx : exit sys false { s1 with calls := s1.calls + 1 } with
      | mk s3 b =>
        simp [hx] at h
        cases b <;> simp at h
        subst h
        exact ⟨s1, enter_ok.1 h1, hx⟩

end Shellous
