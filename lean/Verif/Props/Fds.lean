import Verif.Lemmas.Stitch

/-!
# Descriptors: C41 - C45
-/

namespace Shellous

/-! ## C41: ownership on success -/

/-- C41. A successful launch closes, each exactly once and never an already closed one, exactly the
descriptors handed over by the options and those it opened itself, except the pipe ends that belong to
the sub-commands (`kept`) and the parent side of the terminal, which stay open, as does every
descriptor the caller kept. -/
theorem C41_closed_exactly_once {sys : Sys} (hs : sys.Ok) (c : Command) (T : List Int)
    (hT : T.Nodup) (hown : ∀ x ∈ handed c.options, x ∈ T) (hd : (handed c.options).Nodup)
    {s' : LS} (h : launch sys c { tab := T } = (.ok (), s')) :
    ∃ passed kept, Subst c.args s'.posArgs s'.subcmds passed kept s'.pipes ∧
      s'.ebadf = [] ∧ s'.closed.Nodup ∧
      (∀ x, x ∈ s'.closed ↔
        x ∈ handed c.options ∨ (x ∈ s'.opened ∧ x ∉ kept ∧ x ∉ s'.parent)) ∧
      (∀ x, x ∈ s'.tab ↔ (x ∈ T ∧ x ∉ handed c.options) ∨ x ∈ kept ∨ x ∈ s'.parent) ∧
      (∀ x ∈ s'.opened, x ∉ T) ∧ (∀ x, x ∈ kept ∨ x ∈ s'.parent → x ∈ s'.opened) ∧
      s'.openFds = [] := by
  obtain ⟨s1, h1, h2⟩ := launch_ok h
  obtain ⟨new, ents, own, kept, passed, ps, e, hS, hpf, hperm, hfds, hpo, hpi, _⟩ := enterBody_ok hs h1
  have hopen : s1.openFds = ents := by rw [e.openFds]; rfl
  have htab : ∀ x, x ∈ s1.tab ↔ x ∈ new ∨ x ∈ T := e.mem_tab
  have hnew : ∀ x, x ∈ new ↔ x ∈ own ∨ x ∈ kept ∨ x ∈ s1.parent := by
    intro x; rw [hperm.mem_iff]; simp
  have hnd : (own ++ kept ++ s1.parent).Nodup := hperm.nodup_iff.1 e.nodup
  have hfr : ∀ x ∈ new, x ∉ T := e.fresh
  have hnodup : (fds ents).Nodup := by
    rw [hfds.nodup_iff]
    refine List.nodup_append.2 ⟨hd, (List.nodup_append.1 (List.nodup_append.1 hnd).1).1, ?_⟩
    intro a ha b hb hab
    subst hab
    exact hfr a ((hnew a).2 (Or.inl hb)) (hown a ha)
  have hmem : ∀ x, x ∈ fds ents ↔ x ∈ handed c.options ∨ x ∈ own := by
    intro x; rw [hfds.mem_iff]; simp
  obtain ⟨_, b2, b3, _, b5, _, b7, b8, b9⟩ := exit_ok_tab h2 (e.nodup_tab hT)
    (by simpa [hopen] using hnodup) (by
      intro x hx
      simp only [hopen] at hx
      rcases (hmem x).1 hx with h | h
      · exact (htab x).2 (Or.inr (hown x h))
      · exact (htab x).2 (Or.inl ((hnew x).2 (Or.inl h))))
  simp only [hopen] at b2 b3
  simp only [LS.rest, Prod.mk.injEq] at b9
  obtain ⟨c1, c2, c3, c4, c5, c6, c7, c8, _⟩ := b9
  have hpar : s'.parent = s1.parent := by simp [LS.parent, c8]
  have hop : s'.opened = new := by rw [b7]; simpa [LS.newRun] using e.opened
  have hdis : ∀ x, x ∈ own → x ∉ kept ∧ x ∉ s1.parent := by
    intro x hx
    obtain ⟨q1, _, q3⟩ := List.nodup_append.1 hnd
    obtain ⟨_, _, q4⟩ := List.nodup_append.1 q1
    exact ⟨fun h => q4 x hx x h rfl, fun h => q3 x (by simp [hx]) x h rfl⟩
  have hcl : s'.closed = fds ents := by
    rw [b3]
    have : s1.closed = [] := by rw [e.closed]; rfl
    simp [this]
  refine ⟨passed, kept, by simpa [c1, c3, b8, hpi] using hS, ?_, by rw [hcl]; exact hnodup, ?_, ?_, ?_, ?_, ?_⟩
  · rw [b5]; exact e.ebadf
  · intro x
    rw [hcl, hmem, hop, hpar, hnew]
    constructor
    · rintro (h | h)
      · exact Or.inl h
      · exact Or.inr ⟨Or.inl h, hdis x h⟩
    · rintro (h | ⟨h | h | h, h1, h2⟩)
      · exact Or.inl h
      · exact Or.inr h
      · exact (h1 h).elim
      · exact (h2 h).elim
  · intro x
    rw [b2, hmem, hpar]
    simp only [htab, hnew, not_or]
    constructor
    · rintro ⟨(h | h | h) | h, h1, h2⟩
      · exact (h2 h).elim
      · exact Or.inr (Or.inl h)
      · exact Or.inr (Or.inr h)
      · exact Or.inl ⟨h, h1⟩
    · have hk : ∀ x, x ∈ kept ∨ x ∈ s1.parent → x ∉ handed c.options ∧ x ∉ own := by
        intro x hx
        refine ⟨fun hh => hfr x ((hnew x).2 (Or.inr hx)) (hown x hh), fun hh => ?_⟩
        rcases hx with hx | hx
        · exact (hdis x hh).1 hx
        · exact (hdis x hh).2 hx
      rintro (⟨h, h1⟩ | h | h)
      · exact ⟨Or.inr h, h1, fun ho => hfr x ((hnew x).2 (Or.inl ho)) h⟩
      · exact ⟨Or.inl (Or.inr (Or.inl h)), hk x (Or.inl h)⟩
      · exact ⟨Or.inl (Or.inr (Or.inr h)), hk x (Or.inr h)⟩
  · intro x hx; rw [hop] at hx; exact hfr x hx
  · intro x hx
    rw [hpar] at hx
    rw [hop, hnew]; exact Or.inr hx
  · obtain ⟨s2, _, rfl⟩ := exit_ok h2; rfl

/-! ### Concurrent launches, nested process substitutions and pipelines -/

/-- What an item still has to close. -/
def LItem.pend : LItem → List Int
  | .todo c => c.owned
  | .entered es subs => fds es ++ subs.flatMap SubCmd.owned

/-- Every command of the item is free of overridden hand-overs. -/
def LItem.clean : LItem → Prop
  | .todo c => c.clean
  | .entered _ subs => ∀ x ∈ subs, x.clean

/-- Invariant of concurrent launches: the open descriptors are the caller's, the terminals' and those
that some item is going to close, all distinct. -/
structure FdInv (keep : List Int) (k : LConf) : Prop where
  nodup : k.st.tab.Nodup
  perm : k.st.tab.Perm (keep ++ k.parents ++ k.items.flatMap LItem.pend)
  ebadf : k.st.ebadf = []
  clean : ∀ x ∈ k.items, x.clean

theorem perm_of_count {l m : List Int} (h : ∀ a, l.count a = m.count a) : l.Perm m :=
  List.perm_iff_count.2 h

theorem FdInv.step {sys : Sys} (hs : sys.Ok) {keep : List Int} {a b : LConf} (ha : FdInv keep a)
    (h : LStep sys a b) : FdInv keep b := by
  cases h with
  | enter q1 q2 c ps s s1 h =>
    obtain ⟨hn, hp, he, hc⟩ := ha
    dsimp only at hn hp he hc
    obtain ⟨new, ents, own, kept, passed, _, e, hS, hpf, hperm, hfds, hpo, _, _⟩ :=
      enterBody_ok hs (enter_ok.1 h)
    have hopen : s1.openFds = ents := by rw [e.openFds]; rfl
    have hcl : (SubCmd.cmd c).clean := hc (.todo (.cmd c)) (by simp)
    have hcl' : cleanLeaves c.args := by
      cases c; simpa [SubCmd.clean, cleanCmd] using hcl
    have hnn : ∀ x ∈ passed ++ kept, 0 ≤ x := by
      intro x hx
      refine e.nonneg x (hperm.symm.subset ?_)
      rcases List.mem_append.1 hx with h | h
      · simp [hpo x h]
      · simp [h]
    obtain ⟨o1, o2⟩ := subst_owned hS hcl' hnn
    refine ⟨e.nodup_tab hn, ?_, e.ebadf.trans he, ?_⟩
    · have howned : (SubCmd.cmd c).owned = handed c.options ++ ownedLeaves c.args := by
        cases c; rfl
      dsimp only
      rw [e.tab]
      refine perm_of_count fun x => ?_
      have h1 := hp.count_eq x
      have h2 := hperm.count_eq x
      have h3 := hfds.count_eq x
      have h4 := o1.count_eq x
      have h5 := List.count_reverse (l := new) (a := x)
      have hpar : (s1.pty.map (·.parent)).toList = s1.parent := rfl
      simp only [List.flatMap_append, List.flatMap_cons, LItem.pend, howned, hopen, hpar,
        List.count_append, LS.newRun] at h1 h2 h3 h4 ⊢
      omega
    · intro x hx
      rcases List.mem_append.1 hx with hx | hx
      · exact hc x (by simp [hx])
      · rcases List.mem_cons.1 hx with rfl | hx
        · exact o2
        · exact hc x (by simp [hx])
  | exit q1 q2 es subs ps s s1 h =>
    obtain ⟨hn, hp, he, hc⟩ := ha
    dsimp only at hn hp he hc
    have hnd : (keep ++ ps ++ (q1 ++ .entered es subs :: q2).flatMap LItem.pend).Nodup :=
      hp.nodup_iff.1 hn
    have hp' : (keep ++ ps ++ (q1 ++ .entered es subs :: q2).flatMap LItem.pend).Perm
        (fds es ++ (keep ++ ps ++ (q1 ++ subs.map LItem.todo ++ q2).flatMap LItem.pend)) := by
      refine perm_of_count fun x => ?_
      have : (subs.map LItem.todo).flatMap LItem.pend = subs.flatMap SubCmd.owned := by
        rw [List.flatMap_map]; rfl
      simp only [List.flatMap_append, List.flatMap_cons, LItem.pend, List.count_append, this]
      omega
    have hnd' := hp'.nodup_iff.1 hnd
    obtain ⟨d1, d2, d3⟩ := List.nodup_append.1 hnd'
    have hsub : ∀ x ∈ fds es, x ∈ s.tab := by
      intro x hx
      exact (hp.trans hp').symm.subset (by simp [hx])
    obtain ⟨b1, b2, b3, _, b5, _⟩ := exit_ok_tab h hn d1 hsub
    refine ⟨b1, ?_, b5.trans he, ?_⟩
    · rw [List.perm_ext_iff_of_nodup b1 d2]
      intro x
      rw [b2]
      dsimp only
      rw [(hp.trans hp').mem_iff, List.mem_append]
      constructor
      · rintro ⟨h | h, h'⟩
        · exact (h' h).elim
        · exact h
      · intro h
        exact ⟨Or.inr h, fun h' => d3 x h' x h rfl⟩
    · intro x hx
      simp only [List.append_assoc, List.mem_append, List.mem_map] at hx
      rcases hx with hx | ⟨y, hy, rfl⟩ | hx
      · exact hc x (by simp [hx])
      · exact hc (.entered es subs) (by simp) y hy
      · exact hc x (by simp [hx])
  | stitch q1 q2 p cs ps s s1 h =>
    obtain ⟨hn, hp, he, hc⟩ := ha
    dsimp only at hn hp he hc
    obtain ⟨pipes, s2, e, rfl, _, hl, hcs⟩ := pipeStart_ok hs h
    have hcl : (SubCmd.pipe p).clean := hc (.todo (.pipe p)) (by simp)
    have hnn : ∀ q ∈ pipes, 0 ≤ q.1 ∧ 0 ≤ q.2 := by
      intro q hq
      have : ∀ y, y = q.1 ∨ y = q.2 → 0 ≤ y := by
        intro y hy
        apply e.nonneg y
        simp only [List.mem_flatMap]
        exact ⟨q, hq, by simpa using hy⟩
      exact ⟨this _ (Or.inl rfl), this _ (Or.inr rfl)⟩
    have howned : (ownedCmds cs).Perm ((pipes.flatMap fun p => [p.1, p.2]) ++ ownedCmds p.commands) := by
      rw [hcs, owned_map_asStage]
      by_cases hne : p.commands = []
      · have : pipes = [] := by simpa [hne] using hl
        simp [hne, this, link]
      · simpa using link_owned p.commands pipes none hl hcl.1 hnn (by simp) (by simp) hne
    have hcleancs : cleanCmds cs := by
      rw [hcs, clean_map_asStage]
      exact link_clean _ _ _ hcl.2
    have hpend : ∀ l : List Command,
        (l.map (fun c => LItem.todo (.cmd c))).flatMap LItem.pend = ownedCmds l := by
      intro l
      induction l with
      | nil => rfl
      | cons c l ih => simp only [List.map_cons, List.flatMap_cons, ih]; rfl
    refine ⟨e.nodup_tab hn, ?_, e.ebadf.trans he, ?_⟩
    · dsimp only
      rw [e.tab]
      refine perm_of_count fun x => ?_
      have h1 := hp.count_eq x
      have h2 := howned.count_eq x
      have h5 := List.count_reverse (l := pipes.flatMap fun p => [p.1, p.2]) (a := x)
      simp only [List.flatMap_append, List.flatMap_cons, LItem.pend, hpend, SubCmd.owned,
        List.count_append] at h1 h2 ⊢
      omega
    · have hmem : ∀ l : List Command, cleanCmds l → ∀ c ∈ l, cleanCmd c := by
        intro l
        induction l with
        | nil => simp
        | cons c l ih =>
          intro h
          simp only [cleanCmds] at h
          simpa using ⟨h.1, ih h.2⟩
      intro x hx
      simp only [List.append_assoc, List.mem_append, List.mem_map] at hx
      rcases hx with hx | ⟨y, hy, rfl⟩ | hx
      · exact hc x (by simp [hx])
      · exact hmem cs hcleancs y hy
      · exact hc x (by simp [hx])

/-- C41 for whole trees of commands. Launch any commands and pipelines concurrently, in any order and
interleaving, with their process substitutions at any depth. When all have been launched, every
descriptor they were handed (including the ends of all pipes made for them) is closed, no close hit
an already closed descriptor, and the caller's descriptors and the terminals are all that is open. -/
theorem C41_concurrent_launches {sys : Sys} (hs : sys.Ok) (cmds : List SubCmd)
    (keep : List Int) (hd : (keep ++ cmds.flatMap SubCmd.owned).Nodup)
    (hclean : ∀ c ∈ cmds, c.clean) {parents : List Int} {s : LS}
    (h : LSteps sys ⟨cmds.map .todo, [], { tab := keep ++ cmds.flatMap SubCmd.owned }⟩
      ⟨[], parents, s⟩) :
    s.ebadf = [] ∧ s.tab.Perm (keep ++ parents) := by
  have h0 : FdInv keep ⟨cmds.map .todo, [], { tab := keep ++ cmds.flatMap SubCmd.owned }⟩ := by
    refine ⟨hd, ?_, rfl, ?_⟩
    · have : (cmds.map LItem.todo).flatMap LItem.pend = cmds.flatMap SubCmd.owned := by
        rw [List.flatMap_map]; rfl
      simp [this]
    · intro x hx
      obtain ⟨c, hc, rfl⟩ := List.mem_map.1 hx
      exact hclean c hc
  have key : ∀ {a b : LConf}, LSteps sys a b → FdInv keep a → FdInv keep b := by
    intro a b h
    induction h with
    | refl => exact id
    | step h1 _ ih => exact fun ha => ih (ha.step hs h1)
  have hf := key h h0
  exact ⟨hf.ebadf, by simpa using hf.perm⟩

/-- C41. At no point of any such run is a descriptor closed that the caller kept, nor is a close
attempted on a descriptor that is not open. -/
theorem C41_kept_never_closed {sys : Sys} (hs : sys.Ok) (cmds : List SubCmd)
    (keep : List Int) (hd : (keep ++ cmds.flatMap SubCmd.owned).Nodup)
    (hclean : ∀ c ∈ cmds, c.clean) {k : LConf}
    (h : LSteps sys ⟨cmds.map .todo, [], { tab := keep ++ cmds.flatMap SubCmd.owned }⟩ k) :
    k.st.ebadf = [] ∧ ∀ x ∈ keep, x ∈ k.st.tab := by
  have h0 : FdInv keep ⟨cmds.map .todo, [], { tab := keep ++ cmds.flatMap SubCmd.owned }⟩ := by
    refine ⟨hd, ?_, rfl, ?_⟩
    · have : (cmds.map LItem.todo).flatMap LItem.pend = cmds.flatMap SubCmd.owned := by
        rw [List.flatMap_map]; rfl
      simp [this]
    · intro x hx
      obtain ⟨c, hc, rfl⟩ := List.mem_map.1 hx
      exact hclean c hc
  have key : ∀ {a b : LConf}, LSteps sys a b → FdInv keep a → FdInv keep b := by
    intro a b h
    induction h with
    | refl => exact id
    | step h1 _ ih => exact fun ha => ih (ha.step hs h1)
  have hf := key h h0
  exact ⟨hf.ebadf, fun x hx => hf.perm.symm.subset (by simp [hx])⟩

/-! ### Concrete systems and cases -/

/-- A system whose kernel hands out the successor of the largest open descriptor; calls listed in
`bad` fail. -/
def exSys (bad : List Nat := []) : Sys where
  alloc t := t.foldr max 2 + 1
  fail n := if n ∈ bad then some .osError else none
  fileCloseErr _ := false
  objCloseErr _ := false
  bytesOf _ := [120]
  textOf _ := ['t']
  encode t := .ok (t.map fun c => UInt8.ofNat c.toNat)
  ptyEof := [4]

theorem le_foldr_max (t : List Int) (b x : Int) (h : x ∈ t ∨ x ≤ b) : x ≤ t.foldr max b := by
  induction t with
  | nil => simpa using h
  | cons a t ih =>
    simp only [List.mem_cons, List.foldr_cons] at h ⊢
    by_cases hx : x = a
    · subst hx; omega
    · have : x ≤ t.foldr max b := ih (by rcases h with (h | h) | h <;> simp_all)
      omega

theorem exSys_ok (bad : List Nat) : (exSys bad).Ok where
  fresh t h := by
    have := le_foldr_max t 2 _ (Or.inl h)
    simp [exSys] at this
    omega
  nonneg t := by
    have := le_foldr_max t 2 2 (Or.inr (by omega))
    simp [exSys]
    omega

/-- A command for examples. -/
abbrev exCmd (name : String) (args : List Leaf := []) (o : Options := {}) : Command :=
  .mk (.str name.toList :: args) o

/-- Did the code succeed? -/
def okB {α : Type} : Except Exc α → Bool
  | .ok _ => true
  | .error _ => false

/-- Did it raise `e`? -/
def errB {α : Type} (e : Exc) : Except Exc α → Bool
  | .ok _ => false
  | .error e' => e = e'

theorem eval_ok {m : M Unit} {s : LS} {P : LS → Prop} (h : okB (m s).1 = true) (hp : P (m s).2) :
    ∃ s', m s = (.ok (), s') ∧ P s' := by
  refine ⟨(m s).2, ?_, hp⟩
  match hr : (m s).1 with
  | .ok () => rw [← hr]
  | .error e => rw [hr] at h; cases h

theorem eval_err {α : Type} {m : M α} {s : LS} {e : Exc} {P : LS → Prop} (h : errB e (m s).1 = true)
    (hp : P (m s).2) : ∃ s', m s = (.error e, s') ∧ P s' := by
  refine ⟨(m s).2, ?_, hp⟩
  match hr : (m s).1 with
  | .ok a => rw [hr] at h; cases h
  | .error e' => rw [hr] at h; simp only [errB, decide_eq_true_eq] at h; subst h; rw [← hr]

/-- Let the `i`-th item take its step. -/
def pick (sys : Sys) (i : Nat) (k : LConf) : Option LConf :=
  match k.items[i]? with
  | none => none
  | some (.todo (.cmd c)) =>
    match enter sys c k.st with
    | (.ok (), s1) => some ⟨k.items.take i ++ .entered s1.openFds s1.subcmds :: k.items.drop (i + 1),
        k.parents ++ (s1.pty.map (·.parent)).toList, s1⟩
    | _ => none
  | some (.todo (.pipe p)) =>
    match pipeStart sys p.commands k.st with
    | (.ok cs, s1) =>
      some ⟨k.items.take i ++ cs.map (fun c => .todo (.cmd c)) ++ k.items.drop (i + 1), k.parents, s1⟩
    | _ => none
  | some (.entered es subs) =>
    match exit sys false { k.st with openFds := es } with
    | (s1, false) => some ⟨k.items.take i ++ subs.map .todo ++ k.items.drop (i + 1), k.parents, s1⟩
    | _ => none

/-- Let the items take steps in the given order. -/
def picks (sys : Sys) : List Nat → LConf → Option LConf
  | [], k => some k
  | i :: is, k => (pick sys i k).bind (picks sys is)

theorem split_at {α : Type} {l : List α} {i : Nat} {a : α} (h : l[i]? = some a) :
    l = l.take i ++ a :: l.drop (i + 1) := by
  obtain ⟨hi, rfl⟩ := List.getElem?_eq_some_iff.1 h
  simp

theorem pick_step {sys : Sys} {i : Nat} {k k' : LConf} (h : pick sys i k = some k') : LStep sys k k' := by
  obtain ⟨items, ps, s⟩ := k
  unfold pick at h
  dsimp only at h
  split at h
  · cases h
  · next c hi =>
    split at h
    · next s1 h1 =>
      cases h
      have := LStep.enter (items.take i) (items.drop (i + 1)) c ps s s1 h1
      rwa [← split_at hi] at this
    · cases h
  · next p hi =>
    split at h
    · next cs s1 h1 =>
      cases h
      have := LStep.stitch (items.take i) (items.drop (i + 1)) p cs ps s s1 h1
      rwa [← split_at hi] at this
    · cases h
  · next es subs hi =>
    split at h
    · next s1 h1 =>
      cases h
      have := LStep.exit (items.take i) (items.drop (i + 1)) es subs ps s s1 h1
      rwa [← split_at hi] at this
    · cases h

theorem picks_steps {sys : Sys} : ∀ (is : List Nat) {k k' : LConf}, picks sys is k = some k' →
    LSteps sys k k'
  | [], k, k', h => by cases h; exact .refl _
  | i :: is, k, k', h => by
    simp only [picks, Option.bind_eq_some_iff] at h
    obtain ⟨k1, h1, h2⟩ := h
    exact .step (pick_step h1) (picks_steps is h2)

theorem eval_steps {sys : Sys} (is : List Nat) {k : LConf} {ps : List Int} {P : LS → Prop}
    [DecidablePred P]
    (h : (match picks sys is k with
      | some k' => k'.items.isEmpty && decide (k'.parents = ps) && decide (P k'.st)
      | none => false) = true) : ∃ s, LSteps sys k ⟨[], ps, s⟩ ∧ P s := by
  split at h
  · next k' hk =>
    simp only [Bool.and_eq_true, decide_eq_true_eq, List.isEmpty_iff] at h
    obtain ⟨⟨h1, rfl⟩, h3⟩ := h
    refine ⟨k'.st, ?_, h3⟩
    rw [← h1]
    exact picks_steps is hk
  · cases h

-- `diff <(sort a) >(tee)`, stdin a file, stdout descriptor 7 with close=True, on a terminal.
example :
    let c := exCmd "diff" [.cmd (exCmd "sort"), .cmd (exCmd "tee" [] { writable := true })]
      { input := .path "in".toList, output := .int 7, outputClose := true, pty := .on,
        passFds := [5, 6], passFdsClose := true }
    ∃ s', launch (exSys []) c { tab := [0, 1, 2, 5, 6, 7, 9] } = (.ok (), s') ∧
      s'.closed = [10, 13, 14, 7, 16, 5, 6] ∧ s'.tab = [15, 12, 11, 0, 1, 2, 9] ∧ s'.ebadf = [] :=
  eval_ok (by decide +kernel) (by decide +kernel)

-- The hypotheses of `C41_concurrent_launches` for a pipeline with a nested process substitution.
example :
    let p := SubCmd.pipe ⟨[exCmd "cat" [] { input := .int 7, inputClose := true },
      exCmd "diff" [.cmd (exCmd "sort" [.cmd (exCmd "ls")]), .str "x".toList]]⟩
    ([0, 1, 2] ++ [p].flatMap SubCmd.owned).Nodup ∧ p.owned = [7] ∧ p.clean ∧
    ∃ s, LSteps (exSys []) ⟨[p].map .todo, [], { tab := [0, 1, 2] ++ [p].flatMap SubCmd.owned }⟩
      ⟨[], [], s⟩ ∧ s.opened = [8, 9, 10, 11, 12, 13] := by
  refine ⟨by decide, by decide, ?_, ?_⟩
  · simp [SubCmd.clean, cleanLinks, cleanCmds, cleanCmd, cleanLeaves, cleanLeaf, cleanEnd, noOut, noIn,
      givenBy]
  · exact eval_steps [0, 1, 0, 1, 0, 0, 0, 0, 0] (by decide +kernel)

/-- C41 fails for file objects: `stdout(fileobj, close=True)` launches without ever closing the
file object (it is closed only if the launch fails). -/
theorem C41_file_object_false :
    let c := exCmd "ls" [] { output := .ioBase 3, outputClose := true }
    ∃ s', launch (exSys []) c { tab := [0, 1, 2] } = (.ok (), s') ∧ s'.objClosed = [] ∧
      s'.openFds = [] ∧ s'.subcmds.length = 0 :=
  eval_ok (by decide +kernel) (by decide +kernel)

/-- C41 fails when a process substitution overrides a redirection that handed over a descriptor:
`sh("cat", sh("ls").stdout(7, close=True))` leaves descriptor 7 open when everything was launched. -/
theorem C41_overridden_redirect_false :
    let c := exCmd "cat" [.cmd (exCmd "ls" [] { output := .int 7, outputClose := true })]
    ∃ s, LSteps (exSys []) ⟨[.todo (.cmd c)], [], { tab := [0, 1, 2, 7] }⟩ ⟨[], [], s⟩ ∧ 7 ∈ s.tab := by
  exact eval_steps [0, 0, 0, 0] (by decide +kernel)

/-- C41 needs the descriptors handed over to be distinct: `cmd.stdin(5, close=True).stdout(5,
close=True)` closes descriptor 5 twice; the second close hits a descriptor that is no longer ours. -/
theorem C41_shared_descriptor_false :
    let c := exCmd "cat" [] { input := .int 5, inputClose := true, output := .int 5, outputClose := true }
    ∃ s', launch (exSys []) c { tab := [0, 1, 2, 5] } = (.ok (), s') ∧ s'.tried = [5, 5] ∧
      s'.ebadf = [5] :=
  eval_ok (by decide +kernel) (by decide +kernel)

/-! ## C43: process substitution -/

/-- C43. In a launched command the arguments given to the program and the commands to run beside it
are related by `Subst`; the pipes are new (not open before) and all their ends are distinct; the
program inherits its ends, followed by the `_pass_fds` of the options. -/
theorem C43_process_substitution {sys : Sys} (hs : sys.Ok) (c : Command) (T : List Int)
    {s' : LS} (h : launch sys c { tab := T } = (.ok (), s')) :
    ∃ passed kept, Subst c.args s'.posArgs s'.subcmds passed kept s'.pipes ∧
      s'.passFds = passed ++ c.options.passFds ∧ (passed ++ kept).Nodup ∧
      (∀ x ∈ passed ++ kept, x ∉ T) ∧ s'.posArgs.length = c.args.length := by
  obtain ⟨s1, h1, h2⟩ := launch_ok h
  obtain ⟨new, ents, own, kept, passed, ps, e, hS, hpf, hperm, hfds, hpo, hpi, hpp⟩ := enterBody_ok hs h1
  obtain ⟨s2, h3, rfl⟩ := exit_ok h2
  have frame : ∀ (es : List Ent) (a b : LS), closeAll sys es a = (b, false) →
      b.posArgs = a.posArgs ∧ b.subcmds = a.subcmds ∧ b.passFds = a.passFds ∧ b.pipes = a.pipes := by
    intro es
    induction es with
    | nil => intro a b h; simp [closeAll] at h; subst h; simp
    | cons x es ih =>
      intro a b h
      have os : ∀ n, (osClose n a).posArgs = a.posArgs ∧ (osClose n a).subcmds = a.subcmds ∧
          (osClose n a).passFds = a.passFds ∧ (osClose n a).pipes = a.pipes := by
        intro n; unfold osClose; split <;> simp
      unfold closeAll at h
      split at h
      · cases h
      · next s' hx =>
        have := ih _ _ h
        cases x <;> simp only [closeEnt] at hx
        · split at hx <;> cases hx
          · simpa [os] using this
          · exact this
        · obtain ⟨rfl, _⟩ := Prod.mk.injEq .. ▸ hx
          split at this
          · simpa [os] using this
          · exact this
        · cases hx; simpa [os] using this
        · obtain ⟨rfl, _⟩ := Prod.mk.injEq .. ▸ hx
          simpa using this
  obtain ⟨f1, f2, f3, f4⟩ := frame _ _ _ h3
  dsimp only at f1 f2 f3 f4 ⊢
  have hsub : ∀ x ∈ passed ++ kept, x ∈ new := by
    intro x hx
    refine hperm.symm.subset ?_
    rcases List.mem_append.1 hx with h | h
    · simp [hpo x h]
    · simp [h]
  have hlen : ∀ {as ps subs pa ke pi}, Subst as ps subs pa ke pi → ps.length = as.length := by
    intro as ps subs pa ke pi h
    induction h <;> simp_all
  refine ⟨passed, kept, ?_, f3.trans hpf, ?_, fun x hx => e.fresh x (hsub x hx), ?_⟩
  · rw [f1, f2, f4, hpi]; simpa using hS
  · -- the ends of the pipes are distinct
    have hnew : new.Perm (own ++ kept ++ s1.parent) := hperm
    have hnd : (own ++ kept ++ s1.parent).Nodup := hnew.nodup_iff.1 e.nodup
    obtain ⟨q1, _, _⟩ := List.nodup_append.1 hnd
    obtain ⟨q2, q3, q4⟩ := List.nodup_append.1 q1
    refine List.nodup_append.2 ⟨?_, q3, fun a ha b hb => q4 a (hpo a ha) b hb⟩
    -- the passed ends are distinct: they are part of the distinct ends of all pipes
    have hs1 : (ps.flatMap fun p => [p.1, p.2]).Nodup := by
      simp only [enterBody, M.bind_ok, modify_ok, call_ok] at h1
      obtain ⟨_, _, rfl, _, s5, g1, _, s6, g2, _, s7, g3, _, rfl⟩ := h1
      obtain ⟨n1, kept', ps', e1, hS', p1, t1, so1, hps, hn1⟩ :=
        setupArgs_ok hs (s := LS.newRun { tab := T }) rfl rfl g1
      obtain ⟨_, _, _, _, _, _, _, _, _, pi2⟩ := setupRedirects_ok hs (t1.trans rfl) (so1.trans rfl) g2
      obtain ⟨_, _, _, _, _, pi3⟩ := setupPassFds_ok g3
      have : ps = ps' := by
        have h1 : s7.pipes = ps := by simpa using hpi
        rw [pi3, pi2, hps] at h1
        simpa [LS.newRun] using h1.symm
      rw [this, ← hn1]
      exact e1.nodup
    exact (List.nodup_append.1 (hpp.nodup_iff.1 hs1)).1
  · rw [f1]; exact hlen hS

/-- Equality of arguments without commands. -/
def PArg.same : PArg → PArg → Bool
  | .leaf (.str a), .leaf (.str b) => decide (a = b)
  | .devFd a, .devFd b => decide (a = b)
  | _, _ => false

-- A reading and a writing substitution between plain arguments.
example :
    let c := exCmd "diff" [.cmd (exCmd "sort"), .str "x".toList, .cmd (exCmd "tee" [] { writable := true })]
    ∃ s', launch (exSys []) c { tab := [0, 1, 2] } = (.ok (), s') ∧
      (s'.posArgs.zipWith PArg.same
        [.leaf (.str "diff".toList), .devFd 3, .leaf (.str "x".toList), .devFd 6]) = [true, true, true, true] ∧
      s'.passFds = [3, 6] ∧ s'.pipes = [(3, 4), (5, 6)] ∧
      s'.subcmds.map (fun c => (c.options.input, c.options.inputClose)) =
        [(.redirect .default, false), (.int 5, true)] ∧
      s'.subcmds.map (fun c => (c.options.output, c.options.outputClose)) =
        [(.int 4, true), (.redirect .default, false)] :=
  eval_ok (by decide +kernel) (by decide +kernel)

/-! ## C44: `close_fds` -/

/-- C44. On a list of descriptor numbers, `close_fds` never fails and calls `os.close` once for each
non-negative one, in order, whichever of these calls fail; nothing else changes but that they are closed. -/
theorem C44_close_fds (sys : Sys) (ns : List Int) (s : LS) :
    ∃ s', closeAll sys (ns.map .fd) s = (s', false) ∧
      s'.tried = s.tried ++ ns.filter (fun n => decide (0 ≤ n)) ∧
      (s.tab.Nodup → ∀ x, x ∈ s'.tab ↔ x ∈ s.tab ∧ ¬ (x ∈ ns ∧ 0 ≤ x)) ∧
      s'.objClosed = s.objClosed ∧ s'.opened = s.opened := by
  induction ns generalizing s with
  | nil => exact ⟨s, rfl, by simp, by simp, rfl, rfl⟩
  | cons n ns ih =>
    by_cases h0 : 0 ≤ n
    · obtain ⟨s', h1, h2, h3, h4, h5⟩ := ih (osClose n s)
      have ht : (osClose n s).tried = s.tried ++ [n] := by unfold osClose; split <;> rfl
      refine ⟨s', by simpa [closeAll, closeEnt, h0] using h1, ?_, ?_, ?_, ?_⟩
      · rw [h2, ht]; simp [h0]
      · intro hn x
        have hmem : x ∈ (osClose n s).tab ↔ x ∈ s.tab ∧ x ≠ n := by
          unfold osClose
          split
          · rw [hn.mem_erase_iff]; exact And.comm
          · next hnm =>
            constructor
            · intro h; exact ⟨h, by rintro rfl; exact hnm h⟩
            · exact fun h => h.1
        have hnd : (osClose n s).tab.Nodup := by
          unfold osClose
          split
          · exact hn.erase n
          · exact hn
        rw [h3 hnd x, hmem]
        simp only [List.mem_cons]
        constructor
        · rintro ⟨⟨a, b⟩, c⟩
          refine ⟨a, ?_⟩
          rintro ⟨rfl | h, h'⟩
          · exact b rfl
          · exact c ⟨h, h'⟩
        · rintro ⟨a, b⟩
          refine ⟨⟨a, ?_⟩, fun h => b ⟨Or.inr h.1, h.2⟩⟩
          rintro rfl
          exact b ⟨Or.inl rfl, h0⟩
      · rw [h4]; unfold osClose; split <;> rfl
      · rw [h5]; unfold osClose; split <;> rfl
    · obtain ⟨s', h1, h2, h3, h4, h5⟩ := ih s
      refine ⟨s', by simpa [closeAll, closeEnt, h0] using h1, by simp [h2, h0], ?_, h4, h5⟩
      intro hn x
      rw [h3 hn x]
      simp only [List.mem_cons]
      constructor
      · rintro ⟨a, c⟩
        refine ⟨a, ?_⟩
        rintro ⟨rfl | h, h'⟩
        · exact h0 h'
        · exact c ⟨h, h'⟩
      · rintro ⟨a, b⟩
        exact ⟨a, fun h => b ⟨Or.inr h.1, h.2⟩⟩

example : ∃ s', closeAll (exSys []) ([7, -1, 9, 8, 7].map .fd) { tab := [7, 8] } = (s', false) ∧
    s'.tried = [7, 9, 8, 7] ∧ s'.ebadf = [9, 7] ∧ s'.tab = [] := ⟨_, rfl, rfl, rfl, rfl⟩

/-- C44 does not extend to objects: an exception of an object's `close()` makes `close_fds` skip the
rest of the list (which it clears nevertheless). -/
theorem C44_object_close_raises_false :
    let sys : Sys := { exSys [] with objCloseErr := fun _ => true }
    ∃ s', closeAll sys [.fd 7, .obj 1, .fd 8] { tab := [7, 8] } = (s', true) ∧ s'.tab = [8] :=
  ⟨_, rfl, rfl⟩

/-! ## C45: pipelines are wired head to tail -/

theorem link_length : ∀ (cs : List Command) (ps : List (Int × Int)) (i : Option Int),
    ps.length = cs.length - 1 → (link i cs ps).length = cs.length
  | [], _, _, _ => rfl
  | [c], _, _, _ => rfl
  | _ :: _ :: _, [], _, h => by simp at h
  | c :: d :: rest, (r, w) :: ps, i, h => by
    simp only [link, List.length_cons]
    rw [link_length (d :: rest) ps (some r) (by simpa using h)]
    rfl

theorem link_get : ∀ (cs : List Command) (ps : List (Int × Int)) (i : Option Int) (k : Nat) (c : Command),
    ps.length = cs.length - 1 → cs[k]? = some c →
    (link i cs ps)[k]? = some (
      let a := if k = 0 then optIn c i else (match ps[k - 1]? with
        | some p => withIn c p.1
        | none => c)
      match ps[k]? with
      | some p => withOut a p.2
      | none => a)
  | [], _, _, _, _, _, h => by simp at h
  | [d], ps, i, k, c, hl, h => by
    have hps : ps = [] := by simpa using hl
    subst hps
    cases k with
    | zero => simp at h; subst h; simp [link]
    | succ k => simp at h
  | _ :: _ :: _, [], _, _, _, hl, _ => by simp at hl
  | b :: d :: rest, (r, w) :: ps, i, k, c, hl, h => by
    cases k with
    | zero => simp at h; subst h; simp [link]
    | succ k =>
      have ih := link_get (d :: rest) ps (some r) k c (by simpa using hl) (by simpa using h)
      simp only [link, List.getElem?_cons_succ]
      rw [ih]
      cases k with
      | zero => simp [optIn]
      | succ k => simp

/-- C45. Starting a pipeline of n commands makes n-1 pipes whose 2(n-1) ends are all new and
distinct. Command `k` is the configured one except that its stdin is the read end of pipe `k-1`
(if `k > 0`), its stdout the write end of pipe `k` (if `k < n-1`), both with close=True, and that it
returns its result and survives cancellation. So each end belongs to exactly one command and the first
stdin and the last stdout and stderr are as configured. -/
theorem C45_head_to_tail {sys : Sys} (hs : sys.Ok) (cs : List Command) (hne : cs ≠ []) (s : LS)
    {cs' : List Command} {s' : LS} (h : pipeStart sys cs s = (.ok cs', s')) :
    ∃ ps : List (Int × Int), s'.pipes = s.pipes ++ ps ∧ ps.length + 1 = cs.length ∧
      (ps.flatMap fun p => [p.1, p.2]).Nodup ∧
      (∀ p ∈ ps, p.1 ∉ s.tab ∧ p.2 ∉ s.tab ∧ p.1 ∈ s'.tab ∧ p.2 ∈ s'.tab) ∧
      cs'.length = cs.length ∧
      ∀ (k : Nat) (c c' : Command), cs[k]? = some c → cs'[k]? = some c' →
        c'.args = c.args ∧
        c'.options = { c.options with
          input := if k = 0 then c.options.input else .int (ps.getD (k - 1) (0, 0)).1
          inputClose := if k = 0 then c.options.inputClose else true
          output := if k + 1 = cs.length then c.options.output else .int (ps.getD k (0, 0)).2
          outputAppend := if k + 1 = cs.length then c.options.outputAppend else false
          outputClose := if k + 1 = cs.length then c.options.outputClose else true
          returnResult := true
          catchCancelled := true } := by
  obtain ⟨ps, s1, e, rfl, hp, hl, hcs⟩ := pipeStart_ok hs h
  have hpos : 0 < cs.length := List.length_pos_iff.2 hne
  refine ⟨ps, hp, by omega, e.nodup, ?_, by simp [hcs, link_length _ _ _ hl], ?_⟩
  · intro p hp
    have hm : ∀ y, y = p.1 ∨ y = p.2 → y ∈ ps.flatMap fun p => [p.1, p.2] := by
      intro y hy
      simp only [List.mem_flatMap]
      exact ⟨p, hp, by simpa using hy⟩
    have h1 := hm _ (Or.inl rfl)
    have h2 := hm _ (Or.inr rfl)
    exact ⟨e.fresh _ h1, e.fresh _ h2, (e.mem_tab _).2 (Or.inl h1), (e.mem_tab _).2 (Or.inl h2)⟩
  · intro k c c' hc hc'
    have hk : k < cs.length := (List.getElem?_eq_some_iff.1 hc).1
    rw [hcs, List.getElem?_map, link_get cs ps none k c hl hc] at hc'
    simp only [Option.map_some, Option.some.injEq] at hc'
    subst hc'
    by_cases hlast : k + 1 = cs.length
    · have hn : ps[k]? = none := by rw [List.getElem?_eq_none_iff]; omega
      rw [hn]
      by_cases hk0 : k = 0
      · subst hk0
        simp [asStage, optIn, hlast]
      · have hk1 : k - 1 < ps.length := by omega
        have : ps[k - 1]? = some (ps.getD (k - 1) (0, 0)) := by
          rw [List.getElem?_eq_getElem hk1, List.getD_eq_getElem?_getD, List.getElem?_eq_getElem hk1]; rfl
        simp only [this, hk0, if_false, hlast, if_true]
        simp [asStage, withIn]
    · have hk1 : k < ps.length := by omega
      have hsome : ps[k]? = some (ps.getD k (0, 0)) := by
        rw [List.getElem?_eq_getElem hk1, List.getD_eq_getElem?_getD, List.getElem?_eq_getElem hk1]; rfl
      rw [hsome]
      by_cases hk0 : k = 0
      · subst hk0
        simp [asStage, optIn, withOut, hlast]
      · have hk1 : k - 1 < ps.length := by omega
        have : ps[k - 1]? = some (ps.getD (k - 1) (0, 0)) := by
          rw [List.getElem?_eq_getElem hk1, List.getD_eq_getElem?_getD, List.getElem?_eq_getElem hk1]; rfl
        simp only [this, hk0, if_false, hlast]
        simp [asStage, withIn, withOut]

example :
    let r := pipeStart (exSys []) [exCmd "a" [] { input := .int 9, inputClose := true }, exCmd "b",
        exCmd "c" [] { output := .path "f".toList }] { tab := [0, 1, 2, 9] }
    okB r.1 = true ∧ r.2.pipes = [(10, 11), (12, 13)] ∧ r.2.tab = [13, 12, 11, 10, 0, 1, 2, 9] := by
  decide +kernel

end Shellous
