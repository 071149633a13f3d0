import Verif.Spec.Holders
import Verif.Props.Child

/-! # C93: each end of each pipe is in one process -/

namespace Shellous
namespace Props

/-! ## What a child is given -/

theorem childMay {sys : Sys} (hs : sys.Ok) {c : Command} {s s1 : LS} {inh : Int → Prop}
    (h : enterBody sys c s = (.ok (), s1)) {T : List Int} {n : Int} (hn : ChildHolds inh { s1 with tab := T } n) :
    n ∈ named c.options ∨ n ∈ fds s1.openFds ∨ inh n := by
  obtain ⟨new, ents, own, kept, passed, ps, e, hS, hpf, hperm, hfds, hpo, hpi, hpp⟩ := enterBody_ok hs h
  have hopen : s1.openFds = ents := by rw [e.openFds]; rfl
  rcases hn with hn | hn | hn | ⟨h2, -, hn | ⟨h3, h4, h5⟩⟩
  · exact (enterBody_fd hs h (Or.inl hn)).imp id Or.inl
  · exact (enterBody_fd hs h (Or.inr (Or.inl hn))).imp id Or.inl
  · exact (enterBody_fd hs h (Or.inr (Or.inr hn))).imp id Or.inl
  · have hn : n ∈ s1.passFds := hn
    rw [hpf, List.mem_append] at hn
    rcases hn with hn | hn
    · refine Or.inr (Or.inl ?_)
      rw [hopen]
      exact hfds.symm.subset (List.mem_append_right _ (hpo n hn))
    · exact Or.inl (by simp [named, hn])
  · exact Or.inr (Or.inr h5)

theorem Tame.handed {keep : List Int} {o : Options} (h : Tame keep o) {n : Int} (hn : n ∈ named o) : n ∈ keep ∨ n ∈ handed o := by
  have g : ∀ cl t, n ∈ Target.fd t → cl = true → n ∈ givenBy cl t := by
    intro cl t hn hc
    cases t <;> simp [Target.fd] at hn
    obtain ⟨h0, rfl⟩ := hn
    simp [givenBy, hc, h0]
  simp only [named, List.mem_append] at hn
  simp only [Shellous.handed, List.mem_append]
  rcases hn with ((hn | hn) | hn) | hn
  · exact (h.input n hn).imp id fun hc => .inl (.inl (.inl (g _ _ hn hc)))
  · exact (h.output n hn).imp id fun hc => .inl (.inl (.inr (g _ _ hn hc)))
  · exact (h.error n hn).imp id fun hc => .inl (.inr (g _ _ hn hc))
  · exact (h.passFds n hn).imp id fun hc => .inr (by rw [if_pos hc.1]; exact List.mem_filter.2 ⟨hn, by simpa using hc.2⟩)

section given
variable {sys : Sys}

theorem mem_givenBy {cl : Bool} {t : Target} {n : Int} (h : n ∈ givenBy cl t) : t = .int n ∧ 0 ≤ n := by
  cases t <;> simp [givenBy] at h
  obtain ⟨⟨_, h0⟩, rfl⟩ := h
  exact ⟨rfl, h0⟩

theorem setupInput_int {n : Int} {close : Bool} {s s' : LS} {r} (h : setupInput sys (.int n) close s = (.ok r, s')) : r.1 = .int n := by
  simp only [setupInput, M.bind_ok, M.pure_ok] at h
  cases close <;> simp at h <;> obtain ⟨rfl, rfl⟩ := h <;> rfl

theorem setupOutput_int {fd : Fin 3} {n : Int} {ap close : Bool} {s s' : LS} {r} (hso : (s.stderrOnly && fd == 2) = false)
    (h : setupOutput sys fd (.int n) ap close s = (.ok r, s')) : r = .int n := by
  simp only [setupOutput, M.bind_ok, getS_ok] at h
  obtain ⟨_, _, ⟨rfl, rfl⟩, h⟩ := h
  simp only [hso, M.bind_ok, M.pure_ok, Bool.false_eq_true, if_false] at h
  cases close <;> simp at h <;> obtain ⟨rfl, rfl⟩ := h <;> rfl

/-- A descriptor that is handed over becomes a stream of the child or is passed to it. -/
theorem enterBody_given (hs : sys.Ok) {c : Command} {s s' : LS} {u : Unit}
    (h : enterBody sys c s = (.ok u, s')) {n : Int} (hn : n ∈ handed c.options) :
    s'.stdin.fd? = some n ∨ s'.stdout.fd? = some n ∨ s'.stderr.fd? = some n ∨ n ∈ s'.passFds := by
  have hpass : n ∈ c.options.passFds → n ∈ s'.passFds := by
    obtain ⟨_, _, _, _, _, _, _, _, hpf, _⟩ := enterBody_ok hs h
    intro h; rw [hpf]; exact List.mem_append_right _ h
  simp only [enterBody, M.bind_ok, modify_ok, call_ok] at h
  obtain ⟨_, _, rfl, _, s1, h1, _, s2, h2, _, s3, h3, _, rfl⟩ := h
  obtain ⟨_, _, _, _, _, _, t1, so1, _⟩ := setupArgs_ok hs (s := s.newRun) rfl rfl h1
  have hstd : s3.stdin = s2.stdin ∧ s3.stdout = s2.stdout ∧ s3.stderr = s2.stderr := by
    unfold setupPassFds at h3
    split at h3
    · simp only [modify_ok] at h3; subst h3; exact ⟨rfl, rfl, rfl⟩
    · simp only [M.bind_ok, modify_ok] at h3
      obtain ⟨_, _, rfl, h3⟩ := h3
      cases hc : c.options.passFdsClose <;> simp [hc] at h3 <;> subst h3 <;> exact ⟨rfl, rfl, rfl⟩
  simp only [handed, List.mem_append] at hn
  by_cases hp : n ∈ c.options.passFds
  · exact .inr (.inr (.inr (hpass hp)))
  replace hn : (n ∈ givenBy c.options.inputClose c.options.input ∨ n ∈ givenBy c.options.outputClose c.options.output) ∨
      n ∈ givenBy c.options.errorClose c.options.error := by
    rcases hn with hn | hn
    · exact hn
    · split at hn
      · exact absurd (List.mem_filter.1 hn).1 hp
      · cases hn
  suffices s2.stdin.fd? = some n ∨ s2.stdout.fd? = some n ∨ s2.stderr.fd? = some n by
    show s3.stdin.fd? = some n ∨ s3.stdout.fd? = some n ∨ s3.stderr.fd? = some n ∨ _
    rw [hstd.1, hstd.2.1, hstd.2.2]
    rcases this with h | h | h
    · exact .inl h
    · exact .inr (.inl h)
    · exact .inr (.inr (.inl h))
  simp only [setupRedirects, M.bind_ok, modify_ok] at h2
  obtain ⟨⟨si, ib⟩, a1, g1, _, a2, g2, so, a3, g3, se, a4, g4, ⟨hi, ho, he⟩, a5, g5, rfl⟩ := h2
  have h0 : 0 ≤ n := by
    rcases hn with (hn | hn) | hn <;> exact (mem_givenBy hn).2
  have hfd : (Handle.int n).fd? = some n := by simp [Handle.fd?, h0]
  have keep : (hi = si ∨ si = PIPE) ∧ (ho = so ∨ so = PIPE) ∧ (he = se ∨ se = .int (-2)) := by
    unfold setupPty at g5
    split at g5
    · split at g5
      · simp at g5
      · obtain ⟨p, ch, e5, _, _, _, _, _, _, _, _, hr⟩ := setupPty1_ok hs g5
        simp only [Prod.mk.injEq] at hr
        obtain ⟨rfl, rfl, rfl⟩ := hr
        refine ⟨?_, ?_, ?_⟩
        · by_cases e : si = PIPE
          · exact .inr e
          · exact .inl (if_neg e)
        · by_cases e : so = PIPE
          · exact .inr e
          · exact .inl (if_neg e)
        · by_cases e : se = .int (-2)
          · exact .inr e
          · exact .inl (if_neg e)
    · simp only [M.pure_ok, Prod.mk.injEq] at g5
      obtain ⟨⟨rfl, rfl, rfl⟩, rfl⟩ := g5
      exact ⟨.inl rfl, .inl rfl, .inl rfl⟩
  have np : ∀ x : Int, x < 0 → (Handle.int n) ≠ .int x := by
    intro x hx h; cases h; omega
  rcases hn with (hn | hn) | hn
  · obtain ⟨e, -⟩ := mem_givenBy hn
    rw [e] at g1
    have : si = .int n := setupInput_int (r := (si, ib)) g1
    refine .inl ?_
    show hi.fd? = some n
    rw [keep.1.resolve_right (by rw [this]; exact np _ (by decide)), this, hfd]
  · obtain ⟨e, -⟩ := mem_givenBy hn
    rw [e] at g3
    have : so = .int n := setupOutput_int (by simp) g3
    refine .inr (.inl ?_)
    show ho.fd? = some n
    rw [keep.2.1.resolve_right (by rw [this]; exact np _ (by decide)), this, hfd]
  · obtain ⟨e, -⟩ := mem_givenBy hn
    have hso2 : a2.stderrOnly = false := by
      have hi := (setupInput_res g1).2.1
      simp only [LS.rest, Prod.mk.injEq] at hi
      have hb : (c.options.output.eqR .devnull && c.options.error.eqR .stdout) = false := by
        have : (n == -2) = false := by simp; omega
        rw [e]; simp [Target.eqR, Redirect.val, this]
      simp only [noteStderrOnly, modify_ok] at g2
      rw [hb] at g2
      subst g2
      have := hi.2.2.2.2.2.2.1
      rw [so1] at this
      exact this
    obtain ⟨_, _, e3', q3, _⟩ := setupOutput_ok hs (by simp) g3
    have hso3 : a3.stderrOnly = a2.stderrOnly := by
      simp only [LS.rest2, Prod.mk.injEq] at q3; exact q3.2.2.2.1
    rw [e] at g4
    have : se = .int n := setupOutput_int (by rw [hso3, hso2]; rfl) g4
    refine .inr (.inr ?_)
    show he.fd? = some n
    rw [keep.2.2.resolve_right (by rw [this]; exact np _ (by decide)), this, hfd]

end given

/-! ## Conditions on all commands of a command line -/

theorem allCmds_append {P : Options → Prop} (a b : List Command) : allCmds P (a ++ b) ↔ allCmds P a ∧ allCmds P b := by
  induction a with
  | nil => simp [allCmds]
  | cons c a ih => simp [allCmds, ih, and_assoc]

section tame
variable {keep : List Int}

theorem tame_withIn {c : Command} (n : Int) (h : allCmd (Tame keep) c) : allCmd (Tame keep) (withIn c n) := by
  cases c with
  | mk args o =>
    simp only [allCmd] at h
    simp only [withIn, allCmd]
    exact ⟨⟨fun _ _ => .inr rfl, h.1.output, h.1.error, h.1.passFds⟩, h.2⟩

theorem tame_withOut {c : Command} (n : Int) (h : allCmd (Tame keep) c) : allCmd (Tame keep) (withOut c n) := by
  cases c with
  | mk args o =>
    simp only [allCmd] at h
    simp only [withOut, allCmd]
    exact ⟨⟨h.1.input, fun _ _ => .inr rfl, h.1.error, h.1.passFds⟩, h.2⟩

theorem tame_asStage {c : Command} (h : allCmd (Tame keep) c) : allCmd (Tame keep) (asStage c) := by
  cases c with
  | mk args o =>
    simp only [allCmd] at h
    simp only [asStage, allCmd]
    exact ⟨⟨h.1.input, h.1.output, h.1.error, h.1.passFds⟩, h.2⟩

theorem tame_optIn {c : Command} (i : Option Int) (h : allCmd (Tame keep) c) : allCmd (Tame keep) (optIn c i) := by
  cases i with
  | none => exact h
  | some n => exact tame_withIn n h

theorem tame_link : ∀ (cs : List Command) (ps : List (Int × Int)) (i : Option Int), allCmds (Tame keep) cs → allCmds (Tame keep) (link i cs ps)
  | [], _, _, _ => by simp [link, allCmds]
  | [c], ps, i, h => by
    simp only [allCmds] at h
    simp only [link, allCmds]
    exact ⟨tame_optIn i h.1, trivial⟩
  | c :: d :: rest, [], i, h => by
    simp only [allCmds] at h
    simp only [link, allCmds]
    exact ⟨tame_optIn i h.1, trivial⟩
  | c :: d :: rest, (r, w) :: ps, i, h => by
    have h' : allCmds (Tame keep) (d :: rest) := by simp only [allCmds] at h ⊢; exact h.2
    have := tame_link (d :: rest) ps (some r) h'
    simp only [allCmds] at h
    simp only [link, allCmds]
    exact ⟨tame_withOut _ (tame_optIn i h.1), this⟩

theorem tame_stages : ∀ {cs : List Command}, allCmds (Tame keep) cs → ∀ c ∈ cs.map asStage, allCmd (Tame keep) c
  | [], _, _, hc => by cases hc
  | d :: cs, h, c, hc => by
    simp only [allCmds] at h
    rcases List.mem_cons.1 hc with rfl | hc
    · exact tame_asStage h.1
    · exact tame_stages h.2 c hc

theorem tame_stdin {a b : SubCmd} {n : Int} (hn : 0 ≤ n) (ha : a.all (Tame keep)) (h : a.stdin n = .ok b) : b.all (Tame keep) := by
  cases a with
  | cmd c =>
    simp only [SubCmd.stdin] at h
    cases h1 : c.stdin (.int n) true with
    | error e => rw [h1] at h; cases h
    | ok x => rw [h1] at h; cases h; rw [stdin_int_ok hn h1]; exact tame_withIn n ha
  | pipe p =>
    simp only [SubCmd.stdin] at h
    cases h1 : p.stdin (.int n) true with
    | error e => rw [h1] at h; cases h
    | ok q =>
      rw [h1] at h; cases h
      obtain ⟨c, rest, hp, hq⟩ := pipeline_stdin_ok hn h1
      simp only [SubCmd.all, hp, hq, allCmds] at ha ⊢
      exact ⟨tame_withIn n ha.1, ha.2⟩

theorem tame_stdout {a b : SubCmd} {n : Int} (hn : 0 ≤ n) (ha : a.all (Tame keep)) (h : a.stdout n = .ok b) : b.all (Tame keep) := by
  cases a with
  | cmd c =>
    simp only [SubCmd.stdout] at h
    cases h1 : c.stdout (.int n) false true with
    | error e => rw [h1] at h; cases h
    | ok x => rw [h1] at h; cases h; rw [stdout_int_ok hn h1]; exact tame_withOut n ha
  | pipe p =>
    simp only [SubCmd.stdout] at h
    cases h1 : p.stdout (.int n) false true with
    | error e => rw [h1] at h; cases h
    | ok q =>
      rw [h1] at h; cases h
      obtain ⟨cs, c, hp, hq⟩ := pipeline_stdout_ok hn h1
      simp only [SubCmd.all, hp, hq, allCmds_append, allCmds] at ha ⊢
      exact ⟨ha.1, tame_withOut n ha.2.1, trivial⟩

theorem tame_leaf {a : Leaf} {sub : SubCmd} (h : a.sub? = some sub) (ha : allLeaf (Tame keep) a) : sub.all (Tame keep) := by
  cases a <;> simp [Leaf.sub?] at h <;> subst h <;> simpa [allLeaf, SubCmd.all] using ha

theorem tame_subst {args ps subs passed kept pipes} (h : Subst args ps subs passed kept pipes) :
    allLeaves (Tame keep) args → (∀ x ∈ passed ++ kept, 0 ≤ x) → ∀ x ∈ subs, x.all (Tame keep) := by
  induction h with
  | nil => intro _ _ x hx; cases hx
  | plain a hn _ ih => intro hc h0; simp only [allLeaves] at hc; exact ih hc.2 h0
  | reading a sub sub' r w hsub hw hs _ ih =>
    intro hc h0
    simp only [allLeaves] at hc
    have i := ih hc.2 (fun x hx => h0 x (by simp at hx ⊢; rcases hx with h | h <;> simp [h]))
    intro x hx
    rcases List.mem_cons.1 hx with rfl | hx
    · exact tame_stdout (h0 w (by simp)) (tame_leaf hsub hc.1) hs
    · exact i x hx
  | writing a sub sub' r w hsub hw hs _ ih =>
    intro hc h0
    simp only [allLeaves] at hc
    have i := ih hc.2 (fun x hx => h0 x (by simp at hx ⊢; rcases hx with h | h <;> simp [h]))
    intro x hx
    rcases List.mem_cons.1 hx with rfl | hx
    · exact tame_stdin (h0 r (by simp)) (tame_leaf hsub hc.1) hs
    · exact i x hx

end tame

end Props

open Props

/-! ## The invariant -/

/-- Without the distinction between prepared and created. -/
def KItem.erase : KItem → LItem
  | .todo c => .todo c
  | .ready s1 => .entered s1.openFds s1.subcmds
  | .running es subs => .entered es subs

def Kernel.conf (k : Kernel) : LConf := ⟨k.items.map KItem.erase, k.parents, k.st⟩

theorem KStep.conf {sys : Sys} {inh : Int → Prop} {a b : Kernel} (h : KStep sys inh a b) : LStep sys a.conf b.conf ∨ a.conf = b.conf := by
  cases h with
  | enter q1 q2 c ps s s1 f f' m m' pp ch he ho =>
    left; simpa [Kernel.conf, KItem.erase] using LStep.enter (q1.map KItem.erase) (q2.map KItem.erase) c ps s s1 he
  | fork q1 q2 s1 ps s f m pp ch => right; simp [Kernel.conf, KItem.erase]
  | exit q1 q2 es subs ps s s1 f m pp ch he =>
    left
    have := LStep.exit (q1.map KItem.erase) (q2.map KItem.erase) es subs ps s s1 he
    simpa [Kernel.conf, KItem.erase, Function.comp_def] using this
  | stitch q1 q2 p cs ps s s1 f f' m m' pp ch he ho =>
    left
    have := LStep.stitch (q1.map KItem.erase) (q2.map KItem.erase) p cs ps s s1 he
    simpa [Kernel.conf, KItem.erase, Function.comp_def] using this
  | child => right; rfl

/-- What is known about an item. -/
def KItem.Fine (keep : List Int) (inh : Int → Prop) : KItem → Prop
  | .todo c => c.all (Tame keep)
  | .ready s1 => (∀ T n, ChildHolds inh { s1 with tab := T } n → n ∈ keep ∨ n ∈ fds s1.openFds) ∧ ∀ x ∈ s1.subcmds, x.all (Tame keep)
  | .running _ subs => ∀ x ∈ subs, x.all (Tame keep)

/-- The descriptors whose open files a child will be given. -/
def KItem.Gives (inh : Int → Prop) (n : Int) : KItem → Prop
  | .todo c => n ∈ c.owned
  | .ready s1 => (n ∈ fds s1.openFds ∧ ∀ T, n ∈ T → ChildHolds inh { s1 with tab := T } n) ∨ n ∈ s1.subcmds.flatMap SubCmd.owned
  | .running _ subs => n ∈ subs.flatMap SubCmd.owned

/-- Somebody has, or will be given, the open file. -/
def Kernel.Due (inh : Int → Prop) (k : Kernel) (i : Nat) : Prop :=
  (∃ c ∈ k.children, c.given i) ∨ ∃ n ∈ k.st.tab, k.file n = i ∧ 2 < n ∧ ∃ it ∈ k.items, it.Gives inh n

structure KInv (keep : List Int) (inh : Int → Prop) (mine : Nat → Prop) (k : Kernel) : Prop where
  fd : FdInv keep k.conf
  inj : ∀ n n', n ∈ k.st.tab → n' ∈ k.st.tab → k.file n = k.file n' → n = n' ∨ (n ∈ keep ∧ n' ∈ keep)
  lt : ∀ n ∈ k.st.tab, k.file n < k.files
  kept : ∀ n ∈ keep, mine (k.file n)
  fine : ∀ it ∈ k.items, it.Fine keep inh
  held : ∀ c ∈ k.children, ∀ i, c.held i → c.given i
  given : ∀ c ∈ k.children, ∀ i, c.given i → mine i ∨ (i < k.files ∧ ∀ n ∈ k.st.tab, k.file n = i → ∃ es subs, .running es subs ∈ k.items ∧ n ∈ fds es)
  one : ∀ (j j' : Nat) (c c' : Child), k.children[j]? = some c → k.children[j']? = some c' → ∀ i, c.given i → c'.given i → mine i ∨ j = j'
  pipes : ∀ p ∈ k.pipes, (k.Due inh p.1 ∧ ¬ mine p.1) ∧ (k.Due inh p.2 ∧ ¬ mine p.2)
  minelt : ∀ i, mine i → i < k.files

theorem pend_tab {keep : List Int} {items : List KItem} {ps : List Int} {s : LS} {f m pp ch}
    (h : FdInv keep (Kernel.conf ⟨items, ps, s, f, m, pp, ch⟩)) {it : KItem} (hit : it ∈ items) {n : Int} (hn : n ∈ it.erase.pend) : n ∈ s.tab :=
  h.perm.symm.subset (List.mem_append_right _ (List.mem_flatMap.2 ⟨_, List.mem_map.2 ⟨it, hit, rfl⟩, hn⟩))

theorem keep_tab {keep : List Int} {items : List KItem} {ps : List Int} {s : LS} {f m pp ch}
    (h : FdInv keep (Kernel.conf ⟨items, ps, s, f, m, pp, ch⟩)) {n : Int} (hn : n ∈ keep) : n ∈ s.tab :=
  h.perm.symm.subset (List.mem_append_left _ (List.mem_append_left _ hn))

theorem pend_disj {keep : List Int} {q1 q2 : List KItem} {it : KItem} {ps : List Int} {s : LS} {f m pp ch}
    (h : FdInv keep (Kernel.conf ⟨q1 ++ it :: q2, ps, s, f, m, pp, ch⟩)) {n : Int} (hn : n ∈ it.erase.pend) {it' : KItem} (hit : it' ∈ q1 ++ q2) :
    n ∉ it'.erase.pend := by
  intro hn'
  have hd := h.perm.nodup_iff.1 h.nodup
  have hc := List.nodup_iff_count.1 hd n
  simp only [Kernel.conf, List.map_append, List.map_cons, List.flatMap_append, List.flatMap_cons, List.count_append] at hc
  have h1 : 0 < List.count n it.erase.pend := List.count_pos_iff.2 hn
  rcases List.mem_append.1 hit with h | h
  · have := List.count_pos_iff.2 (List.mem_flatMap.2 ⟨_, List.mem_map.2 ⟨it', h, rfl⟩, hn'⟩); omega
  · have := List.count_pos_iff.2 (List.mem_flatMap.2 ⟨_, List.mem_map.2 ⟨it', h, rfl⟩, hn'⟩); omega

theorem pend_nodup {keep : List Int} {q1 q2 : List KItem} {es : List Ent} {subs : List SubCmd} {ps : List Int} {s : LS} {f m pp ch}
    (h : FdInv keep (Kernel.conf ⟨q1 ++ .running es subs :: q2, ps, s, f, m, pp, ch⟩)) {n : Int} (hn : n ∈ fds es) : n ∉ subs.flatMap SubCmd.owned := by
  intro hn'
  have hd := h.perm.nodup_iff.1 h.nodup
  have hc := List.nodup_iff_count.1 hd n
  simp only [Kernel.conf, List.map_append, List.map_cons, List.flatMap_append, List.flatMap_cons, List.count_append, KItem.erase, LItem.pend] at hc
  have h1 := List.count_pos_iff.2 hn
  have h2 := List.count_pos_iff.2 hn'
  omega

theorem gives_pend {inh : Int → Prop} {n : Int} {it : KItem} (h : it.Gives inh n) : n ∈ it.erase.pend := by
  cases it with
  | todo c => exact h
  | ready s1 => rcases h with h | h
                · exact List.mem_append_left _ h.1
                · exact List.mem_append_right _ h
  | running es subs => exact List.mem_append_right _ h

/-- The part of the invariant that opening files keeps. -/
theorem opens_kept {keep : List Int} {inh : Int → Prop} {mine : Nat → Prop} {items items' : List KItem} {ps : List Int} {s s1 : LS} {f f' m m'} {pp ch}
    (hk : KInv keep inh mine ⟨items, ps, s, f, m, pp, ch⟩) (ho : Opens s.tab s1.tab f m f' m')
    (hrun : ∀ es subs, .running es subs ∈ items → .running es subs ∈ items') :
    (∀ n n', n ∈ s1.tab → n' ∈ s1.tab → f' n = f' n' → n = n' ∨ (n ∈ keep ∧ n' ∈ keep)) ∧ (∀ n ∈ s1.tab, f' n < m') ∧ (∀ n ∈ keep, mine (f' n)) ∧
    (∀ c ∈ ch, ∀ i, c.given i → mine i ∨ (i < m' ∧ ∀ n ∈ s1.tab, f' n = i → ∃ es subs, KItem.running es subs ∈ items' ∧ n ∈ fds es)) ∧
    (∀ i, mine i → i < m') := by
  refine ⟨fun n n' hn hn' e => ?_, fun n hn => ?_, fun n hn => ?_, fun c hc i hi => ?_, fun i hi => Nat.lt_of_lt_of_le (hk.minelt i hi) ho.le⟩
  · by_cases h1 : n ∈ s.tab <;> by_cases h2 : n' ∈ s.tab
    · rw [ho.old n h1, ho.old n' h2] at e; exact hk.inj n n' h1 h2 e
    · have := hk.lt n h1; have := (ho.new n' hn' h2).1
      rw [ho.old n h1] at e; dsimp only at *; omega
    · have := hk.lt n' h2; have := (ho.new n hn h1).1
      rw [ho.old n' h2] at e; dsimp only at *; omega
    · exact .inl (ho.inj n n' hn hn' h1 h2 e)
  · by_cases h1 : n ∈ s.tab
    · rw [ho.old n h1]; exact Nat.lt_of_lt_of_le (hk.lt n h1) ho.le
    · exact (ho.new n hn h1).2
  · rw [ho.old n (keep_tab hk.fd hn)]; exact hk.kept n hn
  · refine (hk.given c hc i hi).imp id fun ⟨h1, h2⟩ => ⟨Nat.lt_of_lt_of_le h1 ho.le, fun n hn e => ?_⟩
    by_cases hs : n ∈ s.tab
    · rw [ho.old n hs] at e
      obtain ⟨es, subs, h3, h4⟩ := h2 n hs e
      exact ⟨es, subs, hrun _ _ h3, h4⟩
    · have := (ho.new n hn hs).1
      dsimp only at h1; omega

theorem KInv.enter {sys : Sys} (hs : sys.Ok) {keep : List Int} (h012 : ∀ n : Int, 0 ≤ n → n ≤ 2 → n ∈ keep) {inh : Int → Prop} (hinh : ∀ n, inh n → n ∈ keep)
    {mine : Nat → Prop} {q1 q2 : List KItem} {c : Command} {ps : List Int} {s s1 : LS} {f f' m m' pp ch}
    (hk : KInv keep inh mine ⟨q1 ++ .todo (.cmd c) :: q2, ps, s, f, m, pp, ch⟩) (he : enter sys c s = (.ok (), s1)) (ho : Opens s.tab s1.tab f m f' m') :
    KInv keep inh mine ⟨q1 ++ .ready s1 :: q2, ps ++ (s1.pty.map (·.parent)).toList, s1, f', m', pp ++ newPipes s s1 f', ch⟩ := by
  obtain ⟨o1, o2, o3, o4, o5⟩ := opens_kept (items' := q1 ++ .ready s1 :: q2) hk ho (fun es subs h => by
    rcases List.mem_append.1 h with h | h
    · exact List.mem_append_left _ h
    · rcases List.mem_cons.1 h with h | h
      · cases h
      · exact List.mem_append_right _ (List.mem_cons_of_mem _ h))
  have hb := enter_body he
  obtain ⟨new, ents, own, kept, passed, pipes, e, hS, hpf, hperm, hfds, hpo, hpi, hpp⟩ := enterBody_ok hs hb
  have hopen : s1.openFds = ents := by rw [e.openFds]; rfl
  have htame : allCmd (Tame keep) c := hk.fine (.todo (.cmd c)) (by simp)
  have hargs : Tame keep c.options ∧ allLeaves (Tame keep) c.args := by cases c; simpa [allCmd] using htame
  have hnn : ∀ x ∈ passed ++ kept, 0 ≤ x := by
    intro x hx
    refine e.nonneg x (hperm.symm.subset ?_)
    rcases List.mem_append.1 hx with h | h
    · simp [hpo x h]
    · simp [h]
  have hcl : cleanLeaves c.args := by
    have : (KItem.erase (.todo (.cmd c))).clean := hk.fd.clean _ (by simp [Kernel.conf])
    cases c; simpa [KItem.erase, LItem.clean, SubCmd.clean, cleanCmd] using this
  obtain ⟨ow, -⟩ := subst_owned hS hcl hnn
  have hmem : ∀ x, x ∈ s1.tab ↔ x ∈ new ∨ x ∈ s.tab := e.mem_tab
  have hready : (KItem.ready s1) ∈ q1 ++ .ready s1 :: q2 := by simp
  -- what is handed over or passed is given
  have hgive : ∀ n, 2 < n → n ∈ handed c.options ∨ n ∈ passed → KItem.Gives inh n (.ready s1) := by
    intro n h2 hn
    refine .inl ⟨?_, fun T hT => ?_⟩
    · rw [hopen]
      refine hfds.symm.subset ?_
      rcases hn with hn | hn
      · exact List.mem_append_left _ hn
      · exact List.mem_append_right _ (hpo n hn)
    · rcases hn with hn | hn
      · rcases enterBody_given hs hb hn with h | h | h | h
        · exact .inl h
        · exact .inr (.inl h)
        · exact .inr (.inr (.inl h))
        · exact .inr (.inr (.inr ⟨h2, hT, .inl h⟩))
      · exact .inr (.inr (.inr ⟨h2, hT, .inl (by show n ∈ s1.passFds; rw [hpf]; exact List.mem_append_left _ hn)⟩))
  have hsub : ∀ n, n ∈ kept ∨ n ∈ ownedLeaves c.args → KItem.Gives inh n (.ready s1) :=
    fun n hn => .inr (ow.symm.subset (List.mem_append.2 hn))
  have old : ∀ i, Kernel.Due inh ⟨q1 ++ .todo (.cmd c) :: q2, ps, s, f, m, pp, ch⟩ i →
      Kernel.Due inh ⟨q1 ++ .ready s1 :: q2, ps ++ (s1.pty.map (·.parent)).toList, s1, f', m', pp ++ newPipes s s1 f', ch⟩ i := by
    rintro i (h | ⟨n, hn, hi, h2, it, hit, hg⟩)
    · exact .inl h
    · refine .inr ⟨n, (hmem n).2 (.inr hn), (ho.old n hn).trans hi, h2, ?_⟩
      rcases List.mem_append.1 hit with h | h
      · exact ⟨it, List.mem_append_left _ h, hg⟩
      · rcases List.mem_cons.1 h with rfl | h
        · refine ⟨.ready s1, hready, ?_⟩
          have hg : n ∈ ownedCmd c := hg
          have : ownedCmd c = handed c.options ++ ownedLeaves c.args := by cases c; rfl
          rw [this] at hg
          rcases List.mem_append.1 hg with hg | hg
          · exact hgive n h2 (.inl hg)
          · exact hsub n (.inr hg)
        · exact ⟨it, List.mem_append_right _ (List.mem_cons_of_mem _ h), hg⟩
  have fresh : ∀ n, n ∈ passed ++ kept → (Kernel.Due inh ⟨q1 ++ .ready s1 :: q2, ps ++ (s1.pty.map (·.parent)).toList, s1, f', m', pp ++ newPipes s s1 f', ch⟩ (f' n)) ∧
      ¬ mine (f' n) := by
    intro n hn
    have hnew : n ∈ new := hperm.symm.subset (by
      rcases List.mem_append.1 hn with h | h
      · simp [hpo n h]
      · simp [h])
    have hnt : n ∉ s.tab := e.fresh n hnew
    have hin : n ∈ s1.tab := (hmem n).2 (.inl hnew)
    have h2 : 2 < n := by
      refine Int.not_le.1 fun h => hnt ?_
      exact keep_tab hk.fd (h012 n (hnn n hn) h)
    refine ⟨.inr ⟨n, hin, rfl, h2, .ready s1, hready, ?_⟩, fun hm => ?_⟩
    · rcases List.mem_append.1 hn with h | h
      · exact hgive n h2 (.inr h)
      · exact hsub n (.inl h)
    · have := hk.minelt _ hm
      have := (ho.new n hin hnt).1
      dsimp only at *; omega
  refine ⟨?_, o1, o2, o3, ?_, hk.held, o4, hk.one, ?_, o5⟩
  · rcases KStep.conf (KStep.enter (inh := inh) q1 q2 c ps s s1 f f' m m' pp ch he ho) with h | h
    · exact FdInv.step hs hk.fd h
    · rw [← h]; exact hk.fd
  · intro it hit
    rcases List.mem_append.1 hit with h | h
    · exact hk.fine it (List.mem_append_left _ h)
    · rcases List.mem_cons.1 h with rfl | h
      · refine ⟨fun T n hn => ?_, tame_subst hS hargs.2 hnn⟩
        rcases childMay hs hb hn with h | h | h
        · refine (Props.Tame.handed hargs.1 h).imp id fun h => ?_
          rw [hopen]; exact hfds.symm.subset (List.mem_append_left _ h)
        · exact .inr h
        · exact .inl (hinh n h)
      · exact hk.fine it (List.mem_append_right _ (List.mem_cons_of_mem _ h))
  · intro p hp
    rcases List.mem_append.1 hp with hp | hp
    · obtain ⟨⟨a1, a2⟩, a3, a4⟩ := hk.pipes p hp
      exact ⟨⟨old _ a1, a2⟩, old _ a3, a4⟩
    · have hdrop : s1.pipes.drop s.pipes.length = pipes := by rw [hpi]; simp
      simp only [newPipes, hdrop, List.mem_map] at hp
      obtain ⟨q, hq, rfl⟩ := hp
      have m1 : q.1 ∈ passed ++ kept := hpp.subset (List.mem_flatMap.2 ⟨q, hq, by simp⟩)
      have m2 : q.2 ∈ passed ++ kept := hpp.subset (List.mem_flatMap.2 ⟨q, hq, by simp⟩)
      exact ⟨fresh _ m1, fresh _ m2⟩

theorem KInv.fork {sys : Sys} (hs : sys.Ok) {keep : List Int} {inh : Int → Prop}
    {mine : Nat → Prop} {q1 q2 : List KItem} {ps : List Int} {s s1 : LS} {f m pp ch}
    (hk : KInv keep inh mine ⟨q1 ++ .ready s1 :: q2, ps, s, f, m, pp, ch⟩) :
    KInv keep inh mine ⟨q1 ++ .running s1.openFds s1.subcmds :: q2, ps, s, f, m, pp,
      ch ++ [⟨fun i => ∃ n, ChildHolds inh { s1 with tab := s.tab } n ∧ f n = i, fun i => ∃ n, ChildHolds inh { s1 with tab := s.tab } n ∧ f n = i⟩]⟩ := by
  have hfine : KItem.Fine keep inh (.ready s1) := hk.fine _ (by simp)
  have hrun : ∀ es subs, KItem.running es subs ∈ q1 ++ .ready s1 :: q2 → KItem.running es subs ∈ q1 ++ q2 := by
    intro es subs h
    rcases List.mem_append.1 h with h | h
    · exact List.mem_append_left _ h
    · rcases List.mem_cons.1 h with h | h
      · cases h
      · exact List.mem_append_right _ h
  have hin : ∀ it, it ∈ q1 ++ q2 → it ∈ q1 ++ .running s1.openFds s1.subcmds :: q2 := by
    intro it h
    rcases List.mem_append.1 h with h | h
    · exact List.mem_append_left _ h
    · exact List.mem_append_right _ (List.mem_cons_of_mem _ h)
  have htab : ∀ n, n ∈ fds s1.openFds → n ∈ s.tab := fun n hn =>
    pend_tab hk.fd (it := .ready s1) (by simp) (List.mem_append_left _ hn)
  have hnew : ∀ i n, ChildHolds inh { s1 with tab := s.tab } n → f n = i → mine i ∨ (n ∈ fds s1.openFds ∧ n ∈ s.tab) := by
    rintro i n hn rfl
    rcases hfine.1 _ n hn with h | h
    · exact .inl (hk.kept n h)
    · exact .inr ⟨h, htab n h⟩
  -- an older child cannot have it
  have hclash : ∀ c ∈ ch, ∀ i, c.given i → ∀ n, ChildHolds inh { s1 with tab := s.tab } n → f n = i → mine i := by
    intro c hc i hi n hn e
    rcases hnew i n hn e with h | ⟨h1, h2⟩
    · exact h
    · rcases hk.given c hc i hi with h | ⟨-, h⟩
      · exact h
      · obtain ⟨es, subs, h3, h4⟩ := h n h2 e
        exact absurd (List.mem_append_left _ h4) (pend_disj hk.fd (it := .ready s1) (List.mem_append_left _ h1) (hrun _ _ h3))
  refine ⟨?_, hk.inj, hk.lt, hk.kept, ?_, ?_, ?_, ?_, ?_, hk.minelt⟩
  · rcases KStep.conf (KStep.fork (sys := sys) (inh := inh) q1 q2 s1 ps s f m pp ch) with h | h
    · exact FdInv.step hs hk.fd h
    · rw [← h]; exact hk.fd
  · intro it hit
    rcases List.mem_append.1 hit with h | h
    · exact hk.fine it (List.mem_append_left _ h)
    · rcases List.mem_cons.1 h with rfl | h
      · exact hfine.2
      · exact hk.fine it (List.mem_append_right _ (List.mem_cons_of_mem _ h))
  · intro c hc i hi
    rcases List.mem_append.1 hc with hc | hc
    · exact hk.held c hc i hi
    · rw [List.mem_singleton] at hc; subst hc; exact hi
  · intro c hc i hi
    rcases List.mem_append.1 hc with hc | hc
    · refine (hk.given c hc i hi).imp id fun ⟨h1, h2⟩ => ⟨h1, fun n hn e => ?_⟩
      obtain ⟨es, subs, h3, h4⟩ := h2 n hn e
      exact ⟨es, subs, hin _ (hrun _ _ h3), h4⟩
    · rw [List.mem_singleton] at hc; subst hc
      obtain ⟨n, hn, e⟩ := hi
      rcases hnew i n hn e with h | ⟨h1, h2⟩
      · exact .inl h
      · by_cases hi : mine i
        · exact .inl hi
        · refine .inr ⟨e ▸ hk.lt n h2, fun n' hn' e' => ⟨_, _, List.mem_append_right _ List.mem_cons_self, ?_⟩⟩
          rcases hk.inj n' n hn' h2 (e'.trans e.symm) with h | ⟨-, h⟩
          · rw [h]; exact h1
          · exact absurd (e ▸ hk.kept n h) hi
  · intro j j' c c' hj hj' i hi hi'
    have look : ∀ (j : Nat) (c : Child), (ch ++ [(⟨fun i => ∃ n, ChildHolds inh { s1 with tab := s.tab } n ∧ f n = i, fun i => ∃ n, ChildHolds inh { s1 with tab := s.tab } n ∧ f n = i⟩ : Child)])[j]? = some c →
        ch[j]? = some c ∨ (j = ch.length ∧ ∀ i, c.given i → ∃ n, ChildHolds inh { s1 with tab := s.tab } n ∧ f n = i) := by
      intro j c h
      by_cases hl : j < ch.length
      · rw [List.getElem?_append_left hl] at h; exact .inl h
      · rw [List.getElem?_append_right (Nat.le_of_not_lt hl)] at h
        have hl' := (List.getElem?_eq_some_iff.1 h).1
        simp at hl'
        have e : j - ch.length = 0 := by omega
        rw [e] at h
        cases h
        exact .inr ⟨by omega, fun i h => h⟩
    rcases look j c hj with h | ⟨h1, h2⟩ <;> rcases look j' c' hj' with h' | ⟨h1', h2'⟩
    · exact hk.one j j' c c' h h' i hi hi'
    · obtain ⟨n, hn, e⟩ := h2' i hi'
      exact .inl (hclash c (List.mem_of_getElem? h) i hi n hn e)
    · obtain ⟨n, hn, e⟩ := h2 i hi
      exact .inl (hclash c' (List.mem_of_getElem? h') i hi' n hn e)
    · exact .inr (h1.trans h1'.symm)
  · have due : ∀ i, Kernel.Due inh ⟨q1 ++ .ready s1 :: q2, ps, s, f, m, pp, ch⟩ i → Kernel.Due inh ⟨q1 ++ .running s1.openFds s1.subcmds :: q2, ps, s, f, m, pp,
        ch ++ [⟨fun i => ∃ n, ChildHolds inh { s1 with tab := s.tab } n ∧ f n = i, fun i => ∃ n, ChildHolds inh { s1 with tab := s.tab } n ∧ f n = i⟩]⟩ i := by
      rintro i (⟨c, hc, hg⟩ | ⟨n, hn, hi, h2, it, hit, hg⟩)
      · exact .inl ⟨c, List.mem_append_left _ hc, hg⟩
      · rcases List.mem_append.1 hit with h | h
        · exact .inr ⟨n, hn, hi, h2, it, hin _ (List.mem_append_left _ h), hg⟩
        · rcases List.mem_cons.1 h with rfl | h
          · rcases hg with ⟨-, hg⟩ | hg
            · exact .inl ⟨_, List.mem_append_right _ List.mem_cons_self, n, hg s.tab hn, hi⟩
            · exact .inr ⟨n, hn, hi, h2, .running s1.openFds s1.subcmds, List.mem_append_right _ List.mem_cons_self, hg⟩
          · exact .inr ⟨n, hn, hi, h2, it, hin _ (List.mem_append_right _ h), hg⟩
    intro p hp
    obtain ⟨⟨a1, a2⟩, a3, a4⟩ := hk.pipes p hp
    exact ⟨⟨due _ a1, a2⟩, due _ a3, a4⟩

theorem KInv.exit {sys : Sys} (hs : sys.Ok) {keep : List Int} {inh : Int → Prop}
    {mine : Nat → Prop} {q1 q2 : List KItem} {es : List Ent} {subs : List SubCmd} {ps : List Int} {s s1 : LS} {f m pp ch}
    (hk : KInv keep inh mine ⟨q1 ++ .running es subs :: q2, ps, s, f, m, pp, ch⟩) (he : exit sys false { s with openFds := es } = (s1, false)) :
    KInv keep inh mine ⟨q1 ++ subs.map .todo ++ q2, ps, s1, f, m, pp, ch⟩ := by
  have hpend : ∀ n, n ∈ fds es → n ∈ (KItem.erase (.running es subs)).pend := fun n hn => List.mem_append_left _ hn
  have hsub : ∀ x ∈ fds es, x ∈ s.tab := fun n hn => pend_tab hk.fd (it := .running es subs) (by simp) (hpend n hn)
  have hnd : (fds es).Nodup := by
    have hd := hk.fd.perm.nodup_iff.1 hk.fd.nodup
    refine List.nodup_iff_count.2 fun n => ?_
    have hc := List.nodup_iff_count.1 hd n
    simp only [Kernel.conf, List.map_append, List.map_cons, List.flatMap_append, List.flatMap_cons, List.count_append, KItem.erase, LItem.pend] at hc
    omega
  obtain ⟨b1, b2, -⟩ := exit_ok_tab he hk.fd.nodup hnd hsub
  have b2 : ∀ x, x ∈ s1.tab ↔ x ∈ s.tab ∧ x ∉ fds es := b2
  have hin : ∀ it, it ∈ q1 ++ q2 → it ∈ q1 ++ subs.map .todo ++ q2 := by
    intro it h
    rcases List.mem_append.1 h with h | h
    · exact List.mem_append_left _ (List.mem_append_left _ h)
    · exact List.mem_append_right _ h
  refine ⟨?_, fun n n' hn hn' => hk.inj n n' ((b2 n).1 hn).1 ((b2 n').1 hn').1, fun n hn => hk.lt n ((b2 n).1 hn).1, hk.kept, ?_, hk.held, ?_, hk.one, ?_, hk.minelt⟩
  · rcases KStep.conf (KStep.exit (inh := inh) q1 q2 es subs ps s s1 f m pp ch he) with h | h
    · exact FdInv.step hs hk.fd h
    · rw [← h]; exact hk.fd
  · intro it hit
    rcases List.mem_append.1 hit with h | h
    · rcases List.mem_append.1 h with h | h
      · exact hk.fine it (List.mem_append_left _ h)
      · obtain ⟨x, hx, rfl⟩ := List.mem_map.1 h
        exact (hk.fine (.running es subs) (by simp)) x hx
    · exact hk.fine it (List.mem_append_right _ (List.mem_cons_of_mem _ h))
  · intro c hc i hi
    refine (hk.given c hc i hi).imp id fun ⟨h1, h2⟩ => ⟨h1, fun n hn e => ?_⟩
    obtain ⟨es', subs', h3, h4⟩ := h2 n ((b2 n).1 hn).1 e
    rcases List.mem_append.1 h3 with h3 | h3
    · exact ⟨_, _, hin _ (List.mem_append_left _ h3), h4⟩
    · rcases List.mem_cons.1 h3 with h3 | h3
      · cases h3; exact absurd h4 ((b2 n).1 hn).2
      · exact ⟨_, _, hin _ (List.mem_append_right _ h3), h4⟩
  · have due : ∀ i, Kernel.Due inh ⟨q1 ++ .running es subs :: q2, ps, s, f, m, pp, ch⟩ i → Kernel.Due inh ⟨q1 ++ subs.map .todo ++ q2, ps, s1, f, m, pp, ch⟩ i := by
      rintro i (h | ⟨n, hn, hi, h2, it, hit, hg⟩)
      · exact .inl h
      · have other : it ∈ q1 ++ q2 → Kernel.Due inh ⟨q1 ++ subs.map .todo ++ q2, ps, s1, f, m, pp, ch⟩ i := fun h =>
          .inr ⟨n, (b2 n).2 ⟨hn, fun h' => pend_disj hk.fd (hpend n h') h (gives_pend hg)⟩, hi, h2, it, hin _ h, hg⟩
        rcases List.mem_append.1 hit with h | h
        · exact other (List.mem_append_left _ h)
        · rcases List.mem_cons.1 h with rfl | h
          · have hg : n ∈ subs.flatMap SubCmd.owned := hg
            obtain ⟨x, hx, hg'⟩ := List.mem_flatMap.1 hg
            exact .inr ⟨n, (b2 n).2 ⟨hn, fun h' => pend_nodup hk.fd h' hg⟩, hi, h2, .todo x,
              List.mem_append_left _ (List.mem_append_right _ (List.mem_map.2 ⟨x, hx, rfl⟩)), hg'⟩
          · exact other (List.mem_append_right _ h)
    intro p hp
    obtain ⟨⟨a1, a2⟩, a3, a4⟩ := hk.pipes p hp
    exact ⟨⟨due _ a1, a2⟩, due _ a3, a4⟩

theorem KInv.child {keep : List Int} {inh : Int → Prop} {mine : Nat → Prop} {q : List KItem} {ps : List Int} {s : LS} {f m pp} {ch1 ch2 : List Child} {c : Child}
    {held : Nat → Prop} (hk : KInv keep inh mine ⟨q, ps, s, f, m, pp, ch1 ++ c :: ch2⟩) (hh : ∀ i, held i → c.held i) :
    KInv keep inh mine ⟨q, ps, s, f, m, pp, ch1 ++ { c with held } :: ch2⟩ := by
  have back : ∀ x ∈ ch1 ++ { c with held } :: ch2, ∃ y ∈ ch1 ++ c :: ch2, y.given = x.given ∧ ∀ i, x.held i → y.held i := by
    intro x hx
    rcases List.mem_append.1 hx with h | h
    · exact ⟨x, List.mem_append_left _ h, rfl, fun _ h => h⟩
    · rcases List.mem_cons.1 h with rfl | h
      · exact ⟨c, List.mem_append_right _ List.mem_cons_self, rfl, hh⟩
      · exact ⟨x, List.mem_append_right _ (List.mem_cons_of_mem _ h), rfl, fun _ h => h⟩
  have idx : ∀ (j : Nat) (x : Child), (ch1 ++ { c with held } :: ch2)[j]? = some x → ∃ y, (ch1 ++ c :: ch2)[j]? = some y ∧ y.given = x.given := by
    intro j x h
    by_cases hl : j < ch1.length
    · rw [List.getElem?_append_left hl] at h ⊢; exact ⟨x, h, rfl⟩
    · rw [List.getElem?_append_right (Nat.le_of_not_lt hl)] at h ⊢
      cases e : j - ch1.length with
      | zero => rw [e] at h; cases h; exact ⟨c, rfl, rfl⟩
      | succ k => rw [e] at h; exact ⟨x, h, rfl⟩
  have due : ∀ i, Kernel.Due inh ⟨q, ps, s, f, m, pp, ch1 ++ c :: ch2⟩ i → Kernel.Due inh ⟨q, ps, s, f, m, pp, ch1 ++ { c with held } :: ch2⟩ i := by
    rintro i (⟨x, hx, hg⟩ | h)
    · rcases List.mem_append.1 hx with h | h
      · exact .inl ⟨x, List.mem_append_left _ h, hg⟩
      · rcases List.mem_cons.1 h with rfl | h
        · exact .inl ⟨{ x with held }, List.mem_append_right _ List.mem_cons_self, hg⟩
        · exact .inl ⟨x, List.mem_append_right _ (List.mem_cons_of_mem _ h), hg⟩
    · exact .inr h
  refine ⟨hk.fd, hk.inj, hk.lt, hk.kept, hk.fine, ?_, ?_, ?_, ?_, hk.minelt⟩
  · intro x hx i hi
    obtain ⟨y, hy, e, h⟩ := back x hx
    rw [← e]; exact hk.held y hy i (h i hi)
  · intro x hx i hi
    obtain ⟨y, hy, e, h⟩ := back x hx
    exact hk.given y hy i (by rw [e]; exact hi)
  · intro j j' x x' hx hx' i hi hi'
    obtain ⟨y, hy, e⟩ := idx j x hx
    obtain ⟨y', hy', e'⟩ := idx j' x' hx'
    exact hk.one j j' y y' hy hy' i (by rw [e]; exact hi) (by rw [e']; exact hi')
  · intro p hp
    obtain ⟨⟨a1, a2⟩, a3, a4⟩ := hk.pipes p hp
    exact ⟨⟨due _ a1, a2⟩, due _ a3, a4⟩

theorem stitch_owned {sys : Sys} (hs : sys.Ok) {p : Pipeline} {cs : List Command} {s s1 : LS} (h : pipeStart sys p.commands s = (.ok cs, s1))
    (hcl : (SubCmd.pipe p).clean) : ∃ (pipes : List (Int × Int)) (s2 : LS),
      Eff { s with openFds := [] } s2 (pipes.flatMap fun p => [p.1, p.2]) ((pipes.flatMap fun p => [p.1, p.2]).map Ent.fd) ∧ s1 = { s2 with openFds := [] } ∧
      s1.pipes = s.pipes ++ pipes ∧ (ownedCmds cs).Perm ((pipes.flatMap fun p => [p.1, p.2]) ++ ownedCmds p.commands) ∧
      cs = (link none p.commands pipes).map asStage ∧ pipes.length = p.commands.length - 1 := by
  obtain ⟨pipes, s2, e, h1, h2, hl, hcs⟩ := pipeStart_ok hs h
  refine ⟨pipes, s2, e, h1, h2, ?_, hcs, hl⟩
  have hnn : ∀ q ∈ pipes, 0 ≤ q.1 ∧ 0 ≤ q.2 := by
    intro q hq
    have : ∀ y, y = q.1 ∨ y = q.2 → 0 ≤ y := by
      intro y hy
      apply e.nonneg y
      simp only [List.mem_flatMap]
      exact ⟨q, hq, by simpa using hy⟩
    exact ⟨this _ (Or.inl rfl), this _ (Or.inr rfl)⟩
  rw [hcs, owned_map_asStage]
  by_cases hne : p.commands = []
  · have : pipes = [] := by simpa [hne] using hl
    simp [hne, this, link]
  · simpa using link_owned p.commands pipes none hl hcl.1 hnn (by simp) (by simp) hne

theorem mem_ownedCmds {n : Int} : ∀ {cs : List Command}, n ∈ ownedCmds cs → ∃ c ∈ cs, n ∈ ownedCmd c
  | [], h => by cases h
  | d :: cs, h => by
    simp only [ownedCmds, List.mem_append] at h
    rcases h with h | h
    · exact ⟨d, List.mem_cons_self, h⟩
    · obtain ⟨c, hc, hn⟩ := mem_ownedCmds h
      exact ⟨c, List.mem_cons_of_mem _ hc, hn⟩

theorem KInv.stitch {sys : Sys} (hs : sys.Ok) {keep : List Int} (h012 : ∀ n : Int, 0 ≤ n → n ≤ 2 → n ∈ keep) {inh : Int → Prop}
    {mine : Nat → Prop} {q1 q2 : List KItem} {p : Pipeline} {cs : List Command} {ps : List Int} {s s1 : LS} {f f' m m' pp ch}
    (hk : KInv keep inh mine ⟨q1 ++ .todo (.pipe p) :: q2, ps, s, f, m, pp, ch⟩) (he : pipeStart sys p.commands s = (.ok cs, s1)) (ho : Opens s.tab s1.tab f m f' m') :
    KInv keep inh mine ⟨q1 ++ cs.map (fun c => .todo (.cmd c)) ++ q2, ps, s1, f', m', pp ++ newPipes s s1 f', ch⟩ := by
  have hin : ∀ it, it ∈ q1 ++ q2 → it ∈ q1 ++ cs.map (fun c => KItem.todo (.cmd c)) ++ q2 := by
    intro it h
    rcases List.mem_append.1 h with h | h
    · exact List.mem_append_left _ (List.mem_append_left _ h)
    · exact List.mem_append_right _ h
  obtain ⟨o1, o2, o3, o4, o5⟩ := opens_kept (items' := q1 ++ cs.map (fun c => KItem.todo (.cmd c)) ++ q2) hk ho (fun es subs h => by
    rcases List.mem_append.1 h with h | h
    · exact hin _ (List.mem_append_left _ h)
    · rcases List.mem_cons.1 h with h | h
      · cases h
      · exact hin _ (List.mem_append_right _ h))
  have hcl : (SubCmd.pipe p).clean := hk.fd.clean (.todo (.pipe p)) (by simp [Kernel.conf, KItem.erase])
  obtain ⟨pipes, s2, e, hs1, hpi, how, hcs, hlen⟩ := stitch_owned hs he hcl
  have hmem : ∀ x, x ∈ s1.tab ↔ x ∈ (pipes.flatMap fun p => [p.1, p.2]) ∨ x ∈ s.tab := by rw [hs1]; exact e.mem_tab
  have gives : ∀ n, n ∈ (pipes.flatMap fun p => [p.1, p.2]) ++ ownedCmds p.commands →
      ∃ it ∈ q1 ++ cs.map (fun c => KItem.todo (.cmd c)) ++ q2, it.Gives inh n := by
    intro n hn
    obtain ⟨c, hc, h⟩ := mem_ownedCmds (how.symm.subset hn)
    exact ⟨.todo (.cmd c), List.mem_append_left _ (List.mem_append_right _ (List.mem_map.2 ⟨c, hc, rfl⟩)), h⟩
  have old : ∀ i, Kernel.Due inh ⟨q1 ++ .todo (.pipe p) :: q2, ps, s, f, m, pp, ch⟩ i →
      Kernel.Due inh ⟨q1 ++ cs.map (fun c => .todo (.cmd c)) ++ q2, ps, s1, f', m', pp ++ newPipes s s1 f', ch⟩ i := by
    rintro i (h | ⟨n, hn, hi, h2, it, hit, hg⟩)
    · exact .inl h
    · refine .inr ⟨n, (hmem n).2 (.inr hn), (ho.old n hn).trans hi, h2, ?_⟩
      rcases List.mem_append.1 hit with h | h
      · exact ⟨it, hin _ (List.mem_append_left _ h), hg⟩
      · rcases List.mem_cons.1 h with rfl | h
        · exact gives n (List.mem_append_right _ hg)
        · exact ⟨it, hin _ (List.mem_append_right _ h), hg⟩
  have fresh : ∀ n, n ∈ (pipes.flatMap fun p => [p.1, p.2]) →
      (Kernel.Due inh ⟨q1 ++ cs.map (fun c => .todo (.cmd c)) ++ q2, ps, s1, f', m', pp ++ newPipes s s1 f', ch⟩ (f' n)) ∧ ¬ mine (f' n) := by
    intro n hn
    have hnt : n ∉ s.tab := e.fresh n hn
    have hin : n ∈ s1.tab := (hmem n).2 (.inl hn)
    have h2 : 2 < n := by
      refine Int.not_le.1 fun h => hnt ?_
      exact keep_tab hk.fd (h012 n (e.nonneg n hn) h)
    refine ⟨.inr ⟨n, hin, rfl, h2, gives n (List.mem_append_left _ hn)⟩, fun hm => ?_⟩
    have := hk.minelt _ hm
    have := (ho.new n hin hnt).1
    dsimp only at *; omega
  refine ⟨?_, o1, o2, o3, ?_, hk.held, o4, hk.one, ?_, o5⟩
  · rcases KStep.conf (KStep.stitch (inh := inh) q1 q2 p cs ps s s1 f f' m m' pp ch he ho) with h | h
    · exact FdInv.step hs hk.fd h
    · rw [← h]; exact hk.fd
  · intro it hit
    rcases List.mem_append.1 hit with h | h
    · rcases List.mem_append.1 h with h | h
      · exact hk.fine it (List.mem_append_left _ h)
      · obtain ⟨c, hc, rfl⟩ := List.mem_map.1 h
        have ht : allCmds (Tame keep) p.commands := hk.fine (.todo (.pipe p)) (by simp)
        rw [hcs] at hc
        exact tame_stages (tame_link _ pipes none ht) c hc
    · exact hk.fine it (List.mem_append_right _ (List.mem_cons_of_mem _ h))
  · intro x hx
    rcases List.mem_append.1 hx with hx | hx
    · obtain ⟨⟨a1, a2⟩, a3, a4⟩ := hk.pipes x hx
      exact ⟨⟨old _ a1, a2⟩, old _ a3, a4⟩
    · have hdrop : s1.pipes.drop s.pipes.length = pipes := by rw [hpi]; simp
      simp only [newPipes, hdrop, List.mem_map] at hx
      obtain ⟨q, hq, rfl⟩ := hx
      exact ⟨fresh _ (List.mem_flatMap.2 ⟨q, hq, by simp⟩), fresh _ (List.mem_flatMap.2 ⟨q, hq, by simp⟩)⟩

theorem KInv.steps {sys : Sys} (hs : sys.Ok) {keep : List Int} (h012 : ∀ n : Int, 0 ≤ n → n ≤ 2 → n ∈ keep) {inh : Int → Prop} (hinh : ∀ n, inh n → n ∈ keep)
    {mine : Nat → Prop} {a b : Kernel} (h : KSteps sys inh a b) (ha : KInv keep inh mine a) : KInv keep inh mine b := by
  induction h with
  | refl => exact ha
  | step _ h ih =>
    cases h with
    | enter q1 q2 c ps s s1 f f' m m' pp ch he ho => exact ih.enter hs h012 hinh he ho
    | fork => exact ih.fork hs
    | exit q1 q2 es subs ps s s1 f m pp ch he => exact ih.exit hs he
    | stitch q1 q2 p cs ps s s1 f f' m m' pp ch he ho => exact ih.stitch hs h012 he ho
    | child q ps s f m pp ch1 ch2 c held hh => exact ih.child hh

theorem KInv.start {cmds : List SubCmd} {keep : List Int} (hd : (keep ++ cmds.flatMap SubCmd.owned).Nodup) (hclean : ∀ c ∈ cmds, c.clean)
    (htame : ∀ c ∈ cmds, c.all (Tame keep)) {f : Int → Nat} {m : Nat} (hlt : ∀ n ∈ keep ++ cmds.flatMap SubCmd.owned, f n < m)
    (hinj : ∀ n n', n ∈ keep ++ cmds.flatMap SubCmd.owned → n' ∈ keep ++ cmds.flatMap SubCmd.owned → f n = f n' → n = n' ∨ (n ∈ keep ∧ n' ∈ keep)) {inh : Int → Prop} :
    KInv keep inh (fun i => ∃ n ∈ keep, f n = i) (Kernel.start cmds keep f m) := by
  refine ⟨⟨hd, ?_, rfl, ?_⟩, hinj, hlt, fun n hn => ⟨n, hn, rfl⟩, ?_, ?_, ?_, ?_, ?_, ?_⟩
  · have : ((cmds.map KItem.todo).map KItem.erase).flatMap LItem.pend = cmds.flatMap SubCmd.owned := by
      rw [List.map_map, List.flatMap_map]; rfl
    show (keep ++ cmds.flatMap SubCmd.owned).Perm (keep ++ [] ++ _)
    rw [show (Kernel.start cmds keep f m).conf.items = (cmds.map KItem.todo).map KItem.erase from rfl, this]; simp
  · intro x hx
    simp only [Kernel.start, Kernel.conf, List.map_map, List.mem_map] at hx
    obtain ⟨c, hc, rfl⟩ := hx
    exact hclean c hc
  · intro it hit
    obtain ⟨c, hc, rfl⟩ := List.mem_map.1 hit
    exact htame c hc
  · intro c hc; cases hc
  · intro c hc; cases hc
  · intro j j' c c' hj; simp [Kernel.start] at hj
  · intro p hp; cases hp
  · rintro i ⟨n, hn, rfl⟩; exact hlt n (List.mem_append_left _ hn)

section main
variable {sys : Sys} (hs : sys.Ok) (cmds : List SubCmd) (keep : List Int) (hd : (keep ++ cmds.flatMap SubCmd.owned).Nodup) (hclean : ∀ c ∈ cmds, c.clean)
  (htame : ∀ c ∈ cmds, c.all (Tame keep)) (h012 : ∀ n : Int, 0 ≤ n → n ≤ 2 → n ∈ keep) (inh : Int → Prop) (hinh : ∀ n, inh n → n ∈ keep)
  (f : Int → Nat) (m : Nat) (hlt : ∀ n ∈ keep ++ cmds.flatMap SubCmd.owned, f n < m)
  (hinj : ∀ n n', n ∈ keep ++ cmds.flatMap SubCmd.owned → n' ∈ keep ++ cmds.flatMap SubCmd.owned → f n = f n' → n = n' ∨ (n ∈ keep ∧ n' ∈ keep))
  {k : Kernel} (h : KSteps sys inh (Kernel.start cmds keep f m) k)
include hs hd hclean htame h012 hinh hlt hinj h

/-- **C93** At every moment, an open file that is not one the caller keeps has been given to one child at most, and once the launch of that child is over, the calling
process does not have it any more. -/
theorem C93_one_child (i : Nat) (hi : ∀ n ∈ keep, f n ≠ i) :
    (∀ (j j' : Nat) (c c' : Child), k.children[j]? = some c → k.children[j']? = some c' → c.given i → c'.given i → j = j') ∧
    (∀ c ∈ k.children, c.given i → (∀ es subs, .running es subs ∈ k.items → ∀ n ∈ fds es, k.file n ≠ i) → ¬ k.holds i) := by
  have hk := KInv.steps hs h012 hinh h (KInv.start hd hclean htame hlt hinj)
  have hm : ¬ ∃ n ∈ keep, f n = i := fun ⟨n, hn, e⟩ => hi n hn e
  refine ⟨fun j j' c c' hj hj' hc hc' => (hk.one j j' c c' hj hj' i hc hc').resolve_left hm, fun c hc hg hno => ?_⟩
  rintro ⟨n, hn, e⟩
  obtain ⟨es, subs, h1, h2⟩ := ((hk.given c hc i hg).resolve_left hm).2 n hn e
  exact hno es subs h1 n h2 e

/-- **C93** When all has been launched, each end of each pipe that the library made (between the commands of a pipeline, or for a process substitution) has been given
to exactly one child, and nobody else has it, neither another child nor the calling process. -/
theorem C93_pipe_ends (hdone : k.items = []) (p : Nat × Nat) (hp : p ∈ k.pipes) (i : Nat) (hi : i = p.1 ∨ i = p.2) :
    ∃ (j : Nat) (c : Child), k.children[j]? = some c ∧ c.given i ∧ ¬ k.holds i ∧
      ∀ (j' : Nat) (c' : Child), k.children[j']? = some c' → c'.given i ∨ c'.held i → j' = j := by
  have hk := KInv.steps hs h012 hinh h (KInv.start hd hclean htame hlt hinj)
  have hdue : k.Due inh i ∧ ¬ ∃ n ∈ keep, f n = i := by
    rcases hi with rfl | rfl
    · exact (hk.pipes p hp).1
    · exact (hk.pipes p hp).2
  obtain ⟨⟨c, hc, hg⟩ | ⟨n, -, -, -, it, hit, -⟩, hm⟩ := hdue
  · obtain ⟨j, hj⟩ := List.mem_iff_getElem?.1 hc
    obtain ⟨h1, h2⟩ := C93_one_child hs cmds keep hd hclean htame h012 inh hinh f m hlt hinj h i (fun n hn e => hm ⟨n, hn, e⟩)
    refine ⟨j, c, hj, hg, h2 c hc hg (fun es subs h => by rw [hdone] at h; cases h), fun j' c' hj' hg' => ?_⟩
    exact h1 j' j c' c hj' hj (hg'.elim id (hk.held c' (List.mem_of_getElem? hj') i)) hg
  · rw [hdone] at hit; cases hit

/-- **C93** So the end of file arrives: when the process that was given the write end of a pipe has closed it or has exited, nobody has it. -/
theorem C93_end_of_file (hdone : k.items = []) (p : Nat × Nat) (hp : p ∈ k.pipes) :
    ∃ (j : Nat) (c : Child), k.children[j]? = some c ∧ c.given p.2 ∧ (¬ c.held p.2 → ¬ k.holds p.2 ∧ ∀ c' ∈ k.children, ¬ c'.held p.2) := by
  obtain ⟨j, c, hj, hg, hh, h1⟩ := C93_pipe_ends hs cmds keep hd hclean htame h012 inh hinh f m hlt hinj h hdone p hp p.2 (.inr rfl)
  refine ⟨j, c, hj, hg, fun hn => ⟨hh, fun c' hc' hh' => ?_⟩⟩
  obtain ⟨j', hj'⟩ := List.mem_iff_getElem?.1 hc'
  have := h1 j' c' hj' (.inr hh')
  subst this
  rw [hj] at hj'; cases hj'
  exact hn hh'

end main

/-! ## A run -/

/-- A number for each descriptor. -/
def encFd : Int → Nat
  | .ofNat k => 2 * k
  | .negSucc k => 2 * k + 1

theorem encFd_inj {a b : Int} (h : encFd a = encFd b) : a = b := by
  cases a <;> cases b <;> simp only [encFd] at h <;> first | omega | (congr 1; omega)

/-- New descriptors get new open files. -/
def kFile (tab : List Int) (f : Int → Nat) (m : Nat) (n : Int) : Nat := if n ∈ tab then f n else m + encFd n

/-- The bound for the new open files. -/
def kBound (tab' : List Int) (m : Nat) : Nat := m + 1 + (tab'.map encFd).sum

theorem opens_kFile (tab tab' : List Int) (f : Int → Nat) (m : Nat) : Opens tab tab' f m (kFile tab f m) (kBound tab' m) := by
  refine ⟨fun n hn => by simp [kFile, hn], fun n hn hn' => ?_, fun n n' _ _ h h' e => ?_, by unfold kBound; omega⟩
  · have : encFd n ≤ (tab'.map encFd).sum := by
      clear hn'
      induction tab' with
      | nil => cases hn
      | cons a l ih =>
        rcases List.mem_cons.1 hn with rfl | h
        · simp
        · have := ih h; simp only [List.map_cons, List.sum_cons]; omega
    simp only [kFile, hn', if_false, kBound]; omega
  · simp only [kFile, h, h', if_false] at e; exact encFd_inj (by omega)

/-- The next step for the first item. -/
def kpick (sys : Sys) (inh : Int → Prop) (k : Kernel) : Option Kernel :=
  match k with
  | ⟨.todo (.cmd c) :: q, ps, s, f, m, pp, ch⟩ =>
    match enter sys c s with
    | (.ok (), s1) => some ⟨.ready s1 :: q, ps ++ (s1.pty.map (·.parent)).toList, s1, kFile s.tab f m, kBound s1.tab m, pp ++ newPipes s s1 (kFile s.tab f m), ch⟩
    | _ => none
  | ⟨.todo (.pipe p) :: q, ps, s, f, m, pp, ch⟩ =>
    match pipeStart sys p.commands s with
    | (.ok cs, s1) => some ⟨cs.map (fun c => .todo (.cmd c)) ++ q, ps, s1, kFile s.tab f m, kBound s1.tab m, pp ++ newPipes s s1 (kFile s.tab f m), ch⟩
    | _ => none
  | ⟨.ready s1 :: q, ps, s, f, m, pp, ch⟩ =>
    some ⟨.running s1.openFds s1.subcmds :: q, ps, s, f, m, pp,
      ch ++ [⟨fun i => ∃ n, ChildHolds inh { s1 with tab := s.tab } n ∧ f n = i, fun i => ∃ n, ChildHolds inh { s1 with tab := s.tab } n ∧ f n = i⟩]⟩
  | ⟨.running es subs :: q, ps, s, f, m, pp, ch⟩ =>
    match exit sys false { s with openFds := es } with
    | (s1, false) => some ⟨subs.map .todo ++ q, ps, s1, f, m, pp, ch⟩
    | _ => none
  | ⟨[], _, _, _, _, _, _⟩ => none

theorem kpick_sound {sys : Sys} {inh : Int → Prop} {k k' : Kernel} (h : kpick sys inh k = some k') : KStep sys inh k k' := by
  unfold kpick at h
  split at h
  · split at h
    · rename_i he; cases h; exact KStep.enter [] _ _ _ _ _ _ _ _ _ _ _ he (opens_kFile ..)
    · cases h
  · split at h
    · rename_i he; cases h; exact KStep.stitch [] _ _ _ _ _ _ _ _ _ _ _ _ he (opens_kFile ..)
    · cases h
  · cases h; exact KStep.fork [] _ _ _ _ _ _ _ _
  · split at h
    · rename_i he; cases h; exact KStep.exit [] _ _ _ _ _ _ _ _ _ _ he
    · cases h
  · cases h

/-- Up to `n` steps. -/
def kpicks (sys : Sys) (inh : Int → Prop) : Nat → Kernel → Kernel
  | 0, k => k
  | n + 1, k => match kpick sys inh k with
    | some k' => kpicks sys inh n k'
    | none => k

theorem kpicks_sound {sys : Sys} {inh : Int → Prop} : ∀ (n : Nat) {k0 k : Kernel}, KSteps sys inh k0 k → KSteps sys inh k0 (kpicks sys inh n k)
  | 0, _, _, h => h
  | n + 1, k0, k, h => by
    unfold kpicks
    split
    · rename_i he; exact kpicks_sound n (.step h (kpick_sound he))
    · exact h

-- The hypotheses are met by `cat <&7 | diff <(sort <(ls)) x`, whose launch goes to the end, with three pipes and four children.
example :
    let p := SubCmd.pipe ⟨[exCmd "cat" [] { input := .int 7, inputClose := true },
      exCmd "diff" [.cmd (exCmd "sort" [.cmd (exCmd "ls")]), .str "x".toList]]⟩
    let f : Int → Nat := fun n => n.toNat
    ([0, 1, 2] ++ [p].flatMap SubCmd.owned).Nodup ∧ p.clean ∧ p.all (Tame [0, 1, 2]) ∧
    (∀ n ∈ [0, 1, 2] ++ [p].flatMap SubCmd.owned, f n < 8) ∧
    ∃ k, KSteps (exSys []) (· ∈ [0, 1, 2]) (Kernel.start [p] [0, 1, 2] f 8) k ∧ k.items = [] ∧ k.pipes.length = 3 ∧ k.children.length = 4 := by
  refine ⟨by decide +kernel, by simp [SubCmd.clean, cleanLinks, cleanCmds, cleanCmd, cleanLeaves, cleanLeaf, cleanEnd, noOut, noIn, givenBy], ?_, by decide +kernel, kpicks (exSys []) _ 40 _, kpicks_sound _ (.refl _), ?_, by decide +kernel, by decide +kernel⟩
  · simp only [SubCmd.all, allCmds, allCmd, allLeaves, allLeaf, exCmd, and_true]
    refine ⟨?_, ?_, trivial, ?_, trivial, ?_⟩ <;> refine Tame.mk ?_ ?_ ?_ ?_ <;> simp +decide [Target.fd]
  · exact List.isEmpty_iff.1 (by decide +kernel)

end Shellous
