import Verif.Lemmas.Launch
import Verif.Lemmas.Builder

set_option linter.unusedSimpArgs false

namespace Shellous

/-! ## Redirecting to a descriptor -/

/-- A command with stdin redirected from a descriptor it owns. -/
def withIn (c : Command) (n : Int) : Command :=
  .mk c.args { c.options with input := .int n, inputClose := true }
/-- A command with stdout redirected to a descriptor it owns. -/
def withOut (c : Command) (n : Int) : Command :=
  .mk c.args { c.options with output := .int n, outputAppend := false, outputClose := true }
/-- A command as `PipeRunner` runs it. -/
def asStage (c : Command) : Command :=
  .mk c.args { c.options with returnResult := true, catchCancelled := true }

theorem stdin_int_ok {c x : Command} {n : Int} (hn : 0 ≤ n) (h : c.stdin (.int n) true = .ok x) :
    x = withIn c n := by
  have h2 : ¬ (n = -2) := by omega
  cases c with
  | mk args o =>
    simp only [Command.stdin, Options.setStdin, Target.eqR, Redirect.val] at h
    have : (n == -2) = false := by simpa using h2
    simp only [this, reduceCtorEq, if_false, Bool.false_eq_true] at h
    change Command.make _ _ = _ at h
    unfold Command.make at h
    split at h
    · cases h
    · simpa [withIn] using h.symm

theorem stdout_int_ok {c x : Command} {n : Int} (hn : 0 ≤ n)
    (h : c.stdout (.int n) false true = .ok x) : x = withOut c n := by
  have h2 : ¬ (n = -2) := by omega
  cases c with
  | mk args o =>
    simp only [Command.stdout, Options.setStdout, Target.eqR, Redirect.val] at h
    have : (n == -2) = false := by simpa using h2
    simp only [this, reduceCtorEq, if_false, Bool.false_eq_true] at h
    change Command.make _ _ = _ at h
    unfold Command.make at h
    split at h
    · cases h
    · simpa [withOut] using h.symm

theorem set_pipeKwds {c x : Command} (h : c.set pipeKwds = .ok x) : x = asStage c := by
  cases c with
  | mk args o =>
    simp only [Command.set, Options.setChecked, pipeKwds] at h
    change Command.make _ _ = _ at h
    unfold Command.make at h
    split at h
    · cases h
    · simpa [asStage, Options.set] using h.symm

theorem mapM_set_pipeKwds : ∀ {cs ds : List Command}, cs.mapM (·.set pipeKwds) = Except.ok ds →
    ds = cs.map asStage
  | [], ds, h => by simpa [pure, Except.pure] using h.symm
  | c :: cs, ds, h => by
    rw [List.mapM_cons] at h
    cases h1 : c.set pipeKwds with
    | error e => rw [h1] at h; cases h
    | ok x =>
      rw [h1] at h
      cases h2 : cs.mapM (·.set pipeKwds) with
      | error e => change (cs.mapM (·.set pipeKwds) >>= _) = _ at h; rw [h2] at h; cases h
      | ok xs =>
        change (cs.mapM (·.set pipeKwds) >>= _) = _ at h; rw [h2] at h
        have : x :: xs = ds := by cases h; rfl
        rw [← this, set_pipeKwds h1, mapM_set_pipeKwds h2]; rfl

/-! ## Stitching -/

/-- Redirect stdin if there is a pipe in front. -/
def optIn (c : Command) : Option Int → Command
  | none => c
  | some n => withIn c n

/-- The stitched commands, given the read end in front of the first one. -/
def link : Option Int → List Command → List (Int × Int) → List Command
  | _, [], _ => []
  | i, [c], _ => [optIn c i]
  | i, c :: _ :: _, [] => [optIn c i]
  | i, c :: d :: rest, (r, w) :: ps => withOut (optIn c i) w :: link (some r) (d :: rest) ps

theorem link_optIn (i : Option Int) (d : Command) (rest : List Command) (ps : List (Int × Int)) :
    link none (optIn d i :: rest) ps = link i (d :: rest) ps := by
  cases rest with
  | nil => cases ps <;> simp [link, optIn]
  | cons e rest => cases ps <;> simp [link, optIn]

theorem stitch_ok {sys : Sys} (hs : sys.Ok) : ∀ (n : Nat) (cs : List Command), cs.length ≤ n →
    ∀ {cs' : List Command} {s s' : LS}, stitch sys cs s = (.ok cs', s') →
    ∃ ps, Eff s s' (ps.flatMap fun p => [p.1, p.2]) ((ps.flatMap fun p => [p.1, p.2]).map Ent.fd) ∧
      s'.pipes = s.pipes ++ ps ∧ ps.length = cs.length - 1 ∧ cs' = link none cs ps ∧
      s'.subcmds = s.subcmds := by
  intro n
  induction n with
  | zero =>
    intro cs hn cs' s s' h
    have : cs = [] := by simpa using hn
    subst this
    simp [stitch, stitchFrom] at h
    obtain ⟨rfl, rfl⟩ := h
    exact ⟨[], .refl _, by simp, rfl, rfl, rfl⟩
  | succ n ih =>
    intro cs hn cs' s s' h
    match cs with
    | [] =>
      simp [stitch, stitchFrom] at h
      obtain ⟨rfl, rfl⟩ := h
      exact ⟨[], .refl _, by simp, rfl, rfl, rfl⟩
    | [c] =>
      simp [stitch, stitchFrom] at h
      obtain ⟨rfl, rfl⟩ := h
      exact ⟨[], .refl _, by simp, rfl, rfl, rfl⟩
    | c :: d :: rest =>
      simp only [stitch, stitchFrom, M.bind_ok, modify_ok, liftE_ok, M.pure_ok] at h
      obtain ⟨⟨r, w⟩, s1, h1, _, s2, rfl, c', s3, ⟨hc, rfl⟩, d', s4, ⟨hd, rfl⟩, rest', s5, h5,
        rfl, rfl⟩ := h
      obtain ⟨e1, r1, q1⟩ := osPipe_eff hs h1
      have hr : 0 ≤ r := e1.nonneg r (by simp)
      have hw : 0 ≤ w := e1.nonneg w (by simp)
      dsimp only at hc hd
      obtain rfl := stdout_int_ok hw hc
      obtain rfl := stdin_int_ok hr hd
      obtain ⟨ps, e, hp, hl, hlk, hsub⟩ := ih (withIn d r :: rest) (by simp at hn ⊢; omega) h5
      refine ⟨(r, w) :: ps, ?_, ?_, ?_, ?_, ?_⟩
      · have e2 : Eff s1 { s1 with openFds := s1.openFds ++ [.fd r, .fd w] } [] [.fd r, .fd w] :=
          .ents rfl rfl rfl rfl rfl rfl rfl
        have := (e1.trans e2).trans e
        simpa using this
      · rw [hp]; simp [q1]
      · simp [hl]
      · rw [hlk]
        have := link_optIn (some r) d rest ps
        simp only [optIn] at this
        rw [this]
        rfl
      · simp only [LS.rest, Prod.mk.injEq] at r1
        rw [hsub]; exact r1.1

theorem stitch_err {sys : Sys} (hs : sys.Ok) : ∀ (n : Nat) (cs : List Command), cs.length ≤ n →
    ∀ {e : Exc} {s s' : LS}, stitch sys cs s = (.error e, s') →
    ∃ new, Eff s s' new (new.map Ent.fd) := by
  intro n
  induction n with
  | zero =>
    intro cs hn e s s' h
    have : cs = [] := by simpa using hn
    subst this
    simp [stitch, stitchFrom] at h
  | succ n ih =>
    intro cs hn e s s' h
    match cs with
    | [] => simp [stitch, stitchFrom] at h
    | [c] => simp [stitch, stitchFrom] at h
    | c :: d :: rest =>
      simp only [stitch, stitchFrom, M.bind_err, modify_ok, modify_err, liftE_ok, liftE_err, M.pure_err,
        false_or, exists_false, and_false, or_false] at h
      rcases h with h | ⟨⟨r, w⟩, s1, h1, _, s2, rfl, h⟩
      · exact ⟨[], osPipe_err h⟩
      obtain ⟨e1, r1, q1⟩ := osPipe_eff hs h1
      have hr : 0 ≤ r := e1.nonneg r (by simp)
      have hw : 0 ≤ w := e1.nonneg w (by simp)
      have e2 : Eff s1 { s1 with openFds := s1.openFds ++ [.fd r, .fd w] } [] [.fd r, .fd w] :=
          .ents rfl rfl rfl rfl rfl rfl rfl
      rcases h with ⟨_, rfl⟩ | ⟨c', s3, ⟨hc, rfl⟩, h⟩
      · exact ⟨[r, w], by simpa using e1.trans e2⟩
      rcases h with ⟨_, rfl⟩ | ⟨d', s4, ⟨hd, rfl⟩, h⟩
      · exact ⟨[r, w], by simpa using e1.trans e2⟩
      obtain ⟨new, e3⟩ := ih (d' :: rest) (by simp at hn ⊢; omega) h
      exact ⟨[r, w] ++ new, by simpa using (e1.trans e2).trans e3⟩

theorem pipeStart_ok {sys : Sys} (hs : sys.Ok) {cs cs' : List Command} {s s' : LS}
    (h : pipeStart sys cs s = (.ok cs', s')) :
    ∃ ps s1, Eff { s with openFds := [] } s1 (ps.flatMap fun p => [p.1, p.2])
        ((ps.flatMap fun p => [p.1, p.2]).map Ent.fd) ∧
      s' = { s1 with openFds := [] } ∧
      s'.pipes = s.pipes ++ ps ∧ ps.length = cs.length - 1 ∧
      cs' = (link none cs ps).map asStage := by
  unfold pipeStart at h
  split at h
  · next cmds s1 h1 =>
    cases h
    simp only [setupPipeline, M.bind_ok, liftE_ok] at h1
    obtain ⟨cs1, s2, h2, h3, rfl⟩ := h1
    obtain ⟨ps, e, hp, hl, hlk, _⟩ := stitch_ok hs _ cs (Nat.le_refl _) h2
    exact ⟨ps, s2, e, rfl, by simpa using hp, hl, by rw [mapM_set_pipeKwds h3, hlk]⟩
  · cases h

/-! ## Ownership of stitched commands -/

theorem owned_withIn (c : Command) (n : Int) (hn : 0 ≤ n) (h : noIn c) :
    (ownedCmd (withIn c n)).Perm (n :: ownedCmd c) := by
  cases c with
  | mk args o =>
    simp only [noIn, Command.options_mk] at h
    have : ownedCmd (withIn (.mk args o) n) = n :: ownedCmd (.mk args o) := by
      simp [withIn, ownedCmd, handed, h]
      simp [givenBy, hn]
    rw [this]

theorem owned_withOut (c : Command) (n : Int) (hn : 0 ≤ n) (h : noOut c) :
    (ownedCmd (withOut c n)).Perm (n :: ownedCmd c) := by
  cases c with
  | mk args o =>
    simp only [noOut, Command.options_mk] at h
    have : ownedCmd (withOut (.mk args o) n) =
        givenBy o.inputClose o.input ++ n :: (givenBy o.errorClose o.error ++
          (if o.passFdsClose then o.passFds.filter (fun n => decide (0 ≤ n)) else []) ++
          ownedLeaves args) := by
      simp [withOut, ownedCmd, handed]
      simp [givenBy, hn]
    rw [this]
    have h2 : ownedCmd (.mk args o) = givenBy o.inputClose o.input ++ (givenBy o.errorClose o.error ++
          (if o.passFdsClose then o.passFds.filter (fun n => decide (0 ≤ n)) else []) ++
          ownedLeaves args) := by
      simp [ownedCmd, handed, h]
    rw [h2]
    exact List.perm_middle

theorem owned_asStage (c : Command) : ownedCmd (asStage c) = ownedCmd c := by
  cases c; simp [asStage, ownedCmd, handed]

theorem clean_withIn (c : Command) (n : Int) : cleanCmd (withIn c n) ↔ cleanCmd c := by
  cases c; simp [withIn, cleanCmd]
theorem clean_withOut (c : Command) (n : Int) : cleanCmd (withOut c n) ↔ cleanCmd c := by
  cases c; simp [withOut, cleanCmd]
theorem clean_asStage (c : Command) : cleanCmd (asStage c) ↔ cleanCmd c := by
  cases c; simp [asStage, cleanCmd]
theorem noOut_withIn (c : Command) (n : Int) : noOut (withIn c n) ↔ noOut c := by
  cases c; simp [withIn, noOut]
theorem noIn_withOut (c : Command) (n : Int) : noIn (withOut c n) ↔ noIn c := by
  cases c; simp [withOut, noIn]

theorem link_owned : ∀ (cs : List Command) (ps : List (Int × Int)) (i : Option Int),
    ps.length = cs.length - 1 → cleanLinks cs → (∀ p ∈ ps, 0 ≤ p.1 ∧ 0 ≤ p.2) →
    (∀ n, i = some n → 0 ≤ n) → (i ≠ none → ∀ c, cs.head? = some c → noIn c) →
    cs ≠ [] →
    (ownedCmds (link i cs ps)).Perm (i.toList ++ (ps.flatMap fun p => [p.1, p.2]) ++ ownedCmds cs)
  | [], _, _, _, _, _, _, _, h => (h rfl).elim
  | [c], ps, i, hl, _, _, hi, hni, _ => by
    have : ps = [] := by simpa using hl
    subst this
    cases i with
    | none => simp [link, optIn]
    | some n =>
      simp only [link, optIn, ownedCmds, Option.toList_some, List.flatMap_nil, List.append_nil,
        List.singleton_append]
      exact owned_withIn c n (hi n rfl) (hni (by simp) c rfl)
  | c :: d :: rest, [], _, hl, _, _, _, _, _ => by simp at hl
  | c :: d :: rest, (r, w) :: ps, i, hl, hcl, hp, hi, hni, _ => by
    obtain ⟨ho, hin, hcl'⟩ := hcl
    have hrw := hp (r, w) (by simp)
    have ih := link_owned (d :: rest) ps (some r) (by simpa using hl) hcl'
      (fun p h => hp p (by simp [h])) (by simp; exact hrw.1)
      (by intro _ c hc; simp at hc; subst hc; exact hin) (by simp)
    have h1 : (ownedCmd (withOut (optIn c i) w)).Perm (w :: (i.toList ++ ownedCmd c)) := by
      cases i with
      | none => simpa [optIn] using owned_withOut c w hrw.2 ho
      | some n =>
        simp only [optIn, Option.toList_some, List.singleton_append]
        refine (owned_withOut (withIn c n) w hrw.2 ((noOut_withIn c n).2 ho)).trans ?_
        exact (owned_withIn c n (hi n rfl) (hni (by simp) c rfl)).cons w
    simp only [link, ownedCmds]
    refine (h1.append ih).trans ?_
    simp only [List.flatMap_cons, ownedCmds, Option.toList_some]
    -- w :: (i ++ C) ++ ([r] ++ P ++ D)  ~  i ++ ([r,w] ++ P) ++ (C ++ D)
    generalize (ps.flatMap fun p => [p.1, p.2]) = P
    generalize ownedCmd d ++ ownedCmds rest = D
    generalize ownedCmd c = C
    generalize i.toList = I
    simp only [List.cons_append, List.nil_append, List.append_assoc]
    have a1 : (w :: (I ++ (C ++ r :: (P ++ D)))).Perm (I ++ w :: (C ++ r :: (P ++ D))) :=
      List.perm_middle.symm
    refine a1.trans (List.Perm.append_left _ ?_)
    have a2 : (w :: (C ++ r :: (P ++ D))).Perm (w :: r :: (C ++ (P ++ D))) :=
      List.Perm.cons w List.perm_middle
    refine a2.trans ((List.Perm.swap r w _).trans ?_)
    exact ((List.perm_append_comm_assoc _ _ _).cons w).cons r

theorem link_clean : ∀ (cs : List Command) (ps : List (Int × Int)) (i : Option Int),
    cleanCmds cs → cleanCmds (link i cs ps)
  | [], _, _, _ => by simp [link, cleanCmds]
  | [c], ps, i, h => by
    simp only [cleanCmds] at h
    cases i <;> simp [link, optIn, cleanCmds, clean_withIn, h]
  | c :: d :: rest, [], i, h => by
    simp only [cleanCmds] at h
    cases i <;> simp [link, optIn, cleanCmds, clean_withIn, h]
  | c :: d :: rest, (r, w) :: ps, i, h => by
    have h' : cleanCmds (d :: rest) := by simp only [cleanCmds] at h ⊢; exact h.2
    have := link_clean (d :: rest) ps (some r) h'
    simp only [cleanCmds] at h
    simp only [link, cleanCmds, clean_withOut]
    refine ⟨?_, this⟩
    cases i <;> simp [optIn, clean_withIn, h]

theorem owned_map_asStage : ∀ cs : List Command, ownedCmds (cs.map asStage) = ownedCmds cs
  | [] => rfl
  | c :: cs => by simp [ownedCmds, owned_asStage, owned_map_asStage cs]

theorem clean_map_asStage : ∀ cs : List Command, cleanCmds (cs.map asStage) ↔ cleanCmds cs
  | [] => by simp
  | c :: cs => by simp [cleanCmds, clean_asStage, clean_map_asStage cs]

/-! ## Ownership of process substitutions -/

theorem owned_append (a b : List Command) : ownedCmds (a ++ b) = ownedCmds a ++ ownedCmds b := by
  induction a with
  | nil => rfl
  | cons c a ih => simp [ownedCmds, ih]

theorem clean_append (a b : List Command) : cleanCmds (a ++ b) ↔ cleanCmds a ∧ cleanCmds b := by
  induction a with
  | nil => simp [cleanCmds]
  | cons c a ih => simp [cleanCmds, ih, and_assoc]

theorem cleanLinks_head {c c' : Command} {rest : List Command} (h : cleanLinks (c :: rest))
    (ho : noOut c → noOut c') : cleanLinks (c' :: rest) := by
  cases rest with
  | nil => trivial
  | cons d rest => exact ⟨ho h.1, h.2.1, h.2.2⟩

theorem cleanLinks_last : ∀ {cs : List Command} {c c' : Command}, cleanLinks (cs ++ [c]) →
    (noIn c → noIn c') → cleanLinks (cs ++ [c'])
  | [], _, _, _, _ => trivial
  | [d], _, _, h, hi => ⟨h.1, hi h.2.1, trivial⟩
  | d :: e :: cs, _, _, h, hi => ⟨h.1, h.2.1, cleanLinks_last (cs := e :: cs) h.2.2 hi⟩

theorem pipeline_stdin_ok {p q : Pipeline} {n : Int} (hn : 0 ≤ n)
    (h : p.stdin (.int n) true = .ok q) :
    ∃ c rest, p.commands = c :: rest ∧ q.commands = withIn c n :: rest := by
  unfold Pipeline.stdin at h
  split at h
  · cases h
  · next c rest hc =>
    cases h1 : c.stdin (.int n) true with
    | error e => rw [h1] at h; cases h
    | ok x =>
      rw [h1] at h
      change Pipeline.make ([x] ++ rest) = _ at h
      simp [Pipeline.make] at h
      subst h
      exact ⟨c, rest, hc, by simp [stdin_int_ok hn h1]⟩

theorem pipeline_stdout_ok {p q : Pipeline} {n : Int} (hn : 0 ≤ n)
    (h : p.stdout (.int n) false true = .ok q) :
    ∃ cs c, p.commands = cs ++ [c] ∧ q.commands = cs ++ [withOut c n] := by
  unfold Pipeline.stdout Pipeline.modifyLast at h
  split at h
  · cases h
  · next c hc =>
    dsimp only at h
    cases h1 : c.stdout (.int n) false true with
    | error e => rw [h1] at h; cases h
    | ok x =>
      rw [h1] at h
      change Pipeline.make (p.commands.dropLast ++ [x]) = _ at h
      simp [Pipeline.make] at h
      subst h
      refine ⟨p.commands.dropLast, c, ?_, by simp [stdout_int_ok hn h1]⟩
      have hne : p.commands ≠ [] := by intro h0; simp [h0] at hc
      rw [List.getLast?_eq_some_getLast hne] at hc
      cases hc
      exact (List.dropLast_concat_getLast hne).symm

theorem sub_stdin_owned {a b : SubCmd} {n : Int} (hn : 0 ≤ n) (hw : a.isWritable = true)
    (hc : cleanEnd a) (hcl : a.clean) (h : a.stdin n = .ok b) :
    b.owned.Perm (n :: a.owned) ∧ b.clean := by
  cases a with
  | cmd c =>
    simp only [SubCmd.stdin] at h
    cases h1 : c.stdin (.int n) true with
    | error e => rw [h1] at h; cases h
    | ok x =>
      rw [h1] at h
      cases h
      rw [stdin_int_ok hn h1]
      simp only [SubCmd.isWritable] at hw
      simp only [cleanEnd, hw, if_true] at hc
      exact ⟨owned_withIn c n hn hc, (clean_withIn c n).2 hcl⟩
  | pipe p =>
    simp only [SubCmd.stdin] at h
    cases h1 : p.stdin (.int n) true with
    | error e => rw [h1] at h; cases h
    | ok q =>
      rw [h1] at h
      cases h
      obtain ⟨c, rest, hp, hq⟩ := pipeline_stdin_ok hn h1
      simp only [cleanEnd, hw, if_true] at hc
      have hin := hc c (by simp [hp])
      simp only [SubCmd.owned, SubCmd.clean, hp, hq, ownedCmds, cleanCmds] at hcl ⊢
      refine ⟨(owned_withIn c n hn hin).append_right _, ?_, (clean_withIn c n).2 hcl.2.1, hcl.2.2⟩
      exact cleanLinks_head hcl.1 (noOut_withIn c n).2

theorem sub_stdout_owned {a b : SubCmd} {n : Int} (hn : 0 ≤ n) (hw : a.isWritable = false)
    (hc : cleanEnd a) (hcl : a.clean) (h : a.stdout n = .ok b) :
    b.owned.Perm (n :: a.owned) ∧ b.clean := by
  cases a with
  | cmd c =>
    simp only [SubCmd.stdout] at h
    cases h1 : c.stdout (.int n) false true with
    | error e => rw [h1] at h; cases h
    | ok x =>
      rw [h1] at h
      cases h
      rw [stdout_int_ok hn h1]
      simp only [SubCmd.isWritable] at hw
      simp only [cleanEnd, hw, Bool.false_eq_true, if_false] at hc
      exact ⟨owned_withOut c n hn hc, (clean_withOut c n).2 hcl⟩
  | pipe p =>
    simp only [SubCmd.stdout] at h
    cases h1 : p.stdout (.int n) false true with
    | error e => rw [h1] at h; cases h
    | ok q =>
      rw [h1] at h
      cases h
      obtain ⟨cs, c, hp, hq⟩ := pipeline_stdout_ok hn h1
      simp only [cleanEnd, hw, Bool.false_eq_true, if_false] at hc
      have hout := hc c (by simp [hp])
      simp only [SubCmd.owned, SubCmd.clean, hp, hq, owned_append, clean_append, ownedCmds,
        cleanCmds, List.append_nil] at hcl ⊢
      refine ⟨((owned_withOut c n hn hout).append_left _).trans List.perm_middle, ?_, hcl.2.1,
        (clean_withOut c n).2 hcl.2.2.1, trivial⟩
      exact cleanLinks_last hcl.1 (noIn_withOut c n).2

theorem Leaf.sub_owned {a : Leaf} {sub : SubCmd} (h : a.sub? = some sub) :
    ownedLeaf a = sub.owned ∧ (cleanLeaf a ↔ cleanEnd sub ∧ sub.clean) := by
  cases a <;> simp [Leaf.sub?] at h <;> subst h
  · simp [ownedLeaf, SubCmd.owned, cleanLeaf, SubCmd.clean]
  · simp [ownedLeaf, SubCmd.owned, cleanLeaf, SubCmd.clean]

theorem Leaf.nosub_owned {a : Leaf} (h : a.sub? = none) : ownedLeaf a = [] := by
  cases a <;> simp [Leaf.sub?] at h <;> simp [ownedLeaf]

theorem subst_owned {args ps subs passed kept pipes} (h : Subst args ps subs passed kept pipes) :
    cleanLeaves args → (∀ x ∈ passed ++ kept, 0 ≤ x) →
    (subs.flatMap SubCmd.owned).Perm (kept ++ ownedLeaves args) ∧ ∀ x ∈ subs, x.clean := by
  induction h with
  | nil => intro _ _; simp [ownedLeaves]
  | plain a hn _ ih =>
    intro hc h0
    simp only [cleanLeaves] at hc
    simpa [ownedLeaves, Leaf.nosub_owned hn] using ih hc.2 h0
  | reading a sub sub' r w hsub hw hs _ ih =>
    intro hc h0
    simp only [cleanLeaves] at hc
    obtain ⟨i1, i2⟩ := ih hc.2 (fun x hx => h0 x (by simp at hx ⊢; rcases hx with h | h <;> simp [h]))
    obtain ⟨o1, o2⟩ := Leaf.sub_owned hsub
    obtain ⟨p1, p2⟩ := sub_stdout_owned (h0 w (by simp)) ((isWritable_false_iff _).mpr hw) (o2.1 hc.1).1 (o2.1 hc.1).2 hs
    refine ⟨?_, by simpa using ⟨p2, i2⟩⟩
    simp only [List.flatMap_cons, ownedLeaves, o1, List.cons_append]
    refine (p1.append i1).trans ?_
    simp only [List.cons_append]
    exact (List.perm_append_comm_assoc _ _ _).cons w
  | writing a sub sub' r w hsub hw hs _ ih =>
    intro hc h0
    simp only [cleanLeaves] at hc
    obtain ⟨i1, i2⟩ := ih hc.2 (fun x hx => h0 x (by simp at hx ⊢; rcases hx with h | h <;> simp [h]))
    obtain ⟨o1, o2⟩ := Leaf.sub_owned hsub
    obtain ⟨p1, p2⟩ := sub_stdin_owned (h0 r (by simp)) ((isWritable_iff _).mpr hw) (o2.1 hc.1).1 (o2.1 hc.1).2 hs
    refine ⟨?_, by simpa using ⟨p2, i2⟩⟩
    simp only [List.flatMap_cons, ownedLeaves, o1, List.cons_append]
    refine (p1.append i1).trans ?_
    simp only [List.cons_append]
    exact (List.perm_append_comm_assoc _ _ _).cons r

end Shellous
