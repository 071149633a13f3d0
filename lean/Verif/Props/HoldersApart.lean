import Verif.Props.Holders

/-!
# C93, continued: no process gets both ends of a pipe
-/

namespace Shellous

open Props

/-! ## Conditions that are kept when descriptors in `X` are added to the options -/

structure KeepsAll (P : Options → Prop) (X : Int → Prop) : Prop where
  input : ∀ o n, X n → P o → P { o with input := .int n, inputClose := true }
  output : ∀ o n, X n → P o → P { o with output := .int n, outputAppend := false, outputClose := true }
  stage : ∀ o, P o → P { o with returnResult := true, catchCancelled := true }

section keeps
variable {P : Options → Prop} {X : Int → Prop} (hP : KeepsAll P X)
include hP

theorem all_withIn {c : Command} {n : Int} (hn : X n) (h : allCmd P c) : allCmd P (withIn c n) := by
  cases c with
  | mk args o => simp only [allCmd] at h; simp only [withIn, allCmd]; exact ⟨hP.input _ _ hn h.1, h.2⟩

theorem all_withOut {c : Command} {n : Int} (hn : X n) (h : allCmd P c) : allCmd P (withOut c n) := by
  cases c with
  | mk args o => simp only [allCmd] at h; simp only [withOut, allCmd]; exact ⟨hP.output _ _ hn h.1, h.2⟩

theorem all_asStage {c : Command} (h : allCmd P c) : allCmd P (asStage c) := by
  cases c with
  | mk args o => simp only [allCmd] at h; simp only [asStage, allCmd]; exact ⟨hP.stage _ h.1, h.2⟩

theorem all_optIn {c : Command} (i : Option Int) (hi : ∀ n ∈ i, X n) (h : allCmd P c) : allCmd P (optIn c i) := by
  cases i with
  | none => exact h
  | some n => exact all_withIn hP (hi n rfl) h

theorem all_link : ∀ (cs : List Command) (ps : List (Int × Int)) (i : Option Int), (∀ n ∈ i, X n) → (∀ p ∈ ps, X p.1 ∧ X p.2) → allCmds P cs → allCmds P (link i cs ps)
  | [], _, _, _, _, _ => by simp [link, allCmds]
  | [c], ps, i, hi, _, h => by
    simp only [allCmds] at h
    simp only [link, allCmds]
    exact ⟨all_optIn hP i hi h.1, trivial⟩
  | c :: d :: rest, [], i, hi, _, h => by
    simp only [allCmds] at h
    simp only [link, allCmds]
    exact ⟨all_optIn hP i hi h.1, trivial⟩
  | c :: d :: rest, (r, w) :: ps, i, hi, hps, h => by
    have h' : allCmds P (d :: rest) := by simp only [allCmds] at h ⊢; exact h.2
    have hrw := hps (r, w) (by simp)
    have := all_link (d :: rest) ps (some r) (by rintro n hn; cases hn; exact hrw.1) (fun p hp => hps p (List.mem_cons_of_mem _ hp)) h'
    simp only [allCmds] at h
    simp only [link, allCmds]
    exact ⟨all_withOut hP hrw.2 (all_optIn hP i hi h.1), this⟩

theorem all_stages : ∀ {cs : List Command}, allCmds P cs → ∀ c ∈ cs.map asStage, allCmd P c
  | [], _, _, hc => by cases hc
  | d :: cs, h, c, hc => by
    simp only [allCmds] at h
    rcases List.mem_cons.1 hc with rfl | hc
    · exact all_asStage hP h.1
    · exact all_stages h.2 c hc

theorem all_stdin {a b : SubCmd} {n : Int} (hn : 0 ≤ n) (hx : X n) (ha : a.all P) (h : a.stdin n = .ok b) : b.all P := by
  cases a with
  | cmd c =>
    simp only [SubCmd.stdin] at h
    cases h1 : c.stdin (.int n) true with
    | error e => rw [h1] at h; cases h
    | ok x => rw [h1] at h; cases h; rw [stdin_int_ok hn h1]; exact all_withIn hP hx ha
  | pipe p =>
    simp only [SubCmd.stdin] at h
    cases h1 : p.stdin (.int n) true with
    | error e => rw [h1] at h; cases h
    | ok q =>
      rw [h1] at h; cases h
      obtain ⟨c, rest, hp, hq⟩ := pipeline_stdin_ok hn h1
      simp only [SubCmd.all, hp, hq, allCmds] at ha ⊢
      exact ⟨all_withIn hP hx ha.1, ha.2⟩

theorem all_stdout {a b : SubCmd} {n : Int} (hn : 0 ≤ n) (hx : X n) (ha : a.all P) (h : a.stdout n = .ok b) : b.all P := by
  cases a with
  | cmd c =>
    simp only [SubCmd.stdout] at h
    cases h1 : c.stdout (.int n) false true with
    | error e => rw [h1] at h; cases h
    | ok x => rw [h1] at h; cases h; rw [stdout_int_ok hn h1]; exact all_withOut hP hx ha
  | pipe p =>
    simp only [SubCmd.stdout] at h
    cases h1 : p.stdout (.int n) false true with
    | error e => rw [h1] at h; cases h
    | ok q =>
      rw [h1] at h; cases h
      obtain ⟨cs, c, hp, hq⟩ := pipeline_stdout_ok hn h1
      simp only [SubCmd.all, hp, hq, allCmds_append, allCmds] at ha ⊢
      exact ⟨ha.1, all_withOut hP hx ha.2.1, trivial⟩

omit hP in
theorem all_leaf {a : Leaf} {sub : SubCmd} (h : a.sub? = some sub) (ha : allLeaf P a) : sub.all P := by
  cases a <;> simp [Leaf.sub?] at h <;> subst h <;> simpa [allLeaf, SubCmd.all] using ha

theorem all_subst {args ps subs passed kept pipes} (h : Subst args ps subs passed kept pipes) :
    allLeaves P args → (∀ x ∈ passed ++ kept, 0 ≤ x) → (∀ x ∈ kept, X x) → ∀ x ∈ subs, x.all P := by
  induction h with
  | nil => intro _ _ _ x hx; cases hx
  | plain a hn _ ih => intro hc h0 hX; simp only [allLeaves] at hc; exact ih hc.2 h0 hX
  | reading a sub sub' r w hsub hw hs _ ih =>
    intro hc h0 hX
    simp only [allLeaves] at hc
    have i := ih hc.2 (fun x hx => h0 x (by simp at hx ⊢; rcases hx with h | h <;> simp [h])) (fun x hx => hX x (List.mem_cons_of_mem _ hx))
    intro x hx
    rcases List.mem_cons.1 hx with rfl | hx
    · exact all_stdout hP (h0 w (by simp)) (hX w (by simp)) (all_leaf hsub hc.1) hs
    · exact i x hx
  | writing a sub sub' r w hsub hw hs _ ih =>
    intro hc h0 hX
    simp only [allLeaves] at hc
    have i := ih hc.2 (fun x hx => h0 x (by simp at hx ⊢; rcases hx with h | h <;> simp [h])) (fun x hx => hX x (List.mem_cons_of_mem _ hx))
    intro x hx
    rcases List.mem_cons.1 hx with rfl | hx
    · exact all_stdin hP (h0 r (by simp)) (hX r (by simp)) (all_leaf hsub hc.1) hs
    · exact i x hx

end keeps

/-! ## Commands that are not handed two descriptors together -/

/-- Not both are handed over in these options. -/
def NotBoth (a b : Int) (o : Options) : Prop := ¬ (a ∈ handed o ∧ b ∈ handed o)

theorem handed_input {o : Options} {n x : Int} (h : x ∈ handed { o with input := .int n, inputClose := true }) : x = n ∨ x ∈ handed o := by
  simp only [handed, List.mem_append] at h ⊢
  rcases h with ((h | h) | h) | h
  · simp only [givenBy] at h; split at h <;> simp_all
  · exact .inr (.inl (.inl (.inr h)))
  · exact .inr (.inl (.inr h))
  · exact .inr (.inr h)

theorem handed_output {o : Options} {n x : Int} (h : x ∈ handed { o with output := .int n, outputAppend := false, outputClose := true }) : x = n ∨ x ∈ handed o := by
  simp only [handed, List.mem_append] at h ⊢
  rcases h with ((h | h) | h) | h
  · exact .inr (.inl (.inl (.inl h)))
  · simp only [givenBy] at h; split at h <;> simp_all
  · exact .inr (.inl (.inr h))
  · exact .inr (.inr h)

theorem notBoth_keeps (a b : Int) : KeepsAll (NotBoth a b) fun n => n ≠ a ∧ n ≠ b where
  input o n hn h hb := h ⟨(handed_input hb.1).resolve_left hn.1.symm, (handed_input hb.2).resolve_left hn.2.symm⟩
  output o n hn h hb := h ⟨(handed_output hb.1).resolve_left hn.1.symm, (handed_output hb.2).resolve_left hn.2.symm⟩
  stage o h := h

mutual
theorem notOwned_cmd {P : Options → Prop} {a : Int} (hP : ∀ o, a ∉ handed o → P o) : ∀ (c : Command), a ∉ ownedCmd c → allCmd P c
  | .mk args o, h => by
    simp only [ownedCmd, List.mem_append, not_or] at h
    simp only [allCmd]
    exact ⟨hP o h.1, notOwned_leaves hP args h.2⟩
theorem notOwned_leaves {P : Options → Prop} {a : Int} (hP : ∀ o, a ∉ handed o → P o) : ∀ (l : List Leaf), a ∉ ownedLeaves l → allLeaves P l
  | [], _ => by simp [allLeaves]
  | x :: l, h => by
    simp only [ownedLeaves, List.mem_append, not_or] at h
    simp only [allLeaves]
    exact ⟨notOwned_leaf hP x h.1, notOwned_leaves hP l h.2⟩
theorem notOwned_leaf {P : Options → Prop} {a : Int} (hP : ∀ o, a ∉ handed o → P o) : ∀ (l : Leaf), a ∉ ownedLeaf l → allLeaf P l
  | .cmd c, h => by simp only [ownedLeaf] at h; simp only [allLeaf]; exact notOwned_cmd hP c h
  | .pipe cs, h => by simp only [ownedLeaf] at h; simp only [allLeaf]; exact notOwned_cmds hP cs h
  | .str _, _ | .bytes _, _ | .path _, _ => by simp [allLeaf]
theorem notOwned_cmds {P : Options → Prop} {a : Int} (hP : ∀ o, a ∉ handed o → P o) : ∀ (l : List Command), a ∉ ownedCmds l → allCmds P l
  | [], _ => by simp [allCmds]
  | x :: l, h => by
    simp only [ownedCmds, List.mem_append, not_or] at h
    simp only [allCmds]
    exact ⟨notOwned_cmd hP x h.1, notOwned_cmds hP l h.2⟩
end

theorem notOwned {a b : Int} {c : SubCmd} (h : a ∉ c.owned ∨ b ∉ c.owned) : c.all (NotBoth a b) := by
  cases c with
  | cmd c => rcases h with h | h
             · exact notOwned_cmd (P := NotBoth a b) (fun o h hb => h hb.1) c h
             · exact notOwned_cmd (P := NotBoth a b) (fun o h hb => h hb.2) c h
  | pipe p => rcases h with h | h
              · exact notOwned_cmds (P := NotBoth a b) (fun o h hb => h hb.1) _ h
              · exact notOwned_cmds (P := NotBoth a b) (fun o h hb => h hb.2) _ h

/-! ## The invariant -/

/-- Not both descriptors go to one child. -/
def KItem.Apart (a b : Int) : KItem → Prop
  | .todo c => c.all (NotBoth a b)
  | .ready s1 => ¬ (a ∈ fds s1.openFds ∧ b ∈ fds s1.openFds) ∧ ∀ x ∈ s1.subcmds, x.all (NotBoth a b)
  | .running _ subs => ∀ x ∈ subs, x.all (NotBoth a b)

theorem apart_of_notPend {a b : Int} : ∀ {it : KItem}, a ∉ it.erase.pend ∨ b ∉ it.erase.pend → it.Apart a b
  | .todo _, h => notOwned h
  | .ready s1, h => by
    simp only [KItem.erase, LItem.pend, List.mem_append, not_or] at h
    refine ⟨fun hab => h.elim (fun h => h.1 hab.1) (fun h => h.1 hab.2), fun x hx => notOwned ?_⟩
    exact h.imp (fun h hn => h.2 (List.mem_flatMap.2 ⟨x, hx, hn⟩)) (fun h hn => h.2 (List.mem_flatMap.2 ⟨x, hx, hn⟩))
  | .running es subs, h => by
    simp only [KItem.erase, LItem.pend, List.mem_append, not_or] at h
    exact fun x hx => notOwned (h.imp (fun h hn => h.2 (List.mem_flatMap.2 ⟨x, hx, hn⟩)) (fun h hn => h.2 (List.mem_flatMap.2 ⟨x, hx, hn⟩)))

structure KApart (k : Kernel) : Prop where
  lt : ∀ p ∈ k.pipes, p.1 < k.files ∧ p.2 < k.files
  items : ∀ p ∈ k.pipes, ∀ a b, a ∈ k.st.tab → b ∈ k.st.tab → k.file a = p.1 → k.file b = p.2 → ∀ it ∈ k.items, it.Apart a b
  children : ∀ p ∈ k.pipes, ∀ c ∈ k.children, ¬ (c.given p.1 ∧ c.given p.2)

theorem mem_ownedCmds' {x : Int} : ∀ {cs : List Command} {c : Command}, c ∈ cs → x ∈ ownedCmd c → x ∈ ownedCmds cs
  | d :: cs, c, hc, hx => by
    simp only [ownedCmds, List.mem_append]
    rcases List.mem_cons.1 hc with rfl | hc
    · exact .inl hx
    · exact .inr (mem_ownedCmds' hc hx)

/-- In a list without repetitions, what is in one of the parts is not in another one. -/
theorem ownedCmds_apart : ∀ {cs : List Command} {a b : Int} {j j' : Nat} {c c' : Command}, (ownedCmds cs).Nodup → cs[j]? = some c → cs[j']? = some c' → j ≠ j' →
    a ∈ ownedCmd c → b ∈ ownedCmd c' → ∀ d ∈ cs, ¬ (a ∈ ownedCmd d ∧ b ∈ ownedCmd d) := by
  intro cs a b j j' c c' hd hj hj' hne ha hb d hd' ⟨h1, h2⟩
  have key : ∀ {cs : List Command} {x : Int} {i i' : Nat} {c c' : Command}, (ownedCmds cs).Nodup → cs[i]? = some c → cs[i']? = some c' →
      x ∈ ownedCmd c → x ∈ ownedCmd c' → i = i' := by
    intro cs
    induction cs with
    | nil => intro x i i' c c' _ h; simp at h
    | cons e cs ih =>
      intro x i i' c c' hn hi hi' hx hx'
      simp only [ownedCmds, List.nodup_append] at hn
      have mem : ∀ {i : Nat} {c : Command}, cs[i]? = some c → x ∈ ownedCmd c → x ∈ ownedCmds cs := by
        intro i c hi hx
        exact mem_ownedCmds' (List.mem_of_getElem? hi) hx
      cases i <;> cases i'
      · rfl
      · simp at hi hi'; subst hi; exact absurd rfl (hn.2.2 x hx x (mem hi' hx'))
      · simp at hi hi'; subst hi'; exact absurd rfl (hn.2.2 x hx' x (mem hi hx))
      · simp at hi hi'; rw [ih hn.2.1 hi hi' hx hx']
  obtain ⟨i, hi⟩ := List.mem_iff_getElem?.1 hd'
  have e1 := key hd hi hj h1 ha
  have e2 := key hd hi hj' h2 hb
  exact hne (e1.symm.trans e2)

/-- The ends of each pipe go to different commands of the pipeline. -/
theorem link_places : ∀ (cs : List Command) (ps : List (Int × Int)) (i : Option Int), ps.length + 1 = cs.length → (∀ p ∈ ps, 0 ≤ p.1 ∧ 0 ≤ p.2) →
    ∀ p ∈ ps, ∃ (j : Nat) (c c' : Command), (link i cs ps)[j]? = some c ∧ (link i cs ps)[j + 1]? = some c' ∧ p.2 ∈ ownedCmd c ∧ p.1 ∈ ownedCmd c'
  | [], ps, _, hl, _, p, hp => by simp at hl
  | [c], ps, i, hl, _, p, hp => by
    have : ps = [] := by simpa using hl
    subst this; cases hp
  | c :: d :: rest, [], i, hl, _, p, hp => by cases hp
  | c :: d :: rest, (r, w) :: ps, i, hl, h0, p, hp => by
    have hl' : ps.length + 1 = (d :: rest).length := by simpa using hl
    rcases List.mem_cons.1 hp with rfl | hp
    · have hw : w ∈ ownedCmd (withOut (optIn c i) w) := by
        cases hc : optIn c i with
        | mk args o => simp [withOut, ownedCmd, handed, givenBy, (h0 (r, w) (by simp)).2]
      have hin : ∀ d : Command, r ∈ ownedCmd (withIn d r) := by
        intro d; cases d with
        | mk args o => simp [withIn, ownedCmd, handed, givenBy, (h0 (r, w) (by simp)).1]
      refine ⟨0, withOut (optIn c i) w, ?_⟩
      cases rest with
      | nil => exact ⟨withIn d r, by simp [link], by simp [link, optIn], hw, hin d⟩
      | cons e rest =>
        cases ps with
        | nil => simp at hl'
        | cons q ps =>
          refine ⟨withOut (withIn d r) q.2, by simp [link], by simp [link, optIn], hw, ?_⟩
          have := hin d
          cases d with
          | mk args o => simpa [withOut, withIn, ownedCmd, handed, givenBy, (h0 (r, w) (by simp)).1] using Or.inl this
    · obtain ⟨j, c1, c2, h1, h2, h3, h4⟩ := link_places (d :: rest) ps (some r) hl' (fun p hp => h0 p (List.mem_cons_of_mem _ hp)) p hp
      exact ⟨j + 1, c1, c2, by simpa [link] using h1, by simpa [link] using h2, h3, h4⟩

theorem todo_pend : ∀ cs : List Command, (cs.map (fun c => KItem.erase (.todo (.cmd c)))).flatMap LItem.pend = ownedCmds cs
  | [] => rfl
  | d :: cs => by simp only [List.map_cons, List.flatMap_cons, ownedCmds, todo_pend cs]; simp only [KItem.erase, LItem.pend, SubCmd.owned]

/-- One end of each pipe is passed, and the other one is kept for the substituted command. -/
theorem subst_split {args ps subs passed kept pipes} (h : Subst args ps subs passed kept pipes) : ∀ q ∈ pipes, q.1 ∈ passed ∧ q.2 ∈ kept ∨ q.2 ∈ passed ∧ q.1 ∈ kept := by
  induction h with
  | nil => intro q hq; cases hq
  | plain a _ _ ih => exact ih
  | reading a sub sub' r w _ _ _ _ ih =>
    intro q hq
    rcases List.mem_cons.1 hq with rfl | hq
    · exact .inl ⟨by simp, by simp⟩
    · rcases ih q hq with h | h <;> simp [h.1, h.2]
  | writing a sub sub' r w _ _ _ _ ih =>
    intro q hq
    rcases List.mem_cons.1 hq with rfl | hq
    · exact .inr ⟨by simp, by simp⟩
    · rcases ih q hq with h | h <;> simp [h.1, h.2]

section steps
variable {sys : Sys} (hs : sys.Ok) {keep : List Int} {inh : Int → Prop} {mine : Nat → Prop}

/-- Pipes made before stay as they are: their ends are old descriptors. -/
theorem opens_old {s s1 : LS} {f f' : Int → Nat} {m m' : Nat} (ho : Opens s.tab s1.tab f m f' m') {x : Int} {i : Nat} (hx : x ∈ s1.tab) (hi : f' x = i) (hlt : i < m) :
    x ∈ s.tab ∧ f x = i := by
  by_cases h : x ∈ s.tab
  · exact ⟨h, (ho.old x h).symm.trans hi⟩
  · have := (ho.new x hx h).1; omega

include hs

theorem KApart.enter {q1 q2 : List KItem} {c : Command} {ps : List Int} {s s1 : LS} {f f' m m' pp ch}
    (hk : KInv keep inh mine ⟨q1 ++ .todo (.cmd c) :: q2, ps, s, f, m, pp, ch⟩)
    (hk' : KInv keep inh mine ⟨q1 ++ .ready s1 :: q2, ps ++ (s1.pty.map (·.parent)).toList, s1, f', m', pp ++ newPipes s s1 f', ch⟩)
    (ha : KApart ⟨q1 ++ .todo (.cmd c) :: q2, ps, s, f, m, pp, ch⟩)
    (he : enter sys c s = (.ok (), s1)) (ho : Opens s.tab s1.tab f m f' m') :
    KApart ⟨q1 ++ .ready s1 :: q2, ps ++ (s1.pty.map (·.parent)).toList, s1, f', m', pp ++ newPipes s s1 f', ch⟩ := by
  have hb := enter_body he
  obtain ⟨new, ents, own, kept, passed, pipes, e, hS, hpf, hperm, hfds, hpo, hpi, hpp⟩ := enterBody_ok hs hb
  have hopen : s1.openFds = ents := by rw [e.openFds]; rfl
  have hdrop : s1.pipes.drop s.pipes.length = pipes := by rw [hpi]; simp
  have hnn : ∀ x ∈ passed ++ kept, 0 ≤ x := by
    intro x hx
    refine e.nonneg x (hperm.symm.subset ?_)
    rcases List.mem_append.1 hx with h | h
    · simp [hpo x h]
    · simp [h]
  have hcl : cleanLeaves c.args := by
    have : (KItem.erase (.todo (.cmd c))).clean := hk.fd.clean _ (by simp [Kernel.conf])
    cases c; simpa [KItem.erase, LItem.clean, SubCmd.clean, cleanCmd] using this
  obtain ⟨ow, -⟩ := subst_owned hS hcl hnn
  have hmem : ∀ x, x ∈ s1.tab ↔ x ∈ new ∨ x ∈ s.tab := e.mem_tab
  have hnew : ∀ n, n ∈ passed ++ kept → n ∈ new := fun n hn => hperm.symm.subset (by
    rcases List.mem_append.1 hn with h | h
    · simp [hpo n h]
    · simp [h])
  have hmid : ∀ it, it ∈ q1 ++ q2 → it ∈ q1 ++ .todo (.cmd c) :: q2 := by
    intro it h
    rcases List.mem_append.1 h with h | h
    · exact List.mem_append_left _ h
    · exact List.mem_append_right _ (List.mem_cons_of_mem _ h)
  have hchild : ∀ d ∈ ch, ∀ n ∈ passed ++ kept, ¬ d.given (f' n) := by
    intro d hd n hn hg
    have h1 := (ho.new n ((hmem n).2 (.inl (hnew n hn))) (e.fresh n (hnew n hn))).1
    rcases hk.given d hd _ hg with h | h
    · have := hk.minelt _ h; dsimp only at *; omega
    · have := h.1; dsimp only at *; omega
  refine ⟨?_, ?_, ?_⟩
  · intro p hp
    rcases List.mem_append.1 hp with hp | hp
    · have := ha.lt p hp; have := ho.le; dsimp only at *; omega
    · simp only [newPipes, hdrop, List.mem_map] at hp
      obtain ⟨q, hq, rfl⟩ := hp
      have l : ∀ n, n ∈ passed ++ kept → f' n < m' := fun n hn => (ho.new n ((hmem n).2 (.inl (hnew n hn))) (e.fresh n (hnew n hn))).2
      exact ⟨l _ (hpp.subset (List.mem_flatMap.2 ⟨q, hq, by simp⟩)), l _ (hpp.subset (List.mem_flatMap.2 ⟨q, hq, by simp⟩))⟩
  · intro p hp a b hta htb hfa hfb it hit
    have hta : a ∈ s1.tab := hta
    have htb : b ∈ s1.tab := htb
    rcases List.mem_append.1 hp with hp | hp
    · -- a pipe made before
      have hlt := ha.lt p hp
      obtain ⟨ta, fa⟩ := opens_old ho hta hfa hlt.1
      obtain ⟨tb, fb⟩ := opens_old ho htb hfb hlt.2
      have hall := fun it hit => ha.items p hp a b ta tb fa fb it hit
      rcases List.mem_append.1 hit with h | h
      · exact hall it (hmid _ (List.mem_append_left _ h))
      · rcases List.mem_cons.1 h with rfl | h
        · have hc : allCmd (NotBoth a b) c := hall (.todo (.cmd c)) (by simp)
          have hargs : NotBoth a b c.options ∧ allLeaves (NotBoth a b) c.args := by cases c; simpa [allCmd] using hc
          refine ⟨fun hab => hargs.1 ?_, all_subst (notBoth_keeps a b) hS hargs.2 hnn fun x hx => ?_⟩
          · have g : ∀ x, x ∈ s.tab → x ∈ fds s1.openFds → x ∈ handed c.options := by
              intro x hx h
              rw [hopen] at h
              rcases List.mem_append.1 (hfds.subset h) with h | h
              · exact h
              · exact absurd hx (e.fresh x (hperm.symm.subset (by simp [h])))
            exact ⟨g a ta hab.1, g b tb hab.2⟩
          · have hx := e.fresh x (hnew x (List.mem_append_right _ hx))
            exact ⟨fun h => hx (h ▸ ta), fun h => hx (h ▸ tb)⟩
        · exact hall it (hmid _ (List.mem_append_right _ h))
    · -- a new one
      simp only [newPipes, hdrop, List.mem_map] at hp
      obtain ⟨q, hq, rfl⟩ := hp
      have m1 : q.1 ∈ passed ++ kept := hpp.subset (List.mem_flatMap.2 ⟨q, hq, by simp⟩)
      have m2 : q.2 ∈ passed ++ kept := hpp.subset (List.mem_flatMap.2 ⟨q, hq, by simp⟩)
      have i : ∀ n, n ∈ passed ++ kept → ∀ x ∈ s1.tab, f' x = f' n → x = n := by
        intro n hn x hx hf
        refine (hk'.inj x n hx ((hmem n).2 (.inl (hnew n hn))) hf).resolve_right fun h => ?_
        exact e.fresh n (hnew n hn) (keep_tab hk.fd h.2)
      have ea : a = q.1 := i _ m1 a hta hfa
      have eb : b = q.2 := i _ m2 b htb hfb
      subst ea eb
      have hsplit := subst_split hS q hq
      have nd : ∀ n, ((fds s1.openFds) ++ s1.subcmds.flatMap SubCmd.owned).count n ≤ 1 := by
        intro n
        have hc := List.nodup_iff_count.1 (hk'.fd.perm.nodup_iff.1 hk'.fd.nodup) n
        simp only [Kernel.conf, List.map_append, List.map_cons, List.flatMap_append, List.flatMap_cons, List.count_append, KItem.erase, LItem.pend] at hc ⊢
        omega
      have hdis : ∀ n, n ∈ fds s1.openFds → n ∈ s1.subcmds.flatMap SubCmd.owned → False := by
        intro n h1 h2
        have := nd n
        have := List.count_pos_iff.2 h1
        have := List.count_pos_iff.2 h2
        simp only [List.count_append] at *
        omega
      have hpass : ∀ n ∈ passed, n ∈ fds s1.openFds := fun n hn => by
        rw [hopen]; exact hfds.symm.subset (List.mem_append_right _ (hpo n hn))
      have hkept : ∀ n ∈ kept, n ∈ s1.subcmds.flatMap SubCmd.owned := fun n hn => ow.symm.subset (List.mem_append_left _ hn)
      have hother : ∀ it ∈ q1 ++ q2, it.Apart q.1 q.2 := fun it h => apart_of_notPend (.inl fun hp => e.fresh q.1 (hnew _ m1) (pend_tab hk.fd (hmid it h) hp))
      rcases List.mem_append.1 hit with h | h
      · exact hother it (List.mem_append_left _ h)
      · rcases List.mem_cons.1 h with rfl | h
        · rcases hsplit with ⟨h1, h2⟩ | ⟨h1, h2⟩
          · exact ⟨fun h => hdis _ h.2 (hkept _ h2), fun x hx => notOwned (.inl fun h => hdis _ (hpass _ h1) (List.mem_flatMap.2 ⟨x, hx, h⟩))⟩
          · exact ⟨fun h => hdis _ h.1 (hkept _ h2), fun x hx => notOwned (.inr fun h => hdis _ (hpass _ h1) (List.mem_flatMap.2 ⟨x, hx, h⟩))⟩
        · exact hother it (List.mem_append_right _ h)
  · intro p hp d hd hg
    rcases List.mem_append.1 hp with hp | hp
    · exact ha.children p hp d hd hg
    · simp only [newPipes, hdrop, List.mem_map] at hp
      obtain ⟨q, hq, rfl⟩ := hp
      exact hchild d hd q.1 (hpp.subset (List.mem_flatMap.2 ⟨q, hq, by simp⟩)) hg.1

omit hs in
theorem KApart.fork {q1 q2 : List KItem} {ps : List Int} {s s1 : LS} {f m pp ch}
    (hk : KInv keep inh mine ⟨q1 ++ .ready s1 :: q2, ps, s, f, m, pp, ch⟩) (ha : KApart ⟨q1 ++ .ready s1 :: q2, ps, s, f, m, pp, ch⟩) :
    KApart ⟨q1 ++ .running s1.openFds s1.subcmds :: q2, ps, s, f, m, pp,
      ch ++ [⟨fun i => ∃ n, ChildHolds inh { s1 with tab := s.tab } n ∧ f n = i, fun i => ∃ n, ChildHolds inh { s1 with tab := s.tab } n ∧ f n = i⟩]⟩ := by
  have hfine : KItem.Fine keep inh (.ready s1) := hk.fine _ (by simp)
  refine ⟨ha.lt, ?_, ?_⟩
  · intro p hp a b hta htb hfa hfb it hit
    have hall := ha.items p hp a b hta htb hfa hfb
    rcases List.mem_append.1 hit with h | h
    · exact hall it (List.mem_append_left _ h)
    · rcases List.mem_cons.1 h with rfl | h
      · exact (hall (.ready s1) (by simp)).2
      · exact hall it (List.mem_append_right _ (List.mem_cons_of_mem _ h))
  · intro p hp d hd hg
    rcases List.mem_append.1 hd with hd | hd
    · exact ha.children p hp d hd hg
    · rw [List.mem_singleton] at hd; subst hd
      obtain ⟨⟨a, hca, hfa⟩, b, hcb, hfb⟩ := hg
      have g : ∀ x i, ChildHolds inh { s1 with tab := s.tab } x → f x = i → ¬ mine i → x ∈ fds s1.openFds ∧ x ∈ s.tab := by
        rintro x i hx rfl hm
        rcases hfine.1 _ x hx with h | h
        · exact absurd (hk.kept x h) hm
        · exact ⟨h, pend_tab hk.fd (it := .ready s1) (by simp) (List.mem_append_left _ h)⟩
      have ga := g a _ hca hfa (hk.pipes p hp).1.2
      have gb := g b _ hcb hfb (hk.pipes p hp).2.2
      exact (ha.items p hp a b ga.2 gb.2 hfa hfb (.ready s1) (by simp)).1 ⟨ga.1, gb.1⟩

theorem KApart.exit {q1 q2 : List KItem} {es : List Ent} {subs : List SubCmd} {ps : List Int} {s s1 : LS} {f m pp ch}
    (hk : KInv keep inh mine ⟨q1 ++ .running es subs :: q2, ps, s, f, m, pp, ch⟩) (ha : KApart ⟨q1 ++ .running es subs :: q2, ps, s, f, m, pp, ch⟩)
    (he : exit sys false { s with openFds := es } = (s1, false)) : KApart ⟨q1 ++ subs.map .todo ++ q2, ps, s1, f, m, pp, ch⟩ := by
  have hsub : ∀ n ∈ fds es, n ∈ s.tab := fun n hn => pend_tab hk.fd (it := .running es subs) (by simp) (List.mem_append_left _ hn)
  have hnd : (fds es).Nodup := by
    have hd := hk.fd.perm.nodup_iff.1 hk.fd.nodup
    refine List.nodup_iff_count.2 fun n => ?_
    have hc := List.nodup_iff_count.1 hd n
    simp only [Kernel.conf, List.map_append, List.map_cons, List.flatMap_append, List.flatMap_cons, List.count_append, KItem.erase, LItem.pend] at hc
    omega
  obtain ⟨b1, b2, -⟩ := exit_ok_tab he hk.fd.nodup hnd hsub
  have b2 : ∀ x, x ∈ s1.tab ↔ x ∈ s.tab ∧ x ∉ fds es := b2
  refine ⟨ha.lt, ?_, ha.children⟩
  intro p hp a b hta htb hfa hfb it hit
  have hall := ha.items p hp a b ((b2 a).1 hta).1 ((b2 b).1 htb).1 hfa hfb
  rcases List.mem_append.1 hit with h | h
  · rcases List.mem_append.1 h with h | h
    · exact hall it (List.mem_append_left _ h)
    · obtain ⟨x, hx, rfl⟩ := List.mem_map.1 h
      exact (hall (.running es subs) (by simp)) x hx
  · exact hall it (List.mem_append_right _ (List.mem_cons_of_mem _ h))

theorem KApart.stitch {q1 q2 : List KItem} {p : Pipeline} {cs : List Command} {ps : List Int} {s s1 : LS} {f f' m m' pp ch}
    (hk : KInv keep inh mine ⟨q1 ++ .todo (.pipe p) :: q2, ps, s, f, m, pp, ch⟩)
    (hk' : KInv keep inh mine ⟨q1 ++ cs.map (fun c => .todo (.cmd c)) ++ q2, ps, s1, f', m', pp ++ newPipes s s1 f', ch⟩)
    (ha : KApart ⟨q1 ++ .todo (.pipe p) :: q2, ps, s, f, m, pp, ch⟩)
    (he : pipeStart sys p.commands s = (.ok cs, s1)) (ho : Opens s.tab s1.tab f m f' m') :
    KApart ⟨q1 ++ cs.map (fun c => .todo (.cmd c)) ++ q2, ps, s1, f', m', pp ++ newPipes s s1 f', ch⟩ := by
  have hcl : (SubCmd.pipe p).clean := hk.fd.clean (.todo (.pipe p)) (by simp [Kernel.conf, KItem.erase])
  obtain ⟨pipes, s2, e, hs1, hpi, how, hcs, hl⟩ := stitch_owned hs he hcl
  have hmem : ∀ x, x ∈ s1.tab ↔ x ∈ (pipes.flatMap fun p => [p.1, p.2]) ∨ x ∈ s.tab := by rw [hs1]; exact e.mem_tab
  have hdrop : s1.pipes.drop s.pipes.length = pipes := by rw [hpi]; simp
  have hmid : ∀ it, it ∈ q1 ++ q2 → it ∈ q1 ++ .todo (.pipe p) :: q2 := by
    intro it h
    rcases List.mem_append.1 h with h | h
    · exact List.mem_append_left _ h
    · exact List.mem_append_right _ (List.mem_cons_of_mem _ h)
  have end1 : ∀ q ∈ pipes, q.1 ∈ pipes.flatMap fun p => [p.1, p.2] := fun q hq => List.mem_flatMap.2 ⟨q, hq, by simp⟩
  have end2 : ∀ q ∈ pipes, q.2 ∈ pipes.flatMap fun p => [p.1, p.2] := fun q hq => List.mem_flatMap.2 ⟨q, hq, by simp⟩
  have hnew : ∀ n ∈ pipes.flatMap fun p => [p.1, p.2], m ≤ f' n ∧ f' n < m' := fun n hn => ho.new n ((hmem n).2 (.inl hn)) (e.fresh n hn)
  refine ⟨?_, ?_, ?_⟩
  · intro x hx
    rcases List.mem_append.1 hx with hx | hx
    · have := ha.lt x hx; have := ho.le; dsimp only at *; omega
    · simp only [newPipes, hdrop, List.mem_map] at hx
      obtain ⟨q, hq, rfl⟩ := hx
      exact ⟨(hnew _ (end1 q hq)).2, (hnew _ (end2 q hq)).2⟩
  · intro x hx a b hta htb hfa hfb it hit
    have hta : a ∈ s1.tab := hta
    have htb : b ∈ s1.tab := htb
    rcases List.mem_append.1 hx with hx | hx
    · have hlt := ha.lt x hx
      obtain ⟨ta, fa⟩ := opens_old ho hta hfa hlt.1
      obtain ⟨tb, fb⟩ := opens_old ho htb hfb hlt.2
      have hall := fun it hit => ha.items x hx a b ta tb fa fb it hit
      rcases List.mem_append.1 hit with h | h
      · rcases List.mem_append.1 h with h | h
        · exact hall it (hmid _ (List.mem_append_left _ h))
        · obtain ⟨d, hd, rfl⟩ := List.mem_map.1 h
          have hc : allCmds (NotBoth a b) p.commands := hall (.todo (.pipe p)) (by simp)
          rw [hcs] at hd
          refine all_stages (notBoth_keeps a b) (all_link (notBoth_keeps a b) _ pipes none (by simp) (fun q hq => ?_) hc) d hd
          have d1 := e.fresh _ (end1 q hq)
          have d2 := e.fresh _ (end2 q hq)
          exact ⟨⟨fun h => d1 (h ▸ ta), fun h => d1 (h ▸ tb)⟩, fun h => d2 (h ▸ ta), fun h => d2 (h ▸ tb)⟩
      · exact hall it (hmid _ (List.mem_append_right _ h))
    · simp only [newPipes, hdrop, List.mem_map] at hx
      obtain ⟨q, hq, rfl⟩ := hx
      have i : ∀ n, n ∈ (pipes.flatMap fun p => [p.1, p.2]) → ∀ x ∈ s1.tab, f' x = f' n → x = n := by
        intro n hn x hx hf
        refine (hk'.inj x n hx ((hmem n).2 (.inl hn)) hf).resolve_right fun h => ?_
        exact e.fresh n hn (keep_tab hk.fd h.2)
      have ea : a = q.1 := i _ (end1 q hq) a hta hfa
      have eb : b = q.2 := i _ (end2 q hq) b htb hfb
      subst ea eb
      have hother : ∀ it ∈ q1 ++ q2, it.Apart q.1 q.2 := fun it h => apart_of_notPend (.inl fun hp => e.fresh q.1 (end1 q hq) (pend_tab hk.fd (hmid it h) hp))
      rcases List.mem_append.1 hit with h | h
      · rcases List.mem_append.1 h with h | h
        · exact hother it (List.mem_append_left _ h)
        · obtain ⟨d, hd, rfl⟩ := List.mem_map.1 h
          have nd : (ownedCmds cs).Nodup := by
            refine List.nodup_iff_count.2 fun n => ?_
            have hc := List.nodup_iff_count.1 (hk'.fd.perm.nodup_iff.1 hk'.fd.nodup) n
            simp only [Kernel.conf, List.map_append, List.map_map, List.flatMap_append, List.count_append, Function.comp_def, todo_pend] at hc
            omega
          have hlen : pipes.length + 1 = p.commands.length := by
            have := List.length_pos_of_mem hq
            omega
          obtain ⟨j, c1, c2, h1, h2, h3, h4⟩ := link_places p.commands pipes none hlen (fun q hq => ⟨e.nonneg _ (end1 q hq), e.nonneg _ (end2 q hq)⟩) q hq
          have hap := ownedCmds_apart (cs := cs) (a := q.2) (b := q.1) (j := j) (j' := j + 1) (c := asStage c1) (c' := asStage c2) nd (by rw [hcs]; simp [h1]) (by rw [hcs]; simp [h2])
            (by omega) (by cases c1; exact h3) (by cases c2; exact h4) d hd
          refine notOwned (c := .cmd d) ?_
          by_cases h : q.1 ∈ ownedCmd d
          · exact .inr fun h' => hap ⟨h', h⟩
          · exact .inl h
      · exact hother it (List.mem_append_right _ h)
  · intro x hx d hd hg
    rcases List.mem_append.1 hx with hx | hx
    · exact ha.children x hx d hd hg
    · simp only [newPipes, hdrop, List.mem_map] at hx
      obtain ⟨q, hq, rfl⟩ := hx
      have := (hnew _ (end1 q hq)).1
      rcases hk.given d hd _ hg.1 with h | h
      · have := hk.minelt _ h; dsimp only at *; omega
      · have := h.1; dsimp only at *; omega

omit hs in
theorem KApart.child {q : List KItem} {ps : List Int} {s : LS} {f m pp} {ch1 ch2 : List Child} {c : Child} {held : Nat → Prop}
    (ha : KApart ⟨q, ps, s, f, m, pp, ch1 ++ c :: ch2⟩) : KApart ⟨q, ps, s, f, m, pp, ch1 ++ { c with held } :: ch2⟩ := by
  refine ⟨ha.lt, ha.items, fun p hp d hd => ?_⟩
  rcases List.mem_append.1 hd with h | h
  · exact ha.children p hp d (List.mem_append_left _ h)
  · rcases List.mem_cons.1 h with rfl | h
    · exact ha.children p hp c (by simp)
    · exact ha.children p hp d (List.mem_append_right _ (List.mem_cons_of_mem _ h))

theorem KApart.steps (h012 : ∀ n : Int, 0 ≤ n → n ≤ 2 → n ∈ keep) (hinh : ∀ n, inh n → n ∈ keep) {a b : Kernel} (h : KSteps sys inh a b)
    (ha : KInv keep inh mine a) (hap : KApart a) : KApart b := by
  induction h with
  | refl => exact hap
  | step h0 h ih =>
    have hk := KInv.steps hs h012 hinh h0 ha
    have hk' := KInv.steps hs h012 hinh (.step h0 h) ha
    cases h with
    | enter q1 q2 c ps s s1 f f' m m' pp ch he ho => exact KApart.enter hs hk hk' ih he ho
    | fork => exact KApart.fork hk ih
    | exit q1 q2 es subs ps s s1 f m pp ch he => exact KApart.exit hs hk ih he
    | stitch q1 q2 p cs ps s s1 f f' m m' pp ch he ho => exact KApart.stitch hs hk hk' ih he ho
    | child => exact KApart.child ih

end steps

/-- **C93** No child is ever given both ends of a pipe that the library made: so the process that reads it does not itself keep it from ending. -/
theorem C93_two_processes {sys : Sys} (hs : sys.Ok) (cmds : List SubCmd) (keep : List Int) (hd : (keep ++ cmds.flatMap SubCmd.owned).Nodup) (hclean : ∀ c ∈ cmds, c.clean)
    (htame : ∀ c ∈ cmds, c.all (Tame keep)) (h012 : ∀ n : Int, 0 ≤ n → n ≤ 2 → n ∈ keep) (inh : Int → Prop) (hinh : ∀ n, inh n → n ∈ keep)
    (f : Int → Nat) (m : Nat) (hlt : ∀ n ∈ keep ++ cmds.flatMap SubCmd.owned, f n < m)
    (hinj : ∀ n n', n ∈ keep ++ cmds.flatMap SubCmd.owned → n' ∈ keep ++ cmds.flatMap SubCmd.owned → f n = f n' → n = n' ∨ (n ∈ keep ∧ n' ∈ keep))
    {k : Kernel} (h : KSteps sys inh (Kernel.start cmds keep f m) k) (p : Nat × Nat) (hp : p ∈ k.pipes) (c : Child) (hc : c ∈ k.children) :
    ¬ (c.given p.1 ∧ c.given p.2) :=
  (KApart.steps hs h012 hinh h (KInv.start hd hclean htame hlt hinj) ⟨fun p hp => (by cases hp), fun p hp => (by cases hp), fun p hp => (by cases hp)⟩).children p hp c hc

end Shellous
