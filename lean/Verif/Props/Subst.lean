import Verif.Model.Subst

/-! # C88: process substitution cannot deadlock -/

namespace Shellous.Subst

variable {S : Type}

/-- In a network each node but the first is connected to one that was there before it. -/
def Tree (links : List Link) : Prop := ∀ v l, 0 < v → links[v]? = some l → l.parent < v

/-- The links of a part of the network that begins at number `k`. -/
def Part (k : Nat) (links : List Link) : Prop := ∀ i l, links[i]? = some l → l.parent < k + i

theorem Part.append {k : Nat} {a b : List Link} (ha : Part k a) (hb : Part (k + a.length) b) : Part k (a ++ b) := by
  intro i l h
  rcases Nat.lt_or_ge i a.length with hi | hi
  · rw [List.getElem?_append_left hi] at h; exact ha i l h
  · rw [List.getElem?_append_right hi] at h
    have := hb _ l h
    omega

theorem Part.cons {k : Nat} {x : Link} {b : List Link} (hx : x.parent < k) (hb : Part (k + 1) b) : Part k (x :: b) := by
  intro i l h
  cases i with
  | zero => simp at h; subst h; exact hx
  | succ i => simp at h; have := hb i l h; omega

theorem Part.one {k : Nat} {x : Link} (hx : x.parent < k) : Part k [x] := Part.cons hx (by intro i l h; simp at h)

mutual

theorem Cmd.build_part (p : Nat) (up : Bool) (k : Nat) (hp : p < k) : (c : Cmd) → Part k (c.build p up k)
  | .mk subs => by
    unfold Cmd.build
    exact Part.cons hp (Part.cons (by simp) (buildSubs_part k (k + 2) (by omega) subs))

theorem buildSubs_part (p k : Nat) (hp : p < k) : (ss : List Sub) → Part k (buildSubs p k ss)
  | [] => by unfold buildSubs; intro i l h; simp at h
  | s :: ss => by
    unfold buildSubs
    exact Part.append (Sub.build_part p k hp s) (buildSubs_part p _ (by omega) ss)

theorem Sub.build_part (p k : Nat) (hp : p < k) : (s : Sub) → Part k (s.build p k)
  | .reads last before => by
    unfold Sub.build
    refine Part.append (Cmd.build_part p true k hp last) (buildBefore_part k _ ?_ before)
    cases last; unfold Cmd.build; simp only [List.length_cons]; omega
  | .writes first after => by
    unfold Sub.build
    refine Part.append (Cmd.build_part p false k hp first) (buildAfter_part k _ ?_ after)
    cases first; unfold Cmd.build; simp only [List.length_cons]; omega

theorem buildBefore_part (p k : Nat) (hp : p < k) : (cs : List Cmd) → Part k (buildBefore p k cs)
  | [] => by unfold buildBefore; exact Part.one hp
  | c :: cs => by
    unfold buildBefore
    refine Part.append (Cmd.build_part p true k hp c) (buildBefore_part k _ ?_ cs)
    cases c; unfold Cmd.build; simp only [List.length_cons]; omega

theorem buildAfter_part (p k : Nat) (hp : p < k) : (cs : List Cmd) → Part k (buildAfter p k cs)
  | [] => by unfold buildAfter; exact Part.one hp
  | c :: cs => by
    unfold buildAfter
    refine Part.append (Cmd.build_part p false k hp c) (buildAfter_part k _ ?_ cs)
    cases c; unfold Cmd.build; simp only [List.length_cons]; omega

end

theorem build_tree (last : Cmd) (before : List Cmd) : Tree (build last before) := by
  intro v l hv h
  unfold build at h
  obtain ⟨v, rfl⟩ : ∃ w, v = w + 1 := ⟨v - 1, by omega⟩
  rw [List.getElem?_cons_succ] at h
  have hpart : Part 1 (last.build 0 true 1 ++ buildBefore 1 (1 + (last.build 0 true 1).length) before) := by
    refine Part.append (Cmd.build_part 0 true 1 (by omega) last) (buildBefore_part 1 _ ?_ before)
    cases last; unfold Cmd.build; simp only [List.length_cons]; omega
  have := hpart v l h
  omega

/-! ## Nobody waits for ever -/

/-- Node `u` waits at pipe `v`: as its reader, with nothing in it, or as its writer, with no room. The node at the other end has not ended. -/
inductive Waits (cfg : Cfg S) (net : Net S) (u v : Nat) : Prop where
  | read (w : Nat) (h : cfg.reader v = some u) (h' : cfg.writer v = some w) (hw : net.ended w = false) (hb : (net.pipe v).buf = [])
  | write (w : Nat) (h : cfg.writer v = some u) (h' : cfg.reader v = some w) (hw : net.ended w = false) (hb : cfg.cap v ≤ (net.pipe v).buf.length)

theorem stuck_waits {cfg : Cfg S} {net : Net S} {u : Nat} (hu : u < cfg.links.length) (ha : net.ended u = false) (h : cfg.step net u = none) :
    ∃ v, Waits cfg net u v := by
  unfold Cfg.step at h
  rw [if_pos ⟨hu, ha⟩] at h
  split at h
  · rename_i v k _
    dsimp only at h
    split at h
    · rename_i hr
      split at h
      · cases h
      · rename_i hb
        split at h
        · rename_i hw
          unfold Cfg.wOpen at hw
          split at hw
          · rename_i w hw'
            simp only [Bool.and_eq_true, Bool.not_eq_true'] at hw
            exact ⟨v, .read w hr.1 hw' hw.1 hb⟩
          · cases hw
        · cases h
    · cases h
  · rename_i v b s _
    dsimp only at h
    split at h
    · rename_i hr
      split at h
      · rename_i hw
        split at h
        · cases h
        · rename_i hb
          unfold Cfg.rOpen at hw
          split at hw
          · rename_i w hw'
            simp only [Bool.and_eq_true, Bool.not_eq_true'] at hw
            exact ⟨v, .write w hr.1 hw' hw.1 (by omega)⟩
          · cases hw
      · cases h
    · cases h
  · cases h
  · cases h

theorem ends {cfg : Cfg S} {v r w : Nat} (hr : cfg.reader v = some r) (hw : cfg.writer v = some w) :
    ∃ l, 0 < v ∧ cfg.links[v]? = some l ∧ ((r = v ∧ w = l.parent) ∨ (r = l.parent ∧ w = v)) := by
  unfold Cfg.reader at hr
  unfold Cfg.writer at hw
  split at hr
  · cases hr
  · rename_i hv
    rw [if_neg hv] at hw
    cases hl : cfg.links[v]? with
    | none => rw [hl] at hr; cases hr
    | some l =>
      rw [hl] at hr hw
      simp only [Option.map_some, Option.some.injEq] at hr hw
      refine ⟨l, by omega, rfl, ?_⟩
      cases ht : l.toParent <;> rw [ht] at hr hw
      · exact .inl ⟨hr.symm, hw.symm⟩
      · exact .inr ⟨hr.symm, hw.symm⟩

/-- A node that waits at pipe `v` is one of its ends, and the node at the other end has not ended. -/
theorem Waits.ends {cfg : Cfg S} {net : Net S} {u v : Nat} (h : Waits cfg net u v) :
    ∃ l, 0 < v ∧ cfg.links[v]? = some l ∧ ((u = v ∧ net.ended l.parent = false) ∨ (u = l.parent ∧ net.ended v = false)) := by
  cases h with
  | read w h h' hw hb =>
    obtain ⟨l, h1, h2, ⟨rfl, rfl⟩ | ⟨rfl, rfl⟩⟩ := Subst.ends h h'
    · exact ⟨l, h1, h2, .inl ⟨rfl, hw⟩⟩
    · exact ⟨l, h1, h2, .inr ⟨rfl, hw⟩⟩
  | write w h h' hw hb =>
    obtain ⟨l, h1, h2, ⟨rfl, rfl⟩ | ⟨rfl, rfl⟩⟩ := Subst.ends h' h
    · exact ⟨l, h1, h2, .inr ⟨rfl, hw⟩⟩
    · exact ⟨l, h1, h2, .inl ⟨rfl, hw⟩⟩

theorem tree_no_deadlock {cfg : Cfg S} (ht : Tree cfg.links) (hcap : ∀ v, 0 < cfg.cap v) {net : Net S} (hno : ∀ u, cfg.step net u = none) :
    ∀ u, u < cfg.links.length → net.ended u = true := by
  -- a node that has not ended waits at the pipe to its parent
  have up : ∀ k u, u + k = cfg.links.length → u < cfg.links.length → net.ended u = false → Waits cfg net u u := by
    intro k
    induction k using Nat.strongRecOn with
    | ind k ih =>
      intro u hk hu ha
      obtain ⟨v, hv⟩ := stuck_waits hu ha (hno u)
      obtain ⟨l, h0, hl, ⟨rfl, _⟩ | ⟨hp, hw⟩⟩ := hv.ends
      · exact hv
      · exfalso
        have hlt := ht v l h0 hl
        have hvn : v < cfg.links.length := (List.getElem?_eq_some_iff.1 hl).1
        have hself := ih (cfg.links.length - v) (by omega) v (by omega) hvn hw
        have hne : u ≠ v := by omega
        have hc := hcap v
        cases hv with
        | read w h h' _ hb =>
          cases hself with
          | read w' g g' _ gb => rw [h] at g; cases g; exact hne rfl
          | write w' g g' _ gb => rw [hb] at gb; simp at gb; omega
        | write w h h' _ hb =>
          cases hself with
          | read w' g g' _ gb => rw [gb] at hb; simp at hb; omega
          | write w' g g' _ gb => rw [h] at g; cases g; exact hne rfl
  intro u
  induction u using Nat.strongRecOn with
  | ind u ih =>
    intro hu
    cases ha : net.ended u with
    | true => rfl
    | false =>
      exfalso
      obtain ⟨l, h0, hl, ⟨_, hp⟩ | ⟨hp, _⟩⟩ := (up _ u (Nat.add_sub_cancel' (Nat.le_of_lt hu)) hu ha).ends
      · have hlt := ht u l h0 hl
        rw [ih l.parent hlt (by omega)] at hp
        cases hp
      · have := ht u l h0 hl; omega

/-- **C88**: whatever the programs of a command line with process substitution do, and however small the pipes are, a state in which no process and no task can go
on is one in which all of them have ended. -/
theorem C88_no_deadlock (last : Cmd) (before : List Cmd) (act : S → Act S) (prog : Nat → S) (cap : Nat → Nat) (hcap : ∀ v, 0 < cap v) (net : Net S)
    (hno : ∀ u, Cfg.step ⟨build last before, act, prog, cap⟩ net u = none) : ∀ u, u < (build last before).length → net.ended u = true :=
  tree_no_deadlock (cfg := ⟨build last before, act, prog, cap⟩) (build_tree last before) hcap hno

end Shellous.Subst
