import Verif.Lemmas.Flow

/-! # C85: data cannot deadlock a pipeline; C86: what a pipeline computes -/

namespace Shellous.Flow

variable {S : Type}

/-! ## C85 -/

/-- A program that cannot do its step waits for its input. -/
theorem stuck_reads {cfg : Cfg S} {net : Net S} (hok : cfg.Ok) (hinv : Inv cfg net) (hno : ∀ w, cfg.step net w = none) (k i : Nat) (hk : i + k + 1 = cfg.n)
    (ha : (net.cmds i).alive = true) : (net.cmds i).loc.inOpen = true ∧ (net.cmds i).buf = [] ∧ net.upOpen i = true := by
  have hi : i < cfg.n := by omega
  have hc := hno (.cmd i)
  simp only [Cfg.step, if_pos (And.intro hi ha)] at hc
  unfold Cfg.cmdStep at hc
  dsimp only at hc
  split at hc
  · split at hc
    · rename_i ho
      split at hc
      · cases hc
      · rename_i hb
        split at hc
        · rename_i hu; exact ⟨ho, hb, hu⟩
        · cases hc
    · cases hc
  · exfalso
    split at hc
    · rename_i ho
      split at hc
      · rename_i hn
        split at hc
        · rename_i hr
          obtain ⟨k', rfl⟩ : ∃ k', k = k' + 1 := ⟨k - 1, by omega⟩
          have := (stuck_reads hok hinv hno k' (i + 1) (by omega) (Bool.and_eq_true_iff.1 hr).1).2.1
          rw [this] at hc
          simp [hok.cap] at hc
        · cases hc
      · rename_i hn
        split at hc
        · cases hc
        · rename_i hroom
          have hlast : cfg.n - 1 = i := by omega
          have hr := hno .readOut
          simp only [Cfg.step] at hr
          split at hr
          · rename_i hd
            have := (hinv.outDone hd).2
            rw [hlast, Cmd.writes, ha, ho] at this
            cases this
          · split at hr
            · cases hr
            · rename_i hb; rw [hb] at hroom; exact hroom hok.outCap
    · cases hc
  · exfalso
    split at hc
    · cases hc
    · rename_i hroom
      have hr := hno (.readErr i)
      simp only [Cfg.step] at hr
      split at hr
      · split at hr
        · split at hr <;> cases hr
        · rename_i hb; rw [hb] at hroom; exact hroom (hok.errCap i)
      · rename_i hd
        have hd : (net.cmds i).errDone = true := by
          cases hq : (net.cmds i).errDone with
          | true => rfl
          | false => exact absurd ⟨hi, hq⟩ hd
        have := (hinv.errDone i hi hd).2
        rw [ha] at this; cases this
  · cases hc

/-- **C85**: whatever the programs do, and however small the pipes are, a run that has not ended can go on: somebody can do a step. -/
theorem C85_no_deadlock (cfg : Cfg S) (hok : cfg.Ok) (ws : List Who) (net : Net S) (h : cfg.run cfg.init ws = some net)
    (hno : ∀ w, cfg.step net w = none) : cfg.Done net := by
  have hinv := run_inv hok.some (init_inv cfg) h
  have dead : ∀ i, i < cfg.n → (net.cmds i).alive = false := by
    intro i
    induction i with
    | zero =>
      intro hi
      cases ha : (net.cmds 0).alive with
      | false => rfl
      | true =>
        exfalso
        obtain ⟨h1, h2, h3⟩ := stuck_reads hok hinv hno (cfg.n - 1) 0 (by omega) ha
        have hf := hno .feed
        simp only [Net.upOpen, Bool.not_eq_true'] at h3
        have hr : (net.cmds 0).reads = true := by simp [Cmd.reads, ha, h1]
        simp only [Cfg.step, h3, hr, h2, Bool.false_eq_true, if_false, if_true] at hf
        split at hf
        · cases hf
        · simp [hok.cap] at hf
    | succ i ih =>
      intro hi
      cases ha : (net.cmds (i + 1)).alive with
      | false => rfl
      | true =>
        exfalso
        obtain ⟨_, _, h3⟩ := stuck_reads hok hinv hno (cfg.n - 1 - (i + 1)) (i + 1) (by omega) ha
        simp only [Net.upOpen, Cmd.writes, ih (by omega), Bool.false_and] at h3
        cases h3
  refine ⟨?_, dead, ?_, ?_⟩
  · cases hf : net.fed with
    | true => rfl
    | false =>
      have := hno .feed
      simp [Cfg.step, hf, Cmd.reads, dead 0 hok.some] at this
  · cases hf : net.outDone with
    | true => rfl
    | false =>
      have := hno .readOut
      simp only [Cfg.step, hf, Bool.false_eq_true, if_false] at this
      split at this
      · cases this
      · have hd := dead (cfg.n - 1) (by have := hok.some; omega)
        simp [Cmd.writes, hd] at this
  · intro i hi
    cases hf : (net.cmds i).errDone with
    | true => rfl
    | false =>
      have := hno (.readErr i)
      simp only [Cfg.step, hf, hi, true_and, if_true] at this
      split at this
      · split at this <;> cases this
      · simp [dead i hi] at this

/-- The number of steps so far, from the state. -/
def Cfg.size (cfg : Cfg S) (net : Net S) : Nat :=
  net.sent.length + net.fed.toNat + net.out.length + net.outDone.toNat +
    ((List.range cfg.n).map fun i => (net.cmds i).steps + (net.cmds i).killed.toNat + (net.cmds i).errRead + (net.cmds i).errDone.toNat).sum

theorem sum_one {n i : Nat} {f g : Nat → Nat} (hi : i < n) (h1 : g i = f i + 1) (h2 : ∀ j, j ≠ i → g j = f j) :
    ((List.range n).map g).sum = ((List.range n).map f).sum + 1 := by
  induction n with
  | zero => omega
  | succ n ih =>
    rw [List.range_succ, List.map_append, List.map_append, List.sum_append, List.sum_append]
    simp only [List.map_cons, List.map_nil, List.sum_cons, List.sum_nil, Nat.add_zero]
    by_cases hn : i = n
    · subst hn
      have : (List.range i).map g = (List.range i).map f := by
        refine List.map_congr_left fun j hj => h2 j ?_
        have := List.mem_range.1 hj
        omega
      rw [this, h1]; omega
    · rw [ih (by omega), h2 n (by omega)]; omega

theorem step_size {cfg : Cfg S} {net net' : Net S} {w : Who} (h : cfg.step net w = some net') : cfg.size net' = cfg.size net + 1 := by
  have one : ∀ (i : Nat) (c : Cmd S), i < cfg.n → c.steps + c.killed.toNat + c.errRead + c.errDone.toNat =
      (net.cmds i).steps + (net.cmds i).killed.toNat + (net.cmds i).errRead + (net.cmds i).errDone.toNat + 1 →
      cfg.size (net.set i c) = cfg.size net + 1 := by
    intro i c hi hc
    unfold Cfg.size
    rw [sum_one (i := i) (f := fun i => (net.cmds i).steps + (net.cmds i).killed.toNat + (net.cmds i).errRead + (net.cmds i).errDone.toNat)]
    · simp only [Net.set]; omega
    · exact hi
    · rw [set_self]; exact hc
    · intro j hj; rw [set_other _ _ hj]
  cases w with
  | feed =>
    simp only [Cfg.step] at h
    split at h
    · cases h
    · rename_i hf
      have hf : net.fed = false := by simpa using hf
      split at h
      · split at h
        · cases h; unfold Cfg.size; simp only [hf, Bool.toNat_true, Bool.toNat_false]; omega
        · rename_i b r _
          split at h
          · cases h
            unfold Cfg.size
            simp only [Net.set, List.length_append, List.length_singleton]
            have : ((List.range cfg.n).map fun i => (if i = 0 then { net.cmds 0 with buf := (net.cmds 0).buf ++ [b] } else net.cmds i).steps +
                (if i = 0 then { net.cmds 0 with buf := (net.cmds 0).buf ++ [b] } else net.cmds i).killed.toNat +
                (if i = 0 then { net.cmds 0 with buf := (net.cmds 0).buf ++ [b] } else net.cmds i).errRead +
                (if i = 0 then { net.cmds 0 with buf := (net.cmds 0).buf ++ [b] } else net.cmds i).errDone.toNat) =
                (List.range cfg.n).map fun i => (net.cmds i).steps + (net.cmds i).killed.toNat + (net.cmds i).errRead + (net.cmds i).errDone.toNat := by
              refine List.map_congr_left fun j _ => ?_
              by_cases hj : j = 0
              · subst hj; simp only [if_true]
              · simp only [if_neg hj]
            rw [this]; omega
          · cases h
      · cases h; unfold Cfg.size; simp only [hf, Bool.toNat_true, Bool.toNat_false]; omega
  | readOut =>
    simp only [Cfg.step] at h
    split at h
    · cases h
    · rename_i hf
      have hf : net.outDone = false := by simpa using hf
      split at h
      · cases h; unfold Cfg.size; simp only [List.length_append, List.length_singleton]; omega
      · split at h
        · cases h
        · cases h; unfold Cfg.size; simp only [hf, Bool.toNat_true, Bool.toNat_false]; omega
  | readErr i =>
    simp only [Cfg.step] at h
    split at h
    · rename_i hi
      split at h
      · split at h
        · cases h; exact one i _ hi.1 (by dsimp only; omega)
        · cases h; exact one i _ hi.1 (by dsimp only; omega)
      · split at h
        · cases h
        · cases h; exact one i _ hi.1 (by dsimp only; rw [hi.2]; rfl)
    · cases h
  | cmd i =>
    simp only [Cfg.step] at h
    split at h
    · rename_i hi
      rcases cmdStep_moved hi.2 h with ⟨a, w, e, m⟩ | m
      · unfold Cfg.size
        rw [m.sent, m.fed, m.out, m.outDone,
          sum_one (i := i) (f := fun i => (net.cmds i).steps + (net.cmds i).killed.toNat + (net.cmds i).errRead + (net.cmds i).errDone.toNat)]
        · omega
        · exact hi.1
        · rw [m.steps, m.killed, m.errRead, m.errDone]; omega
        · intro j hj
          by_cases hjn : j = i + 1
          · subst hjn; rw [m.next]
          · rw [m.other j hj hjn]
      · rw [m.eq]
        refine one i _ hi.1 ?_
        have hk : (net.cmds i).killed = false := by
          have := hi.2
          unfold Cmd.alive at this
          simpa using (Bool.and_eq_true_iff.1 this).2
        dsimp only
        rw [hk]; simp only [Bool.toNat_true, Bool.toNat_false]; omega
    · cases h

theorem run_size {cfg : Cfg S} {net net' : Net S} {ws : List Who} (h : cfg.run net ws = some net') : cfg.size net' = cfg.size net + ws.length := by
  induction ws generalizing net with
  | nil => cases h; rfl
  | cons w ws ih =>
    simp only [Cfg.run] at h
    split at h
    · rename_i n1 h1
      rw [ih h, step_size h1, List.length_cons]; omega
    · cases h

/-- What a program has done is no more than its steps. -/
theorem alone_small (act : S → Act S) (s : S) (f : Nat → Option Byte) (n : Nat) :
    (alone act s f n).got ≤ n ∧ (alone act s f n).wrote.length ≤ n ∧ (alone act s f n).erred.length ≤ n := by
  induction n with
  | zero => exact ⟨Nat.le_refl _, Nat.le_refl _, Nat.le_refl _⟩
  | succ n ih =>
    obtain ⟨h1, h2, h3⟩ := ih
    simp only [alone, lstep]
    split
    · exact ⟨by omega, by omega, by omega⟩
    · split
      · split
        · exact ⟨by dsimp only; omega, by dsimp only; omega, by dsimp only; omega⟩
        · exact ⟨by dsimp only; omega, by dsimp only; omega, by dsimp only; omega⟩
      · split
        · exact ⟨by dsimp only; omega, by simp only [List.length_append, List.length_singleton]; omega, by dsimp only; omega⟩
        · exact ⟨by dsimp only; omega, by dsimp only; omega, by dsimp only; omega⟩
      · exact ⟨by dsimp only; omega, by dsimp only; omega, by simp only [List.length_append, List.length_singleton]; omega⟩
      all_goals exact ⟨by dsimp only; omega, by dsimp only; omega, by dsimp only; omega⟩

theorem Inv.halted {cfg : Cfg S} {net : Net S} (h : Inv cfg net) {i N : Nat} (hi : i < cfg.n)
    (hN : (alone cfg.act (cfg.prog i) (cfg.stream i) N).code ≠ none) : (net.cmds i).steps ≤ N := by
  rcases Nat.lt_or_ge N (net.cmds i).steps with hlt | hge
  · exact absurd (h.before i hi N hlt) hN
  · exact hge

/-- The steps of each program are bounded, whatever the schedule. -/
theorem steps_bound {cfg : Cfg S} (hlast : Halts cfg.act (cfg.prog (cfg.n - 1)) (cfg.stream (cfg.n - 1)))
    (hother : ∀ i, i + 1 < cfg.n → Productive cfg.act (cfg.prog i) (cfg.stream i)) (k : Nat) :
    ∀ i, i + k + 1 = cfg.n → ∃ N, ∀ net, Inv cfg net → (net.cmds i).steps ≤ N := by
  induction k with
  | zero =>
    intro i hi
    obtain ⟨N, hN⟩ := hlast
    have : cfg.n - 1 = i := by omega
    rw [this] at hN
    exact ⟨N, fun net h => h.halted (by omega) hN⟩
  | succ k ih =>
    intro i hi
    obtain ⟨M, hM⟩ := ih (i + 1) (by omega)
    obtain ⟨N, hN⟩ := hother i (by omega) (M + cfg.cap (i + 1) + 1)
    refine ⟨N, fun net h => ?_⟩
    rcases hN with hN | hN
    · exact h.halted (by omega) hN
    · rcases Nat.lt_or_ge N (net.cmds i).steps with hlt | hge
      · exfalso
        have h1 := (alone_later cfg.act (cfg.prog i) (cfg.stream i) (Nat.le_of_lt hlt)).wrote.length_le
        have h2 := h.full i (by omega)
        have h3 := (alone_small cfg.act (cfg.prog (i + 1)) (cfg.stream (i + 1)) (net.cmds (i + 1)).steps).1
        have h4 := hM net h
        rw [← h.loc (i + 1) (by omega)] at h3
        rw [← h.loc i (by omega)] at h1
        omega
      · exact hge

theorem sum_le {n : Nat} {f g : Nat → Nat} (h : ∀ i, i < n → f i ≤ g i) : ((List.range n).map f).sum ≤ ((List.range n).map g).sum := by
  induction n with
  | zero => exact Nat.le_refl _
  | succ n ih =>
    rw [List.range_succ, List.map_append, List.map_append, List.sum_append, List.sum_append]
    have := ih fun i hi => h i (by omega)
    have := h n (by omega)
    simp only [List.map_cons, List.map_nil, List.sum_cons, List.sum_nil, Nat.add_zero]
    omega

/-- **C85**: if the last program exits some time on its input, and each program before it exits some time or goes on writing, then every run ends: there
is a number of steps that no schedule exceeds. -/
theorem C85_ends (cfg : Cfg S) (hn : 0 < cfg.n) (hlast : Halts cfg.act (cfg.prog (cfg.n - 1)) (cfg.stream (cfg.n - 1)))
    (hother : ∀ i, i + 1 < cfg.n → Productive cfg.act (cfg.prog i) (cfg.stream i)) :
    ∃ bound, ∀ ws net, cfg.run cfg.init ws = some net → ws.length ≤ bound := by
  have hall : ∀ i, ∃ N, i < cfg.n → ∀ net, Inv cfg net → (net.cmds i).steps ≤ N := by
    intro i
    rcases Nat.lt_or_ge i cfg.n with hi | hi
    · obtain ⟨N, hN⟩ := steps_bound hlast hother (cfg.n - i - 1) i (by omega)
      exact ⟨N, fun _ => hN⟩
    · exact ⟨0, fun h => by omega⟩
  let N : Nat → Nat := fun i => (hall i).choose
  have hN : ∀ i, i < cfg.n → ∀ net, Inv cfg net → (net.cmds i).steps ≤ N i := fun i => (hall i).choose_spec
  refine ⟨cfg.input.length + 1 + N (cfg.n - 1) + 1 + ((List.range cfg.n).map fun i => 2 * N i + 2).sum, fun ws net h => ?_⟩
  have hinv := run_inv hn (init_inv cfg) h
  have hsz := run_size h
  have h0 : ws.length ≤ cfg.size net := by omega
  refine Nat.le_trans h0 ?_
  unfold Cfg.size
  have hs : net.sent.length ≤ cfg.input.length := by rw [← hinv.sent]; simp
  have ho : net.out.length ≤ N (cfg.n - 1) := by
    have h1 := congrArg List.length hinv.out
    rw [List.length_append, hinv.loc (cfg.n - 1) (by omega)] at h1
    have h2 := (alone_small cfg.act (cfg.prog (cfg.n - 1)) (cfg.stream (cfg.n - 1)) (net.cmds (cfg.n - 1)).steps).2.1
    have h3 := hN (cfg.n - 1) (by omega) net hinv
    omega
  have hb : ∀ b : Bool, b.toNat ≤ 1 := by decide
  have hc := sum_le (n := cfg.n) (f := fun i => (net.cmds i).steps + (net.cmds i).killed.toNat + (net.cmds i).errRead + (net.cmds i).errDone.toNat)
    (g := fun i => 2 * N i + 2) (by
      intro i hi
      obtain ⟨seen, h1, _, h2, _⟩ := hinv.err i hi
      have h3 := (alone_small cfg.act (cfg.prog i) (cfg.stream i) (net.cmds i).steps).2.2
      rw [← hinv.loc i hi, h1, List.length_append] at h3
      have h4 := hN i hi net hinv
      have := hb (net.cmds i).killed
      have := hb (net.cmds i).errDone
      omega)
  have := hb net.fed
  have := hb net.outDone
  omega

theorem run_append {cfg : Cfg S} {net net' : Net S} {ws : List Who} (h : cfg.run net ws = some net') (vs : List Who) :
    cfg.run net (ws ++ vs) = cfg.run net' vs := by
  induction ws generalizing net with
  | nil => cases h; rfl
  | cons w ws ih =>
    simp only [Cfg.run, List.cons_append] at h ⊢
    split at h
    · rename_i n1 h1
      exact ih h
    · cases h

/-- **C85**: then, from every point of every run, however it goes on, it comes to its end. -/
theorem C85_completes (cfg : Cfg S) (hok : cfg.Ok) (hlast : Halts cfg.act (cfg.prog (cfg.n - 1)) (cfg.stream (cfg.n - 1)))
    (hother : ∀ i, i + 1 < cfg.n → Productive cfg.act (cfg.prog i) (cfg.stream i)) (ws : List Who) (net : Net S)
    (h : cfg.run cfg.init ws = some net) : ∃ vs net', cfg.run net vs = some net' ∧ cfg.Done net' := by
  obtain ⟨B, hB⟩ := C85_ends cfg hok.some hlast hother
  have key : ∀ k ws net, cfg.run cfg.init ws = some net → B < ws.length + k → ∃ vs net', cfg.run net vs = some net' ∧ cfg.Done net' := by
    intro k
    induction k with
    | zero => intro ws net h hk; have := hB ws net h; omega
    | succ k ih =>
      intro ws net h hk
      by_cases hno : ∀ w, cfg.step net w = none
      · exact ⟨[], net, rfl, C85_no_deadlock cfg hok ws net h hno⟩
      · have ⟨w, hw⟩ := Classical.not_forall.1 hno
        obtain ⟨n1, h1⟩ := Option.ne_none_iff_exists'.1 hw
        have hone : cfg.run net [w] = some n1 := by simp [Cfg.run, h1]
        obtain ⟨vs, net', h2, h3⟩ := ih (ws ++ [w]) n1 (by rw [run_append h, hone]) (by simp; omega)
        exact ⟨w :: vs, net', by simp only [Cfg.run, h1, h2], h3⟩
  exact key (B + 1) ws net h (by omega)

/-! ## C86 -/

/-- **C86**: at every point of every run, what was read from the pipeline so far is the beginning of what the programs compute, each on the output of the
one before it. -/
theorem C86_prefix (cfg : Cfg S) (hn : 0 < cfg.n) (ws : List Who) (net : Net S) (h : cfg.run cfg.init ws = some net) (j : Nat) (b : Byte)
    (hj : net.out[j]? = some b) : cfg.stream cfg.n j = some b := by
  have hinv := run_inv hn (init_inv cfg) h
  have hlt := (List.getElem?_eq_some_iff.1 hj).1
  obtain ⟨k, hk⟩ : ∃ k, cfg.n = k + 1 := ⟨cfg.n - 1, by omega⟩
  have ho := hinv.out
  have hl := hinv.loc (cfg.n - 1) (by omega)
  have hkk : cfg.n - 1 = k := by omega
  rw [hkk] at ho hl
  rw [hl] at ho
  rw [hk]
  unfold Cfg.stream
  rw [output_some (n := (net.cmds k).steps) (by rw [← ho, List.length_append]; omega), ← ho, List.getElem?_append_left hlt]
  exact hj

/-- The last program is not killed: it exits. -/
theorem last_exits {cfg : Cfg S} (hn : 0 < cfg.n) {net : Net S} (hinv : Inv cfg net) (hd : cfg.Done net) : (net.cmds (cfg.n - 1)).loc.code ≠ none := by
  have ha := hd.exited (cfg.n - 1) (by omega)
  have hk : (net.cmds (cfg.n - 1)).killed = false := by
    cases hq : (net.cmds (cfg.n - 1)).killed with
    | false => rfl
    | true => have := (hinv.killed (cfg.n - 1) (by omega) hq).1; omega
  intro hc
  simp [Cmd.alive, hc, hk] at ha

/-- **C86**: when everything has ended, what was read from the pipeline is all of what the programs compute, each on the output of the one before it:
whatever the schedule and whatever the capacities of the pipes were. -/
theorem C86_output (cfg : Cfg S) (hn : 0 < cfg.n) (ws : List Who) (net : Net S) (h : cfg.run cfg.init ws = some net) (hd : cfg.Done net) (j : Nat) :
    net.out[j]? = cfg.stream cfg.n j := by
  cases hj : net.out[j]? with
  | some b => exact (C86_prefix cfg hn ws net h j b hj).symm
  | none =>
    have hinv := run_inv hn (init_inv cfg) h
    have hle := List.getElem?_eq_none_iff.1 hj
    have hex := last_exits hn hinv hd
    have ho := hinv.out
    have hb := (hinv.outDone hd.out).1
    rw [hb, List.append_nil] at ho
    obtain ⟨k, hk⟩ : ∃ k, cfg.n = k + 1 := ⟨cfg.n - 1, by omega⟩
    have hkk : cfg.n - 1 = k := by omega
    rw [hkk] at ho hex
    rw [hinv.loc k (by omega)] at ho hex
    rw [hk]
    unfold Cfg.stream
    exact (output_none (n := (net.cmds k).steps) (by rw [← ho]; exact hle) (.inl hex)).symm

/-- The exit status of a program that exits by itself. -/
theorem exit_unique {act : S → Act S} {s : S} {f : Nat → Option Byte} {m n : Nat} (hm : (alone act s f m).code ≠ none)
    (hn : (alone act s f n).code ≠ none) : alone act s f m = alone act s f n := by
  rcases Nat.le_total m n with h | h
  · exact ((alone_later act s f h).exited hm).symm
  · exact (alone_later act s f h).exited hn

/-- The same programs on the same input, with whatever pipes and whatever limit. -/
structure Same (cfg cfg' : Cfg S) : Prop where
  act : cfg'.act = cfg.act
  n : cfg'.n = cfg.n
  prog : cfg'.prog = cfg.prog
  input : cfg'.input = cfg.input

theorem Same.stream {cfg cfg' : Cfg S} (h : Same cfg cfg') (i : Nat) : cfg'.stream i = cfg.stream i := by
  induction i with
  | zero => simp only [Cfg.stream, h.input]
  | succ i ih => simp only [Cfg.stream, h.act, h.prog, ih]

/-- **C86**: two runs of the same programs on the same input that have ended give the same output and the same exit status of the last command, and with
the same limit the same standard error of it: neither the schedule nor the sizes of the pipes matter. -/
theorem C86_deterministic (cfg cfg' : Cfg S) (hn : 0 < cfg.n) (hs : Same cfg cfg') (ws ws' : List Who) (net net' : Net S)
    (h : cfg.run cfg.init ws = some net) (h' : cfg'.run cfg'.init ws' = some net') (hd : cfg.Done net) (hd' : cfg'.Done net') :
    net'.out = net.out ∧ (net'.cmds (cfg.n - 1)).loc.code = (net.cmds (cfg.n - 1)).loc.code ∧
      (cfg'.limit = cfg.limit → (net'.cmds (cfg.n - 1)).errKept = (net.cmds (cfg.n - 1)).errKept) := by
  have hn' : 0 < cfg'.n := by rw [hs.n]; exact hn
  have hi := run_inv hn (init_inv cfg) h
  have hi' := run_inv hn' (init_inv cfg') h'
  have e := last_exits hn hi hd
  have e' := last_exits hn' hi' hd'
  have hl := hi.loc (cfg.n - 1) (by omega)
  have hl' := hi'.loc (cfg'.n - 1) (by omega)
  rw [hs.act, hs.prog, hs.stream, hs.n] at hl'
  rw [hs.n] at e'
  have hloc : (net'.cmds (cfg.n - 1)).loc = (net.cmds (cfg.n - 1)).loc := by
    rw [hl] at e ⊢
    rw [hl'] at e' ⊢
    exact exit_unique e' e
  refine ⟨?_, by rw [hloc], fun hlim => ?_⟩
  · apply List.ext_getElem?
    intro j
    rw [C86_output cfg hn ws net h hd, C86_output cfg' hn' ws' net' h' hd', hs.stream, hs.n]
  · obtain ⟨seen, h1, h2, _⟩ := hi.err (cfg.n - 1) (by omega)
    obtain ⟨seen', h1', h2', _⟩ := hi'.err (cfg.n - 1) (by rw [hs.n]; omega)
    have b := (hi.errDone (cfg.n - 1) (by omega) (hd.err _ (by omega))).1
    have b' := (hi'.errDone (cfg.n - 1) (by rw [hs.n]; omega) (hd'.err _ (by rw [hs.n]; omega))).1
    rw [b, List.append_nil] at h1
    rw [b', List.append_nil] at h1'
    rw [h2, h2', ← h1, ← h1', hloc, hlim]

/-- If each program, alone, yields its output on the output of the one before it, the streams are these outputs. -/
theorem stream_yields {cfg : Cfg S} {data err : Nat → List Byte} {code : Nat → Int} (h0 : data 0 = cfg.input)
    (hy : ∀ i, i < cfg.n → Yields cfg.act (cfg.prog i) (data i) (data (i + 1)) (err i) (code i)) (i : Nat) (hi : i ≤ cfg.n) :
    cfg.stream i = ofList (data i) := by
  induction i with
  | zero => rw [h0]; rfl
  | succ i ih =>
    obtain ⟨n, hc, hw, _⟩ := hy i (by omega)
    simp only [Cfg.stream, ih (by omega)]
    funext j
    unfold ofList at *
    rcases Nat.lt_or_ge j (data (i + 1)).length with hj | hj
    · rw [output_some (n := n) (by rw [hw]; exact hj), hw]
    · rw [output_none (n := n) (by rw [hw]; exact hj) (.inl (by rw [hc]; simp)), List.getElem?_eq_none hj]

/-- **C86**: if each program, alone, reads `data i`, writes `data (i + 1)` and `err i` and exits with `code i`, the pipeline turns `data 0` into
`data n` and every command that was not killed by SIGPIPE has its exit status and (the first `limit` bytes of) its standard error; a command that was killed
has a beginning of its standard error. -/
theorem C86_compose (cfg : Cfg S) (hn : 0 < cfg.n) (data err : Nat → List Byte) (code : Nat → Int) (h0 : data 0 = cfg.input)
    (hy : ∀ i, i < cfg.n → Yields cfg.act (cfg.prog i) (data i) (data (i + 1)) (err i) (code i))
    (ws : List Who) (net : Net S) (h : cfg.run cfg.init ws = some net) (hd : cfg.Done net) :
    net.out = data cfg.n ∧
    (net.cmds (cfg.n - 1)).killed = false ∧
    ∀ i, i < cfg.n →
      ((net.cmds i).killed = false → (net.cmds i).loc.code = some (code i) ∧ (net.cmds i).errKept = (err i).take cfg.limit) ∧
      ((net.cmds i).killed = true → ∃ part, part <+: err i ∧ (net.cmds i).errKept = part.take cfg.limit) := by
  have hinv := run_inv hn (init_inv cfg) h
  refine ⟨?_, ?_, fun i hi => ?_⟩
  · apply List.ext_getElem?
    intro j
    rw [C86_output cfg hn ws net h hd, stream_yields h0 hy _ (Nat.le_refl _)]
    rfl
  · cases hq : (net.cmds (cfg.n - 1)).killed with
    | false => rfl
    | true => have := (hinv.killed (cfg.n - 1) (by omega) hq).1; omega
  · obtain ⟨n, hc, hw, he⟩ := hy i hi
    rw [← stream_yields h0 hy i (by omega)] at hc hw he
    have hl := hinv.loc i hi
    obtain ⟨seen, h1, h2, _⟩ := hinv.err i hi
    have b := (hinv.errDone i hi (hd.err i hi)).1
    rw [b, List.append_nil] at h1
    refine ⟨fun hk => ?_, fun _ => ⟨(net.cmds i).loc.erred, ?_, by rw [h2, h1]⟩⟩
    · have hx : (net.cmds i).loc.code ≠ none := by
        intro hcn
        have := hd.exited i hi
        simp [Cmd.alive, hcn, hk] at this
      rw [hl] at hx
      have heq := exit_unique hx (n := n) (by rw [hc]; simp)
      exact ⟨by rw [hl, heq, hc], by rw [h2, ← h1, hl, heq, he]⟩
    · have hle := hinv.halted hi (N := n) (by rw [hc]; simp)
      have := (alone_later cfg.act (cfg.prog i) (cfg.stream i) hle).erred
      rw [← hl, he] at this
      exact this

/-! ## Examples -/

namespace Ex

/-- Some programs: `cat`, `head -c n` (which writes a byte to its standard error first) and `yes`. -/
inductive P where
  | cat
  | put (b : Byte)
  | noisy (n : Nat)
  | head (n : Nat)
  | emit (b : Byte) (n : Nat)
  | yes
  | fin (c : Int)
deriving DecidableEq

def act : P → Act P
  | .cat => .read fun | some b => .put b | none => .fin 0
  | .put b => .out b .cat
  | .noisy n => .err 33 (.head n)
  | .head 0 => .exit 0
  | .head (n + 1) => .read fun | some b => .emit b n | none => .fin 1
  | .emit b n => .out b (.head n)
  | .yes => .out 121 .yes
  | .fin c => .exit c

/-- `yes | cat | head -c 2`, with pipes of one byte. -/
def cfg : Cfg P where
  act := act
  n := 3
  prog i := match i with | 0 => .yes | 1 => .cat | _ => .noisy 2
  input := [1, 2]
  cap _ := 1
  outCap := 1
  errCap _ := 1
  limit := 10

theorem ok : cfg.Ok := ⟨by decide, fun _ => Nat.one_pos, by decide, fun _ => Nat.one_pos⟩

theorem yes_writes (f : Nat → Option Byte) (n : Nat) :
    (alone act .yes f n).st = .yes ∧ (alone act .yes f n).code = none ∧ (alone act .yes f n).outOpen = true ∧ (alone act .yes f n).wrote.length = n := by
  induction n with
  | zero => exact ⟨rfl, rfl, rfl, rfl⟩
  | succ n ih => simp only [alone, lstep, ih.2.1, ih.1, ih.2.2.1, act, if_true, List.length_append, ih.2.2.2, List.length_singleton, and_self]

theorem yes_stream (f : Nat → Option Byte) (j : Nat) : ∃ b, output act .yes f j = some b := by
  have h := (yes_writes f (j + 1)).2.2.2
  rw [output_some (n := j + 1) (by omega)]
  exact ⟨_, List.getElem?_eq_getElem (by omega)⟩

theorem cat_writes (f : Nat → Option Byte) (hf : ∀ j, ∃ b, f j = some b) (n : Nat) :
    (alone act .cat f (2 * n)).st = .cat ∧ (alone act .cat f (2 * n)).code = none ∧ (alone act .cat f (2 * n)).outOpen = true ∧
      (alone act .cat f (2 * n)).inOpen = true ∧ (alone act .cat f (2 * n)).wrote.length = n := by
  induction n with
  | zero => exact ⟨rfl, rfl, rfl, rfl, rfl⟩
  | succ n ih =>
    obtain ⟨b, hb⟩ := hf (alone act .cat f (2 * n)).got
    have : 2 * (n + 1) = 2 * n + 1 + 1 := by omega
    rw [this]
    simp only [alone, lstep, ih.1, ih.2.1, ih.2.2.1, ih.2.2.2.1, act, hb, if_true, List.length_append, ih.2.2.2.2, List.length_singleton, and_self]

theorem head_halts (f : Nat → Option Byte) : Halts act (.noisy 2) f := by
  refine ⟨6, ?_⟩
  cases h0 : f 0 <;> cases h1 : f 1 <;> simp [alone, lstep, act, h0, h1]

theorem others (i : Nat) (hi : i + 1 < cfg.n) : Productive cfg.act (cfg.prog i) (cfg.stream i) := by
  intro m
  rcases i with _ | _ | i
  · exact ⟨m, .inr (by have := (yes_writes (cfg.stream 0) m).2.2.2; change m ≤ (alone act .yes (cfg.stream 0) m).wrote.length; omega)⟩
  · refine ⟨2 * m, .inr ?_⟩
    have := (cat_writes (cfg.stream 1) (fun j => yes_stream (cfg.stream 0) j) m).2.2.2.2
    change m ≤ (alone act .cat (cfg.stream 1) (2 * m)).wrote.length
    omega
  · change i + 1 + 1 + 1 < 3 at hi; omega

/-- Every run of `yes | cat | head -c 2` ends. -/
example : ∃ bound, ∀ ws net, cfg.run cfg.init ws = some net → ws.length ≤ bound := C85_ends cfg (by decide) (head_halts _) others

/-- A run of it. -/
def sched : List Who :=
  [.cmd 2, .feed, .cmd 0, .cmd 1, .cmd 0, .cmd 1, .cmd 2, .cmd 1, .readErr 2, .cmd 2, .cmd 1, .cmd 2, .readOut, .cmd 2, .cmd 0, .cmd 1, .cmd 2, .cmd 0,
   .cmd 1, .cmd 0, .readErr 2, .readErr 1, .readErr 0, .readOut, .feed, .readOut]

example : (cfg.run cfg.init sched).map (fun net => (net.out, net.fed, net.outDone, (net.cmds 0).killed, (net.cmds 1).killed, (net.cmds 2).loc.code,
    (net.cmds 2).errKept)) = some ([121, 121], true, true, true, true, some 0, [33]) := by
  rfl

/-- `cat | head -c 2` on four bytes: the hypotheses of `C86_compose`. -/
def cfg2 : Cfg P := { cfg with n := 2, prog := fun i => match i with | 0 => .cat | _ => .noisy 2, input := [1, 2, 3, 4] }

example : ∀ i, i < cfg2.n → Yields cfg2.act (cfg2.prog i) (([[1, 2, 3, 4], [1, 2, 3, 4], [1, 2]] : List (List Byte)).getD i [])
    (([[1, 2, 3, 4], [1, 2, 3, 4], [1, 2]] : List (List Byte)).getD (i + 1) []) (([[], [33]] : List (List Byte)).getD i []) 0 := by
  intro i hi
  change i < 2 at hi
  rcases i with _ | _ | i
  · exact ⟨10, by decide⟩
  · exact ⟨6, by decide⟩
  · omega

end Ex

end Shellous.Flow
