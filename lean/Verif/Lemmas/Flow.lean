import Verif.Spec.Flow

/-! # Lemmas about the flow of data -/

namespace Shellous.Flow

variable {S : Type}

/-! ## A program alone -/

theorem lstep_done {act : S → Act S} {f : Nat → Option Byte} {l : Loc S} (h : l.code ≠ none) : lstep act f l = l := by
  unfold lstep
  split
  · rfl
  · rename_i hc; exact absurd hc h

/-- How a program changes in a step. -/
structure Later (l l' : Loc S) : Prop where
  wrote : l.wrote <+: l'.wrote
  erred : l.erred <+: l'.erred
  got : l.got ≤ l'.got
  inOpen : l'.inOpen = true → l.inOpen = true
  outOpen : l'.outOpen = true → l.outOpen = true
  code : l'.code = none → l.code = none
  exited : l.code ≠ none → l' = l
  silent : l.outOpen = false → l'.wrote = l.wrote

theorem Later.refl (l : Loc S) : Later l l :=
  ⟨List.prefix_rfl, List.prefix_rfl, Nat.le_refl _, id, id, id, fun _ => rfl, fun _ => rfl⟩

theorem Later.trans {l l' l'' : Loc S} (h : Later l l') (h' : Later l' l'') : Later l l'' where
  wrote := h.wrote.trans h'.wrote
  erred := h.erred.trans h'.erred
  got := Nat.le_trans h.got h'.got
  inOpen x := h.inOpen (h'.inOpen x)
  outOpen x := h.outOpen (h'.outOpen x)
  code x := h.code (h'.code x)
  exited x := (h'.exited (by rw [h.exited x]; exact x)).trans (h.exited x)
  silent x := by
    have : l'.outOpen = false := by
      cases hq : l'.outOpen with
      | false => rfl
      | true => rw [h.outOpen hq] at x; cases x
    exact (h'.silent this).trans (h.silent x)

theorem lstep_later (act : S → Act S) (f : Nat → Option Byte) (l : Loc S) : Later l (lstep act f l) := by
  unfold lstep
  split
  · exact .refl l
  · rename_i hc
    have no : ∀ l' : Loc S, l.code ≠ none → l' = l := fun _ h => absurd hc h
    split
    · split
      · exact ⟨List.prefix_rfl, List.prefix_rfl, Nat.le_succ _, id, id, id, no _, fun _ => rfl⟩
      · exact ⟨List.prefix_rfl, List.prefix_rfl, Nat.le_refl _, id, id, id, no _, fun _ => rfl⟩
    · split
      · rename_i ho
        exact ⟨List.prefix_append _ _, List.prefix_rfl, Nat.le_refl _, id, id, id, no _, fun h => by rw [ho] at h; cases h⟩
      · exact ⟨List.prefix_rfl, List.prefix_rfl, Nat.le_refl _, id, id, id, no _, fun _ => rfl⟩
    · exact ⟨List.prefix_rfl, List.prefix_append _ _, Nat.le_refl _, id, id, id, no _, fun _ => rfl⟩
    · exact ⟨List.prefix_rfl, List.prefix_rfl, Nat.le_refl _, by simp, id, id, no _, fun _ => rfl⟩
    · exact ⟨List.prefix_rfl, List.prefix_rfl, Nat.le_refl _, id, by simp, id, no _, fun _ => rfl⟩
    · exact ⟨List.prefix_rfl, List.prefix_rfl, Nat.le_refl _, id, id, by simp, no _, fun _ => rfl⟩

theorem alone_later (act : S → Act S) (s : S) (f : Nat → Option Byte) {m n : Nat} (h : m ≤ n) :
    Later (alone act s f m) (alone act s f n) := by
  obtain ⟨k, rfl⟩ := Nat.le.dest h
  induction k with
  | zero => exact .refl _
  | succ k ih => exact (ih (Nat.le_add_right _ _)).trans (lstep_later act f _)

/-- Once written, a byte is part of the output. -/
theorem output_some {act : S → Act S} {s : S} {f : Nat → Option Byte} {n j : Nat} (h : j < (alone act s f n).wrote.length) :
    output act s f j = (alone act s f n).wrote[j]? := by
  unfold output
  have hx : ∃ n, j < (alone act s f n).wrote.length := ⟨n, h⟩
  rw [dif_pos hx]
  have hc := hx.choose_spec
  generalize hx.choose = m at hc
  have both : ∀ {a b : List Byte}, a <+: b → j < a.length → a[j]? = b[j]? := by
    rintro a b ⟨t, rfl⟩ ha
    rw [List.getElem?_append_left ha]
  rcases Nat.le_total m n with hmn | hmn
  · exact both (alone_later act s f hmn).wrote hc
  · exact (both (alone_later act s f hmn).wrote h).symm

/-- A program that has exited or closed its output writes no more. -/
theorem alone_final {act : S → Act S} {s : S} {f : Nat → Option Byte} {n : Nat}
    (hc : (alone act s f n).code ≠ none ∨ (alone act s f n).outOpen = false) (m : Nat) :
    (alone act s f m).wrote.length ≤ (alone act s f n).wrote.length := by
  rcases Nat.le_total m n with hmn | hmn
  · exact (alone_later act s f hmn).wrote.length_le
  · have hl := alone_later act s f hmn
    rcases hc with hc | hc
    · rw [hl.exited hc]; exact Nat.le_refl _
    · rw [hl.silent hc]; exact Nat.le_refl _

theorem output_none {act : S → Act S} {s : S} {f : Nat → Option Byte} {n j : Nat} (h : (alone act s f n).wrote.length ≤ j)
    (hc : (alone act s f n).code ≠ none ∨ (alone act s f n).outOpen = false) : output act s f j = none := by
  unfold output
  rw [dif_neg]
  rintro ⟨m, hm⟩
  have := alone_final hc m
  omega

/-! ## One step of the network -/

/-- The effect of a step of program `i` on the network: it gets `a` if it reads, and writes `w` and `e`. -/
structure Moved (cfg : Cfg S) (net : Net S) (i : Nat) (net' : Net S) (a : Option Byte) (w e : List Byte) : Prop where
  sent : net'.sent = net.sent
  rest : net'.rest = net.rest
  fed : net'.fed = net.fed
  out : net'.out = net.out
  outDone : net'.outDone = net.outDone
  outBuf : net'.outBuf = net.outBuf ++ (if i + 1 < cfg.n then [] else w)
  other : ∀ j, j ≠ i → j ≠ i + 1 → net'.cmds j = net.cmds j
  next : net'.cmds (i + 1) = { net.cmds (i + 1) with buf := (net.cmds (i + 1)).buf ++ (if i + 1 < cfg.n then w else []) }
  loc : (net'.cmds i).loc = lstep cfg.act (fun _ => a) (net.cmds i).loc
  steps : (net'.cmds i).steps = (net.cmds i).steps + 1
  killed : (net'.cmds i).killed = (net.cmds i).killed
  errBuf : (net'.cmds i).errBuf = (net.cmds i).errBuf ++ e
  errKept : (net'.cmds i).errKept = (net.cmds i).errKept
  errRead : (net'.cmds i).errRead = (net.cmds i).errRead
  errFull : (net'.cmds i).errFull = (net.cmds i).errFull
  errDone : (net'.cmds i).errDone = (net.cmds i).errDone
  read : (net'.cmds i).buf = (net.cmds i).buf ∧ (net'.cmds i).loc.got = (net.cmds i).loc.got ∧
        ((net.cmds i).loc.inOpen = true → ∀ k, cfg.act (net.cmds i).loc.st ≠ .read k) ∨
      (net.cmds i).loc.inOpen = true ∧ (net'.cmds i).loc.got = (net.cmds i).loc.got + 1 ∧
        ((∃ b, (net.cmds i).buf = b :: (net'.cmds i).buf ∧ a = some b) ∨
          (net.cmds i).buf = [] ∧ (net'.cmds i).buf = [] ∧ a = none ∧ net.upOpen i = false)
  wrote : (net'.cmds i).loc.wrote = (net.cmds i).loc.wrote ++ w
  erred : (net'.cmds i).loc.erred = (net.cmds i).loc.erred ++ e
  room : w ≠ [] → (net.cmds i).loc.outOpen = true ∧ w.length = 1 ∧
    (i + 1 < cfg.n → (net.cmds (i + 1)).reads = true ∧ (net.cmds (i + 1)).buf.length < cfg.cap (i + 1))

/-- The effect of SIGPIPE. -/
structure Piped (cfg : Cfg S) (net : Net S) (i : Nat) (net' : Net S) : Prop where
  eq : net' = net.set i { net.cmds i with killed := true }
  last : i + 1 < cfg.n
  gone : (net.cmds (i + 1)).reads = false

theorem set_self (net : Net S) (i : Nat) (c : Cmd S) : (net.set i c).cmds i = c := by simp [Net.set]

theorem set_other (net : Net S) {i j : Nat} (c : Cmd S) (h : j ≠ i) : (net.set i c).cmds j = net.cmds j := by simp [Net.set, h]

theorem cmd_buf_nil (c : Cmd S) : c = { c with buf := c.buf ++ [] } := by cases c; simp

theorem cmdStep_moved {cfg : Cfg S} {net net' : Net S} {i : Nat} (ha : (net.cmds i).alive = true) (h : cfg.cmdStep net i = some net') :
    (∃ a w e, Moved cfg net i net' a w e) ∨ Piped cfg net i net' := by
  have hcode : (net.cmds i).loc.code = none := by
    unfold Cmd.alive at ha
    simpa using (Bool.and_eq_true_iff.1 ha).1
  have nx : ∀ c : Cmd S, (net.set i c).cmds (i + 1) =
      { net.cmds (i + 1) with buf := (net.cmds (i + 1)).buf ++ (if i + 1 < cfg.n then [] else []) } := by
    intro c
    rw [set_other net c (by omega)]
    simp
  -- a step that touches no pipe
  have plain : ∀ a : Option Byte, (lstep cfg.act (fun _ => a) (net.cmds i).loc).got = (net.cmds i).loc.got →
      (lstep cfg.act (fun _ => a) (net.cmds i).loc).wrote = (net.cmds i).loc.wrote →
      (lstep cfg.act (fun _ => a) (net.cmds i).loc).erred = (net.cmds i).loc.erred →
      ((net.cmds i).loc.inOpen = true → ∀ k, cfg.act (net.cmds i).loc.st ≠ .read k) →
      Moved cfg net i (net.set i { net.cmds i with loc := lstep cfg.act (fun _ => a) (net.cmds i).loc, steps := (net.cmds i).steps + 1 }) a [] [] := by
    intro a h1 h2 h3 h4
    refine ⟨rfl, rfl, rfl, rfl, rfl, by simp [Net.set], fun j hj _ => set_other net _ hj, nx _, ?_, ?_, ?_, ?_, ?_, ?_, ?_, ?_,
      .inl ⟨?_, ?_, h4⟩, ?_, ?_, by simp⟩ <;> simp only [set_self, List.append_nil] <;> assumption
  unfold Cfg.cmdStep at h
  dsimp only at h
  split at h
  · -- read
    rename_i k hk
    split at h
    · rename_i ho
      have hl : ∀ a, lstep cfg.act (fun _ => a) (net.cmds i).loc =
          { (net.cmds i).loc with st := k a, got := (net.cmds i).loc.got + 1 } := by
        intro a; simp [lstep, hcode, hk, ho]
      split at h
      · rename_i b r hb
        cases h
        refine .inl ⟨some b, [], [], rfl, rfl, rfl, rfl, rfl, by simp [Net.set], fun j hj _ => set_other net _ hj, nx _, ?_, ?_, ?_, ?_, ?_, ?_, ?_, ?_,
          .inr ⟨ho, ?_, .inl ⟨b, ?_, rfl⟩⟩, ?_, ?_, by simp⟩ <;> simp [set_self, hl, hb]
      · rename_i hb
        split at h
        · cases h
        · rename_i hu
          cases h
          refine .inl ⟨none, [], [], rfl, rfl, rfl, rfl, rfl, by simp [Net.set], fun j hj _ => set_other net _ hj, nx _, ?_, ?_, ?_, ?_, ?_, ?_, ?_, ?_,
            .inr ⟨ho, ?_, .inr ⟨hb, ?_, rfl, by simpa using hu⟩⟩, ?_, ?_, by simp⟩ <;> simp [set_self, hl, hb]
    · rename_i ho
      cases h
      exact .inl ⟨none, [], [], plain none (by simp [lstep, hcode, hk, ho]) (by simp [lstep, hcode, hk, ho]) (by simp [lstep, hcode, hk, ho])
        fun h => absurd h ho⟩
  · -- out
    rename_i b s hk
    have nr : (net.cmds i).loc.inOpen = true → ∀ k, cfg.act (net.cmds i).loc.st ≠ .read k := by intro _ k; rw [hk]; simp
    split at h
    · rename_i ho
      have hl : ∀ a, lstep cfg.act (fun _ => a) (net.cmds i).loc =
          { (net.cmds i).loc with st := s, wrote := (net.cmds i).loc.wrote ++ [b] } := by
        intro a; simp [lstep, hcode, hk, ho]
      split at h
      · rename_i hn
        split at h
        · rename_i hr
          split at h
          · rename_i hroom
            cases h
            have e1 : ∀ c d : Cmd S, ((net.set i c).set (i + 1) d).cmds i = c := by
              intro c d
              rw [set_other _ _ (by omega), set_self]
            refine .inl ⟨none, [b], [], rfl, rfl, rfl, rfl, rfl, by simp [Net.set, hn], fun j hj hj' => ?_, ?_, ?_, ?_, ?_, ?_, ?_, ?_, ?_, ?_,
              .inl ⟨?_, ?_, nr⟩, ?_, ?_, fun _ => ⟨ho, rfl, fun _ => ⟨hr, hroom⟩⟩⟩
            · rw [set_other _ _ hj', set_other _ _ hj]
            · rw [set_self, if_pos hn]
            all_goals simp [e1, hl]
          · cases h
        · rename_i hr
          cases h
          exact .inr ⟨rfl, hn, by simpa using hr⟩
      · rename_i hn
        split at h
        · cases h
          refine .inl ⟨none, [b], [], rfl, rfl, rfl, rfl, rfl, by simp [hn], fun j hj hj' => ?_, ?_, ?_, ?_, ?_, ?_, ?_, ?_, ?_, ?_,
            .inl ⟨?_, ?_, nr⟩, ?_, ?_, fun _ => ⟨ho, rfl, fun h => absurd h hn⟩⟩
          · exact set_other net _ hj
          · rw [if_neg hn]
            exact (set_other net _ (by omega)).trans (cmd_buf_nil _)
          all_goals simp [set_self, hl]
        · cases h
    · rename_i ho
      cases h
      exact .inl ⟨none, [], [], plain none (by simp [lstep, hcode, hk, ho]) (by simp [lstep, hcode, hk, ho]) (by simp [lstep, hcode, hk, ho]) nr⟩
  · -- err
    rename_i b s hk
    have nr : (net.cmds i).loc.inOpen = true → ∀ k, cfg.act (net.cmds i).loc.st ≠ .read k := by intro _ k; rw [hk]; simp
    split at h
    · cases h
      have hl : ∀ a, lstep cfg.act (fun _ => a) (net.cmds i).loc =
          { (net.cmds i).loc with st := s, erred := (net.cmds i).loc.erred ++ [b] } := by
        intro a; simp [lstep, hcode, hk]
      refine .inl ⟨none, [], [b], rfl, rfl, rfl, rfl, rfl, by simp [Net.set], fun j hj _ => set_other net _ hj, nx _, ?_, ?_, ?_, ?_, ?_, ?_, ?_, ?_,
        .inl ⟨?_, ?_, nr⟩, ?_, ?_, by simp⟩ <;> simp [set_self, hl]
    · cases h
  · -- the others
    rename_i n1 n2 n3
    cases h
    refine .inl ⟨none, [], [], plain none ?_ ?_ ?_ fun _ k => n1 k⟩ <;>
    · unfold lstep
      rw [hcode]
      dsimp only
      split <;> first | rfl | (exfalso; exact n1 _ ‹_›) | (exfalso; exact n2 _ _ ‹_›) | (exfalso; exact n3 _ _ ‹_›)

/-! ## The invariant -/

/-- What was written into the pipe to the standard input of command `i`. -/
def Net.up (net : Net S) : Nat → List Byte
  | 0 => net.sent
  | i + 1 => (net.cmds i).loc.wrote

/-- What holds at all times. -/
structure Inv (cfg : Cfg S) (net : Net S) : Prop where
  loc : ∀ i, i < cfg.n → (net.cmds i).loc = alone cfg.act (cfg.prog i) (cfg.stream i) (net.cmds i).steps
  before : ∀ i, i < cfg.n → ∀ m, m < (net.cmds i).steps → (alone cfg.act (cfg.prog i) (cfg.stream i) m).code = none
  pipe : ∀ i, i < cfg.n → (net.cmds i).reads = true → (net.cmds i).buf = (net.up i).drop (net.cmds i).loc.got
  ahead : ∀ i, i < cfg.n → net.upOpen i = true → (net.cmds i).reads = true → (net.cmds i).loc.got ≤ (net.up i).length
  sent : net.sent ++ net.rest = cfg.input
  fed : net.fed = true → net.rest = [] ∨ (net.cmds 0).reads = false
  killed : ∀ i, i < cfg.n → (net.cmds i).killed = true → i + 1 < cfg.n ∧ (net.cmds (i + 1)).reads = false
  full : ∀ i, i + 1 < cfg.n → (net.cmds i).loc.wrote.length ≤ (net.cmds (i + 1)).loc.got + cfg.cap (i + 1)
  out : net.out ++ net.outBuf = (net.cmds (cfg.n - 1)).loc.wrote
  outDone : net.outDone = true → net.outBuf = [] ∧ (net.cmds (cfg.n - 1)).writes = false
  err : ∀ i, i < cfg.n → ∃ seen, (net.cmds i).loc.erred = seen ++ (net.cmds i).errBuf ∧ (net.cmds i).errKept = seen.take cfg.limit ∧
    (net.cmds i).errRead = seen.length ∧ ((net.cmds i).errFull = true ↔ cfg.limit < seen.length)
  errDone : ∀ i, i < cfg.n → (net.cmds i).errDone = true → (net.cmds i).errBuf = [] ∧ (net.cmds i).alive = false

theorem init_inv (cfg : Cfg S) : Inv cfg cfg.init where
  loc _ _ := rfl
  before i _ m h := by simp [Cfg.init] at h
  pipe i _ _ := by cases i <;> simp [Cfg.init, Net.up]
  ahead i _ _ _ := by simp [Cfg.init]
  sent := by simp [Cfg.init]
  fed h := by simp [Cfg.init] at h
  killed i _ h := by simp [Cfg.init] at h
  full i _ := by simp [Cfg.init]
  out := by simp [Cfg.init]
  outDone h := by simp [Cfg.init] at h
  err i _ := ⟨[], by simp [Cfg.init], by simp [Cfg.init], by simp [Cfg.init], by simp [Cfg.init]⟩
  errDone i _ h := by simp [Cfg.init] at h

/-- A read gets what the stream says. -/
theorem Inv.byte {cfg : Cfg S} {net : Net S} (h : Inv cfg net) {i : Nat} (hi : i < cfg.n) (hr : (net.cmds i).reads = true) {b : Byte} {r : List Byte}
    (hb : (net.cmds i).buf = b :: r) : cfg.stream i (net.cmds i).loc.got = some b := by
  have hp := h.pipe i hi hr
  rw [hb] at hp
  have hx : (net.up i)[(net.cmds i).loc.got]? = some b := by
    have := congrArg (·[0]?) hp
    simpa [List.getElem?_drop] using this.symm
  have hlt := (List.getElem?_eq_some_iff.1 hx).1
  cases i with
  | zero =>
    unfold Cfg.stream ofList
    simp only [Net.up] at hlt hx
    rw [← h.sent, List.getElem?_append_left hlt]; exact hx
  | succ i =>
    unfold Cfg.stream
    have hl := h.loc i (by omega)
    simp only [Net.up] at hlt hx
    rw [hl] at hlt hx
    rw [output_some hlt]; exact hx

/-- End-of-file comes where the stream ends. -/
theorem Inv.eof {cfg : Cfg S} {net : Net S} (h : Inv cfg net) {i : Nat} (hi : i < cfg.n) (hr : (net.cmds i).reads = true)
    (hb : (net.cmds i).buf = []) (hu : net.upOpen i = false) : cfg.stream i (net.cmds i).loc.got = none := by
  have hp := h.pipe i hi hr
  rw [hb] at hp
  have hle : (net.up i).length ≤ (net.cmds i).loc.got := by simpa using hp.symm
  cases i with
  | zero =>
    unfold Cfg.stream ofList
    have hf : net.fed = true := by simpa [Net.upOpen] using hu
    have hrest : net.rest = [] := by
      rcases h.fed hf with h | h
      · exact h
      · rw [h] at hr; cases hr
    rw [← h.sent, hrest, List.append_nil]
    simpa [Net.up] using hle
  | succ i =>
    unfold Cfg.stream
    have hl := h.loc i (by omega)
    simp only [Net.up] at hle
    rw [hl] at hle
    refine output_none hle ?_
    rw [← hl]
    simp only [Net.upOpen, Cmd.writes, Cmd.alive, Bool.and_eq_false_iff] at hu
    rcases hu with (hu | hu) | hu
    · left; intro hc; rw [hc] at hu; simp at hu
    · have := (h.killed i (by omega) (by simpa using hu)).2
      rw [this] at hr; cases hr
    · exact .inr hu

theorem lstep_congr {act : S → Act S} {f g : Nat → Option Byte} {l : Loc S} (h : ∀ k, l.inOpen = true → act l.st = .read k → f l.got = g l.got) :
    lstep act f l = lstep act g l := by
  unfold lstep
  split
  · rfl
  · split
    · rename_i k hk
      split
      · rename_i ho; rw [h k ho hk]
      · rfl
    all_goals rfl

theorem Cmd.alive_code {c : Cmd S} (h : c.alive = true) : c.loc.code = none := by
  unfold Cmd.alive at h
  simpa using (Bool.and_eq_true_iff.1 h).1

theorem Moved.inv {cfg : Cfg S} {net net' : Net S} {i : Nat} {a : Option Byte} {w e : List Byte} (m : Moved cfg net i net' a w e)
    (h : Inv cfg net) (hi : i < cfg.n) (ha : (net.cmds i).alive = true) : Inv cfg net' := by
  have hcode := Cmd.alive_code ha
  have hlater := lstep_later cfg.act (fun _ => a) (net.cmds i).loc
  rw [← m.loc] at hlater
  -- the local step is the one of the program alone
  have hloc : (net'.cmds i).loc = alone cfg.act (cfg.prog i) (cfg.stream i) (net'.cmds i).steps := by
    rw [m.steps, m.loc, alone, ← h.loc i hi]
    refine lstep_congr fun k ho hk => ?_
    have hr : (net.cmds i).reads = true := by simp [Cmd.reads, ha, ho]
    rcases m.read with ⟨_, _, hn⟩ | ⟨_, _, ⟨b, hb, rfl⟩ | ⟨hb, _, rfl, hu⟩⟩
    · exact absurd hk (hn ho k)
    · exact (h.byte hi hr hb).symm
    · exact (h.eof hi hr hb hu).symm
  have alive_mono : ∀ j, (net'.cmds j).alive = true → (net.cmds j).alive = true := by
    intro j hj
    by_cases hji : j = i
    · subst hji; exact ha
    · by_cases hjn : j = i + 1
      · subst hjn; rw [m.next] at hj; exact hj
      · rw [m.other j hji hjn] at hj; exact hj
  have reads_mono : ∀ j, (net'.cmds j).reads = true → (net.cmds j).reads = true := by
    intro j hj
    by_cases hji : j = i
    · subst hji
      simp only [Cmd.reads, Bool.and_eq_true] at hj ⊢
      exact ⟨ha, hlater.inOpen hj.2⟩
    · by_cases hjn : j = i + 1
      · subst hjn; rw [m.next] at hj; exact hj
      · rw [m.other j hji hjn] at hj; exact hj
  have writes_mono : ∀ j, (net'.cmds j).writes = true → (net.cmds j).writes = true := by
    intro j hj
    by_cases hji : j = i
    · subst hji
      simp only [Cmd.writes, Bool.and_eq_true] at hj ⊢
      exact ⟨ha, hlater.outOpen hj.2⟩
    · by_cases hjn : j = i + 1
      · subst hjn; rw [m.next] at hj; exact hj
      · rw [m.other j hji hjn] at hj; exact hj
  have upOpen_mono : ∀ j, net'.upOpen j = true → net.upOpen j = true := by
    intro j hj
    cases j with
    | zero => simpa [Net.upOpen, m.fed] using hj
    | succ j => exact writes_mono j hj
  have up_eq : ∀ j, j ≠ i + 1 → net'.up j = net.up j := by
    intro j hj
    cases j with
    | zero => exact m.sent
    | succ j =>
      have hji : j ≠ i := by omega
      show (net'.cmds j).loc.wrote = (net.cmds j).loc.wrote
      by_cases hjn : j = i + 1
      · subst hjn; rw [m.next]
      · rw [m.other j hji hjn]
  have up_i : net'.up (i + 1) = net.up (i + 1) ++ w := m.wrote
  have loc_eq : ∀ j, j ≠ i → (net'.cmds j).loc = (net.cmds j).loc := by
    intro j hji
    by_cases hjn : j = i + 1
    · subst hjn; rw [m.next]
    · rw [m.other j hji hjn]
  -- writing
  have hwrite : w ≠ [] → i + 1 < cfg.n → (net.cmds (i + 1)).loc.got ≤ (net.up (i + 1)).length := by
    intro hw hn
    obtain ⟨ho, _, hd⟩ := m.room hw
    exact h.ahead (i + 1) hn (by simp [Net.upOpen, Cmd.writes, ha, ho]) (hd hn).1
  refine ⟨?_, ?_, ?_, ?_, ?_, ?_, ?_, ?_, ?_, ?_, ?_, ?_⟩
  · intro j hj
    by_cases hji : j = i
    · subst hji; exact hloc
    · rw [loc_eq j hji, h.loc j hj]
      by_cases hjn : j = i + 1
      · subst hjn; rw [m.next]
      · rw [m.other j hji hjn]
  · intro j hj k hk
    by_cases hji : j = i
    · subst hji
      rw [m.steps] at hk
      by_cases hks : k = (net.cmds j).steps
      · subst hks; rw [← h.loc j hj]; exact hcode
      · exact h.before j hj k (by omega)
    · refine h.before j hj k ?_
      by_cases hjn : j = i + 1
      · subst hjn; rw [m.next] at hk; exact hk
      · rw [m.other j hji hjn] at hk; exact hk
  · intro j hj hr
    have hp := h.pipe j hj (reads_mono j hr)
    by_cases hji : j = i
    · subst hji
      rw [up_eq j (by omega)]
      rcases m.read with ⟨hb, hg, _⟩ | ⟨_, hg, ⟨b, hb, _⟩ | ⟨hb, hb', _⟩⟩
      · rw [hb, hg]; exact hp
      · rw [hb] at hp
        rw [hg, ← List.drop_drop, ← hp]; rfl
      · rw [hb] at hp
        rw [hb', hg, ← List.drop_drop, ← hp]; rfl
    · rw [loc_eq j hji]
      by_cases hjn : j = i + 1
      · subst hjn
        rw [m.next, up_i]
        dsimp only
        rw [if_pos hj]
        by_cases hw : w = []
        · rw [hw]; simpa using hp
        · rw [List.drop_append_of_le_length (hwrite hw hj), hp]
      · rw [up_eq j hjn, m.other j hji hjn]; exact hp
  · intro j hj hu hr
    have hg := h.ahead j hj (upOpen_mono j hu) (reads_mono j hr)
    by_cases hji : j = i
    · subst hji
      rw [up_eq j (by omega)]
      rcases m.read with ⟨_, hg', _⟩ | ⟨_, hg', ⟨b, hb, _⟩ | ⟨_, _, _, hu'⟩⟩
      · rw [hg']; exact hg
      · have hp := h.pipe j hj (reads_mono j hr)
        rw [hb] at hp
        have := congrArg List.length hp
        simp only [List.length_cons, List.length_drop] at this
        omega
      · rw [upOpen_mono j hu] at hu'; cases hu'
    · rw [loc_eq j hji]
      by_cases hjn : j = i + 1
      · subst hjn; rw [up_i, List.length_append]; omega
      · rw [up_eq j hjn]; exact hg
  · rw [m.sent, m.rest]; exact h.sent
  · intro hf
    rw [m.fed] at hf
    rw [m.rest]
    refine (h.fed hf).imp_right fun hr => ?_
    cases hq : (net'.cmds 0).reads with
    | false => rfl
    | true => rw [reads_mono 0 hq] at hr; cases hr
  · intro j hj hk
    have hk' : (net.cmds j).killed = true := by
      by_cases hji : j = i
      · subst hji; rw [m.killed] at hk; exact hk
      · by_cases hjn : j = i + 1
        · subst hjn; rw [m.next] at hk; exact hk
        · rw [m.other j hji hjn] at hk; exact hk
    obtain ⟨h1, h2⟩ := h.killed j hj hk'
    refine ⟨h1, ?_⟩
    cases hq : (net'.cmds (j + 1)).reads with
    | false => rfl
    | true => rw [reads_mono _ hq] at h2; cases h2
  · intro j hj
    have hf := h.full j hj
    by_cases hji : j = i
    · subst hji
      rw [m.wrote, loc_eq (j + 1) (by omega), List.length_append]
      by_cases hw : w = []
      · rw [hw]; simpa using hf
      · obtain ⟨_, h1, hd⟩ := m.room hw
        obtain ⟨hr, hlt⟩ := hd hj
        rw [h.pipe (j + 1) hj hr, List.length_drop] at hlt
        have := hwrite hw hj
        simp only [Net.up] at hlt this
        omega
    · rw [loc_eq j hji]
      by_cases hjn : j + 1 = i
      · have := hlater.got
        rw [hjn] at hf ⊢
        omega
      · rw [loc_eq (j + 1) hjn]; exact hf
  · rw [m.out, m.outBuf, ← List.append_assoc, h.out]
    by_cases hn : i + 1 < cfg.n
    · rw [if_pos hn, List.append_nil, loc_eq _ (by omega)]
    · have : cfg.n - 1 = i := by omega
      rw [if_neg hn, this, m.wrote]
  · intro hd
    rw [m.outDone] at hd
    obtain ⟨h1, h2⟩ := h.outDone hd
    have h2' : (net'.cmds (cfg.n - 1)).writes = false := by
      cases hq : (net'.cmds (cfg.n - 1)).writes with
      | false => rfl
      | true => rw [writes_mono _ hq] at h2; cases h2
    refine ⟨?_, h2'⟩
    rw [m.outBuf, h1]
    split
    · rfl
    · rename_i hn
      have : cfg.n - 1 = i := by omega
      rw [this] at h2
      refine Classical.byContradiction fun hw => ?_
      have := (m.room (by simpa using hw)).1
      simp [Cmd.writes, ha, this] at h2
  · intro j hj
    obtain ⟨seen, h1, h2, h3, h4⟩ := h.err j hj
    by_cases hji : j = i
    · subst hji
      refine ⟨seen, ?_, ?_, ?_, ?_⟩
      · rw [m.erred, m.errBuf, h1, List.append_assoc]
      · rw [m.errKept]; exact h2
      · rw [m.errRead]; exact h3
      · rw [m.errFull]; exact h4
    · refine ⟨seen, ?_⟩
      by_cases hjn : j = i + 1
      · subst hjn; rw [m.next]; exact ⟨h1, h2, h3, h4⟩
      · rw [m.other j hji hjn]; exact ⟨h1, h2, h3, h4⟩
  · intro j hj hd
    by_cases hji : j = i
    · subst hji
      rw [m.errDone] at hd
      have := (h.errDone j hj hd).2
      rw [ha] at this; cases this
    · by_cases hjn : j = i + 1
      · subst hjn; rw [m.next] at hd ⊢; exact h.errDone _ hj hd
      · rw [m.other j hji hjn] at hd ⊢; exact h.errDone _ hj hd

/-- A change of one command that leaves the program and its input alone. -/
theorem Inv.change {cfg : Cfg S} {net : Net S} (h : Inv cfg net) {i : Nat} (c : Cmd S) (hl : c.loc = (net.cmds i).loc)
    (hs : c.steps = (net.cmds i).steps) (hb : c.buf = (net.cmds i).buf) (hk : (net.cmds i).killed = true → c.killed = true)
    (hk' : i < cfg.n → c.killed = true → i + 1 < cfg.n ∧ (net.cmds (i + 1)).reads = false)
    (he : i < cfg.n → ∃ seen, c.loc.erred = seen ++ c.errBuf ∧ c.errKept = seen.take cfg.limit ∧ c.errRead = seen.length ∧
      (c.errFull = true ↔ cfg.limit < seen.length))
    (hd : i < cfg.n → c.errDone = true → c.errBuf = [] ∧ c.alive = false) : Inv cfg (net.set i c) := by
  have alive_i : c.alive = true → (net.cmds i).alive = true := by
    unfold Cmd.alive
    rw [hl]
    simp only [Bool.and_eq_true, Bool.not_eq_true']
    refine And.imp_right fun hq => ?_
    cases hx : (net.cmds i).killed with
    | false => rfl
    | true => rw [hk hx] at hq; cases hq
  have eqs : ∀ j, ((net.set i c).cmds j).loc = (net.cmds j).loc ∧ ((net.set i c).cmds j).steps = (net.cmds j).steps ∧
      ((net.set i c).cmds j).buf = (net.cmds j).buf ∧ (((net.set i c).cmds j).alive = true → (net.cmds j).alive = true) := by
    intro j
    by_cases hji : j = i
    · subst hji; rw [set_self]; exact ⟨hl, hs, hb, alive_i⟩
    · rw [set_other _ _ hji]; exact ⟨rfl, rfl, rfl, id⟩
  have reads_mono : ∀ j, ((net.set i c).cmds j).reads = true → (net.cmds j).reads = true := by
    intro j
    unfold Cmd.reads
    rw [(eqs j).1]
    simp only [Bool.and_eq_true]
    exact And.imp_left (eqs j).2.2.2
  have writes_mono : ∀ j, ((net.set i c).cmds j).writes = true → (net.cmds j).writes = true := by
    intro j
    unfold Cmd.writes
    rw [(eqs j).1]
    simp only [Bool.and_eq_true]
    exact And.imp_left (eqs j).2.2.2
  have up_eq : ∀ j, (net.set i c).up j = net.up j := by
    intro j
    cases j with
    | zero => rfl
    | succ j => show ((net.set i c).cmds j).loc.wrote = _; rw [(eqs j).1]; rfl
  have gone : ∀ j, (net.cmds j).reads = false → ((net.set i c).cmds j).reads = false := by
    intro j hj
    cases hq : ((net.set i c).cmds j).reads with
    | false => rfl
    | true => rw [reads_mono j hq] at hj; cases hj
  refine ⟨?_, ?_, ?_, ?_, h.sent, ?_, ?_, ?_, ?_, ?_, ?_, ?_⟩
  · intro j hj; rw [(eqs j).1, (eqs j).2.1]; exact h.loc j hj
  · intro j hj m hm; rw [(eqs j).2.1] at hm; exact h.before j hj m hm
  · intro j hj hr; rw [(eqs j).1, (eqs j).2.2.1, up_eq]; exact h.pipe j hj (reads_mono j hr)
  · intro j hj hu hr
    rw [(eqs j).1, up_eq]
    refine h.ahead j hj ?_ (reads_mono j hr)
    cases j with
    | zero => exact hu
    | succ j => exact writes_mono j hu
  · intro hf; exact (h.fed hf).imp_right (gone 0)
  · intro j hj hq
    by_cases hji : j = i
    · subst hji
      rw [set_self] at hq
      exact (hk' hj hq).imp_right (gone _)
    · rw [set_other _ _ hji] at hq
      exact (h.killed j hj hq).imp_right (gone _)
  · intro j hj; rw [(eqs j).1, (eqs (j + 1)).1]; exact h.full j hj
  · rw [(eqs _).1]; exact h.out
  · intro ho
    refine (h.outDone ho).imp_right fun hw => ?_
    cases hq : ((net.set i c).cmds (cfg.n - 1)).writes with
    | false => rfl
    | true => rw [writes_mono _ hq] at hw; cases hw
  · intro j hj
    by_cases hji : j = i
    · subst hji; rw [set_self]; exact he hj
    · rw [set_other _ _ hji]; exact h.err j hj
  · intro j hj
    by_cases hji : j = i
    · subst hji; rw [set_self]; exact hd hj
    · rw [set_other _ _ hji]; exact h.errDone j hj

theorem Piped.inv {cfg : Cfg S} {net net' : Net S} {i : Nat} (m : Piped cfg net i net') (h : Inv cfg net) (ha : (net.cmds i).alive = true) :
    Inv cfg net' := by
  rw [m.eq]
  refine h.change _ rfl rfl rfl (fun _ => rfl) (fun _ _ => ⟨m.last, m.gone⟩) (fun hi => h.err i hi) fun hi hd => ?_
  have := (h.errDone i hi hd).2
  rw [ha] at this; cases this

theorem feed_inv {cfg : Cfg S} {net net' : Net S} (hn : 0 < cfg.n) (h : Inv cfg net) (hs : cfg.step net .feed = some net') : Inv cfg net' := by
  simp only [Cfg.step] at hs
  split at hs
  · cases hs
  · rename_i hf
    have close : (net.rest = [] ∨ (net.cmds 0).reads = false) → Inv cfg { net with fed := true } := by
      intro hr
      exact { h with
        pipe := fun i hi hr => by cases i <;> exact h.pipe _ hi hr
        ahead := fun i hi hu hr => by
          cases i with
          | zero => simp [Net.upOpen] at hu
          | succ i => exact h.ahead _ hi hu hr
        fed := fun _ => hr }
    split at hs
    · rename_i hr
      split at hs
      · rename_i he
        cases hs
        exact close (.inl he)
      · rename_i b r he
        split at hs
        · rename_i hroom
          cases hs
          have hg := h.ahead 0 hn (by simpa [Net.upOpen] using hf) hr
          have hp := h.pipe 0 hn hr
          simp only [Net.up] at hg hp
          have eqs : ∀ j, ((net.set 0 { net.cmds 0 with buf := (net.cmds 0).buf ++ [b] }).cmds j) =
              { net.cmds j with buf := (net.cmds j).buf ++ (if j = 0 then [b] else []) } := by
            intro j
            by_cases hj : j = 0
            · subst hj; rw [set_self, if_pos rfl]
            · rw [set_other _ _ hj, if_neg hj]; exact cmd_buf_nil _
          refine ⟨?_, ?_, ?_, ?_, ?_, ?_, ?_, ?_, ?_, ?_, ?_, ?_⟩
          · intro j hj; dsimp only; rw [eqs]; exact h.loc j hj
          · intro j hj; dsimp only; rw [eqs]; exact h.before j hj
          · intro j hj
            dsimp only
            rw [eqs]
            intro hrj
            dsimp only
            cases j with
            | zero =>
              simp only [Net.up, if_true]
              rw [List.drop_append_of_le_length hg, ← hp]
            | succ j =>
              simp only [Net.up, Nat.succ_ne_zero, if_false, List.append_nil]
              rw [eqs]
              exact h.pipe (j + 1) hj hrj
          · intro j hj hu
            dsimp only
            rw [eqs]
            intro hrj
            dsimp only
            cases j with
            | zero =>
              simp only [Net.up, List.length_append]
              omega
            | succ j =>
              simp only [Net.up]
              rw [eqs]
              refine h.ahead (j + 1) hj ?_ hrj
              simp only [Net.upOpen] at hu ⊢
              rw [eqs] at hu
              exact hu
          · dsimp only; rw [List.append_assoc, ← h.sent, he]; rfl
          · intro hf'; dsimp only [Net.set] at hf'; exact absurd hf' hf
          · intro j hj; dsimp only; rw [eqs, eqs]; exact h.killed j hj
          · intro j hj; dsimp only; rw [eqs, eqs]; exact h.full j hj
          · dsimp only; rw [eqs]; exact h.out
          · dsimp only; rw [eqs]; exact h.outDone
          · intro j hj; dsimp only; rw [eqs]; exact h.err j hj
          · intro j hj; dsimp only; rw [eqs]; exact h.errDone j hj
        · cases hs
    · rename_i hr
      cases hs
      exact close (.inr (by simpa using hr))

theorem readOut_inv {cfg : Cfg S} {net net' : Net S} (h : Inv cfg net) (hs : cfg.step net .readOut = some net') : Inv cfg net' := by
  simp only [Cfg.step] at hs
  split at hs
  · cases hs
  · rename_i hd
    split at hs
    · rename_i b r hb
      cases hs
      have hout := h.out
      exact { h with
        pipe := fun i hi hr => by cases i <;> exact h.pipe _ hi hr
        ahead := fun i hi hu hr => by cases i <;> exact h.ahead _ hi hu hr
        out := by rw [← hout, hb]; simp
        outDone := fun hd' => absurd hd' hd }
    · rename_i hb
      split at hs
      · cases hs
      · rename_i hw
        cases hs
        exact { h with
          pipe := fun i hi hr => by cases i <;> exact h.pipe _ hi hr
          ahead := fun i hi hu hr => by cases i <;> exact h.ahead _ hi hu hr
          outDone := fun _ => ⟨hb, by simpa using hw⟩ }

theorem readErr_inv {cfg : Cfg S} {net net' : Net S} {i : Nat} (h : Inv cfg net) (hs : cfg.step net (.readErr i) = some net') :
    Inv cfg net' := by
  simp only [Cfg.step] at hs
  split at hs
  · rename_i hi
    obtain ⟨seen, h1, h2, h3, h4⟩ := h.err i hi.1
    split at hs
    · rename_i b r hb
      rw [hb] at h1
      split at hs
      · rename_i hfull
        cases hs
        refine h.change _ rfl rfl rfl id (fun hi => h.killed i hi) (fun _ => ⟨seen ++ [b], ?_, ?_, ?_, ?_⟩) fun _ hd => ?_
        · simpa using h1
        · have := h4.1 hfull
          dsimp only
          rw [h2, List.take_append_of_le_length (by omega)]
        · simp [h3]
        · simp only [hfull, List.length_append, true_iff, List.length_singleton]
          have := h4.1 hfull
          omega
        · dsimp only at hd; rw [hi.2] at hd; cases hd
      · rename_i hfull
        cases hs
        have hle : seen.length ≤ cfg.limit := by
          refine Nat.le_of_not_lt fun hlt => hfull (h4.2 hlt)
        have hk : (net.cmds i).errKept = seen := by rw [h2, List.take_of_length_le hle]
        refine h.change _ rfl rfl rfl id (fun hi => h.killed i hi) (fun _ => ⟨seen ++ [b], ?_, ?_, ?_, ?_⟩) fun _ hd => ?_
        · simpa using h1
        · dsimp only; rw [hk]
        · simp [h3]
        · dsimp only; rw [hk]; simp
        · dsimp only at hd; rw [hi.2] at hd; cases hd
    · rename_i hb
      split at hs
      · cases hs
      · rename_i ha
        cases hs
        exact h.change _ rfl rfl rfl id (fun hi => h.killed i hi) (fun _ => ⟨seen, h1, h2, h3, h4⟩) fun _ _ =>
          ⟨hb, by cases hq : (net.cmds i).alive with
            | true => exact absurd hq ha
            | false => exact hq⟩
  · cases hs

theorem step_inv {cfg : Cfg S} {net net' : Net S} {w : Who} (hn : 0 < cfg.n) (h : Inv cfg net) (hs : cfg.step net w = some net') : Inv cfg net' := by
  cases w with
  | feed => exact feed_inv hn h hs
  | readOut => exact readOut_inv h hs
  | readErr i => exact readErr_inv h hs
  | cmd i =>
    simp only [Cfg.step] at hs
    split at hs
    · rename_i hi
      rcases cmdStep_moved hi.2 hs with ⟨a, w, e, m⟩ | m
      · exact m.inv h hi.1 hi.2
      · exact m.inv h hi.2
    · cases hs

theorem run_inv {cfg : Cfg S} {net net' : Net S} {ws : List Who} (hn : 0 < cfg.n) (h : Inv cfg net) (hs : cfg.run net ws = some net') :
    Inv cfg net' := by
  induction ws generalizing net with
  | nil => cases hs; exact h
  | cons w ws ih =>
    simp only [Cfg.run] at hs
    split at hs
    · rename_i n1 h1
      exact ih (step_inv hn h h1) hs
    · cases hs

end Shellous.Flow
