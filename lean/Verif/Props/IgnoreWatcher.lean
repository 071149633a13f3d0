import Verif.Spec.IgnoreWatcher

/-! # C84: exactly one party waits for a child -/

namespace Shellous.Ign

/-- What holds of every launch at all times. -/
structure Job.Inv (j : Job) : Prop where
  ign : j.ignore = ignoreOf j.launch
  var : j.var = true → j.ignore = some true ∧ (j.pc = .launch ∨ j.pc = .leave)
  set : j.ignore = some true → j.pc = .launch → j.var = true
  unborn : j.born = false → j.watched = 0
  born : j.born = true → j.pc = .leave ∨ j.pc = .done
  others : j.born = true → j.ignore ≠ some true → j.watched = 1
  path : j.ignore ≠ some true → j.pc ≠ .mark ∧ j.pc ≠ .save ∧ ∀ n, j.pc ≠ .install n

theorem reaches_false (n : Nat) : reaches false n = true := by
  induction n with
  | zero => rfl
  | succ n ih => simp [reaches, ih]

theorem reaches_true {n : Nat} (h : 0 < n) : reaches true n = false := by
  cases n with
  | zero => omega
  | succ n => rfl

theorem Job.Inv.next {j : Job} (h : j.Inv) (ok f : Bool) (d : Nat) : (j.next ok f d).1.Inv := by
  have hb : j.pc ≠ .leave → j.pc ≠ .done → j.born = false := by
    intro h1 h2
    cases hq : j.born with
    | false => rfl
    | true => rcases h.born hq with h' | h' <;> contradiction
  have hv : j.pc ≠ .launch → j.pc ≠ .leave → j.var = false := by
    intro h1 h2
    cases hq : j.var with
    | false => rfl
    | true => rcases (h.var hq).2 with h' | h' <;> contradiction
  unfold Job.next
  split
  · rename_i hp
    have hb := hb (by simp [hp]) (by simp [hp])
    have hv := hv (by simp [hp]) (by simp [hp])
    split
    · rename_i hi
      exact ⟨h.ign, by simp [hv], by simp [hi], h.unborn, by simp [hb], by simp [hb], by simp⟩
    · rename_i ig hi
      refine ⟨h.ign, by simp [hv], ?_, h.unborn, by simp [hb], by simp [hb], ?_⟩
      · dsimp only; split <;> simp
      · cases ig <;> simp [hi]
  · rename_i hp
    have hb := hb (by simp [hp]) (by simp [hp])
    have hv := hv (by simp [hp]) (by simp [hp])
    exact ⟨h.ign, by simp [hv], by simp, h.unborn, by simp [hb], by simp [hb], fun hi => absurd hp (h.path hi).1⟩
  · rename_i hp
    have hb := hb (by simp [hp]) (by simp [hp])
    have hv := hv (by simp [hp]) (by simp [hp])
    exact ⟨h.ign, by simp [hv], by simp, h.unborn, by simp [hb], by simp [hb], fun hi => absurd hp (h.path hi).2.1⟩
  · rename_i hp
    have hb := hb (by simp [hp]) (by simp [hp])
    have hv := hv (by simp [hp]) (by simp [hp])
    exact ⟨h.ign, by simp [hv], by simp, h.unborn, by simp [hb], by simp [hb], by simp⟩
  · rename_i hp
    have hb := hb (by simp [hp]) (by simp [hp])
    exact ⟨h.ign, by simp, by simp, h.unborn, by simp [hb], by simp [hb], by simp⟩
  · rename_i hp
    have hb := hb (by simp [hp]) (by simp [hp])
    have h0 := h.unborn hb
    split
    · refine ⟨h.ign, fun hq => ⟨(h.var hq).1, .inr rfl⟩, by simp, by simp, by simp, fun _ hi => ?_, by simp⟩
      have hv : j.var = false := by
        cases hq : j.var with
        | false => rfl
        | true => exact absurd (h.var hq).1 hi
      simp [h0, hv, reaches_false]
    · exact ⟨h.ign, fun hq => ⟨(h.var hq).1, .inr rfl⟩, by simp, by simp [h0], by simp, by simp [hb], by simp⟩
  · rename_i hp
    refine ⟨h.ign, fun hq => ?_, by simp, h.unborn, by simp, h.others, by simp⟩
    have : j.var = true ∧ j.ignore = none := by
      cases hi : j.ignore <;> simp [hi] at hq
      exact ⟨hq, rfl⟩
    have h2 := (h.var this.1).1
    rw [this.2] at h2; cases h2
  · exact h

/-- All launches are as they should be. -/
def World.Inv (w : World) : Prop := ∀ j, j ∈ w.jobs → j.Inv

theorem fresh_inv (t : Nat) (l : Option (Bool × Bool)) : (Job.new t l false).Inv :=
  ⟨rfl, by simp [Job.new], by simp [Job.new], by simp [Job.new], by simp [Job.new], by simp [Job.new], by simp [Job.new]⟩

/-- A task that creates another has the default in its context. -/
theorem World.Inv.copy {w : World} (h : w.Inv) {p : Nat} {j : Job} (hj : w.jobs[p]? = some j) (hp : j.pc = .enter ∨ j.pc = .done) :
    j.var = false := by
  cases hq : j.var with
  | false => rfl
  | true =>
    have := ((h j (List.mem_of_getElem? hj)).var hq).2
    rcases hp with hp | hp <;> simp [hp] at this

/-- Induction over histories: what every creation and every step keep holds always. -/
theorem keeps {P : World → Prop} (ok : Ev → Prop) (hc : ∀ (w : World) t ig, ok (.create none t ig) ∨ (∃ p, ok (.create (some p) t ig)) → P w →
      P { w with jobs := w.jobs ++ [Job.new t ig false] })
    (hs : ∀ (w : World) i j b, w.Inv → P w → w.jobs[i]? = some j → w.blocked i j.thread = false →
      P { flag := (j.next b w.flag w.depth).2.1, depth := (j.next b w.flag w.depth).2.2, jobs := w.jobs.set i (j.next b w.flag w.depth).1 })
    (w : World) (evs : List Ev) (he : ∀ e, e ∈ evs → ok e) (hi : w.Inv) (h : P w) : (w.run evs).Inv ∧ P (w.run evs) := by
  induction evs generalizing w with
  | nil => exact ⟨hi, h⟩
  | cons e evs ih =>
    have step : (w.ev e).Inv ∧ P (w.ev e) := by
      have app : ∀ t ig, World.Inv { w with jobs := w.jobs ++ [Job.new t ig false] } := by
        intro t ig j hj
        rcases List.mem_append.1 hj with hj | hj
        · exact hi j hj
        · rw [List.mem_singleton.1 hj]; exact fresh_inv t ig
      cases e with
      | create parent t ig =>
        have hok := he _ (List.mem_cons_self ..)
        cases parent with
        | none => exact ⟨app t ig, hc w t ig (.inl hok) h⟩
        | some p =>
          simp only [World.ev]
          split
          · rename_i j hj
            split
            · rename_i hp
              rw [hi.copy hj hp]
              exact ⟨app t ig, hc w t ig (.inr ⟨p, hok⟩) h⟩
            · exact ⟨hi, h⟩
          · exact ⟨hi, h⟩
      | step i b =>
        simp only [World.ev]
        split
        · rename_i j hj
          split
          · exact ⟨hi, h⟩
          · rename_i hb
            refine ⟨fun k hk => ?_, hs w i j b hi h hj (by simpa using hb)⟩
            rcases List.mem_or_eq_of_mem_set hk with hk | rfl
            · exact hi k hk
            · exact (hi j (List.mem_of_getElem? hj)).next b _ _
        · exact ⟨hi, h⟩
    exact ih (w.ev e) (fun e' h' => he e' (List.mem_cons_of_mem _ h')) step.1 step.2

theorem start_inv (w : World) (h : w.jobs = []) : w.Inv := by
  intro j hj; rw [h] at hj; cases hj

theorem polled_iff {j : Job} (hi : j.Inv) : polled j.launch = true ↔ j.ignore = some true := by
  rw [hi.ign]
  rcases j.launch with _ | ⟨b, p⟩
  · simp [polled, ignoreOf]
  · cases b <;> cases p <;> simp [polled, ignoreOf, RCfg.bsdPty]

/-- **C84** for all children but those on a BSD pty, be they launched by shellous or not, whatever the threads do: the child watcher gets
each of them, once. -/
theorem C84_others (evs : List Ev) (j : Job) (hj : j ∈ (World.run {} evs).jobs) (hb : j.born = true) (hi : polled j.launch = false) :
    j.watched = 1 := by
  have h := ((keeps (P := fun _ => True) (fun _ => True) (fun _ _ _ _ _ => trivial) (fun _ _ _ _ _ _ _ _ => trivial) {} evs (fun _ _ => trivial)
    (start_inv _ rfl) trivial).1 j hj)
  exact h.others hb fun hq => by rw [(polled_iff h).2 hq] at hi; cases hi

/-- A child on a BSD pty has not been handed to the watcher, and will not be. -/
def Job.Safe (d : Nat) (j : Job) : Prop :=
  j.ignore = some true → j.watched = 0 ∧ (j.pc = .setVar ∨ j.pc = .launch → 0 < d)

theorem Job.Safe.next {j : Job} {d : Nat} (hi : j.Inv) (h : j.Safe d) (ok f : Bool)
    (hf : j.pc = .enter → j.ignore = some true → f = true → 0 < d) : (j.next ok f d).1.Safe (j.next ok f d).2.2 := by
  unfold Job.next
  split
  · rename_i hp
    split
    · rename_i hn
      intro h'; simp [hn] at h'
    · rename_i ig hg
      intro h'
      dsimp only at h' ⊢
      refine ⟨(h h').1, ?_⟩
      have : ig = true := by rw [hg] at h'; simpa using h'
      subst this
      cases f with
      | false => simp
      | true => exact fun _ => hf hp h' rfl
  · intro h'; exact ⟨(h h').1, by simp⟩
  · intro h'; exact ⟨(h h').1, by simp⟩
  · intro h'; exact ⟨(h h').1, fun _ => Nat.succ_pos _⟩
  · rename_i hp
    intro h'; exact ⟨(h h').1, fun _ => (h h').2 (.inl hp)⟩
  · rename_i hp
    split
    · intro h'
      have h0 := h h'
      refine ⟨?_, by simp⟩
      simp [h0.1, hi.set h' hp, reaches_true (h0.2 (.inr hp))]
    · intro h'; exact ⟨(h h').1, by simp⟩
  · intro h'; exact ⟨(h h').1, by simp⟩
  · exact h

theorem next_depth (j : Job) (ok f : Bool) (d : Nat) (h : 0 < d) : 0 < (j.next ok f d).2.2 := by
  unfold Job.next
  split <;> (try split) <;> first | exact h | exact Nat.succ_pos _

theorem Job.Safe.deeper {j : Job} {d d' : Nat} (h : j.Safe d) (hd : 0 < d → 0 < d') : j.Safe d' :=
  fun hi => ⟨(h hi).1, fun hp => hd ((h hi).2 hp)⟩

theorem parties_of {j : Job} {d : Nat} (hi : j.Inv) (hs : j.Safe d) (hb : j.born = true) : j.parties = 1 := by
  unfold Job.parties
  simp only [polled_iff hi]
  by_cases h : j.ignore = some true
  · rw [(hs h).1, if_pos h]
  · rw [hi.others hb h, if_neg h]

/-- **C84** once the wrapper is in place, for all histories with any number of threads: exactly one party waits for each child. -/
theorem C84_patched (w : World) (hn : w.jobs = []) (hd : 0 < w.depth) (evs : List Ev) (j : Job) (hj : j ∈ (w.run evs).jobs)
    (hb : j.born = true) : j.parties = 1 := by
  have h := keeps (P := fun w => 0 < w.depth ∧ ∀ j, j ∈ w.jobs → j.Safe w.depth) (fun _ => True)
    (fun w t ig _ h => ⟨h.1, fun j hj => by
      rcases List.mem_append.1 hj with hj | hj
      · exact h.2 j hj
      · rw [List.mem_singleton.1 hj]; exact fun _ => ⟨rfl, by simp [Job.new]⟩⟩)
    (fun w i j b hI h hj _ => ⟨next_depth j b w.flag w.depth h.1, fun k hk => by
      rcases List.mem_or_eq_of_mem_set hk with hk | rfl
      · exact (h.2 k hk).deeper fun hp => next_depth j b w.flag w.depth hp
      · exact (h.2 j (List.mem_of_getElem? hj)).next (hI j (List.mem_of_getElem? hj)) b _ fun _ _ _ => h.1⟩)
    w evs (fun _ _ => trivial) (start_inv w hn) ⟨hd, fun j hj => by rw [hn] at hj; cases hj⟩
  exact parties_of (h.1 j hj) (h.2.2 j hj) hb

/-- The invariant with one thread: the flag says that the wrapper is in place, or that somebody is about to put it there. -/
structure Single (t : Nat) (w : World) : Prop where
  thread : ∀ j, j ∈ w.jobs → j.thread = t
  safe : ∀ j, j ∈ w.jobs → j.Safe w.depth
  flag : w.flag = true → 0 < w.depth ∨ ∃ (k : Nat) (j : Job), w.jobs[k]? = some j ∧ (j.pc = .save ∨ ∃ n, j.pc = .install n)

theorem not_blocked {w : World} {i k t : Nat} {j : Job} (h : w.blocked i t = false) (hk : w.jobs[k]? = some j) (ht : j.thread = t)
    (hb : j.pc.busy = true) : k = i := by
  refine Classical.byContradiction fun hne => ?_
  have hlt := (List.getElem?_eq_some_iff.1 hk).1
  have : w.blocked i t = true := by
    unfold World.blocked
    rw [List.any_eq_true]
    refine ⟨k, List.mem_range.2 hlt, ?_⟩
    simp [hk, ht, hb, hne]
  rw [h] at this; cases this

/-- **C84** with one thread: exactly one party waits for each child. -/
theorem C84_one_party_partial (evs : List Ev) (h1 : OneThread evs) (j : Job) (hj : j ∈ (World.run {} evs).jobs) (hb : j.born = true) :
    j.parties = 1 := by
  obtain ⟨t, ht⟩ := h1
  have h := keeps (P := Single t) (fun e => ∀ p t' ig, e = .create p t' ig → t' = t) (fun w t' ig ho h => ?_) (fun w i j b hI h hj hnb => ?_)
    {} evs (fun e he p t' ig hq => ht p t' ig (hq ▸ he)) (start_inv _ rfl)
    ⟨(by intro j hj; cases hj), (by intro j hj; cases hj), by simp⟩
  · exact parties_of (h.1 j hj) (h.2.safe j hj) hb
  · have : t' = t := by
      rcases ho with ho | ⟨p, ho⟩
      · exact ho _ _ _ rfl
      · exact ho _ _ _ rfl
    subst this
    refine ⟨fun j hj => ?_, fun j hj => ?_, fun hf => (h.flag hf).imp_right ?_⟩
    · rcases List.mem_append.1 hj with hj | hj
      · exact h.thread j hj
      · rw [List.mem_singleton.1 hj]; rfl
    · rcases List.mem_append.1 hj with hj | hj
      · exact h.safe j hj
      · rw [List.mem_singleton.1 hj]; exact fun _ => ⟨rfl, by simp [Job.new]⟩
    · rintro ⟨k, j, hk, hp⟩
      exact ⟨k, j, by rw [List.getElem?_append_left (List.getElem?_eq_some_iff.1 hk).1]; exact hk, hp⟩
  · have hm := List.mem_of_getElem? hj
    have hlt := (List.getElem?_eq_some_iff.1 hj).1
    -- whoever is patching is this job
    have me : ∀ (k : Nat) (j' : Job), w.jobs[k]? = some j' → (j'.pc = .save ∨ ∃ n, j'.pc = .install n) → j' = j := by
      intro k j' hk hp
      have : k = i := not_blocked hnb hk ((h.thread j' (List.mem_of_getElem? hk)).trans (h.thread j hm).symm)
        (by rcases hp with hp | ⟨n, hp⟩ <;> rw [hp] <;> rfl)
      subst this
      rw [hj] at hk; exact (Option.some.inj hk).symm
    have hset : (w.jobs.set i (j.next b w.flag w.depth).1)[i]? = some (j.next b w.flag w.depth).1 := by
      rw [List.getElem?_set_self hlt]
    refine ⟨fun k hk => ?_, fun k hk => ?_, fun hf => ?_⟩
    · rcases List.mem_or_eq_of_mem_set hk with hk | rfl
      · exact h.thread k hk
      · refine Eq.trans ?_ (h.thread j hm)
        unfold Job.next
        split <;> (try split) <;> rfl
    · rcases List.mem_or_eq_of_mem_set hk with hk | rfl
      · exact (h.safe k hk).deeper fun hp => next_depth j b w.flag w.depth hp
      · refine (h.safe j hm).next (hI j hm) b _ fun hp _ hf => ?_
        rcases h.flag hf with h' | ⟨k, j', hk, hp'⟩
        · exact h'
        · rw [me k j' hk hp', hp] at hp'; simp at hp'
    · dsimp only at hf ⊢
      have old : w.flag = true → j.pc ≠ .save → (∀ n, j.pc ≠ .install n) → 0 < w.depth := by
        intro hf h1 h2
        rcases h.flag hf with h' | ⟨k, j', hk, hp'⟩
        · exact h'
        · rw [me k j' hk hp'] at hp'
          rcases hp' with hp' | ⟨n, hp'⟩
          · exact absurd hp' h1
          · exact absurd hp' (h2 n)
      cases hp : j.pc with
      | mark => exact .inr ⟨i, _, hset, .inl (by simp [Job.next, hp])⟩
      | save => exact .inr ⟨i, _, hset, .inr ⟨w.depth, by simp [Job.next, hp]⟩⟩
      | install n => left; simp [Job.next, hp]
      | enter =>
        left
        refine next_depth _ _ _ _ (old ?_ (by simp [hp]) (by simp [hp]))
        simp only [Job.next, hp] at hf
        split at hf <;> exact hf
      | setVar => left; exact next_depth _ _ _ _ (old (by simpa [Job.next, hp] using hf) (by simp [hp]) (by simp [hp]))
      | launch =>
        left
        refine next_depth _ _ _ _ (old ?_ (by simp [hp]) (by simp [hp]))
        simp only [Job.next, hp] at hf
        split at hf <;> exact hf
      | leave => left; exact next_depth _ _ _ _ (old (by simpa [Job.next, hp] using hf) (by simp [hp]) (by simp [hp]))
      | done => left; exact next_depth _ _ _ _ (old (by simpa [Job.next, hp] using hf) (by simp [hp]) (by simp [hp]))

/-- The invariant with one thread: the wrapper is put in place by one job, once. -/
structure Once (t : Nat) (w : World) : Prop where
  thread : ∀ j, j ∈ w.jobs → j.thread = t
  flag : w.flag = false → w.depth = 0
  mark : ∀ j, j ∈ w.jobs → j.pc = .mark → w.flag = false
  save : ∀ j, j ∈ w.jobs → j.pc = .save → w.depth = 0 ∧ w.flag = true
  install : ∀ j n, j ∈ w.jobs → j.pc = .install n → n = 0 ∧ w.flag = true
  depth : w.depth ≤ 1

/-- **C84** with one thread: however many children are launched on ptys, the child watcher is wrapped at most once, so wrappers do not pile up. -/
theorem C84_once_partial (evs : List Ev) (h1 : OneThread evs) : (World.run {} evs).depth ≤ 1 := by
  obtain ⟨t, ht⟩ := h1
  refine (keeps (P := Once t) (fun e => ∀ p t' ig, e = .create p t' ig → t' = t) (fun w t' ig ho h => ?_) (fun w i j b hI h hj hnb => ?_)
    {} evs (fun e he p t' ig hq => ht p t' ig (hq ▸ he)) (start_inv _ rfl)
    ⟨(by intro j hj; cases hj), fun _ => rfl, (by intro j hj; cases hj), (by intro j hj; cases hj), (by intro j n hj; cases hj), Nat.zero_le _⟩).2.depth
  · have : t' = t := by
      rcases ho with ho | ⟨p, ho⟩
      · exact ho _ _ _ rfl
      · exact ho _ _ _ rfl
    subst this
    have new : ∀ j, j ∈ w.jobs ++ [Job.new t' ig false] → j ∈ w.jobs ∨ j = Job.new t' ig false := fun j hj => by
      rcases List.mem_append.1 hj with hj | hj
      · exact .inl hj
      · exact .inr (List.mem_singleton.1 hj)
    refine ⟨fun j hj => ?_, h.flag, fun j hj hp => ?_, fun j hj hp => ?_, fun j n hj hp => ?_, h.depth⟩
    all_goals rcases new j hj with hj | rfl
    · exact h.thread j hj
    · rfl
    · exact h.mark j hj hp
    · simp [Job.new] at hp
    · exact h.save j hj hp
    · simp [Job.new] at hp
    · exact h.install j n hj hp
    · simp [Job.new] at hp
  · have hm := List.mem_of_getElem? hj
    have hlt := (List.getElem?_eq_some_iff.1 hj).1
    -- nobody else is in the middle of something
    have me : ∀ k : Job, k ∈ w.jobs.set i (j.next b w.flag w.depth).1 → k.pc.busy = true → k = (j.next b w.flag w.depth).1 := by
      intro k hk hb
      obtain ⟨m, hm'⟩ := List.mem_iff_getElem?.1 hk
      by_cases e : m = i
      · subst e; rw [List.getElem?_set_self hlt] at hm'; exact (Option.some.inj hm').symm
      · rw [List.getElem?_set_ne (Ne.symm e)] at hm'
        exact absurd (not_blocked hnb hm' ((h.thread k (List.mem_of_getElem? hm')).trans (h.thread j hm).symm) hb) e
    have hth : (j.next b w.flag w.depth).1.thread = t := by
      refine Eq.trans ?_ (h.thread j hm)
      unfold Job.next
      split <;> (try split) <;> rfl
    refine ⟨fun k hk => ?_, ?_, fun k hk hp => ?_, fun k hk hp => ?_, fun k n hk hp => ?_, ?_⟩
    · rcases List.mem_or_eq_of_mem_set hk with hk | rfl
      · exact h.thread k hk
      · exact hth
    · have h1 := h.flag
      have h2 := fun n => h.install j n hm
      unfold Job.next
      split <;> (try split) <;> simp_all
    · rw [me k hk (by rw [hp]; rfl)] at hp
      have h1 := h.mark j hm
      revert hp
      unfold Job.next
      split <;> (try split) <;> (try simp_all) <;> (try (split <;> simp_all))
    · rw [me k hk (by rw [hp]; rfl)] at hp
      have h1 := h.mark j hm
      have h2 := h.flag
      revert hp
      unfold Job.next
      split <;> (try split) <;> (try simp_all) <;> (try (split <;> simp_all))
    · rw [me k hk (by rw [hp]; rfl)] at hp
      have h1 := h.save j hm
      revert hp
      unfold Job.next
      split <;> (try split) <;> (try simp_all) <;> (try (split <;> simp_all))
    · have h1 := h.depth
      have h2 := fun n => h.install j n hm
      unfold Job.next
      split <;> (try split) <;> simp_all

/-- **C84** with two threads the watcher may be wrapped twice: both see that the flag is not set. -/
theorem C84_once_false : (World.run {} [.create none 0 (some (true, true)), .create none 1 (some (true, true)), .step 0 true, .step 1 true,
    .step 0 true, .step 0 true, .step 0 true, .step 1 true, .step 1 true, .step 1 true]).depth = 2 := by decide

/-- Where there is no BSD pty, shellous leaves the child watcher alone. -/
theorem C84_untouched (evs : List Ev) (h : ∀ p t bsd pty, Ev.create p t (some (bsd, pty)) ∈ evs → ¬(bsd = true ∧ pty = true)) :
    (World.run {} evs).depth = 0 ∧ (World.run {} evs).flag = false := by
  refine And.imp_right (fun h => h) (And.left (b := ∀ j, j ∈ (World.run {} evs).jobs → j.ignore ≠ some true) ?_)
  have := (keeps (P := fun w => (w.depth = 0 ∧ w.flag = false) ∧ ∀ j, j ∈ w.jobs → j.ignore ≠ some true)
    (fun e => ∀ p t l, e = .create p t l → ignoreOf l ≠ some true) (fun w t ig ho h => ⟨h.1, fun j hj => ?_⟩)
    (fun w i j b hI h hj _ => ?_) {} evs (fun e he p t l hq => by
      subst hq
      rcases l with _ | ⟨b, q⟩
      · simp [ignoreOf]
      · have := h p t b q he
        simpa [ignoreOf] using this) (start_inv _ rfl)
    ⟨⟨rfl, rfl⟩, by intro j hj; cases hj⟩).2
  · exact this
  · rcases List.mem_append.1 hj with hj | hj
    · exact h.2 j hj
    · rw [List.mem_singleton.1 hj]
      rcases ho with ho | ⟨p, ho⟩
      · exact ho _ _ _ rfl
      · exact ho _ _ _ rfl
  · have hm := List.mem_of_getElem? hj
    have hi := h.2 j hm
    have hp := (hI j hm).path hi
    refine ⟨?_, fun k hk => ?_⟩
    · unfold Job.next
      split
      · split <;> exact h.1
      · rename_i h'; exact absurd h' hp.1
      · rename_i h'; exact absurd h' hp.2.1
      · rename_i n h'; exact absurd h' (hp.2.2 n)
      · exact h.1
      · split <;> exact h.1
      · exact h.1
      · exact h.1
    · rcases List.mem_or_eq_of_mem_set hk with hk | rfl
      · exact h.2 k hk
      · intro hq
        refine hi (Eq.trans ?_ hq)
        unfold Job.next
        split <;> (try split) <;> rfl

/-- Two threads that both launch their first pty child: the second sees the flag before the first has put the wrapper in place. -/
def race : List Ev :=
  [.create none 0 (some (true, true)), .create none 1 (some (true, true)), .step 0 true, .step 0 true, .step 1 true, .step 1 true, .step 1 true]

/-- **C84** is false with two threads: `_shellous_patched` is set before the wrapper is there, so a child may be handed to the child watcher and be
polled by its runner as well. -/
theorem C84_one_party_false : ∃ j, j ∈ (World.run {} race).jobs ∧ j.born = true ∧ j.parties = 2 :=
  ⟨{ thread := 1, launch := some (true, true), ignore := some true, pc := .leave, var := true, watched := 1, born := true }, by decide, rfl, by decide⟩

/-- One thread: two children on ptys, one by shellous without a pty, one by asyncio, interleaved. -/
def mixture : List Ev :=
  [.create none 0 (some (true, true)), .create (some 0) 0 none, .create none 0 (some (true, false)), .step 0 true, .step 1 true, .step 0 true, .step 0 true,
    .step 0 true, .step 0 true, .step 0 true, .step 2 true, .step 2 true, .step 2 true, .step 1 true, .step 1 true, .create none 0 (some (true, true)),
    .step 3 true, .step 3 true, .step 3 true, .step 0 true]

example : OneThread mixture := ⟨0, by
  intro p t' ig h
  simp only [mixture, List.mem_cons, Ev.create.injEq, List.not_mem_nil, reduceCtorEq, false_or, or_false] at h
  rcases h with h | h | h | h <;> exact h.2.1⟩

example : ((World.run {} mixture).jobs.map fun j => (j.born, j.watched, j.parties)) =
    [(true, 0, 1), (true, 1, 1), (true, 1, 1), (true, 0, 1)] := by decide

-- Children on ptys, one after another: one wrapper.
example : (World.run {} mixture).depth = 1 := by decide

end Shellous.Ign
