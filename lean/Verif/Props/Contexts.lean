import Verif.Lemmas.Contexts

/-!
# C57: commands are re-entrant context managers
-/

namespace Shellous.Props

/-- C57, "each exit closes the run opened by the matching enter of the same task, never another's": after any history of
enters and exits, of any number of tasks and commands, with shared, copied and new contexts, with addresses that are used
again: when task `t` leaves a block of the command `o`, the run that is closed is the latest one that `t` itself has opened
for `o` and not yet closed. -/
theorem C57_exit {l : List CEv} (h : PossibleHistory l) {t o n : Nat} {rest : List Nat}
    (hx : (CW.after l).allows (.exit t o)) (hopen : openRuns t o l = n :: rest) : (CW.after l).closes t o = .ok n := by
  obtain ⟨a, c, b, ht, ho⟩ := live hx
  have hi := cinv_after h
  unfold CW.closes
  rw [look_some ht ho]
  cases hv : (CW.after l).var c with
  | none =>
    have := hi.unset t o a c b ht ho hv
    rw [this] at hopen; cases hopen
  | some d =>
    obtain ⟨r, hr⟩ := hi.own t o a c b d ht ho hv
    unfold CW.stack openStack at hr
    rw [hopen] at hr
    dsimp only
    rw [hr]
    rfl

/-- C57, the same by blocks: task `t` enters a block of `o` (the run it opens has the number `entered l1`), enters and
leaves any blocks of `o` inside it, while all the other tasks do what they like; when it leaves the block, the run that
is closed is the one that was opened. -/
theorem C57_matching {l1 l2 l3 : List CEv} {t o : Nat}
    (h : PossibleHistory ((l1 ++ .enter t o :: l2) ++ .exit t o :: l3)) (hb : Balanced t o l2) :
    (CW.after (l1 ++ .enter t o :: l2)).closes t o = .ok (entered l1) := by
  have hp : PossibleHistory (l1 ++ .enter t o :: l2) := fun a e b he =>
    h a e (b ++ .exit t o :: l3) (by rw [he]; simp)
  refine C57_exit hp (h _ _ l3 rfl) (rest := openRuns t o l1) ?_
  unfold openRuns
  rw [openFrom_append, openFrom, balanced_open hb]
  simp [openStep]

/-- C57, "never another's": when every task leaves its blocks before it ends, leaving a block that was not entered closes
nothing: it raises RuntimeError. -/
theorem C57_stray {l : List CEv} (h : PossibleHistory l) (htidy : Tidy l) {t o : Nat}
    (hx : (CW.after l).allows (.exit t o)) (hopen : openRuns t o l = []) :
    (CW.after l).closes t o = .error .runtimeError := by
  obtain ⟨a, c, b, ht, ho⟩ := live hx
  have hi := cinv_after h
  unfold CW.closes
  rw [look_some ht ho]
  cases hv : (CW.after l).var c with
  | none => rfl
  | some d =>
    have hz : (CW.after l).stack d ⟨b, a⟩ = [] := by
      refine Classical.byContradiction fun hne => ?_
      obtain ⟨t', o', a', c', b', h1, h2, h3, h4, h5⟩ := accounted_after h htidy d _ hne
      cases h3
      obtain rfl := hi.taskAddr _ _ _ _ _ h1 ht
      obtain rfl := hi.cmdAddr _ _ _ h2 ho
      rw [h5, openStack, hopen] at hne
      exact hne rfl
    unfold CW.stack at hz
    dsimp only
    rw [hz]

/-- C57, an exit changes nothing for the other blocks: what the other tasks have open of any command, and what this task
has open of other commands, is closed by their exits as before. -/
theorem C57_isolated {l : List CEv} {t o t' o' n : Nat} {rest : List Nat} (ev : CEv) (hev : ev = .enter t o ∨ ev = .exit t o)
    (h : PossibleHistory (l ++ [ev])) (hother : t' ≠ t ∨ o' ≠ o)
    (hx : (CW.after l).allows (.exit t' o')) (hopen : openRuns t' o' l = n :: rest) :
    (CW.after (l ++ [ev])).closes t' o' = .ok n := by
  have hp := h.init
  refine C57_exit h (rest := rest) ?_ ?_
  · rw [after_snoc]
    obtain ⟨a, c, b, ht, ho⟩ := live hx
    have hl := hp.2
    have key : ∀ w : CW, w.task = (CW.after l).task → w.cmd = (CW.after l).cmd → w.allows (.exit t' o') := by
      intro w h1 h2
      exact ⟨by rw [h1]; exact hx.1, by rw [h2]; exact hx.2⟩
    rcases hev with rfl | rfl
    · obtain ⟨a0, c0, b0, ht0, ho0⟩ := live hl
      refine key _ ?_ ?_ <;> rw [CW.step, push_eq ht0 ho0] <;> cases (CW.after l).var c0 <;> rfl
    · obtain ⟨a0, c0, b0, ht0, ho0⟩ := live hl
      refine key _ ?_ ?_ <;> rw [CW.step] <;> rcases pop_eq ht0 ho0 with ⟨_, he⟩ | ⟨d, v, _, he, _⟩ <;> rw [he] <;> rfl
  · rw [openRuns_same, hopen]
    · rcases hev with rfl | rfl
      · rintro heq; cases heq; exact hother.elim (· rfl) (· rfl)
      · simp
    · rcases hev with rfl | rfl
      · simp
      · rintro heq; cases heq; exact hother.elim (· rfl) (· rfl)

/-- After a task has ended, it opens and closes nothing. -/
theorem ended_stays {l1 : List CEv} {t : Nat} (l2 : List CEv) (h : PossibleHistory (l1 ++ .finish t :: l2)) :
    (CW.after (l1 ++ .finish t :: l2)).task t = none ∧ t ∈ (CW.after (l1 ++ .finish t :: l2)).tasksUsed ∧
    ∀ o, openRuns t o (l1 ++ .finish t :: l2) = openRuns t o l1 := by
  induction l2 using snoc_ind with
  | h0 =>
    have h' := h.init
    have hi := cinv_after h'.1
    rw [after_snoc]
    refine ⟨upd_same _ _ _, ?_, fun o => openRuns_same (by simp) (by simp)⟩
    have hx := h'.2
    cases ht : (CW.after l1).task t with
    | none => exact absurd ht hx
    | some x => exact hi.taskUsed t x ht
  | h1 l2 ev ih =>
    have he : l1 ++ .finish t :: (l2 ++ [ev]) = (l1 ++ .finish t :: l2) ++ [ev] := by simp
    rw [he] at h ⊢
    obtain ⟨h1, h2⟩ := h.init
    obtain ⟨i1, i2, i3⟩ := ih h1
    rw [after_snoc]
    have hne : ∀ o, ev ≠ .enter t o ∧ ev ≠ .exit t o := by
      intro o
      constructor <;> rintro rfl <;> exact h2.1 i1
    refine ⟨?_, ?_, fun o => (openRuns_same (hne o).1 (hne o).2).trans (i3 o)⟩
    · cases ev with
      | context src => cases src <;> exact i1
      | spawn t0 a0 c0 =>
        refine (upd_other _ _ ?_).trans i1
        rintro rfl; exact h2.1 i2
      | finish t0 =>
        show upd _ _ _ _ = _
        unfold upd; split
        · rfl
        · exact i1
      | alloc => exact i1
      | free => exact i1
      | enterFailed => exact i1
      | enter t0 o0 =>
        obtain ⟨a0, c0, b0, ht0, ho0⟩ := live h2
        rw [CW.step, push_eq ht0 ho0]
        split <;> exact i1
      | exit t0 o0 =>
        obtain ⟨a0, c0, b0, ht0, ho0⟩ := live h2
        rw [CW.step]
        rcases pop_eq ht0 ho0 with ⟨_, he⟩ | ⟨d, v, _, he, _⟩ <;> rw [he] <;> exact i1
    · cases ev with
      | context src => cases src <;> exact i2
      | spawn t0 a0 c0 => exact List.mem_cons_of_mem _ i2
      | finish t0 => exact i2
      | alloc => exact i2
      | free => exact i2
      | enterFailed => exact i2
      | enter t0 o0 =>
        obtain ⟨a0, c0, b0, ht0, ho0⟩ := live h2
        rw [CW.step, push_eq ht0 ho0]
        split <;> exact i2
      | exit t0 o0 =>
        obtain ⟨a0, c0, b0, ht0, ho0⟩ := live h2
        rw [CW.step]
        rcases pop_eq ht0 ho0 with ⟨_, he⟩ | ⟨d, v, _, he, _⟩ <;> rw [he] <;> exact i2

/-- C57, "when all are closed no bookkeeping remains": after any history in which nobody has left a block that it had not
entered, when all blocks are left, there is no entry in any dictionary. -/
theorem C57_no_bookkeeping {l : List CEv} (h : PossibleHistory l) (hstray : NoStrayExit l)
    (hclosed : ∀ t o, openRuns t o l = []) : ∀ d k, (CW.after l).dicts d k = none := by
  have htidy : Tidy l := by
    rintro l1 t l2 rfl o
    rw [← (ended_stays l2 h).2.2 o]
    exact hclosed t o
  intro d k
  cases hd : (CW.after l).dicts d k with
  | none => rfl
  | some s =>
    cases s with
    | nil => exact absurd hd (noJunk_after h hstray d k)
    | cons r rs =>
      have hne : (CW.after l).stack d k ≠ [] := by unfold CW.stack; rw [hd]; simp
      obtain ⟨t, o, a, c, b, h1, h2, h3, h4, h5⟩ := accounted_after h htidy d k hne
      rw [h5, openStack, hclosed t o] at hne
      exact absurd rfl hne

/-- Possible histories, event by event. -/
def allowsAll : CW → List CEv → Prop
  | _, [] => True
  | w, ev :: l => w.allows ev ∧ allowsAll (w.step ev) l

theorem possible_of {l : List CEv} (h : allowsAll {} l) : PossibleHistory l := by
  have : ∀ (l : List CEv) (w : CW), allowsAll w l → ∀ l1 ev l2, l = l1 ++ ev :: l2 → (l1.foldl CW.step w).allows ev := by
    intro l
    induction l with
    | nil => intro w _ l1 ev l2 he; simp at he
    | cons e l ih =>
      intro w hw l1 ev l2 he
      cases l1 with
      | nil => cases he; exact hw.1
      | cons e' l1 =>
        rw [List.cons_append] at he
        cases he
        exact ih _ hw.2 l1 ev l2 rfl
  exact this l {} h

/-- Two tasks whose contexts share a dictionary (the second has a copy of the first), both at work with the same command:
the first enters it twice, nested; the second enters it in between, and leaves first. -/
def twoTasks : List CEv :=
  [.context none, .alloc 0 100, .spawn 0 7 0, .enter 0 0, .context (some 0), .spawn 1 8 1, .enter 1 0, .enter 0 0, .exit 1 0,
   .exit 0 0, .exit 0 0]

theorem twoTasks_possible : PossibleHistory twoTasks := by
  apply possible_of
  simp [twoTasks, allowsAll, CW.allows, CW.step, CW.push, CW.pop, CW.look, upd, CW.put]

/-- `C57_no_bookkeeping` applies. -/
example : ∀ d k, (CW.after twoTasks).dicts d k = none := by
  refine C57_no_bookkeeping twoTasks_possible ?_ ?_
  · intro l1 t o l2 he
    have hn : l1.length < 11 := by
      have := congrArg List.length he
      simp [twoTasks] at this; omega
    have h1 : l1 = twoTasks.take l1.length := by rw [he]; simp
    have h2 : twoTasks[l1.length]? = some (.exit t o) := by rw [he]; simp
    rw [h1]
    generalize l1.length = n at *
    have : n = 0 ∨ n = 1 ∨ n = 2 ∨ n = 3 ∨ n = 4 ∨ n = 5 ∨ n = 6 ∨ n = 7 ∨ n = 8 ∨ n = 9 ∨ n = 10 := by omega
    rcases this with rfl | rfl | rfl | rfl | rfl | rfl | rfl | rfl | rfl | rfl | rfl <;> simp [twoTasks] at h2 <;>
      obtain ⟨rfl, rfl⟩ := h2 <;> decide
  · intro t o
    by_cases h0 : t = 0 ∧ o = 0
    · obtain ⟨rfl, rfl⟩ := h0; decide
    · by_cases h1 : t = 1 ∧ o = 0
      · obtain ⟨rfl, rfl⟩ := h1; decide
      · have h0' : ¬ (0 = t ∧ 0 = o) := fun hh => h0 ⟨hh.1.symm, hh.2.symm⟩
        have h1' : ¬ (1 = t ∧ 0 = o) := fun hh => h1 ⟨hh.1.symm, hh.2.symm⟩
        simp [openRuns, openFrom, openStep, twoTasks, h0', h1']

example : openRuns 0 0 (twoTasks.take 8) = [2, 0] ∧ openRuns 1 0 (twoTasks.take 8) = [1] := by decide
example : (CW.after (twoTasks.take 8)).closes 1 0 = .ok 1 ∧ (CW.after (twoTasks.take 9)).closes 0 0 = .ok 2 ∧
  (CW.after (twoTasks.take 10)).closes 0 0 = .ok 0 := ⟨rfl, rfl, rfl⟩
/-- The two tasks share the dictionary. -/
example : (CW.after twoTasks).var 0 = some 0 ∧ (CW.after twoTasks).var 1 = some 0 := by decide

/-- A history in which a command and a task are gone and both addresses are used again: the new run is found. -/
theorem reused_addresses : PossibleHistory [.context none, .alloc 0 100, .spawn 0 7 0, .enter 0 0, .exit 0 0, .finish 0, .free 0,
      .alloc 1 100, .spawn 1 7 0, .enter 1 1, .exit 1 1] ∧
    (CW.after [.context none, .alloc 0 100, .spawn 0 7 0, .enter 0 0, .exit 0 0, .finish 0, .free 0,
      .alloc 1 100, .spawn 1 7 0, .enter 1 1]).closes 1 1 = .ok 1 := by
  constructor
  · apply possible_of
    simp [allowsAll, CW.allows, CW.step, CW.push, CW.pop, CW.look, upd, CW.put]
    intro d k r hr
    split at hr
    · cases hr
    · cases hr
  · rfl

/-- Exits that match no enter (`__aexit__` called by hand, or a block of another task): RuntimeError, but an empty entry
is left in the dictionary ("no bookkeeping remains" needs that nobody does this). -/
theorem C57_limit_stray_exit : ∃ l : List CEv, PossibleHistory l ∧ Tidy l ∧ (∀ t o, openRuns t o l = []) ∧
    ∃ d k, (CW.after l).dicts d k ≠ none := by
  refine ⟨[.context none, .alloc 0 100, .spawn 0 7 0, .enter 0 0, .exit 0 0, .exit 0 0], ?_, ?_, ?_, 0, ⟨100, 7⟩, ?_⟩
  · apply possible_of
    simp [allowsAll, CW.allows, CW.step, CW.push, CW.pop, CW.look, upd, CW.put]
  · intro l1 t l2 he
    have : CEv.finish t ∈ [CEv.context none, .alloc 0 100, .spawn 0 7 0, .enter 0 0, .exit 0 0, .exit 0 0] := by
      rw [he]; simp
    simp at this
  · intro t o
    by_cases h : t = 0 ∧ o = 0
    · obtain ⟨rfl, rfl⟩ := h; decide
    · have h' : ¬ (0 = t ∧ 0 = o) := fun hh => h ⟨hh.1.symm, hh.2.symm⟩
      simp [openRuns, openFrom, openStep, h']
  · decide

/-- A task that ends inside a block (`__aenter__` called by hand) leaves its run on the stack; a later task at the same
address with the same dictionary, leaving a block it has not entered, closes that run ("never another's" needs `Tidy`). -/
theorem C57_limit_address_reuse : ∃ l : List CEv, PossibleHistory l ∧ (CW.after l).allows (.exit 1 0) ∧
    openRuns 1 0 l = [] ∧ openRuns 0 0 l = [0] ∧ (CW.after l).closes 1 0 = .ok 0 := by
  refine ⟨[.context none, .alloc 0 100, .spawn 0 7 0, .enter 0 0, .finish 0, .spawn 1 7 0], ?_, ?_, by decide, by decide, rfl⟩
  · apply possible_of
    simp [allowsAll, CW.allows, CW.step, CW.push, CW.pop, CW.look, upd, CW.put]
  · exact ⟨by decide, by decide⟩

/-- A block entered in one task and left in another is not closed: the exit raises RuntimeError and the run stays open. -/
theorem C57_limit_other_task : ∃ l : List CEv, PossibleHistory l ∧ (CW.after l).allows (.exit 1 0) ∧
    openRuns 0 0 l = [0] ∧ (CW.after l).closes 1 0 = .error .runtimeError ∧
    (CW.after (l ++ [.exit 1 0])).closes 0 0 = .ok 0 := by
  refine ⟨[.context none, .alloc 0 100, .spawn 0 7 0, .enter 0 0, .spawn 1 8 0], ?_, ?_, by decide, rfl, rfl⟩
  · apply possible_of
    simp [allowsAll, CW.allows, CW.step, CW.push, CW.pop, CW.look, upd, CW.put]
  · exact ⟨by decide, by decide⟩

end Shellous.Props
