import Verif.Spec.Contexts
import Verif.Lemmas.Upd

/-!
# The context stacks
-/

namespace Shellous

theorem openFrom_append (t o : Nat) (l l' : List CEv) (n : Nat) (s : List Nat) :
    openFrom t o n s (l ++ l') = openFrom t o (n + entered l) (openFrom t o n s l) l' := by
  induction l generalizing n s with
  | nil => rfl
  | cons ev l ih =>
    have : entered (ev :: l) = entered [ev] + entered l := by
      unfold entered
      rw [← List.length_append, ← List.filter_append]
      rfl
    rw [List.cons_append, openFrom, ih, openFrom, this]
    congr 1
    omega

theorem openRuns_snoc (t o : Nat) (l : List CEv) (ev : CEv) :
    openRuns t o (l ++ [ev]) = openStep t o (entered l) (openRuns t o l) ev := by
  unfold openRuns
  rw [openFrom_append]
  simp [openFrom]

theorem entered_snoc (l : List CEv) (ev : CEv) : entered (l ++ [ev]) = entered l + entered [ev] := by
  unfold entered
  rw [List.filter_append, List.length_append]

theorem after_snoc (l : List CEv) (ev : CEv) : CW.after (l ++ [ev]) = (CW.after l).step ev := by
  unfold CW.after
  rw [List.foldl_append]
  rfl

/-- The stack for a key. -/
def CW.stack (w : CW) (d : Nat) (k : CtxKey) : List OpenRun := (w.dicts d k).getD []

/-- The runs of `o` that `t` has open, as they are on the stack. -/
def openStack (t o : Nat) (l : List CEv) : List OpenRun := (openRuns t o l).map (⟨·, o⟩)

theorem put_stack_same (w : CW) (d : Nat) (k : CtxKey) (v : Option (List OpenRun)) : (w.put d k v).stack d k = v.getD [] := by
  simp [CW.stack, CW.put]

theorem put_stack_other (w : CW) {d d' : Nat} {k k' : CtxKey} (v : Option (List OpenRun)) (h : ¬ (d' = d ∧ k' = k)) :
    (w.put d k v).stack d' k' = w.stack d' k' := by
  simp [CW.stack, CW.put, h]

/-- What holds after every possible history. -/
structure CInv (l : List CEv) (w : CW) : Prop where
  taskUsed : ∀ t x, w.task t = some x → t ∈ w.tasksUsed
  cmdUsed : ∀ o b, w.cmd o = some b → o ∈ w.cmdsUsed
  taskNew : ∀ t o, t ∉ w.tasksUsed → openRuns t o l = []
  cmdNew : ∀ t o, o ∉ w.cmdsUsed → openRuns t o l = []
  taskAddr : ∀ t t' a c c', w.task t = some (a, c) → w.task t' = some (a, c') → t = t'
  cmdAddr : ∀ o o' b, w.cmd o = some b → w.cmd o' = some b → o = o'
  runs : w.nRuns = entered l
  ctx : ∀ t a c, w.task t = some (a, c) → c < w.nCtxs
  varLt : ∀ c d, w.var c = some d → d < w.nDicts ∧ c < w.nCtxs
  heap : ∀ d k, w.nDicts ≤ d → w.dicts d k = none
  unset : ∀ t o a c b, w.task t = some (a, c) → w.cmd o = some b → w.var c = none → openRuns t o l = []
  own : ∀ t o a c b d, w.task t = some (a, c) → w.cmd o = some b → w.var c = some d →
    ∃ rest, w.stack d ⟨b, a⟩ = openStack t o l ++ rest

theorem look_some {w : CW} {t o a c b : Nat} (ht : w.task t = some (a, c)) (ho : w.cmd o = some b) :
    w.look t o = some (w.var c, ⟨b, a⟩, c) := by
  simp [CW.look, ht, ho]

theorem live {w : CW} {t o : Nat} (h : w.task t ≠ none ∧ w.cmd o ≠ none) :
    ∃ a c b, w.task t = some (a, c) ∧ w.cmd o = some b := by
  obtain ⟨h1, h2⟩ := h
  cases ht : w.task t with
  | none => exact absurd ht h1
  | some x =>
    cases ho : w.cmd o with
    | none => exact absurd ho h2
    | some b => exact ⟨x.1, x.2, b, rfl, rfl⟩

theorem openRuns_same {t o : Nat} {l : List CEv} {ev : CEv} (h1 : ev ≠ .enter t o) (h2 : ev ≠ .exit t o) :
    openRuns t o (l ++ [ev]) = openRuns t o l := by
  rw [openRuns_snoc]
  cases ev <;> simp only [openStep]
  · rw [if_neg]
    rintro ⟨rfl, rfl⟩; exact h1 rfl
  · rw [if_neg]
    rintro ⟨rfl, rfl⟩; exact h2 rfl

theorem openRuns_enter (t o : Nat) (l : List CEv) : openRuns t o (l ++ [.enter t o]) = entered l :: openRuns t o l := by
  rw [openRuns_snoc]; simp [openStep]

theorem openRuns_exit (t o : Nat) (l : List CEv) : openRuns t o (l ++ [.exit t o]) = (openRuns t o l).tail := by
  rw [openRuns_snoc]; simp [openStep]

theorem push_eq {w : CW} {t o a c b : Nat} (ht : w.task t = some (a, c)) (ho : w.cmd o = some b) :
    w.push t o = match w.var c with
      | some d => { w.put d ⟨b, a⟩ (some (⟨w.nRuns, o⟩ :: w.stack d ⟨b, a⟩)) with nRuns := w.nRuns + 1 }
      | none => { w.put w.nDicts ⟨b, a⟩ (some (⟨w.nRuns, o⟩ :: w.stack w.nDicts ⟨b, a⟩)) with
          nRuns := w.nRuns + 1, nDicts := w.nDicts + 1, var := upd w.var c (some w.nDicts) } := by
  unfold CW.push
  rw [look_some ht ho]
  cases w.var c <;> rfl

theorem pop_eq {w : CW} {t o a c b : Nat} (ht : w.task t = some (a, c)) (ho : w.cmd o = some b) :
    (w.var c = none ∧ w.pop t o = w) ∨
    ∃ d v, w.var c = some d ∧ w.pop t o = w.put d ⟨b, a⟩ v ∧ v.getD [] = (w.stack d ⟨b, a⟩).tail ∧
      (w.stack d ⟨b, a⟩ ≠ [] → v ≠ some []) := by
  unfold CW.pop
  rw [look_some ht ho]
  cases hv : w.var c with
  | none => exact .inl ⟨rfl, rfl⟩
  | some d =>
    right
    show ∃ d' v, some d = some d' ∧ (match w.stack d ⟨b, a⟩ with
      | [_] => w.put d ⟨b, a⟩ none
      | _ :: rest => w.put d ⟨b, a⟩ (some rest)
      | [] => w.put d ⟨b, a⟩ (some [])) = _ ∧ _
    cases hs : w.stack d ⟨b, a⟩ with
    | nil => exact ⟨d, some [], rfl, rfl, by rw [hs]; rfl, by rw [hs]; simp⟩
    | cons r rest =>
      cases rest with
      | nil => exact ⟨d, none, rfl, rfl, by rw [hs]; rfl, by simp⟩
      | cons r' rest => exact ⟨d, some (r' :: rest), rfl, rfl, by rw [hs]; rfl, by simp⟩

theorem cinv_step {l : List CEv} {w : CW} {ev : CEv} (h : CInv l w) (ha : w.allows ev) : CInv (l ++ [ev]) (w.step ev) := by
  -- events that change neither the stacks nor what is open
  have keep : ∀ t o, (∀ t o, ev ≠ .enter t o) → (∀ t o, ev ≠ .exit t o) → openRuns t o (l ++ [ev]) = openRuns t o l :=
    fun t o h1 h2 => openRuns_same (h1 t o) (h2 t o)
  cases ev with
  | context src =>
    have hk := fun t o => keep t o (by simp) (by simp)
    have hr : w.nRuns = entered (l ++ [.context src]) := by rw [entered_snoc]; exact h.runs
    cases src with
    | none =>
      exact
        { taskUsed := h.taskUsed, cmdUsed := h.cmdUsed, taskAddr := h.taskAddr, cmdAddr := h.cmdAddr, heap := h.heap
          taskNew := fun t o ht => (hk t o).trans (h.taskNew t o ht)
          cmdNew := fun t o ht => (hk t o).trans (h.cmdNew t o ht)
          runs := hr
          ctx := fun t a c ht => Nat.lt_succ_of_lt (h.ctx t a c ht)
          varLt := fun c d hv => ⟨(h.varLt c d hv).1, Nat.lt_succ_of_lt (h.varLt c d hv).2⟩
          unset := fun t o a c b ht ho hv => (hk t o).trans (h.unset t o a c b ht ho hv)
          own := fun t o a c b d ht ho hv => by
            unfold openStack; rw [hk t o]; exact h.own t o a c b d ht ho hv }
    | some s =>
      have hv : ∀ c, c < w.nCtxs → upd w.var w.nCtxs (w.var s) c = w.var c := fun c hc => upd_other _ _ (by omega)
      exact
        { taskUsed := h.taskUsed, cmdUsed := h.cmdUsed, taskAddr := h.taskAddr, cmdAddr := h.cmdAddr, heap := h.heap
          taskNew := fun t o ht => (hk t o).trans (h.taskNew t o ht)
          cmdNew := fun t o ht => (hk t o).trans (h.cmdNew t o ht)
          runs := hr
          ctx := fun t a c ht => Nat.lt_succ_of_lt (h.ctx t a c ht)
          varLt := fun c d hc => by
            change upd w.var w.nCtxs (w.var s) c = some d at hc
            by_cases he : c = w.nCtxs
            · subst he
              rw [upd_same] at hc
              exact ⟨(h.varLt s d hc).1, Nat.lt_succ_self _⟩
            · rw [upd_other _ _ he] at hc
              exact ⟨(h.varLt c d hc).1, Nat.lt_succ_of_lt (h.varLt c d hc).2⟩
          unset := fun t o a c b ht ho hc => by
            change upd w.var w.nCtxs (w.var s) c = none at hc
            rw [hv c (h.ctx t a c ht)] at hc
            exact (hk t o).trans (h.unset t o a c b ht ho hc)
          own := fun t o a c b d ht ho hc => by
            change upd w.var w.nCtxs (w.var s) c = some d at hc
            rw [hv c (h.ctx t a c ht)] at hc
            unfold openStack; rw [hk t o]; exact h.own t o a c b d ht ho hc }
  | spawn t0 a0 c0 =>
    have hk := fun t o => keep t o (by simp) (by simp)
    have hr : w.nRuns = entered (l ++ [.spawn t0 a0 c0]) := by rw [entered_snoc]; exact h.runs
    obtain ⟨hu, hc0, had⟩ := ha
    have ht : ∀ t a c, upd w.task t0 (some (a0, c0)) t = some (a, c) → (t = t0 ∧ a = a0 ∧ c = c0) ∨ (t ≠ t0 ∧ w.task t = some (a, c)) := by
      intro t a c hx
      by_cases he : t = t0
      · subst he; rw [upd_same] at hx; cases hx; exact .inl ⟨rfl, rfl, rfl⟩
      · rw [upd_other _ _ he] at hx; exact .inr ⟨he, hx⟩
    have hnil : ∀ o, openRuns t0 o l = [] := fun o => h.taskNew t0 o hu
    exact
      { cmdUsed := h.cmdUsed, cmdAddr := h.cmdAddr, heap := h.heap, varLt := h.varLt
        taskUsed := fun t x hx => by
          rcases ht t x.1 x.2 hx with ⟨rfl, _⟩ | ⟨_, hx⟩
          · exact List.mem_cons_self ..
          · exact List.mem_cons_of_mem _ (h.taskUsed _ _ hx)
        taskAddr := fun t t' a c c' h1 h2 => by
          rcases ht _ _ _ h1 with ⟨e1, e2, _⟩ | ⟨_, g1⟩ <;> rcases ht _ _ _ h2 with ⟨e3, e4, _⟩ | ⟨_, g2⟩
          · exact e1.trans e3.symm
          · exact absurd e2 (had _ _ g2)
          · exact absurd e4 (had _ _ g1)
          · exact h.taskAddr _ _ _ _ _ g1 g2
        taskNew := fun t o hn => (hk t o).trans (h.taskNew t o fun hm => hn (List.mem_cons_of_mem _ hm))
        cmdNew := fun t o hn => (hk t o).trans (h.cmdNew t o hn)
        runs := hr
        ctx := fun t a c hx => by
          rcases ht _ _ _ hx with ⟨_, _, rfl⟩ | ⟨_, hx⟩
          · exact hc0
          · exact h.ctx _ _ _ hx
        unset := fun t o a c b hx ho hv => by
          rcases ht _ _ _ hx with ⟨rfl, _⟩ | ⟨_, hx⟩
          · exact (hk t o).trans (hnil o)
          · exact (hk t o).trans (h.unset t o a c b hx ho hv)
        own := fun t o a c b d hx ho hv => by
          unfold openStack; rw [hk t o]
          rcases ht _ _ _ hx with ⟨rfl, _⟩ | ⟨_, hx⟩
          · rw [hnil o]; exact ⟨_, rfl⟩
          · exact h.own t o a c b d hx ho hv }
  | finish t0 =>
    have hk := fun t o => keep t o (by simp) (by simp)
    have hr : w.nRuns = entered (l ++ [.finish t0]) := by rw [entered_snoc]; exact h.runs
    have ht : ∀ t x, upd w.task t0 none t = some x → w.task t = some x := by
      intro t x hx
      by_cases he : t = t0
      · subst he; rw [upd_same] at hx; cases hx
      · rw [upd_other _ _ he] at hx; exact hx
    exact
      { cmdUsed := h.cmdUsed, cmdAddr := h.cmdAddr, heap := h.heap, varLt := h.varLt
        taskUsed := fun t x hx => h.taskUsed t x (ht _ _ hx)
        taskAddr := fun t t' a c c' h1 h2 => h.taskAddr _ _ _ _ _ (ht _ _ h1) (ht _ _ h2)
        taskNew := fun t o hn => (hk t o).trans (h.taskNew t o hn)
        cmdNew := fun t o hn => (hk t o).trans (h.cmdNew t o hn)
        runs := hr
        ctx := fun t a c hx => h.ctx _ _ _ (ht _ _ hx)
        unset := fun t o a c b hx ho hv => (hk t o).trans (h.unset t o a c b (ht _ _ hx) ho hv)
        own := fun t o a c b d hx ho hv => by
          unfold openStack; rw [hk t o]; exact h.own t o a c b d (ht _ _ hx) ho hv }
  | alloc o0 b0 =>
    have hk := fun t o => keep t o (by simp) (by simp)
    have hr : w.nRuns = entered (l ++ [.alloc o0 b0]) := by rw [entered_snoc]; exact h.runs
    obtain ⟨hu, had⟩ := ha
    have hc : ∀ o b, upd w.cmd o0 (some b0) o = some b → (o = o0 ∧ b = b0) ∨ (o ≠ o0 ∧ w.cmd o = some b) := by
      intro o b hx
      by_cases he : o = o0
      · subst he; rw [upd_same] at hx; cases hx; exact .inl ⟨rfl, rfl⟩
      · rw [upd_other _ _ he] at hx; exact .inr ⟨he, hx⟩
    have hnil : ∀ t, openRuns t o0 l = [] := fun t => h.cmdNew t o0 hu
    exact
      { taskUsed := h.taskUsed, taskAddr := h.taskAddr, heap := h.heap, varLt := h.varLt, ctx := h.ctx
        cmdUsed := fun o b hx => by
          rcases hc o b hx with ⟨rfl, _⟩ | ⟨_, hx⟩
          · exact List.mem_cons_self ..
          · exact List.mem_cons_of_mem _ (h.cmdUsed _ _ hx)
        cmdAddr := fun o o' b h1 h2 => by
          rcases hc _ _ h1 with ⟨e1, e2⟩ | ⟨_, g1⟩ <;> rcases hc _ _ h2 with ⟨e3, e4⟩ | ⟨_, g2⟩
          · exact e1.trans e3.symm
          · exact absurd e2 (had _ _ g2)
          · exact absurd e4 (had _ _ g1)
          · exact h.cmdAddr _ _ _ g1 g2
        taskNew := fun t o hn => (hk t o).trans (h.taskNew t o hn)
        cmdNew := fun t o hn => (hk t o).trans (h.cmdNew t o fun hm => hn (List.mem_cons_of_mem _ hm))
        runs := hr
        unset := fun t o a c b hx ho hv => by
          rcases hc _ _ ho with ⟨rfl, _⟩ | ⟨_, ho⟩
          · exact (hk t o).trans (hnil t)
          · exact (hk t o).trans (h.unset t o a c b hx ho hv)
        own := fun t o a c b d hx ho hv => by
          unfold openStack; rw [hk t o]
          rcases hc _ _ ho with ⟨rfl, _⟩ | ⟨_, ho⟩
          · rw [hnil t]; exact ⟨_, rfl⟩
          · exact h.own t o a c b d hx ho hv }
  | free o0 =>
    have hk := fun t o => keep t o (by simp) (by simp)
    have hr : w.nRuns = entered (l ++ [.free o0]) := by rw [entered_snoc]; exact h.runs
    have hc : ∀ o b, upd w.cmd o0 none o = some b → w.cmd o = some b := by
      intro o b hx
      by_cases he : o = o0
      · subst he; rw [upd_same] at hx; cases hx
      · rw [upd_other _ _ he] at hx; exact hx
    exact
      { taskUsed := h.taskUsed, taskAddr := h.taskAddr, heap := h.heap, varLt := h.varLt, ctx := h.ctx
        cmdUsed := fun o b hx => h.cmdUsed o b (hc _ _ hx)
        cmdAddr := fun o o' b h1 h2 => h.cmdAddr _ _ _ (hc _ _ h1) (hc _ _ h2)
        taskNew := fun t o hn => (hk t o).trans (h.taskNew t o hn)
        cmdNew := fun t o hn => (hk t o).trans (h.cmdNew t o hn)
        runs := hr
        unset := fun t o a c b hx ho hv => (hk t o).trans (h.unset t o a c b hx (hc _ _ ho) hv)
        own := fun t o a c b d hx ho hv => by
          unfold openStack; rw [hk t o]; exact h.own t o a c b d hx (hc _ _ ho) hv }
  | enterFailed t0 o0 =>
    have hk := fun t o => keep t o (by simp) (by simp)
    have hr : w.nRuns = entered (l ++ [.enterFailed t0 o0]) := by rw [entered_snoc]; exact h.runs
    exact
      { taskUsed := h.taskUsed, taskAddr := h.taskAddr, heap := h.heap, varLt := h.varLt, ctx := h.ctx
        cmdUsed := h.cmdUsed, cmdAddr := h.cmdAddr
        taskNew := fun t o hn => (hk t o).trans (h.taskNew t o hn)
        cmdNew := fun t o hn => (hk t o).trans (h.cmdNew t o hn)
        runs := hr
        unset := fun t o a c b hx ho hv => (hk t o).trans (h.unset t o a c b hx ho hv)
        own := fun t o a c b d hx ho hv => by
          unfold openStack; rw [hk t o]; exact h.own t o a c b d hx ho hv }
  | enter t0 o0 =>
    obtain ⟨a0, c0, b0, ht0, ho0⟩ := live ha
    have hr : w.nRuns + 1 = entered (l ++ [.enter t0 o0]) := by rw [entered_snoc, h.runs]; rfl
    have hk : ∀ t o, ¬ (t = t0 ∧ o = o0) → openRuns t o (l ++ [.enter t0 o0]) = openRuns t o l := by
      intro t o hne
      refine openRuns_same ?_ (by simp)
      rintro heq
      cases heq
      exact hne ⟨rfl, rfl⟩
    have hnew : openStack t0 o0 (l ++ [.enter t0 o0]) = ⟨w.nRuns, o0⟩ :: openStack t0 o0 l := by
      unfold openStack; rw [openRuns_enter, ← h.runs]; rfl
    have key : ∀ t o a c b, w.task t = some (a, c) → w.cmd o = some b → (⟨b, a⟩ : CtxKey) = ⟨b0, a0⟩ → t = t0 ∧ o = o0 := by
      intro t o a c b h1 h2 he
      cases he
      exact ⟨h.taskAddr _ _ _ _ _ h1 ht0, h.cmdAddr _ _ _ h2 ho0⟩
    have tn : ∀ t o, t ∉ w.tasksUsed → openRuns t o (l ++ [.enter t0 o0]) = [] := by
      intro t o hn
      rw [hk t o, h.taskNew t o hn]
      rintro ⟨rfl, _⟩
      exact hn (h.taskUsed _ _ ht0)
    have cn : ∀ t o, o ∉ w.cmdsUsed → openRuns t o (l ++ [.enter t0 o0]) = [] := by
      intro t o hn
      rw [hk t o, h.cmdNew t o hn]
      rintro ⟨_, rfl⟩
      exact hn (h.cmdUsed _ _ ho0)
    rw [CW.step, push_eq ht0 ho0]
    cases hv0 : w.var c0 with
    | some d0 =>
      obtain ⟨rest, hrest⟩ := h.own t0 o0 a0 c0 b0 d0 ht0 ho0 hv0
      exact
        { taskUsed := h.taskUsed, taskAddr := h.taskAddr, varLt := h.varLt, ctx := h.ctx
          cmdUsed := h.cmdUsed, cmdAddr := h.cmdAddr, taskNew := tn, cmdNew := cn, runs := hr
          heap := fun d k hd => by
            have hlt := (h.varLt _ _ hv0).1
            change w.nDicts ≤ d at hd
            show (if d = d0 ∧ k = _ then _ else w.dicts d k) = none
            rw [if_neg (by omega)]
            exact h.heap d k hd
          unset := fun t o a c b hx ho hv => by
            rw [hk t o, h.unset t o a c b hx ho hv]
            rintro ⟨rfl, rfl⟩
            have hx : w.task t = some (a, c) := hx
            rw [ht0] at hx; cases hx
            have hv : w.var c0 = none := hv
            rw [hv0] at hv; cases hv
          own := fun t o a c b d hx ho hv => by
            change w.task t = some (a, c) at hx
            change w.cmd o = some b at ho
            change w.var c = some d at hv
            show ∃ rest, (w.put d0 ⟨b0, a0⟩ (some (⟨w.nRuns, o0⟩ :: w.stack d0 ⟨b0, a0⟩))).stack d ⟨b, a⟩ = _
            by_cases he : t = t0 ∧ o = o0
            · obtain ⟨rfl, rfl⟩ := he
              rw [ht0] at hx; cases hx
              rw [ho0] at ho; cases ho
              rw [hv0] at hv; cases hv
              rw [put_stack_same, hnew, hrest]
              exact ⟨rest, rfl⟩
            · rw [put_stack_other _ _ fun hh => he (key t o a c b hx ho hh.2)]
              unfold openStack
              rw [hk t o he]
              exact h.own t o a c b d hx ho hv }
    | none =>
      have hnil := h.unset t0 o0 a0 c0 b0 ht0 ho0 hv0
      have hempty : ∀ k, w.stack w.nDicts k = [] := by
        intro k; unfold CW.stack; rw [h.heap _ _ (Nat.le_refl _)]; rfl
      exact
        { taskUsed := h.taskUsed, taskAddr := h.taskAddr, ctx := h.ctx
          cmdUsed := h.cmdUsed, cmdAddr := h.cmdAddr, taskNew := tn, cmdNew := cn, runs := hr
          varLt := fun c d hc => by
            change upd w.var c0 (some w.nDicts) c = some d at hc
            show d < w.nDicts + 1 ∧ c < w.nCtxs
            by_cases he : c = c0
            · subst he
              rw [upd_same] at hc; cases hc
              exact ⟨Nat.lt_succ_self _, h.ctx _ _ _ ht0⟩
            · rw [upd_other _ _ he] at hc
              exact ⟨Nat.lt_succ_of_lt (h.varLt c d hc).1, (h.varLt c d hc).2⟩
          heap := fun d k hd => by
            change w.nDicts + 1 ≤ d at hd
            show (if d = w.nDicts ∧ k = _ then _ else w.dicts d k) = none
            rw [if_neg (by omega)]
            exact h.heap d k (by omega)
          unset := fun t o a c b hx ho hv => by
            change upd w.var c0 (some w.nDicts) c = none at hv
            by_cases he : c = c0
            · subst he; rw [upd_same] at hv; cases hv
            · rw [upd_other _ _ he] at hv
              rw [hk t o, h.unset t o a c b hx ho hv]
              rintro ⟨rfl, rfl⟩
              have hx : w.task t = some (a, c) := hx
              rw [ht0] at hx; cases hx
              exact he rfl
          own := fun t o a c b d hx ho hv => by
            change w.task t = some (a, c) at hx
            change w.cmd o = some b at ho
            change upd w.var c0 (some w.nDicts) c = some d at hv
            show ∃ rest, (w.put w.nDicts ⟨b0, a0⟩ (some (⟨w.nRuns, o0⟩ :: w.stack w.nDicts ⟨b0, a0⟩))).stack d ⟨b, a⟩ = _
            by_cases he : t = t0 ∧ o = o0
            · obtain ⟨rfl, rfl⟩ := he
              rw [ht0] at hx; cases hx
              rw [ho0] at ho; cases ho
              rw [upd_same] at hv; cases hv
              rw [put_stack_same, hnew, hempty]
              exact ⟨[], by unfold openStack; rw [hnil]; rfl⟩
            · rw [put_stack_other _ _ fun hh => he (key t o a c b hx ho hh.2)]
              unfold openStack
              rw [hk t o he]
              by_cases hc : c = c0
              · subst hc
                rw [h.unset t o a c b hx ho hv0]
                exact ⟨_, rfl⟩
              · rw [upd_other _ _ hc] at hv
                exact h.own t o a c b d hx ho hv }
  | exit t0 o0 =>
    obtain ⟨a0, c0, b0, ht0, ho0⟩ := live ha
    have hr : w.nRuns = entered (l ++ [.exit t0 o0]) := by rw [entered_snoc]; exact h.runs
    have hk : ∀ t o, ¬ (t = t0 ∧ o = o0) → openRuns t o (l ++ [.exit t0 o0]) = openRuns t o l := by
      intro t o hne
      refine openRuns_same (by simp) ?_
      rintro heq
      cases heq
      exact hne ⟨rfl, rfl⟩
    have hsub : ∀ t o, openRuns t o l = [] → openRuns t o (l ++ [.exit t0 o0]) = [] := by
      intro t o hn
      by_cases he : t = t0 ∧ o = o0
      · obtain ⟨rfl, rfl⟩ := he
        rw [openRuns_exit, hn]; rfl
      · rw [hk t o he, hn]
    have key : ∀ t o a c b, w.task t = some (a, c) → w.cmd o = some b → (⟨b, a⟩ : CtxKey) = ⟨b0, a0⟩ → t = t0 ∧ o = o0 := by
      intro t o a c b h1 h2 he
      cases he
      exact ⟨h.taskAddr _ _ _ _ _ h1 ht0, h.cmdAddr _ _ _ h2 ho0⟩
    rw [CW.step]
    rcases pop_eq ht0 ho0 with ⟨hv0, hp⟩ | ⟨d0, v, hv0, hp, hvt, _⟩
    · rw [hp]
      exact
        { taskUsed := h.taskUsed, taskAddr := h.taskAddr, heap := h.heap, varLt := h.varLt, ctx := h.ctx
          cmdUsed := h.cmdUsed, cmdAddr := h.cmdAddr
          taskNew := fun t o hn => hsub _ _ (h.taskNew t o hn)
          cmdNew := fun t o hn => hsub _ _ (h.cmdNew t o hn)
          runs := hr
          unset := fun t o a c b hx ho hv => hsub _ _ (h.unset t o a c b hx ho hv)
          own := fun t o a c b d hx ho hv => by
            by_cases he : t = t0 ∧ o = o0
            · obtain ⟨rfl, rfl⟩ := he
              rw [ht0] at hx; cases hx
              rw [hv0] at hv; cases hv
            · unfold openStack; rw [hk t o he]; exact h.own t o a c b d hx ho hv }
    · rw [hp]
      exact
        { taskUsed := h.taskUsed, taskAddr := h.taskAddr, varLt := h.varLt, ctx := h.ctx
          cmdUsed := h.cmdUsed, cmdAddr := h.cmdAddr
          taskNew := fun t o hn => hsub _ _ (h.taskNew t o hn)
          cmdNew := fun t o hn => hsub _ _ (h.cmdNew t o hn)
          runs := hr
          heap := fun d k hd => by
            have hlt := (h.varLt _ _ hv0).1
            change w.nDicts ≤ d at hd
            show (if d = d0 ∧ k = _ then _ else w.dicts d k) = none
            rw [if_neg (by omega)]
            exact h.heap d k hd
          unset := fun t o a c b hx ho hv => hsub _ _ (h.unset t o a c b hx ho hv)
          own := fun t o a c b d hx ho hv => by
            change w.task t = some (a, c) at hx
            change w.cmd o = some b at ho
            change w.var c = some d at hv
            obtain ⟨rest, hrest⟩ := h.own t o a c b d hx ho hv
            by_cases he : t = t0 ∧ o = o0
            · obtain ⟨rfl, rfl⟩ := he
              rw [ht0] at hx; cases hx
              rw [ho0] at ho; cases ho
              rw [hv0] at hv; cases hv
              rw [put_stack_same, hvt, hrest]
              unfold openStack
              rw [openRuns_exit]
              cases openRuns t o l with
              | nil => exact ⟨rest.tail, rfl⟩
              | cons r rs => exact ⟨rest, rfl⟩
            · rw [put_stack_other _ _ fun hh => he (key t o a c b hx ho hh.2)]
              unfold openStack
              rw [hk t o he]
              exact ⟨rest, hrest⟩ }

theorem PossibleHistory.init {l : List CEv} {ev : CEv} (h : PossibleHistory (l ++ [ev])) :
    PossibleHistory l ∧ (CW.after l).allows ev :=
  ⟨fun l1 e l2 he => h l1 e (l2 ++ [ev]) (by rw [he]; simp), h l ev [] rfl⟩

theorem snoc_ind {P : List CEv → Prop} (h0 : P []) (h1 : ∀ l ev, P l → P (l ++ [ev])) (l : List CEv) : P l := by
  have : ∀ n, ∀ l : List CEv, l.length = n → P l := by
    intro n
    induction n with
    | zero =>
      intro l hl
      rw [List.length_eq_zero_iff.1 hl]; exact h0
    | succ n ih =>
      intro l hl
      have hne : l ≠ [] := by intro hz; rw [hz] at hl; simp at hl
      rw [← List.dropLast_concat_getLast hne]
      exact h1 _ _ (ih _ (by simp [hl]))
  exact this _ l rfl

theorem cinv_after {l : List CEv} (h : PossibleHistory l) : CInv l (CW.after l) := by
  induction l using snoc_ind with
  | h0 => exact ⟨by simp [CW.after], by simp [CW.after], fun _ _ _ => rfl, fun _ _ _ => rfl, by simp [CW.after], by simp [CW.after],
      rfl, by simp [CW.after], by simp [CW.after], fun _ _ _ => rfl, fun _ _ _ _ _ _ _ _ => rfl, by simp [CW.after]⟩
  | h1 l ev ih =>
    obtain ⟨h1, h2⟩ := h.init
    rw [after_snoc]
    exact cinv_step (ih h1) h2

/-- The stack `d`, `k` is that of a task and a command that exist, and is exactly what the task has open. -/
def Accounted (l : List CEv) (w : CW) (d : Nat) (k : CtxKey) : Prop :=
  ∃ t o a c b, w.task t = some (a, c) ∧ w.cmd o = some b ∧ k = ⟨b, a⟩ ∧ w.var c = some d ∧ w.stack d k = openStack t o l

theorem accounted_step {l : List CEv} {w : CW} {ev : CEv} (hi : CInv l w) (ha : w.allows ev)
    (htidy : ∀ t, ev = .finish t → ∀ o, openRuns t o l = [])
    (h : ∀ d k, w.stack d k ≠ [] → Accounted l w d k) :
    ∀ d k, (w.step ev).stack d k ≠ [] → Accounted (l ++ [ev]) (w.step ev) d k := by
  have keep : ∀ t o, (∀ t o, ev ≠ .enter t o) → (∀ t o, ev ≠ .exit t o) → openStack t o (l ++ [ev]) = openStack t o l :=
    fun t o h1 h2 => by unfold openStack; rw [openRuns_same (h1 t o) (h2 t o)]
  intro d k hne
  cases ev with
  | context src =>
    have hk := fun t o => keep t o (by simp) (by simp)
    cases src with
    | none =>
      obtain ⟨t, o, a, c, b, h1, h2, h3, h4, h5⟩ := h d k hne
      exact ⟨t, o, a, c, b, h1, h2, h3, h4, by rw [hk t o]; exact h5⟩
    | some s =>
      obtain ⟨t, o, a, c, b, h1, h2, h3, h4, h5⟩ := h d k hne
      refine ⟨t, o, a, c, b, h1, h2, h3, ?_, by rw [hk t o]; exact h5⟩
      show upd w.var w.nCtxs (w.var s) c = some d
      rw [upd_other _ _ (by have := hi.ctx _ _ _ h1; omega)]
      exact h4
  | spawn t0 a0 c0 =>
    have hk := fun t o => keep t o (by simp) (by simp)
    obtain ⟨t, o, a, c, b, h1, h2, h3, h4, h5⟩ := h d k hne
    refine ⟨t, o, a, c, b, ?_, h2, h3, h4, by rw [hk t o]; exact h5⟩
    show upd w.task t0 _ t = _
    rw [upd_other _ _ ?_]
    · exact h1
    · rintro rfl; exact ha.1 (hi.taskUsed _ _ h1)
  | finish t0 =>
    have hk := fun t o => keep t o (by simp) (by simp)
    obtain ⟨t, o, a, c, b, h1, h2, h3, h4, h5⟩ := h d k hne
    refine ⟨t, o, a, c, b, ?_, h2, h3, h4, by rw [hk t o]; exact h5⟩
    show upd w.task t0 _ t = _
    rw [upd_other _ _ ?_]
    · exact h1
    · rintro rfl
      refine hne ?_
      show w.stack d k = []
      rw [h5, openStack, htidy t rfl o]
      rfl
  | alloc o0 b0 =>
    have hk := fun t o => keep t o (by simp) (by simp)
    obtain ⟨t, o, a, c, b, h1, h2, h3, h4, h5⟩ := h d k hne
    refine ⟨t, o, a, c, b, h1, ?_, h3, h4, by rw [hk t o]; exact h5⟩
    show upd w.cmd o0 _ o = _
    rw [upd_other _ _ ?_]
    · exact h2
    · rintro rfl; exact ha.1 (hi.cmdUsed _ _ h2)
  | free o0 =>
    have hk := fun t o => keep t o (by simp) (by simp)
    obtain ⟨t, o, a, c, b, h1, h2, h3, h4, h5⟩ := h d k hne
    refine ⟨t, o, a, c, b, h1, ?_, h3, h4, by rw [hk t o]; exact h5⟩
    show upd w.cmd o0 _ o = _
    rw [upd_other _ _ ?_]
    · exact h2
    · rintro rfl
      have hne : w.stack d k ≠ [] := hne
      cases hs : w.stack d k with
      | nil => exact hne hs
      | cons r rs =>
        have hr : r ∈ openStack t o l := by rw [← h5, hs]; simp
        obtain ⟨n, _, rfl⟩ := List.mem_map.1 hr
        exact ha.2 d k ⟨n, o⟩ (by
          show _ ∈ w.stack d k
          rw [hs]; simp) rfl
  | enterFailed t0 o0 =>
    have hk := fun t o => keep t o (by simp) (by simp)
    obtain ⟨t, o, a, c, b, h1, h2, h3, h4, h5⟩ := h d k hne
    exact ⟨t, o, a, c, b, h1, h2, h3, h4, by rw [hk t o]; exact h5⟩
  | enter t0 o0 =>
    obtain ⟨a0, c0, b0, ht0, ho0⟩ := live ha
    have hk : ∀ t o, ¬ (t = t0 ∧ o = o0) → openStack t o (l ++ [.enter t0 o0]) = openStack t o l := by
      intro t o hne
      unfold openStack
      rw [openRuns_same _ (by simp)]
      rintro heq
      cases heq
      exact hne ⟨rfl, rfl⟩
    have hnew : openStack t0 o0 (l ++ [.enter t0 o0]) = ⟨w.nRuns, o0⟩ :: openStack t0 o0 l := by
      unfold openStack; rw [openRuns_enter, ← hi.runs]; rfl
    rw [CW.step, push_eq ht0 ho0] at hne ⊢
    cases hv0 : w.var c0 with
    | some d0 =>
      rw [hv0] at hne
      have hne : (w.put d0 ⟨b0, a0⟩ (some (⟨w.nRuns, o0⟩ :: w.stack d0 ⟨b0, a0⟩))).stack d k ≠ [] := hne
      by_cases hdk : d = d0 ∧ k = ⟨b0, a0⟩
      · obtain ⟨rfl, rfl⟩ := hdk
        refine ⟨t0, o0, a0, c0, b0, ht0, ho0, rfl, hv0, ?_⟩
        show (w.put d ⟨b0, a0⟩ _).stack d _ = _
        rw [put_stack_same, hnew]
        show _ :: _ = _
        congr 1
        obtain ⟨rest, hr⟩ := hi.own t0 o0 a0 c0 b0 d ht0 ho0 hv0
        by_cases hz : w.stack d ⟨b0, a0⟩ = []
        · rw [hz]
          rw [hz] at hr
          exact (List.append_eq_nil_iff.1 hr.symm).1.symm
        · obtain ⟨t, o, a, c, b, h1, h2, h3, h4, h5⟩ := h d _ hz
          cases h3
          obtain rfl := hi.taskAddr _ _ _ _ _ h1 ht0
          obtain rfl := hi.cmdAddr _ _ _ h2 ho0
          exact h5
      · rw [put_stack_other _ _ hdk] at hne
        obtain ⟨t, o, a, c, b, h1, h2, h3, h4, h5⟩ := h d k hne
        refine ⟨t, o, a, c, b, h1, h2, h3, h4, ?_⟩
        show (w.put d0 ⟨b0, a0⟩ _).stack d k = _
        rw [put_stack_other _ _ hdk, hk t o, h5]
        rintro ⟨rfl, rfl⟩
        rw [ht0] at h1; cases h1
        rw [ho0] at h2; cases h2
        rw [hv0] at h4; cases h4
        exact hdk ⟨rfl, h3⟩
    | none =>
      rw [hv0] at hne
      have hne : (w.put w.nDicts ⟨b0, a0⟩ (some (⟨w.nRuns, o0⟩ :: w.stack w.nDicts ⟨b0, a0⟩))).stack d k ≠ [] := hne
      have hempty : ∀ k, w.stack w.nDicts k = [] := by
        intro k; unfold CW.stack; rw [hi.heap _ _ (Nat.le_refl _)]; rfl
      by_cases hdk : d = w.nDicts ∧ k = ⟨b0, a0⟩
      · obtain ⟨rfl, rfl⟩ := hdk
        refine ⟨t0, o0, a0, c0, b0, ht0, ho0, rfl, upd_same _ _ _, ?_⟩
        show (w.put w.nDicts ⟨b0, a0⟩ _).stack w.nDicts _ = _
        rw [put_stack_same, hnew, hempty]
        unfold openStack
        rw [hi.unset t0 o0 a0 c0 b0 ht0 ho0 hv0]
        rfl
      · rw [put_stack_other _ _ hdk] at hne
        obtain ⟨t, o, a, c, b, h1, h2, h3, h4, h5⟩ := h d k hne
        have hcc : c ≠ c0 := by rintro rfl; rw [hv0] at h4; cases h4
        refine ⟨t, o, a, c, b, h1, h2, h3, (upd_other _ _ hcc).trans h4, ?_⟩
        show (w.put w.nDicts ⟨b0, a0⟩ _).stack d k = _
        rw [put_stack_other _ _ hdk, hk t o, h5]
        rintro ⟨rfl, rfl⟩
        rw [ht0] at h1; cases h1
        exact hcc rfl
  | exit t0 o0 =>
    obtain ⟨a0, c0, b0, ht0, ho0⟩ := live ha
    have hk : ∀ t o, ¬ (t = t0 ∧ o = o0) → openStack t o (l ++ [.exit t0 o0]) = openStack t o l := by
      intro t o hne
      unfold openStack
      rw [openRuns_same (by simp)]
      rintro heq
      cases heq
      exact hne ⟨rfl, rfl⟩
    rw [CW.step] at hne ⊢
    rcases pop_eq ht0 ho0 with ⟨hv0, hp⟩ | ⟨d0, v, hv0, hp, hvt, _⟩
    · rw [hp] at hne ⊢
      obtain ⟨t, o, a, c, b, h1, h2, h3, h4, h5⟩ := h d k hne
      refine ⟨t, o, a, c, b, h1, h2, h3, h4, ?_⟩
      rw [hk t o, h5]
      rintro ⟨rfl, rfl⟩
      rw [ht0] at h1; cases h1
      rw [hv0] at h4; cases h4
    · rw [hp] at hne ⊢
      by_cases hdk : d = d0 ∧ k = ⟨b0, a0⟩
      · obtain ⟨rfl, rfl⟩ := hdk
        rw [put_stack_same, hvt] at hne
        have hz : w.stack d ⟨b0, a0⟩ ≠ [] := by intro hz; rw [hz] at hne; exact hne rfl
        refine ⟨t0, o0, a0, c0, b0, ht0, ho0, rfl, hv0, ?_⟩
        rw [put_stack_same, hvt]
        obtain ⟨t, o, a, c, b, h1, h2, h3, h4, h5⟩ := h d _ hz
        cases h3
        obtain rfl := hi.taskAddr _ _ _ _ _ h1 ht0
        obtain rfl := hi.cmdAddr _ _ _ h2 ho0
        rw [h5]
        unfold openStack
        rw [openRuns_exit, List.map_tail]
      · rw [put_stack_other _ _ hdk] at hne
        obtain ⟨t, o, a, c, b, h1, h2, h3, h4, h5⟩ := h d k hne
        refine ⟨t, o, a, c, b, h1, h2, h3, h4, ?_⟩
        rw [put_stack_other _ _ hdk, hk t o, h5]
        rintro ⟨rfl, rfl⟩
        rw [ht0] at h1; cases h1
        rw [ho0] at h2; cases h2
        rw [hv0] at h4; cases h4
        exact hdk ⟨rfl, h3⟩

theorem Tidy.init {l : List CEv} {ev : CEv} (h : Tidy (l ++ [ev])) : Tidy l ∧ ∀ t, ev = .finish t → ∀ o, openRuns t o l = [] :=
  ⟨fun l1 t l2 he => h l1 t (l2 ++ [ev]) (by rw [he]; simp), fun t he => h l t [] (by rw [he])⟩

theorem accounted_after {l : List CEv} (h : PossibleHistory l) (ht : Tidy l) :
    ∀ d k, (CW.after l).stack d k ≠ [] → Accounted l (CW.after l) d k := by
  induction l using snoc_ind with
  | h0 => exact fun d k hne => absurd rfl hne
  | h1 l ev ih =>
    obtain ⟨h1, h2⟩ := h.init
    obtain ⟨t1, t2⟩ := ht.init
    rw [after_snoc]
    exact accounted_step (cinv_after h1) h2 t2 (ih h1 t1)

theorem NoStrayExit.init {l : List CEv} {ev : CEv} (h : NoStrayExit (l ++ [ev])) :
    NoStrayExit l ∧ ∀ t o, ev = .exit t o → openRuns t o l ≠ [] :=
  ⟨fun l1 t o l2 he => h l1 t o (l2 ++ [ev]) (by rw [he]; simp), fun t o he => h l t o [] (by rw [he])⟩

theorem noJunk_after {l : List CEv} (h : PossibleHistory l) (ht : NoStrayExit l) :
    ∀ d k, (CW.after l).dicts d k ≠ some [] := by
  induction l using snoc_ind with
  | h0 => exact fun d k hne => by cases hne
  | h1 l ev ih =>
    obtain ⟨h1, h2⟩ := h.init
    obtain ⟨t1, t2⟩ := ht.init
    rw [after_snoc]
    have ih := ih h1 t1
    have hi := cinv_after h1
    generalize CW.after l = w at *
    intro d k
    cases ev with
    | context src => cases src <;> exact ih d k
    | spawn => exact ih d k
    | finish => exact ih d k
    | alloc => exact ih d k
    | free => exact ih d k
    | enterFailed => exact ih d k
    | enter t0 o0 =>
      obtain ⟨a0, c0, b0, ht0, ho0⟩ := live h2
      rw [CW.step, push_eq ht0 ho0]
      cases w.var c0 with
      | some d0 =>
        show (if _ then _ else _) ≠ _
        split
        · simp
        · exact ih d k
      | none =>
        show (if _ then _ else _) ≠ _
        split
        · simp
        · exact ih d k
    | exit t0 o0 =>
      obtain ⟨a0, c0, b0, ht0, ho0⟩ := live h2
      rw [CW.step]
      rcases pop_eq ht0 ho0 with ⟨hv0, hp⟩ | ⟨d0, v, hv0, hp, hvt, hv⟩
      · rw [hp]; exact ih d k
      · rw [hp]
        show (if _ then _ else _) ≠ _
        split
        · refine hv ?_
          obtain ⟨rest, hr⟩ := hi.own t0 o0 a0 c0 b0 d0 ht0 ho0 hv0
          rw [hr]
          intro hz
          have := (List.append_eq_nil_iff.1 hz).1
          exact t2 t0 o0 rfl (List.map_eq_nil_iff.1 this)
        · exact ih d k

/-- A balanced part of a history changes nothing. -/
theorem balanced_open {t o : Nat} {l : List CEv} (h : Balanced t o l) : ∀ (n : Nat) (s : List Nat), openFrom t o n s l = s := by
  induction h with
  | nil => intro n s; rfl
  | other ev l h1 h2 _ ih =>
    intro n s
    rw [openFrom, ih]
    cases ev <;> simp only [openStep]
    · rw [if_neg]
      rintro ⟨rfl, rfl⟩; exact h1 rfl
    · rw [if_neg]
      rintro ⟨rfl, rfl⟩; exact h2 rfl
  | block l l' _ _ ih ih' =>
    intro n s
    rw [List.cons_append, openFrom, openFrom_append, ih, openFrom, ih']
    simp [openStep]

end Shellous
