import Verif.Props.Results
import Verif.Props.PipeRun

/-!
# C46, C62: what `await pipeline` gives
-/

namespace Shellous.Props

/-! ## Specification -/

/-- The command run by task `i` ended with the result `r` (a `Result`, or a `ResultError` that carries it). -/
def Gave (w : W) (i : Nat) (r : Result) : Prop :=
  w.outOf i = some (.val (some r)) ∨ w.outOf i = some (.err (.resultError r))

/-- `key` is the result of the command that a pipeline run reports: of the first command that failed by itself; when
there is none, of the last one that was not cancelled; when all were cancelled, of the last one. -/
inductive KeyResult (w : W) (ids : List Nat) (key : Result) : Prop
  | failed (pre post : List Nat) (i : Nat) : ids = pre ++ i :: post → Gave w i key → FailedItself key →
      (∀ j ∈ pre, ∃ r, Gave w j r ∧ ¬ FailedItself r) → KeyResult w ids key
  | uncancelled (pre post : List Nat) (i : Nat) : ids = pre ++ i :: post → Gave w i key → key.cancelled = false →
      (∀ j ∈ ids, ∃ r, Gave w j r ∧ ¬ FailedItself r) → (∀ j ∈ post, ∃ r, Gave w j r ∧ r.cancelled = true) →
      KeyResult w ids key
  | last (pre : List Nat) (i : Nat) : ids = pre ++ [i] → Gave w i key →
      (∀ j ∈ ids, ∃ r, Gave w j r ∧ ¬ FailedItself r ∧ r.cancelled = true) → KeyResult w ids key

/-- The result of a pipeline: exit code and standard error of the reported command, output and encoding of the last
command. -/
def Combined (w : W) (ids : List Nat) (cancelled : Bool) (r : Result) : Prop :=
  ∃ key last i, KeyResult w ids key ∧ ids.getLast? = some i ∧ Gave w i last ∧
    r = { exitCode := key.exitCode, outputBytes := last.outputBytes, errorBytes := key.errorBytes,
          cancelled := cancelled, encoding := last.encoding }

/-- The command run by task `i` ended with the exception `e`, that is neither a `ResultError` nor `CancelledError`. -/
def Broke (w : W) (i : Nat) (e : Exc) : Prop := w.outOf i = some (.err e) ∧ e ≠ .cancelled ∧ ∀ r, e ≠ .resultError r

/-- Nobody interfered with the commands: `CancelledError` was not thrown into the caller, and no command was asked to
cancel. -/
def Undisturbed (w : W) (ids : List Nat) : Prop := .thrown ∉ w.trace ∧ ∀ i ∈ ids, ¬ CancelRequested w i

/-- The command run by task `i` raised an exception, and nobody had asked it to cancel. -/
def FailedUnasked (w : W) (i : Nat) : Prop := Failed w i ∧ ¬ CancelRequested w i

/-- How `await pipeline` may end, and what the pipeline's commands have done then. -/
inductive PipeOutcome (cfg : PRCfg) (w : W) : Out (Option Returned) → Prop
  /-- a `Result` is returned: the exit code is accepted -/
  | result (r : Result) : Combined w (commands .await cfg) false r → Allowed cfg.opts.exitCodes r.exitCode →
      cfg.opts.returnResult = true → (Undisturbed w (commands .await cfg) ∨ ∃ i ∈ commands .await cfg, FailedUnasked w i) →
      PipeOutcome cfg w (.ok (some (.result r)))
  /-- the decoded output is returned: the exit code is accepted -/
  | text (r : Result) (t : Text) : Combined w (commands .await cfg) false r → Allowed cfg.opts.exitCodes r.exitCode →
      cfg.opts.returnResult = false → cfg.decode r.outputBytes r.encoding = .ok t →
      (Undisturbed w (commands .await cfg) ∨ ∃ i ∈ commands .await cfg, FailedUnasked w i) → PipeOutcome cfg w (.ok (some (.text t)))
  /-- the output cannot be decoded -/
  | decode (r : Result) (e : Exc) : Combined w (commands .await cfg) false r → Allowed cfg.opts.exitCodes r.exitCode →
      cfg.opts.returnResult = false → cfg.decode r.outputBytes r.encoding = .error e → PipeOutcome cfg w (.exc e)
  /-- the exit code is not accepted -/
  | badCode (r : Result) : Combined w (commands .await cfg) false r → ¬ Allowed cfg.opts.exitCodes r.exitCode →
      (Undisturbed w (commands .await cfg) ∨ ∃ i ∈ commands .await cfg, FailedUnasked w i) → PipeOutcome cfg w (.exc (.resultError r))
  /-- the caller was cancelled -/
  | cancelled (r : Result) : Combined w (commands .await cfg) true r → .thrown ∈ w.trace → cfg.opts.catchCancelled = false →
      PipeOutcome cfg w (.exc .cancelled)
  /-- the caller was cancelled, and the pipeline is to report that as a result -/
  | cancelledResult (r : Result) : Combined w (commands .await cfg) true r → .thrown ∈ w.trace →
      cfg.opts.catchCancelled = true → PipeOutcome cfg w (.exc (.resultError r))
  /-- the first command, in pipeline order, that ended with another exception -/
  | broke (pre post : List Nat) (i : Nat) (e : Exc) : commands .await cfg = pre ++ i :: post → Broke w i e →
      (∀ j ∈ pre, ∀ e, ¬ Broke w j e) → PipeOutcome cfg w (.exc e)
  /-- a command ended without a result and without a (proper) exception: its task was cancelled. (Or it returned
  something that is not a `Result`, which the commands of a pipeline do not do.) -/
  | noResult (i : Nat) : i ∈ commands .await cfg → (∀ r, ¬ Gave w i r) → (∀ e, ¬ Broke w i e) →
      (w.outOf i = some (.val none) ∨ ∀ j ∈ commands .await cfg, ∀ e, ¬ Broke w j e) →
      PipeOutcome cfg w (.exc .assertionError)
  /-- an internal error of a command goes first -/
  | serious (e : Exc) : FirstSerious w (commands .await cfg) e → PipeOutcome cfg w (.exc e)
  /-- the library gave up on commands that did not end in time after they had been cancelled -/
  | gaveUp : .gaveUp ∈ w.trace → PipeOutcome cfg w (.exc .runtimeError)
  /-- the caller was cancelled at least twice -/
  | twice (e : Exc) : 2 ≤ throwsIn w.trace → (e = .invalidState ∨ e = .assertionError ∨ e = .runtimeError) →
      PipeOutcome cfg w (.exc e)
  /-- the pipes could not be created -/
  | setup (e : Exc) : cfg.setupErr = some e → PipeOutcome cfg w (.exc .valueError)

/-- How `async with pipeline` may end, and what has happened then. -/
inductive BlockOutcome (cfg : PRCfg) (w : W) : Out (Option Returned) → Prop
  /-- the body and the commands have ended -/
  | ended : .bodyEnd none ∈ w.trace → AllDone w (commands .block cfg) → BlockOutcome cfg w (.ok none)
  /-- the body raised; the exception is suppressed, because the body or the cleanup was cancelled -/
  | suppressed (e : Exc) : .bodyEnd (some e) ∈ w.trace → AllDone w (commands .block cfg) →
      (e = .cancelled ∨ .thrown ∈ cleanupLog w.trace) → BlockOutcome cfg w (.ok none)
  /-- the body raised -/
  | body (e : Exc) : .bodyEnd (some e) ∈ w.trace → AllDone w (commands .block cfg) → e ≠ .cancelled →
      (.thrown ∉ cleanupLog w.trace ∨ ∃ i ∈ commands .block cfg, Failed w i) → BlockOutcome cfg w (.exc e)
  /-- the caller was cancelled before the body was started -/
  | launch : .bodyStart ∉ w.trace → .thrown ∈ w.trace → AllDone w (commands .block cfg) → BlockOutcome cfg w (.exc .cancelled)
  /-- an internal error of a command goes first -/
  | serious (e : Exc) : FirstSerious w (commands .block cfg) e → BlockOutcome cfg w (.exc e)
  /-- the library gave up on commands that did not end in time after they had been cancelled -/
  | gaveUp : .gaveUp ∈ w.trace → BlockOutcome cfg w (.exc .runtimeError)
  /-- the caller was cancelled at least twice during the cleanup -/
  | twice (e : Exc) : 2 ≤ throwsIn (cleanupLog w.trace) → (e = .invalidState ∨ e = .assertionError ∨ e = .runtimeError) →
      BlockOutcome cfg w (.exc e)
  /-- the pipes could not be created -/
  | setup (e : Exc) : cfg.setupErr = some e → BlockOutcome cfg w (.exc .valueError)

/-! ## Proof -/

theorem gave_item {w : W} {i : Nat} {o : TOut} {r : Result} (h : w.outOf i = some o) : Gave w i r ↔ itemResult o.item = some r := by
  unfold Gave
  rw [h]
  cases o with
  | val x => cases x <;> simp [TOut.item, itemResult]
  | err e => cases e <;> simp [TOut.item, itemResult]
  | cancelled => simp [TOut.item, itemResult]

/-- A list either consists of results of commands that did not fail by themselves, or starts with such and then has
something else. -/
theorem split_items (l : List Item) :
    (∃ rs, AllResults l rs ∧ ∀ r ∈ rs, ¬ FailedItself r) ∨
    (∃ pre i post rs, l = pre ++ i :: post ∧ AllResults pre rs ∧ (∀ r ∈ rs, ¬ FailedItself r) ∧
      (itemResult i = none ∨ ∃ k, itemResult i = some k ∧ FailedItself k)) := by
  induction l with
  | nil => exact .inl ⟨[], rfl, by simp⟩
  | cons i l ih =>
    cases h : itemResult i with
    | none => exact .inr ⟨[], i, l, [], rfl, rfl, by simp, .inl h⟩
    | some k =>
      by_cases hf : FailedItself k
      · exact .inr ⟨[], i, l, [], rfl, rfl, by simp, .inr ⟨k, h, hf⟩⟩
      · rcases ih with ⟨rs, h1, h2⟩ | ⟨pre, j, post, rs, h1, h2, h3, h4⟩
        · refine .inl ⟨k :: rs, by simp [AllResults, h] at h1 ⊢; exact h1, ?_⟩
          intro r hr
          rcases List.mem_cons.1 hr with rfl | hr
          · exact hf
          · exact h2 r hr
        · refine .inr ⟨i :: pre, j, post, k :: rs, by rw [h1]; rfl, by simp [AllResults, h] at h2 ⊢; exact h2, ?_, h4⟩
          intro r hr
          rcases List.mem_cons.1 hr with rfl | hr
          · exact hf
          · exact h3 r hr

theorem findKeyLoop_skip (pre : List Item) : ∀ (rs : List Result) (acc : Option Result), AllResults pre rs →
    (∀ r ∈ rs, ¬ FailedItself r) → (∀ a, acc = some a → ¬ FailedItself a) →
    ∃ acc', (∀ a, acc' = some a → ¬ FailedItself a) ∧ ∀ l, findKeyLoop acc (pre ++ l) = findKeyLoop acc' l := by
  induction pre with
  | nil => intro rs acc _ _ ha; exact ⟨acc, ha, fun l => rfl⟩
  | cons i pre ih =>
    intro rs acc hl hr ha
    cases rs with
    | nil => simp [AllResults] at hl
    | cons r rs =>
      simp only [AllResults, List.map_cons, List.cons.injEq] at hl
      have hf := hr r (by simp)
      have hnf : ¬ FailedItself (compareResult acc r) := by
        cases hc : r.cancelled with
        | false => rw [compare_nc acc r hc]; exact hf
        | true =>
          cases acc with
          | none => exact hf
          | some a =>
            rw [compare_c a r hc]
            split
            · exact hf
            · exact ha a rfl
      obtain ⟨acc', h1, h2⟩ := ih rs (some (compareResult acc r)) hl.2 (fun q hq => hr q (by simp [hq]))
        (by intro a ha; cases ha; exact hnf)
      refine ⟨acc', h1, fun l => ?_⟩
      rw [← h2 l]
      have : (!(compareResult acc r).cancelled && (compareResult acc r).exitCode != 0) = false := by
        rw [Bool.eq_false_iff]
        intro h
        simp at h
        exact hnf ⟨h.2, h.1⟩
      simp [findKeyLoop, getResult_ok i r hl.1, bind, Except.bind, this]

theorem getResult_none (i : Item) (h : itemResult i = none) : getResult i = .error .assertionError := by
  cases i with
  | res r => simp [itemResult] at h
  | exc e => cases e <;> simp [itemResult] at h <;> rfl

theorem otherEx_eq (l : List Item) : otherEx l = l.filterMap Proper := by
  unfold otherEx
  congr 1
  funext i
  cases i with
  | res r => rfl
  | exc e => cases e <;> rfl

/-- The list of the outcomes and the list of the tasks, element by element. -/
theorem outs_get {w : W} {ids : List Nat} {l : List TOut} (h : l.map some = ids.map w.outOf) {i : Nat} (hi : i ∈ ids) :
    ∃ o ∈ l, w.outOf i = some o := by
  have : w.outOf i ∈ l.map some := by rw [h]; exact List.mem_map.2 ⟨i, hi, rfl⟩
  obtain ⟨o, ho, he⟩ := List.mem_map.1 this
  exact ⟨o, ho, he.symm⟩

theorem outs_split {w : W} {ids : List Nat} {l : List TOut} (h : l.map some = ids.map w.outOf)
    {pre post : List TOut} {o : TOut} (hl : l = pre ++ o :: post) :
    ∃ ipre i ipost, ids = ipre ++ i :: ipost ∧ pre.map some = ipre.map w.outOf ∧ w.outOf i = some o ∧
      post.map some = ipost.map w.outOf := by
  subst hl
  rw [List.map_append, List.map_cons] at h
  obtain ⟨ipre, rest, h1, h2, h3⟩ := List.map_eq_append_iff.1 h.symm
  obtain ⟨i, ipost, h4, h5, h6⟩ := List.map_eq_cons_iff.1 h3
  exact ⟨ipre, i, ipost, by rw [h1, h4], h2.symm, h5, h6.symm⟩

theorem items_split {l : List TOut} {pre post : List Item} {x : Item} (h : l.map TOut.item = pre ++ x :: post) :
    ∃ lpre o lpost, l = lpre ++ o :: lpost ∧ lpre.map TOut.item = pre ∧ o.item = x ∧ lpost.map TOut.item = post := by
  obtain ⟨lpre, rest, h1, h2, h3⟩ := List.map_eq_append_iff.1 h
  obtain ⟨o, lpost, h4, h5, h6⟩ := List.map_eq_cons_iff.1 h3
  exact ⟨lpre, o, lpost, by rw [h1, h4], h2, h5, h6⟩

theorem outs_results {w : W} {ids : List Nat} {l : List TOut} {rs : List Result} (h : l.map some = ids.map w.outOf)
    (hr : AllResults (l.map TOut.item) rs) {i : Nat} (hi : i ∈ ids) : ∃ r ∈ rs, Gave w i r := by
  obtain ⟨o, ho, he⟩ := outs_get h hi
  have : itemResult o.item ∈ (l.map TOut.item).map itemResult :=
    List.mem_map.2 ⟨_, List.mem_map.2 ⟨o, ho, rfl⟩, rfl⟩
  rw [hr] at this
  obtain ⟨r, hr', hre⟩ := List.mem_map.1 this
  exact ⟨r, hr', (gave_item he).2 hre.symm⟩

theorem findKey_key {w : W} {ids : List Nat} {l : List TOut} (h : l.map some = ids.map w.outOf) {key : Result}
    (hk : findKeyResult (l.map TOut.item) = .ok key) : KeyResult w ids key := by
  unfold findKeyResult at hk
  rcases split_items (l.map TOut.item) with ⟨rs, hr, hn⟩ | ⟨pre, x, post, rs, hl, hr, hn, hx⟩
  · have hall : ∀ j ∈ ids, ∃ r, Gave w j r ∧ ¬ FailedItself r := fun j hj => by
      obtain ⟨r, h1, h2⟩ := outs_results h hr hj
      exact ⟨r, h2, hn r h1⟩
    have h2 := (findKeyLoop_spec rs _ none hr (by simp)).2 hn
    rw [hk] at h2
    simp only [Option.toList_none, List.nil_append] at h2
    cases hf : (rs.filter fun r => !r.cancelled).getLast? with
    | some k =>
      rw [hf] at h2
      simp only [Except.ok.injEq] at h2
      subst h2
      -- the last uncancelled one
      obtain ⟨a, ha⟩ := List.getLast?_eq_some_iff.1 hf
      obtain ⟨r1, r2, e1, e2, e3⟩ := List.filter_eq_append_iff.1 ha
      obtain ⟨s1, s2, e4, e5, e6, e7⟩ := List.filter_eq_cons_iff.1 e3
      have hrs : rs = (r1 ++ s1) ++ key :: s2 := by rw [e1, e4]; simp
      rw [hrs, AllResults, List.map_append, List.map_cons] at hr
      obtain ⟨ip, irest, g1, g2, g3⟩ := List.map_eq_append_iff.1 hr
      obtain ⟨x, ipost, g4, g5, g6⟩ := List.map_eq_cons_iff.1 g3
      obtain ⟨lp, o, lpost, f1, f2, f3, f4⟩ := items_split (g1.trans (by rw [g4]))
      obtain ⟨dp, i, dpost, d1, d2, d3, d4⟩ := outs_split h f1
      refine .uncancelled dp dpost i d1 ((gave_item d3).2 (by rw [f3]; exact g5)) (by simpa using e6) hall ?_
      intro j hj
      obtain ⟨r, q1, q2⟩ := outs_results d4 (rs := s2) (by rw [AllResults, f4]; exact g6) hj
      refine ⟨r, q2, ?_⟩
      have : s2.filter (fun r => !r.cancelled) = [] := e7
      rw [List.filter_eq_nil_iff] at this
      have := this r q1
      simpa using this
    | none =>
      rw [hf] at h2
      have hfn : ∀ r ∈ rs, r.cancelled = true := by
        have : rs.filter (fun r => !r.cancelled) = [] := List.getLast?_eq_none_iff.1 hf
        rw [List.filter_eq_nil_iff] at this
        intro r hr
        simpa using this r hr
      cases hg : rs.getLast? with
      | none => rw [hg] at h2; cases h2
      | some k =>
        rw [hg] at h2
        simp only [Except.ok.injEq] at h2
        subst h2
        obtain ⟨a, ha⟩ := List.getLast?_eq_some_iff.1 hg
        rw [ha, AllResults, List.map_append, List.map_cons] at hr
        obtain ⟨ip, irest, g1, g2, g3⟩ := List.map_eq_append_iff.1 hr
        obtain ⟨x, ipost, g4, g5, g6⟩ := List.map_eq_cons_iff.1 g3
        obtain ⟨lp, o, lpost, f1, f2, f3, f4⟩ := items_split (g1.trans (by rw [g4]))
        obtain ⟨dp, i, dpost, d1, d2, d3, d4⟩ := outs_split h f1
        have hz : dpost = [] := by
          have : ipost = [] := by simpa using g6
          rw [this] at f4
          have : lpost = [] := by simpa using f4
          rw [this] at d4
          simpa using d4.symm
        subst hz
        refine .last dp i d1 ((gave_item d3).2 (by rw [f3]; exact g5)) ?_
        intro j hj
        have hr' : AllResults (l.map TOut.item) rs := by
          rw [AllResults, ha, List.map_append, List.map_cons]; exact hr
        obtain ⟨r, q1, q2⟩ := outs_results h hr' hj
        exact ⟨r, q2, hn r q1, hfn r q1⟩
  · obtain ⟨acc, ha, hskip⟩ := findKeyLoop_skip pre rs none hr hn (by simp)
    rw [hl, hskip] at hk
    rcases hx with hx | ⟨k, hx, hf⟩
    · simp [findKeyLoop, getResult_none x hx, bind, Except.bind] at hk
    · have : findKeyLoop acc (x :: post) = .ok k := by
        have hc := compare_nc acc k hf.2
        simp [findKeyLoop, getResult_ok x k hx, bind, Except.bind, hc, hf.2, hf.1]
      rw [this] at hk
      cases hk
      obtain ⟨lp, o, lpost, f1, f2, f3, f4⟩ := items_split hl
      obtain ⟨dp, i, dpost, d1, d2, d3, d4⟩ := outs_split h f1
      refine .failed dp dpost i d1 ((gave_item d3).2 (by rw [f3]; exact hx)) hf ?_
      intro j hj
      obtain ⟨r, q1, q2⟩ := outs_results d2 (rs := rs) (by rw [f2]; exact hr) hj
      exact ⟨r, q2, hn r q1⟩

/-- `convert_result_list` of the outcomes of the commands. -/
theorem convert_combined {w : W} {ids : List Nat} {l : List TOut} (h : l.map some = ids.map w.outOf) {c : Bool} {r : Result}
    (hr : convertResultList (l.map TOut.item) c = .ok r) : Combined w ids c r := by
  unfold convertResultList at hr
  split at hr
  · cases hr
  · simp only [bind, Except.bind] at hr
    cases hk : findKeyResult (l.map TOut.item) with
    | error e => rw [hk] at hr; cases hr
    | ok key =>
      rw [hk] at hr
      simp only [List.getLast?_map] at hr
      cases hg : l.getLast? with
      | none => rw [hg] at hr; cases hr
      | some o =>
        rw [hg] at hr
        simp only [Option.map_some] at hr
        have hgl : ids.getLast?.map w.outOf = some (some o) := by
          rw [← List.getLast?_map, ← h, List.getLast?_map, hg]; rfl
        cases hi : ids.getLast? with
        | none => rw [hi] at hgl; cases hgl
        | some i =>
          rw [hi] at hgl
          have ho : w.outOf i = some o := by simpa using hgl
          cases hx : itemResult o.item with
          | none => rw [getResult_none _ hx] at hr; cases hr
          | some last =>
            rw [getResult_ok _ _ hx] at hr
            cases hr
            exact ⟨key, last, i, findKey_key h hk, hi, (gave_item ho).2 hx, rfl⟩

theorem proper_broke {w : W} {i : Nat} {o : TOut} (h : w.outOf i = some o) (e : Exc) :
    Broke w i e → Proper o.item = some e := by
  rintro ⟨h1, h2, h3⟩
  rw [h] at h1
  cases h1
  cases e <;> simp_all [TOut.item, Proper]

theorem broke_proper {w : W} {i : Nat} {o : TOut} (h : w.outOf i = some o) (e : Exc) (hp : Proper o.item = some e) :
    Broke w i e ∨ (o = .val none ∧ e = .assertionError) := by
  cases o with
  | val x => cases x <;> simp_all [TOut.item, Proper]
  | err x => cases x <;> simp_all [TOut.item, Proper, Broke] <;> subst hp <;> simp
  | cancelled => simp_all [TOut.item, Proper]

/-- `convert_result_list` raises. -/
theorem convert_error {w : W} {ids : List Nat} {l : List TOut} (h : l.map some = ids.map w.outOf) {c : Bool} {e : Exc}
    (hne : ids ≠ []) (hr : convertResultList (l.map TOut.item) c = .error e) :
    (∃ pre post i, ids = pre ++ i :: post ∧ Broke w i e ∧ ∀ j ∈ pre, ∀ e, ¬ Broke w j e) ∨
    (e = .assertionError ∧ ∃ i ∈ ids, (∀ r, ¬ Gave w i r) ∧ (∀ e, ¬ Broke w i e) ∧
      (w.outOf i = some (.val none) ∨ ∀ j ∈ ids, ∀ e, ¬ Broke w j e)) := by
  cases hp : (l.map TOut.item).filterMap Proper with
  | cons x xs =>
    have := (C24_first_other_exception (l.map TOut.item) c).1 x (by rw [hp]; rfl)
    rw [hr] at this
    cases this
    obtain ⟨pre, y, post, e1, e2, e3, e4⟩ := List.filterMap_eq_cons_iff.1 hp
    obtain ⟨lp, o, lpost, f1, f2, f3, f4⟩ := items_split e1
    obtain ⟨dp, i, dpost, d1, d2, d3, d4⟩ := outs_split h f1
    rcases broke_proper d3 e (by rw [f3]; exact e3) with hb | ⟨rfl, rfl⟩
    · refine .inl ⟨dp, dpost, i, d1, hb, ?_⟩
      intro j hj e' hb'
      obtain ⟨o', ho', he'⟩ := outs_get d2 hj
      have := proper_broke he' e' hb'
      have hz := e2 o'.item (by rw [← f2]; exact List.mem_map.2 ⟨o', ho', rfl⟩)
      rw [this] at hz
      cases hz
    · refine .inr ⟨rfl, i, by rw [d1]; simp, ?_, ?_, .inl d3⟩
      · intro r hg
        have := (gave_item d3).1 hg
        cases this
      · rintro e' ⟨hb, _⟩
        rw [d3] at hb; cases hb
  | nil =>
    have hno : ∀ j ∈ ids, ∀ e, ¬ Broke w j e := by
      intro j hj e hb
      obtain ⟨o, ho, he⟩ := outs_get h hj
      have := proper_broke he e hb
      rw [List.filterMap_eq_nil_iff] at hp
      have hz := hp o.item (List.mem_map.2 ⟨o, ho, rfl⟩)
      rw [this] at hz
      cases hz
    have he : e = .assertionError := by
      rcases (C24_first_other_exception (l.map TOut.item) c).2 hp e hr with he | ⟨_, hn⟩
      · exact he
      · have : l = [] := by simpa using hn
        rw [this] at h
        exact absurd (by simpa using h.symm) hne
    refine .inr ⟨he, ?_⟩
    -- some command has no result
    have : ∃ i ∈ ids, ∀ r, ¬ Gave w i r := by
      rcases split_items (l.map TOut.item) with ⟨rs, hrs, hn⟩ | ⟨pre, x, post, rs, hl, hrs, hn, hx⟩
      · exfalso
        cases hg : rs.getLast? with
        | none =>
          have hz : rs = [] := List.getLast?_eq_none_iff.1 hg
          rw [hz] at hrs
          have : l = [] := by simpa [AllResults] using hrs
          rw [this] at h
          exact absurd (by simpa using h.symm) hne
        | some last =>
          obtain ⟨r, hok, _⟩ := C23_otherwise _ rs c last hrs hg hn
          rw [hr] at hok; cases hok
      · obtain ⟨lp, o, lpost, f1, f2, f3, f4⟩ := items_split hl
        obtain ⟨dp, i, dpost, d1, d2, d3, d4⟩ := outs_split h f1
        rcases hx with hx | ⟨k, hx, hf⟩
        · refine ⟨i, by rw [d1]; simp, fun r hg => ?_⟩
          have := (gave_item d3).1 hg
          rw [f3, hx] at this; cases this
        · -- then the last command is the one without a result
          obtain ⟨acc, ha, hskip⟩ := findKeyLoop_skip pre rs none hrs hn (by simp)
          have hk : findKeyResult (l.map TOut.item) = .ok k := by
            unfold findKeyResult
            rw [hl, hskip]
            have hc := compare_nc acc k hf.2
            simp [findKeyLoop, getResult_ok x k hx, bind, Except.bind, hc, hf.2, hf.1]
          have hlne : l ≠ [] := by rw [f1]; simp
          obtain ⟨o', ho'⟩ : ∃ o, l.getLast? = some o := by
            cases hz : l.getLast? with
            | none => exact absurd (List.getLast?_eq_none_iff.1 hz) hlne
            | some o => exact ⟨o, rfl⟩
          have hmem : o' ∈ l := List.mem_of_getLast? ho'
          have hmem' : some o' ∈ ids.map w.outOf := by rw [← h]; exact List.mem_map.2 ⟨o', hmem, rfl⟩
          obtain ⟨j, hj, hje⟩ := List.mem_map.1 hmem'
          refine ⟨j, hj, fun r hg => ?_⟩
          have hi := (gave_item hje).1 hg
          unfold convertResultList at hr
          rw [otherEx_eq, hp] at hr
          simp [bind, Except.bind, hk, List.getLast?_map, ho', getResult_ok _ _ hi, pure, Except.pure] at hr
    obtain ⟨i, hi, hg⟩ := this
    exact ⟨i, hi, hg, hno i hi, .inr hno⟩

/-- Before anything happens, no command has been asked to cancel. -/
theorem piped_start {cfg : PRCfg} {w : W} : ∀ i ∈ commands .await cfg, ∃ t,
    ((((w.piped .await cfg).log .bodyStart).log (.bodyEnd none)).atExit none).tasks[i]? = some t ∧ t.cancels = 0 := by
  intro i hi
  have hi : i < cfg.n := by
    have := (List.mem_range'_1.1 hi).2
    omega
  refine ⟨{ kind := .io }, ?_, rfl⟩
  show ([] ++ List.replicate cfg.n _)[i]? = _
  rw [List.nil_append, List.getElem?_replicate, if_pos hi]

/-- **C46 (with C23, C24, C62): what `await pipeline` gives.** Whenever `await pipeline` ends, in whatever schedule, it
ends in one of the ways listed by `PipeOutcome`. -/
theorem C46_await_outcome (cfg : PRCfg) (hn : 0 < cfg.n) (w : W) (hf : w.Fresh) (evs : List Ev) (o : Out (Option Returned)) (w' : W)
    (h : pipeExecute .await cfg w evs = (o, w')) (hb : o ≠ .blocked) : PipeOutcome cfg w' o := by
  have hne : commands .await cfg ≠ [] := by
    unfold commands
    intro hz
    have := congrArg List.length hz
    simp at this
    omega
  cases phase .await cfg w hf evs with
  | setup e hs hx =>
    have := hx []
    rw [List.append_nil, h] at this
    cases this
    exact .setup e hs
  | launching w1 _ hh => cases hh
  | interrupted w1 _ _ hh => cases hh
  | body w1 w2 _ hh => cases hh
  | exiting w1 w2 ex rest hs q ha hrd b hx =>
    obtain ⟨rfl, rfl, rfl, hev⟩ := ha rfl
    have := hx []
    rw [List.append_nil, List.append_nil, h, hev] at this
    have hp := harvestResults_spec (commands .await cfg) false true ((((w.piped .await cfg).log .bodyStart).log (.bodyEnd none)).atExit none) evs
    have ht0 : ((((w.piped .await cfg).log .bodyStart).log (.bodyEnd none)).atExit none).throws = 0 := by
      show List.count Obs.thrown ((w.trace ++ [Obs.bodyStart]) ++ [Obs.bodyEnd none]) = 0
      rw [hf.trace]; rfl
    have hg0 : ((((w.piped .await cfg).log .bodyStart).log (.bodyEnd none)).atExit none).gaveUps = 0 := by
      show List.count Obs.gaveUp ((w.trace ++ [Obs.bodyStart]) ++ [Obs.bodyEnd none]) = 0
      rw [hf.trace]; rfl
    have hc0 : ((((w.piped .await cfg).log .bodyStart).log (.bodyEnd none)).atExit none).cancelled = false := hf.cancelled
    rcases hr : harvestResults (commands .await cfg) false true ((((w.piped .await cfg).log .bodyStart).log (.bodyEnd none)).atExit none) evs with ⟨oh, w3, r⟩
    rw [hr] at this hp
    dsimp only at hp
    have same := (pipeEnd_same this).1
    cases oh with
    | blocked => cases this; exact absurd rfl hb
    | exc e =>
      cases this
      rcases hp.exc e rfl with ⟨_, hz, _⟩ | ⟨rfl, hg⟩ | ⟨_, hz⟩ | ⟨hz, hd | ht⟩
      · cases hz
      · refine .gaveUp ?_
        rw [hg0] at hg
        exact List.count_pos_iff.1 hg
      · exact absurd hz hne
      · exact .serious e (toResults_error hz (allDone_iff.1 hd))
      · refine .twice e ?_ (toResults_error_kind hz)
        rw [ht0] at ht
        exact ht
    | ok x =>
      obtain ⟨c, l⟩ := x
      obtain ⟨hl, h1, h2⟩ := hp.ok c l rfl
      have hm : l.map some = (commands .await cfg).map w'.outOf := by
        rw [(toResults_ok hl).1]
        have : w'.outOf = w3.outOf := by funext i; unfold W.outOf; rw [same.tasks]
        rw [this]
      have hcl : w3.cancelled = false := hp.ext.cancelled.trans hc0
      unfold pipeEnd at this
      have hw' := congrArg Prod.snd this
      have ho := congrArg Prod.fst this
      dsimp only at hw' ho
      have hcc : (w3.afterWait c).cancelled = c := by simp [W.afterWait, hcl]
      unfold conclude at ho
      rw [hcc] at ho
      dsimp only at ho
      have start : ∀ i ∈ commands .await cfg, ∃ t,
          ((((w.piped .await cfg).log .bodyStart).log (.bodyEnd none)).atExit none).tasks[i]? = some t ∧ t.cancels = 0 :=
        piped_start
      have quiet : c = false → Undisturbed w' (commands .await cfg) ∨ ∃ i ∈ commands .await cfg, FailedUnasked w' i := by
        intro hc
        rcases (h2 hc).2 with hq | ⟨i, hi, hfl, hna⟩
        · refine .inl ⟨?_, fun i hi => ?_⟩
          · rw [same.trace]
            have := hq.throws
            rw [ht0] at this
            exact List.count_eq_zero.1 this
          · rintro ⟨t', ht', hpos⟩
            obtain ⟨t, ht, h0⟩ := start i hi
            obtain ⟨t2, ht2, hc2⟩ := hq.same i t ht
            rw [same.tasks, ht2] at ht'
            cases ht'
            omega
        · refine .inr ⟨i, hi, ?_, ?_⟩
          rotate_left
          · rintro ⟨t', ht', hpos⟩
            obtain ⟨t, ht, h0⟩ := start i hi
            obtain ⟨t2, ht2, hc2⟩ := hna t ht
            rw [same.tasks, ht2] at ht'
            cases ht'
            omega
          unfold W.failed at hfl
          split at hfl
          · rename_i e he
            refine ⟨e, ?_⟩
            unfold W.outOf at he ⊢
            rw [same.tasks]; exact he
          · cases hfl
      cases hcv : convertResultList (l.map TOut.item) c with
      | error e =>
        have : pipeResult (l.map TOut.item) c cfg.opts = .error e := by
          simp [pipeResult, hcv, bind, Except.bind]
        rw [this] at ho
        dsimp only at ho
        subst ho
        rcases convert_error hm hne hcv with ⟨pre, post, i, d1, d2, d3⟩ | ⟨rfl, i, hi, d1, d2, d3⟩
        · exact .broke pre post i e d1 d2 d3
        · exact .noResult i hi d1 d2 d3
      | ok res =>
        have hcomb := convert_combined hm hcv
        cases c with
        | true =>
          have hthrown : .thrown ∈ w'.trace := by
            rw [same.trace]
            have := h1 rfl
            rw [ht0] at this
            exact List.count_pos_iff.1 this
          cases hcc2 : cfg.opts.catchCancelled with
          | false =>
            have : pipeResult (l.map TOut.item) true cfg.opts = .error .cancelled := by
              simp [pipeResult, hcv, bind, Except.bind, checkResult, hcc2]
            rw [this] at ho
            dsimp only at ho
            subst ho
            exact .cancelled res hcomb hthrown hcc2
          | true =>
            have : pipeResult (l.map TOut.item) true cfg.opts = .error (.resultError res) := by
              simp [pipeResult, hcv, bind, Except.bind, checkResult, hcc2]
            rw [this] at ho
            dsimp only at ho
            subst ho
            exact .cancelledResult res hcomb hthrown hcc2
        | false =>
          obtain ⟨_, _, hal, hnal, _⟩ := C24_pipeline_outcome (l.map TOut.item) res cfg.opts hcv
          by_cases hA : Allowed cfg.opts.exitCodes res.exitCode
          · rw [hal hA] at ho
            dsimp only at ho
            cases hret : cfg.opts.returnResult with
            | true =>
              rw [hret, if_pos rfl] at ho
              subst ho
              exact .result res hcomb hA hret (quiet rfl)
            | false =>
              rw [hret] at ho
              simp only [Bool.false_eq_true, if_false] at ho
              cases hd : cfg.decode res.outputBytes res.encoding with
              | ok t =>
                rw [hd] at ho
                dsimp only at ho
                subst ho
                exact .text res t hcomb hA hret hd (quiet rfl)
              | error e =>
                rw [hd] at ho
                dsimp only at ho
                subst ho
                exact .decode res e hcomb hA hret hd
          · rw [hnal hA] at ho
            dsimp only at ho
            subst ho
            exact .badCode res hcomb hA (quiet rfl)

theorem allDone_same {w w' : W} {ids : List Nat} (s : SameTasks w w') (h : AllDone w ids) : AllDone w' ids := by
  intro i hi
  obtain ⟨o, ho⟩ := h i hi
  refine ⟨o, ?_⟩
  unfold W.outOf at ho ⊢
  rw [s.tasks]; exact ho

theorem toResults_done {w : W} {ids : List Nat} {l : List TOut} (h : toResults w ids = .ok l) : AllDone w ids := by
  intro i hi
  obtain ⟨o, _, ho⟩ := outs_get (toResults_ok h).1 hi
  exact ⟨o, ho⟩

/-- **C46: how `async with pipeline` ends.** Whatever the body does, and in whatever schedule. -/
theorem C46_block_outcome (cfg : PRCfg) (hn : 0 < cfg.n) (w : W) (hf : w.Fresh) (evs : List Ev) (o : Out (Option Returned)) (w' : W)
    (h : pipeExecute .block cfg w evs = (o, w')) (hb : o ≠ .blocked) : BlockOutcome cfg w' o := by
  have hne : commands .block cfg ≠ [] := by
    unfold commands
    intro hz
    have := congrArg List.length hz
    simp at this
    omega
  cases phase .block cfg w hf evs with
  | setup e hs hx =>
    have := hx []
    rw [List.append_nil, h] at this
    cases this
    exact .setup e hs
  | launching w1 _ _ _ hx => rw [h] at hx; cases hx; exact absurd rfl hb
  | body w1 w2 _ _ _ _ _ hx => rw [h] at hx; cases hx; exact absurd rfl hb
  | interrupted w1 rest hs hh q hm hx =>
    have := hx []
    rw [List.append_nil, List.append_nil, h] at this
    have hp := harvestResults_spec (commands .block cfg) false true w1.interrupted rest
    rcases hr : harvestResults (commands .block cfg) false true w1.interrupted rest with ⟨oh, w3, r⟩
    rw [hr] at this hp
    dsimp only at hp
    obtain ⟨hn1, hn2, ht1, hg1⟩ := interrupted_trace hf q hp.ext
    have same := (pipeFail_same this).1
    cases oh with
    | blocked => cases this; exact absurd rfl hb
    | exc e =>
      cases this
      rcases hp.exc e rfl with ⟨_, hz, _⟩ | ⟨rfl, hg⟩ | ⟨_, hz⟩ | ⟨hz, hd | ht⟩
      · cases hz
      · refine .gaveUp ?_
        rw [hg1] at hg
        exact List.count_pos_iff.1 hg
      · exact absurd hz hne
      · exact .serious e (toResults_error hz (allDone_iff.1 hd))
      · refine .twice e ?_ (toResults_error_kind hz)
        rw [cleanupLog_none hn1]
        show 2 ≤ w'.throws
        omega
    | ok x =>
      obtain ⟨c, l⟩ := x
      cases this
      refine .launch hn2 ?_ (allDone_same same (toResults_done (hp.ok c l rfl).1))
      have : w1.interrupted.throws ≤ w3.throws := hp.ext.throws
      exact List.count_pos_iff.1 (show 0 < w3.throws by omega)
  | exiting w1 w2 ex rest hs q ha hrd b hx =>
    have := hx []
    rw [List.append_nil, List.append_nil, h] at this
    have hp := harvestResults_spec (commands .block cfg) false true ((w2.log (.bodyEnd ex)).atExit ex) rest
    rcases hr : harvestResults (commands .block cfg) false true ((w2.log (.bodyEnd ex)).atExit ex) rest with ⟨oh, w3, r⟩
    rw [hr] at this hp
    dsimp only at hp
    obtain ⟨l, hl1, hl2, hl3, hl4⟩ := exit_trace hf q b hp.ext
    have same := (pipeEnd_same this).1
    have hthrown : ∀ k, .thrown ∈ cleanupLog w'.trace ↔ k + l.count .thrown ≠ k := by
      intro k
      rw [same.trace, hl2]
      have : k + l.count .thrown ≠ k ↔ 0 < l.count .thrown := by omega
      rw [this, List.count_pos_iff]
      simp
    have hend : .bodyEnd ex ∈ w'.trace := by rw [same.trace, hl1]; simp
    cases oh with
    | blocked => cases this; exact absurd rfl hb
    | exc e =>
      cases this
      rcases hp.exc e rfl with ⟨_, hz, _⟩ | ⟨rfl, hg⟩ | ⟨_, hz⟩ | ⟨hz, hd | ht⟩
      · cases hz
      · refine .gaveUp ?_
        exact List.count_pos_iff.1 (show 0 < w'.gaveUps by omega)
      · exact absurd hz hne
      · exact .serious e (toResults_error hz (allDone_iff.1 hd))
      · refine .twice e ?_ (toResults_error_kind hz)
        rw [hl2]
        show 2 ≤ List.count _ _
        rw [List.count_cons]
        omega
    | ok x =>
      obtain ⟨c, rs⟩ := x
      obtain ⟨hres, h1, h2⟩ := hp.ok c rs rfl
      have hdone := allDone_same same (toResults_done hres)
      have hc2 : w2.cancelled = false :=
        b.ext.cancelled.trans (q.toExt.cancelled.trans hf.cancelled)
      unfold pipeEnd at this
      cases ex with
      | none =>
        have ho := congrArg Prod.fst this
        dsimp only [conclude] at ho
        subst ho
        exact .ended hend hdone
      | some e =>
        have hc3 : w3.cancelled = decide (e = .cancelled) := by
          rw [hp.ext.cancelled]
          show (W.cancelAll _ _).cancelled = _
          rw [(cancelAll_ext _ _).cancelled]
          show (w2.cancelled || _) = _
          rw [hc2, Bool.false_or]
        dsimp only at this
        rw [hc3] at this
        split at this
        · rename_i hcond
          have ho := congrArg Prod.fst this
          dsimp only [conclude] at ho
          subst ho
          refine .suppressed e hend hdone ?_
          rcases Bool.or_eq_true_iff.1 hcond with hcond | hcond
          · exact .inl (of_decide_eq_true hcond)
          · refine .inr ((hthrown 0).2 ?_)
            have := h1 hcond
            omega
        · rename_i hcond
          have ho := congrArg Prod.fst this
          dsimp only at ho
          subst ho
          simp only [Bool.or_eq_true, decide_eq_true_eq, not_or, Bool.not_eq_true] at hcond
          refine .body e hend hdone hcond.1 ?_
          rcases (h2 hcond.2).2 with hq | ⟨i, hi, hfl, _⟩
          · refine .inl fun ht => ?_
            have := (hthrown 0).1 ht
            have := hq.throws
            omega
          · refine .inr ⟨i, hi, ?_⟩
            unfold W.failed at hfl
            split at hfl
            · rename_i e' he
              refine ⟨e', ?_⟩
              unfold W.outOf at he ⊢
              rw [same.tasks]; exact he
            · cases hfl

end Shellous.Props
