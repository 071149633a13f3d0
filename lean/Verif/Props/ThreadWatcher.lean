import Verif.Lemmas.ThreadWatcher

/-!
# C66: a thread for every child
-/

namespace Shellous.Props

/-- C66, "at most once". -/
theorem C66_at_most_once {l : List TsEv} {w : TsW} (h : TsHist l w) : (w.reports.map (·.1)).Nodup := (tsinv h).once

/-- C66, "after it has exited", with the process id that was given. -/
theorem C66_after_exit {l : List TsEv} {w : TsW} (h : TsHist l w) {i p : Nat} {st : Int} (hr : (i, p, st) ∈ w.reports) :
    i < w.nCalls ∧ p = w.pid i ∧ w.exited (w.target i) ≠ none := by
  obtain ⟨h1, h2, h3, _⟩ := (tsinv h).rep i p st hr
  exact ⟨h1, h2, h3⟩

/-- C66, "with its own exit status", however process ids are used again: unless somebody else reaps children, or a child is watched
twice. -/
theorem C66_status {l : List TsEv} {w : TsW} (h : TsHist l w) (ha : TsAlone l) (ho : TsOnce w) {i p : Nat} {st : Int}
    (hr : (i, p, st) ∈ w.reports) : ∃ raw, w.exited (w.target i) = some raw ∧ st = exitStatus raw :=
  (tstrue h ha ho).reported i p st hr

/-- The children and the process table. -/
structure TsGone (w : TsW) : Prop where
  held : ∀ i p, i < w.nCalls → w.proc p = some (w.target i) → p = w.pid i
  calling : ∀ i st q, w.pc i = .calling st → w.proc q ≠ some (w.target i)
  reported : ∀ i q, (w.pc i).early = false → w.proc q ≠ some (w.target i)

set_option maxHeartbeats 2000000 in
theorem tsgone {l : List TsEv} {w : TsW} (h : TsHist l w) : TsGone w := by
  induction h with
  | start => constructor <;> simp [TsPc.early]
  | step ev h hs ih =>
    rename_i l w w'
    obtain ⟨born, kid, inj, _, aim, _, _, _, _, _⟩ := tsinv h
    obtain ⟨h1, h2, h3⟩ := ih
    have hs := tsstep_of hs
    clear h
    cases hs <;> refine ⟨?_, ?_, ?_⟩ <;> simp only [upd, apply_ite TsPc.early, TsPc.early] <;> grind [TsPc.early]

/-- C66, "and it is reaped": no child that was reported is left as a zombie. -/
theorem C66_reaped {l : List TsEv} {w : TsW} (h : TsHist l w) {i p : Nat} {st : Int} (hr : (i, p, st) ∈ w.reports) (q : Nat) :
    w.proc q ≠ some (w.target i) :=
  (tsgone h).reported i q ((tsinv h).rep i p st hr).2.2.2

/-- C66: a thread ends without removing its entry only if its callback has raised something other than RuntimeError; and an entry without a thread
is there only if a thread could not be started. -/
theorem C66_stale_entries {l : List TsEv} {w : TsW} (h : TsHist l w) (i : Nat) :
    (w.pc i = .callbackRaised → .callback i .otherError ∈ l) ∧ (w.pc i = .startFailed → .go i false ∈ l) := by
  induction h with
  | start => simp
  | step ev h hs ih =>
    rename_i l w w'
    obtain ⟨h1, h2⟩ := ih
    have hs := tsstep_of hs
    clear h
    cases hs <;> refine ⟨?_, ?_⟩ <;> simp only [upd, List.mem_append, List.mem_singleton] <;> grind

/-- C66: a thread does not wait any longer once its child has exited. -/
theorem C66_not_blocked {l : List TsEv} {w : TsW} (h : TsHist l w) (ha : TsAlone l) (ho : TsOnce w) {i : Nat}
    (hw : (w.pc i).watching = true) (hx : w.exited (w.target i) ≠ none) : ∃ e w', e.of i = true ∧ w.step e = some w' := by
  cases hpc : w.pc i <;> rw [hpc] at hw <;> try (cases hw; done)
  case waiting =>
    have h1 := (tstrue h ha ho).unreaped i (by rw [hpc]; rfl)
    cases hx' : w.exited (w.target i) with
    | none => exact absurd hx' hx
    | some raw =>
      have : (w.step (.go i true)).isSome = true := by simp [TsW.step, TsW.goOn, hpc, TsW.waitBlocking, h1, hx']
      exact ⟨.go i true, _, by simp [TsEv.of], (Option.some_get this).symm⟩
  case calling st =>
    have : (w.step (.callback i .returns)).isSome = true := by simp [TsW.step, hpc]
    exact ⟨.callback i .returns, _, by simp [TsEv.of], (Option.some_get this).symm⟩

theorem ts_exec_hist {σ : Nat → TsW} {ev : Nat → Option TsEv} (hx : TsExec σ ev) (n : Nat) :
    TsHist ((List.range n).filterMap ev) (σ n) := by
  induction n with
  | zero => rw [hx.init]; exact .start
  | succ n ih =>
    have := hx.steps n
    rw [List.range_succ, List.filterMap_append]
    cases he : ev n with
    | none => rw [he] at this; simp only at this; simpa [he, this] using ih
    | some e => rw [he] at this; simpa [he] using TsHist.step e ih this

/-- What a step of others does to a call. -/
theorem ts_stays {w w' : TsW} {ev : TsEv} (hs : TsStep w ev w') {i : Nat} (hi : i < w.nCalls) (ho : ev.of i = false) :
    w'.pc i = w.pc i ∧ w'.target i = w.target i ∧ i < w'.nCalls := by
  cases hs <;> simp only [TsEv.of, beq_eq_false_iff_ne, ne_eq] at ho <;> simp only [upd] <;> grind

theorem ts_exited_stays {w w' : TsW} {ev : TsEv} (hs : TsStep w ev w') {c : Nat} (hx : w.exited c ≠ none) : w'.exited c ≠ none := by
  cases hs <;> try exact hx
  show upd w.exited _ _ c ≠ none
  simp only [upd]; split <;> simp_all

/-- C66, "is reported": when a child that is watched exits, its callback is called, under every fair schedule. (Unless somebody else reaps children,
or a child is watched twice.) -/
theorem C66_eventually {σ : Nat → TsW} {ev : Nat → Option TsEv} (hx : TsExec σ ev) (hfair : TsFair σ ev)
    (ha : ∀ n pid, ev n ≠ some (.reapElsewhere pid)) (ho : ∀ n, TsOnce (σ n)) {n i : Nat}
    (hw : (σ n).pc i = .waiting) (hex : (σ n).exited ((σ n).target i) ≠ none) : ∃ m, n ≤ m ∧ TsReported (σ m) i := by
  have hal : ∀ n, TsAlone ((List.range n).filterMap ev) := by
    intro n pid hm
    obtain ⟨k, _, hk⟩ := List.mem_filterMap.1 hm
    exact ha k pid hk
  have hist := ts_exec_hist hx
  have hstep : ∀ m, σ (m + 1) = σ m ∨ ∃ e, ev m = some e ∧ TsStep (σ m) e (σ (m + 1)) := by
    intro m
    have := hx.steps m
    cases he : ev m with
    | none => rw [he] at this; exact .inl this
    | some e => rw [he] at this; exact .inr ⟨e, rfl, tsstep_of this⟩
  have lt : ∀ m, ((σ m).pc i).watching = true → i < (σ m).nCalls := fun m hi =>
    Nat.lt_of_not_ge fun hge => by rw [(tsinv (hist m)).born i hge] at hi; cases hi
  -- one step on: from a place before the callback to the next place
  have move : ∀ k, ((σ k).pc i).watching = true → (σ k).exited ((σ k).target i) ≠ none →
      ∃ m e, k ≤ m ∧ ev m = some e ∧ e.of i = true ∧ (σ m).pc i = (σ k).pc i ∧ (σ m).exited ((σ m).target i) ≠ none := by
    intro k hk hkx
    refine Classical.byContradiction fun hno => ?_
    have hstay : ∀ d, (σ (k + d)).pc i = (σ k).pc i ∧ (σ (k + d)).exited ((σ (k + d)).target i) ≠ none := by
      intro d
      induction d with
      | zero => exact ⟨rfl, hkx⟩
      | succ d ih =>
        rcases hstep (k + d) with h | ⟨e, he, h⟩
        · rw [← Nat.add_assoc, h]; exact ih
        · cases hof : e.of i
          · have h1 := ts_stays h (lt (k + d) (by rw [ih.1]; exact hk)) hof
            rw [← Nat.add_assoc]
            exact ⟨h1.1.trans ih.1, h1.2.1 ▸ ts_exited_stays h ih.2⟩
          · exact absurd ⟨k + d, e, by omega, he, hof, ih.1, ih.2⟩ hno
    obtain ⟨m, e, hm, he, hof⟩ := hfair i k (fun m hm => by
      obtain ⟨d, rfl⟩ := Nat.exists_eq_add_of_le hm
      exact C66_not_blocked (hist _) (hal _) (ho _) (by rw [(hstay d).1]; exact hk) (hstay d).2)
    obtain ⟨d, rfl⟩ := Nat.exists_eq_add_of_le hm
    exact hno ⟨k + d, e, hm, he, hof, (hstay d).1, (hstay d).2⟩
  -- from the callback to the report
  have fin : ∀ k st, (σ k).pc i = .calling st → (σ k).exited ((σ k).target i) ≠ none → ∃ m, k ≤ m ∧ TsReported (σ m) i := by
    intro k st hk hkx
    obtain ⟨m, e, hm, he, hof, hpc, _⟩ := move k (by rw [hk]; rfl) hkx
    rw [hk] at hpc
    refine ⟨m + 1, by omega, ?_⟩
    have hs := hx.steps m
    rw [he] at hs
    cases e <;> simp only [TsEv.of, beq_iff_eq] at hof <;> try (cases hof; done)
    case go j ok => subst hof; simp [TsW.step, TsW.goOn, hpc] at hs
    case callback j e =>
      subst hof
      simp only [TsW.step, hpc, Option.some.injEq] at hs
      rw [← hs]
      exact ⟨_, _, List.mem_cons_self⟩
  obtain ⟨m, e, hm, he, hof, hpc, hmx⟩ := move n (by rw [hw]; rfl) hex
  rw [hw] at hpc
  have hs := hx.steps m
  rw [he] at hs
  cases e <;> simp only [TsEv.of, beq_iff_eq] at hof <;> try (cases hof; done)
  case callback j e => subst hof; simp [TsW.step, hpc] at hs
  case go j ok =>
    subst hof
    have hpr := (tstrue (hist m) (hal m) (ho m)).unreaped j (by rw [hpc]; rfl)
    cases hx' : (σ m).exited ((σ m).target j) with
    | none => exact absurd hx' hmx
    | some raw =>
      simp only [TsW.step, TsW.goOn, hpc, TsW.waitBlocking, hpr, hx', Option.some.injEq] at hs
      obtain ⟨k, hk, hr⟩ := fin (m + 1) (exitStatus raw) (by rw [← hs]; exact upd_same _ _ _) (by rw [← hs]; exact hmx)
      exact ⟨k, by omega, hr⟩

/-- C66, "a child can be watched if its process id is not in use": `watch_pid` raises AssertionError only if an earlier call for the same
process id has an entry in the table. -/
theorem C66_refused_partial {l : List TsEv} {w w' : TsW} (h : TsHist l w) {i : Nat} {ok : Bool} (hpc : w.pc i = .check)
    (hs : w.step (.go i ok) = some w') (hr : w'.pc i = .assertionError) :
    ∃ j, j < w.nCalls ∧ j ≠ i ∧ w.pid j = w.pid i ∧ (w.pc j).listed = true := by
  have hp : w.pid i ∈ w.pids := by
    refine Classical.byContradiction fun hp => ?_
    simp only [TsW.step, TsW.goOn, hpc, if_neg hp, Option.some.injEq] at hs
    rw [← hs] at hr
    simp [upd] at hr
  obtain ⟨j, h1, h2, h3⟩ := ts_listed h _ hp
  exact ⟨j, h1, fun he => (by rw [he, hpc] at h3; cases h3), h2, h3⟩

/-! ## Examples and limits -/

def tsAll (w : TsW) : List TsEv → Option TsW
  | [] => some w
  | ev :: l => (w.step ev).bind (tsAll · l)

theorem tsAll_hist {l l' : List TsEv} {w w' : TsW} (h : TsHist l w) (hr : tsAll w l' = some w') : TsHist (l ++ l') w' := by
  induction l' generalizing l w with
  | nil => simp only [tsAll, Option.some.injEq] at hr; subst hr; rwa [List.append_nil]
  | cons ev l' ih =>
    simp only [tsAll] at hr
    cases hs : w.step ev with
    | none => rw [hs] at hr; cases hr
    | some w1 =>
      rw [hs] at hr
      have := ih (.step ev h hs) hr
      rwa [List.append_assoc] at this

theorem tsAll_run (l : List TsEv) (h : (tsAll {} l).isSome = true) : TsHist l ((tsAll {} l).get h) :=
  tsAll_hist (l := []) .start (l' := l) (Option.some_get h).symm

theorem two_once {w : TsW} (h2 : w.nCalls = 2) (hne : w.target 0 ≠ w.target 1) : TsOnce w := by
  intro i j hi hj he
  rw [h2] at hi hj
  have h1 : i = 0 ∨ i = 1 := by omega
  have h3 : j = 0 ∨ j = 1 := by omega
  rcases h1 with rfl | rfl <;> rcases h3 with rfl | rfl <;> first | rfl | exact absurd he hne | exact absurd he.symm hne

/-- Two children; the process id of the first is used again. -/
def sameNumber : List TsEv :=
  [.fork 10, .watch 10, .go 0 true, .go 0 true, .go 0 true, .exits 10 768, .go 0 true, .callback 0 .runtimeError, .fork 10, .go 0 true,
   .watch 10, .go 1 true, .go 1 true, .go 1 true, .exits 10 9, .go 1 true, .callback 1 .returns, .go 1 true]

example : ∃ w, TsHist sameNumber w ∧ TsAlone sameNumber ∧ TsOnce w ∧ w.reports = [(1, 10, -9), (0, 10, 3)] ∧ w.pids = [] :=
  ⟨_, tsAll_run sameNumber (by decide +kernel), by simp [TsAlone, sameNumber], two_once (by decide +kernel) (by decide +kernel),
    by decide +kernel, by decide +kernel⟩

/-- The worlds of a finite history, after which nothing happens. -/
def tsWorlds (l : List TsEv) (n : Nat) : TsW := (tsAll {} (l.take n)).getD {}

theorem tsAll_append (w : TsW) (l l' : List TsEv) : tsAll w (l ++ l') = (tsAll w l).bind (tsAll · l') := by
  induction l generalizing w with
  | nil => rfl
  | cons ev l ih =>
    simp only [List.cons_append, tsAll]
    cases w.step ev with
    | none => rfl
    | some w1 => exact ih w1

theorem ts_finite_exec (l : List TsEv) (h : (tsAll {} l).isSome = true)
    (hend : ∀ i e w', e.of i = true → ((tsAll {} l).getD {}).step e ≠ some w') : TsExec (tsWorlds l) (l[·]?) ∧ TsFair (tsWorlds l) (l[·]?) := by
  have hpre : ∀ n, (tsAll {} (l.take n)).isSome = true := by
    intro n
    rw [← List.take_append_drop n l, tsAll_append] at h
    cases hx : tsAll {} (l.take n) with
    | none => rw [hx] at h; cases h
    | some w => rfl
  refine ⟨⟨rfl, fun n => ?_⟩, fun i n hn => ?_⟩
  · cases he : l[n]? with
    | none =>
      have hl := List.getElem?_eq_none_iff.1 he
      simp only [tsWorlds]
      rw [List.take_of_length_le hl, List.take_of_length_le (by omega)]
    | some e =>
      have hlt := (List.getElem?_eq_some_iff.1 he).1
      have h1 := hpre n
      have h2 := hpre (n + 1)
      simp only [tsWorlds]
      rw [List.take_add_one, he] at h2 ⊢
      rw [tsAll_append] at h2 ⊢
      cases hx : tsAll {} (l.take n) with
      | none => rw [hx] at h1; cases h1
      | some w =>
        rw [hx] at h2
        simp only [Option.toList, Option.bind_some, tsAll] at h2 ⊢
        cases hs : w.step e with
        | none => rw [hs] at h2; cases h2
        | some w' => simp [hs]
  · obtain ⟨e, w', h1, h2⟩ := hn (n + l.length) (by omega)
    refine absurd h2 ?_
    have : tsWorlds l (n + l.length) = (tsAll {} l).getD {} := by
      simp only [tsWorlds]; rw [List.take_of_length_le (by omega)]
    rw [this]
    exact hend i e w' h1

/-- The hypotheses of `C66_eventually` hold for this history, in which both children are reported. -/
example : TsExec (tsWorlds sameNumber) (sameNumber[·]?) ∧ TsFair (tsWorlds sameNumber) (sameNumber[·]?) ∧
    (∀ (n : Nat) pid, sameNumber[n]? ≠ some (TsEv.reapElsewhere pid)) ∧ (∀ n, TsOnce (tsWorlds sameNumber n)) ∧
    (tsWorlds sameNumber 6).pc 0 = .waiting ∧ (tsWorlds sameNumber 6).exited ((tsWorlds sameNumber 6).target 0) ≠ none := by
  have hq : ∀ i, ((tsAll {} sameNumber).getD {}).pc i = .done ∨ ((tsAll {} sameNumber).getD {}).pc i = .unborn := by
    intro i
    rcases Nat.lt_or_ge i 2 with hi | hi
    · left
      have : i = 0 ∨ i = 1 := by omega
      rcases this with rfl | rfl <;> decide +kernel
    · right
      have h := tsAll_run sameNumber (by decide +kernel)
      have hn : ((tsAll {} sameNumber).getD {}).nCalls = 2 := by decide +kernel
      have he : (tsAll {} sameNumber).get (by decide +kernel) = (tsAll {} sameNumber).getD {} := by
        rw [Option.get_eq_getD]
      rw [he] at h
      exact (tsinv h).born i (by omega)
  obtain ⟨h1, h2⟩ := ts_finite_exec sameNumber (by decide +kernel) (fun i e w' he hs => by
    cases e <;> simp only [TsEv.of, beq_iff_eq] at he <;> try (cases he; done)
    case go j ok => subst he; rcases hq j with h | h <;> simp [TsW.step, TsW.goOn, h] at hs
    case callback j e => subst he; rcases hq j with h | h <;> simp [TsW.step, h] at hs)
  refine ⟨h1, h2, fun n pid he => ?_, fun n => ?_, by decide +kernel, by decide +kernel⟩
  · have := List.mem_of_getElem? he
    simp [sameNumber] at this
  · have hdec : ∀ n, n < 19 → ((tsWorlds sameNumber n).nCalls ≤ 1 ∨
        ((tsWorlds sameNumber n).nCalls = 2 ∧ (tsWorlds sameNumber n).target 0 ≠ (tsWorlds sameNumber n).target 1)) := by decide +kernel
    have hn : ∃ k, k < 19 ∧ tsWorlds sameNumber n = tsWorlds sameNumber k := by
      rcases Nat.lt_or_ge n 19 with h | h
      · exact ⟨n, h, rfl⟩
      · refine ⟨18, by decide, ?_⟩
        simp only [tsWorlds]
        rw [List.take_of_length_le (by simp [sameNumber]; omega), List.take_of_length_le (by simp [sameNumber])]
    obtain ⟨k, hk, he⟩ := hn
    rw [he]
    rcases hdec k hk with h | ⟨h, h'⟩
    · intro i j hi hj _; omega
    · exact two_once h h'

/-- C66, "every child can be watched" is false: the process id of a child may be used again after the thread has reaped it and before the thread
has removed its entry (watcher.py:412-418); `watch_pid` of the new child raises AssertionError (watcher.py:394). -/
theorem C66_watch_false : ∃ l w, TsHist l w ∧ TsAlone l ∧ TsOnce w ∧ w.pc 1 = .assertionError ∧ w.reports = [(0, 10, 3)] ∧
    w.exited (w.target 1) = none :=
  ⟨_, _, tsAll_run [.fork 10, .watch 10, .go 0 true, .go 0 true, .go 0 true, .exits 10 768, .go 0 true, .callback 0 .returns, .fork 10,
    .watch 10, .go 1 true] (by decide +kernel), by simp [TsAlone], two_once (by decide +kernel) (by decide +kernel), by decide +kernel,
    by decide +kernel, by decide +kernel⟩

/-- And if a thread can't be started, or a callback raises something other than RuntimeError, the process id can't be watched any more,
also when all threads have ended. -/
theorem C66_stale_false : ∃ l w, TsHist l w ∧ TsAlone l ∧ TsOnce w ∧ w.pc 0 = .callbackRaised ∧ w.pc 1 = .assertionError ∧
    w.reports = [(0, 10, 3)] ∧ w.exited (w.target 1) = none :=
  ⟨_, _, tsAll_run [.fork 10, .watch 10, .go 0 true, .go 0 true, .go 0 true, .exits 10 768, .go 0 true, .callback 0 .otherError, .fork 10,
    .watch 10, .go 1 true] (by decide +kernel), by simp [TsAlone], two_once (by decide +kernel) (by decide +kernel), by decide +kernel,
    by decide +kernel, by decide +kernel, by decide +kernel⟩

end Shellous.Props
