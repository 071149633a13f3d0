import Verif.Props.KqueueWatcher

/-!
# C68: examples and limits
-/

namespace Shellous.Props

def kqFires (w : KqW) : KqNote → Bool
  | .timer => w.timer
  | .exit pid => match w.note pid with
    | some c => w.dying c
    | none => false

theorem kqFires_sound {w : KqW} {n : KqNote} (h : kqFires w n = true) : w.fires n := by
  cases n with
  | timer => exact h
  | exit pid =>
    simp only [kqFires] at h
    split at h
    · rename_i c hc; exact ⟨c, hc, h⟩
    · cases h

def kqGives (w : KqW) : KqEv → Bool
  | .control l => l.all (kqFires w)
  | _ => true

theorem kqGives_sound {w : KqW} {e : KqEv} (h : kqGives w e = true) : w.gives e := by
  cases e <;> first
    | trivial
    | exact fun n hn => kqFires_sound (List.all_eq_true.1 h n hn)

/-- One step, if the kernel gives the event. -/
def kqDo (w : KqW) (e : KqEv) : Option KqW := if kqGives w e then w.step e else none

theorem kqDo_sound {w w' : KqW} {e : KqEv} (h : kqDo w e = some w') : w.gives e ∧ w.step e = some w' := by
  simp only [kqDo] at h
  split at h
  · rename_i hg; exact ⟨kqGives_sound hg, h⟩
  · cases h

def kqAll (w : KqW) : List KqEv → Option KqW
  | [] => some w
  | ev :: l => (kqDo w ev).bind (kqAll · l)

theorem kqAll_hist {l l' : List KqEv} {w w' : KqW} (h : KqHist l w) (hr : kqAll w l' = some w') : KqHist (l ++ l') w' := by
  induction l' generalizing l w with
  | nil => simp only [kqAll, Option.some.injEq] at hr; subst hr; rwa [List.append_nil]
  | cons ev l' ih =>
    simp only [kqAll] at hr
    cases hs : kqDo w ev with
    | none => rw [hs] at hr; cases hr
    | some w1 =>
      rw [hs] at hr
      have := ih (.step ev h (kqDo_sound hs).1 (kqDo_sound hs).2) hr
      rwa [List.append_assoc] at this

theorem kqAll_run (l : List KqEv) (h : (kqAll {} l).isSome = true) : KqHist l ((kqAll {} l).get h) :=
  kqAll_hist (l := []) .start (l' := l) (Option.some_get h).symm

theorem kqAll_append (w : KqW) (l l' : List KqEv) : kqAll w (l ++ l') = (kqAll w l).bind (kqAll · l') := by
  induction l generalizing w with
  | nil => rfl
  | cons ev l ih =>
    simp only [List.cons_append, kqAll]
    cases kqDo w ev with
    | none => rfl
    | some w1 => exact ih w1

/-- At most this many calls, with different children. -/
def kqDistinct (w : KqW) : Bool :=
  (List.range w.nCalls).all fun i => (List.range w.nCalls).all fun j => i == j || w.target i != w.target j

theorem kqDistinct_once {w : KqW} (h : kqDistinct w = true) : KqOnce w := by
  intro i j hi hj he
  have := List.all_eq_true.1 (List.all_eq_true.1 h i (List.mem_range.2 hi)) j (List.mem_range.2 hj)
  rcases Bool.or_eq_true _ _ ▸ this with h | h
  · simpa using h
  · simp [he] at h

/-- Three children. The process id of the first is used again, by the second, which is dying already when it is watched; the third could not be
reaped at first. Then the watcher is closed. -/
def threeKq : List KqEv :=
  [.fork 10, .watch 10, .go 0, .go 0, .register 0 (some true), .control [], .next, .exits 10 768, .control [.exit 10], .next, .threadWait, .fork 10,
   .dies 10, .watch 10, .go 1, .callback .runtimeError, .go 1, .register 1 (some false), .fork 11, .go 1, .watch 11, .go 2, .go 1, .next, .go 2,
   .go 1, .exits 10 9, .register 2 (some true), .go 1, .goCall 1 .returns, .dies 11, .control [.exit 11], .next, .threadWait, .exits 11 0,
   .threadWait, .callback .returns, .close, .next, .control [.timer], .next, .closeQueue]

/-- The hypotheses of the theorems about histories hold, and all three are reported. -/
example : ∃ w, KqHist threeKq w ∧ KqAlone threeKq ∧ KqOnce w ∧ w.reports = [(2, 11, 0), (1, 10, -9), (0, 10, 3)] ∧
    w.pc 0 = .done ∧ w.pc 1 = .finished ∧ w.pc 2 = .done ∧ w.critical = [] ∧ w.left = some .closed :=
  ⟨_, kqAll_run threeKq (by decide +kernel), by simp [KqAlone, threeKq], kqDistinct_once (by decide +kernel),
    by decide +kernel, by decide +kernel, by decide +kernel, by decide +kernel, by decide +kernel, by decide +kernel⟩

/-- `C68_not_lost`: between the exit of the first child and its report. -/
example : ∃ w, KqHist (threeKq.take 8) w ∧ w.pc 0 = .done ∧ w.exited (w.target 0) ≠ none ∧ w.reports = [] ∧ w.fires (.exit 10) :=
  ⟨_, kqAll_run (threeKq.take 8) (by decide +kernel), by decide +kernel, by decide +kernel, by decide +kernel, kqFires_sound (by decide +kernel)⟩

/-- The worlds of a finite history, after which nothing happens. -/
def kqWorlds (l : List KqEv) (n : Nat) : KqW := (kqAll {} (l.take n)).getD {}

theorem kq_finite_exec (l : List KqEv) (h : (kqAll {} l).isSome = true) : KqExec (kqWorlds l) (l[·]?) := by
  have hpre : ∀ n, (kqAll {} (l.take n)).isSome = true := by
    intro n
    rw [← List.take_append_drop n l, kqAll_append] at h
    cases hx : kqAll {} (l.take n) with
    | none => rw [hx] at h; cases h
    | some w => rfl
  refine ⟨rfl, fun n => ?_⟩
  cases he : l[n]? with
  | none =>
    have hl := List.getElem?_eq_none_iff.1 he
    simp only [kqWorlds]
    rw [List.take_of_length_le hl, List.take_of_length_le (by omega)]
  | some e =>
    have hlt := (List.getElem?_eq_some_iff.1 he).1
    have h1 := hpre n
    have h2 := hpre (n + 1)
    simp only [kqWorlds]
    rw [List.take_add_one, he] at h2 ⊢
    rw [kqAll_append] at h2 ⊢
    cases hx : kqAll {} (l.take n) with
    | none => rw [hx] at h1; cases h1
    | some w =>
      rw [hx] at h2
      simp only [Option.toList, Option.bind_some, kqAll] at h2 ⊢
      cases hs : kqDo w e with
      | none => rw [hs] at h2; cases h2
      | some w' => simpa using kqDo_sound hs

theorem kq_finite_fair (l : List KqEv) (hend : ((kqAll {} l).getD {}).tpc = .ended)
    (hq : ∀ i, ((kqAll {} l).getD {}).pc i ∈ [.done, .finished, .unborn]) : KqFair (kqWorlds l) (l[·]?) := by
  have hlast : ∀ n, l.length ≤ n → kqWorlds l n = (kqAll {} l).getD {} := fun n hn => by
    simp only [kqWorlds]; rw [List.take_of_length_le hn]
  refine ⟨fun n hn => ?_, fun i n hn => ?_, fun x n _ hc => ?_⟩
  · obtain ⟨e, w', h1, _, h2⟩ := hn (n + l.length) (by omega)
    rw [hlast _ (by omega)] at h2
    exfalso
    cases e <;> simp [KqEv.ofThread] at h1 <;> simp [KqW.step, KqW.threadStep, hend] at h2
  · obtain ⟨e, w', h1, _, h2⟩ := hn (n + l.length) (by omega)
    rw [hlast _ (by omega)] at h2
    exfalso
    have := hq i
    cases e <;> simp only [KqEv.of, beq_iff_eq] at h1 <;> try (cases h1; done)
    all_goals
      subst h1
      simp only [List.mem_cons, List.not_mem_nil, or_false] at this
      rcases this with h | h | h <;> simp [KqW.step, KqW.callStep, h] at h2
  · obtain ⟨m, l', h1, h2⟩ := hc l.length
    rw [List.getElem?_eq_none (by omega)] at h2
    cases h2

/-- The hypotheses of `C68_eventually` hold for this history, in which all children are reported. -/
theorem threeKq_fair : KqExec (kqWorlds threeKq) (threeKq[·]?) ∧ KqFair (kqWorlds threeKq) (threeKq[·]?) ∧
    (∀ (n : Nat) pid, threeKq[n]? ≠ some (KqEv.reapElsewhere pid)) ∧ (∀ n, KqOnce (kqWorlds threeKq n)) ∧
    (kqWorlds threeKq 35).pc 2 = .done ∧ (kqWorlds threeKq 35).exited ((kqWorlds threeKq 35).target 2) ≠ none := by
  refine ⟨kq_finite_exec _ (by decide +kernel), kq_finite_fair _ (by decide +kernel) (fun i => ?_), fun n pid he => ?_, fun n => ?_,
    by decide +kernel, by decide +kernel⟩
  · rcases Nat.lt_or_ge i 3 with hi | hi
    · have : ∀ i, i < 3 → ((kqAll {} threeKq).getD {}).pc i ∈ [KqPc.done, .finished, .unborn] := by decide +kernel
      exact this i hi
    · have h := kqAll_run threeKq (by decide +kernel)
      have hn : ((kqAll {} threeKq).getD {}).nCalls = 3 := by decide +kernel
      have he : (kqAll {} threeKq).get (by decide +kernel) = (kqAll {} threeKq).getD {} := by rw [Option.get_eq_getD]
      rw [he] at h
      rw [(kqbase h).born i (by omega)]
      simp
  · have := List.mem_of_getElem? he
    simp [threeKq] at this
  · have hdec : ∀ n, n < 43 → kqDistinct (kqWorlds threeKq n) = true := by decide +kernel
    rcases Nat.lt_or_ge n 43 with h | h
    · exact kqDistinct_once (hdec n h)
    · have : kqWorlds threeKq n = kqWorlds threeKq 42 := by
        simp only [kqWorlds]
        rw [List.take_of_length_le (by simp [threeKq]; omega), List.take_of_length_le (by simp [threeKq])]
      rw [this]
      exact kqDistinct_once (hdec 42 (by decide))

/-- C68, the limit of "called for every child that exits": a child that begins to die but takes longer than 75 ms is given up: it is never
reported, only a critical message is logged (watcher.py:244), and it stays a zombie. -/
theorem C68_limit_slow_death : ∃ l w, KqHist l w ∧ KqAlone l ∧ KqOnce w ∧ w.pc 0 = .done ∧ w.exited (w.target 0) = some 0 ∧ w.reports = [] ∧
    w.critical = [0] ∧ w.left = none ∧ w.tpc = .control ∧ w.pids 10 = none ∧ w.note 10 = none ∧ w.proc 10 = some (w.target 0) :=
  ⟨_, _, kqAll_run [.fork 10, .watch 10, .go 0, .go 0, .register 0 (some true), .dies 10, .control [.exit 10], .next, .threadWait, .threadWait,
    .exits 10 0, .next] (by decide +kernel), by simp [KqAlone], kqDistinct_once (by decide +kernel), by decide +kernel, by decide +kernel,
    by decide +kernel, by decide +kernel, by decide +kernel, by decide +kernel, by decide +kernel, by decide +kernel, by decide +kernel⟩

/-- C68, why "nobody else reaps children" is needed: a child reaped elsewhere is reported with 255. -/
theorem C68_limit_reaped_elsewhere : ∃ l w, KqHist l w ∧ KqOnce w ∧ w.exited (w.target 0) = some 9 ∧ w.reports = [(0, 10, 255)] :=
  ⟨_, _, kqAll_run [.fork 10, .watch 10, .go 0, .go 0, .register 0 (some true), .exits 10 9, .reapElsewhere 10, .control [.exit 10], .next, .threadWait,
    .callback .returns] (by decide +kernel), kqDistinct_once (by decide +kernel), by decide +kernel, by decide +kernel⟩

/-- C68, why "no child is watched twice" is needed: two calls at the same time, from two threads, that both find no entry; one of them finds the
child dying, and takes the entry of the other; then the thread ends with KeyError at the next event. -/
theorem C68_limit_watched_twice : ∃ l w, KqHist l w ∧ KqAlone l ∧ w.left = some .keyError ∧ w.tpc = .ended ∧ w.reports = [(1, 10, 0)] ∧
    w.pc 0 = .done ∧ w.target 0 = w.target 1 :=
  ⟨_, _, kqAll_run [.fork 10, .watch 10, .watch 10, .go 0, .go 1, .go 0, .register 0 (some true), .go 1, .exits 10 0, .register 1 (some false),
    .go 1, .go 1, .goCall 1 .returns, .control [.exit 10], .next, .closeQueue] (by decide +kernel), by simp [KqAlone], by decide +kernel,
    by decide +kernel, by decide +kernel, by decide +kernel, by decide +kernel⟩

/-- C68: a callback that raises something other than RuntimeError ends the thread; other children are not reported. -/
theorem C68_limit_callback_raises : ∃ l w, KqHist l w ∧ KqAlone l ∧ KqOnce w ∧ w.left = some .callbackRaised ∧ w.tpc = .ended ∧
    w.pc 1 = .done ∧ w.exited (w.target 1) = some 0 ∧ w.reports = [(0, 10, 3)] :=
  ⟨_, _, kqAll_run [.fork 10, .watch 10, .go 0, .go 0, .register 0 (some true), .fork 11, .watch 11, .go 1, .go 1, .register 1 (some true),
    .exits 10 768, .exits 11 0, .control [.exit 10, .exit 11], .next, .threadWait, .callback .otherError, .closeQueue] (by decide +kernel),
    by simp [KqAlone], kqDistinct_once (by decide +kernel), by decide +kernel, by decide +kernel, by decide +kernel, by decide +kernel,
    by decide +kernel⟩

/-- C68: if the event cannot be registered for another reason, `watch_pid` raises, and its entry stays: the child is not reported, and the next
child with this process id cannot be watched. (No such child here: the same one.) -/
theorem C68_limit_register_raises : ∃ l w, KqHist l w ∧ KqAlone l ∧ w.pc 0 = .raised ∧ w.pids 10 = some 0 ∧ w.pc 1 = .assertionError ∧
    w.exited (w.target 0) = some 0 ∧ w.reports = [] ∧ w.left = none :=
  ⟨_, _, kqAll_run [.fork 10, .watch 10, .go 0, .go 0, .register 0 none, .watch 10, .go 1, .exits 10 0] (by decide +kernel),
    by simp [KqAlone], by decide +kernel, by decide +kernel, by decide +kernel, by decide +kernel, by decide +kernel, by decide +kernel⟩

end Shellous.Props
