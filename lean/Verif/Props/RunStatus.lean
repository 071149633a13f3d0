import Verif.Props.Results
import Verif.Props.RunKill

/-!
# C26: the exit code reported for a run
-/

namespace Shellous.Props

/-- The last signal announced for the child, SIGKILL aside. -/
def lastSent (t : List Obs) : Option Nat :=
  (t.filterMap fun o => match o with
    | .auditSignal _ s => s
    | _ => none).getLast?

/-- What is known about the status of the child is the truth, or 255. -/
def Truthful (w : W) : Prop := ∀ p, w.proc = some p → ∀ c, p.reaped = some c ∨ p.rc = some c →
  ∃ s, p.exited = some s ∧ (c = s ∨ c = 255)

theorem lastSent_other {t : List Obs} {o : Obs} (h : ∀ b s, o ≠ .auditSignal b s) : lastSent (t ++ [o]) = lastSent t := by
  unfold lastSent
  rw [List.filterMap_append]
  cases o <;> simp at h ⊢

theorem lastSent_signal (t : List Obs) (b : Bool) (s : Option Nat) :
    lastSent (t ++ [.auditSignal b s]) = match s with
      | some s => some s
      | none => lastSent t := by
  unfold lastSent
  rw [List.filterMap_append]
  cases s <;> simp

theorem signalReaps_truthful {p : Proc} (h : ∀ c, p.reaped = some c ∨ p.rc = some c → ∃ s, p.exited = some s ∧ (c = s ∨ c = 255)) (c : Int) :
    p.signalReaps.reaped = some c ∨ p.signalReaps.rc = some c → 
    ∃ s, p.signalReaps.exited = some s ∧ (c = s ∨ c = 255) := by
  unfold Proc.signalReaps
  split
  · rename_i s he _
    intro hc
    rcases hc with hc | hc
    · exact ⟨s, he, .inr (by simpa [unknownExitCode] using hc.symm)⟩
    · exact h c (.inr hc)
  · exact h c

theorem signal_truthful {w : W} (h : Truthful w) (b : Bool) (s : Option Nat) : Truthful (w.signal b s) := by
  unfold W.signal
  split
  · exact h
  · rename_i p hp
    intro q hq c
    cases hq
    exact signalReaps_truthful (h p hp) c

theorem close_truthful {w : W} (h : Truthful w) : Truthful w.transportClose := by
  unfold W.transportClose
  split
  · exact h
  · rename_i p hp
    split
    · exact h
    · intro q hq c
      cases hq
      exact signalReaps_truthful (h p hp) c

theorem poll_truthful {w : W} (h : Truthful w) : Truthful w.pollWaitPid.2 := by
  unfold W.pollWaitPid
  split
  · exact h
  · rename_i p hp
    split
    · exact h
    · split
      · exact h
      · rename_i s he hr
        intro q hq c hc
        cases hq
        rcases hc with hc | hc <;> cases hc <;> exact ⟨_, he, .inl rfl⟩
      · rename_i s x he hr
        intro q hq c hc
        cases hq
        rcases hc with hc | hc
        · exact h p hp c (.inl hc)
        · cases hc
          exact ⟨s, he, .inr rfl⟩

theorem cancelCaller_proc (fwd : Option Nat) (w : W) : (w.cancelCaller fwd).proc = w.proc := by
  unfold W.cancelCaller
  split
  · split <;> rfl
  · rfl

theorem endEffect_proc (w : W) (k : TaskKind) (o : TOut) : (w.endEffect k o).proc = w.proc := by
  unfold W.endEffect
  split
  · rfl
  · split <;> rfl
  · rfl

theorem env_truthful {w : W} (h : Truthful w) (fwd : Option Nat) (ev : Ev) : Truthful (w.env fwd ev) := by
  have same : ∀ w' : W, w'.proc = w.proc → Truthful w' := fun w' hp => by unfold Truthful; rw [hp]; exact h
  cases ev with
  | taskDone i out =>
    simp only [W.env]
    split
    · exact h
    · split
      · exact same _ (endEffect_proc _ _ _)
      · exact h
  | taskDrop i =>
    simp only [W.env]
    split
    · exact h
    · split
      · exact same _ rfl
      · exact h
  | fork =>
    simp only [W.env]
    split
    · intro p hp c hc
      cases hp
      rcases hc with hc | hc <;> cases hc
    · exact h
  | exit s =>
    simp only [W.env]
    split
    · rename_i p hp
      split
      · rename_i hn
        intro q hq c hc
        cases hq
        have hx : p.exited = none := by simpa using hn
        obtain ⟨_, h1, _⟩ := h p hp c hc
        rw [hx] at h1; cases h1
      · exact h
    · exact h
  | reap =>
    simp only [W.env]
    split
    · rename_i p hp
      split
      · rename_i s he hr
        intro q hq c hc
        cases hq
        rcases hc with hc | hc
        · cases hc; exact ⟨_, he, .inl rfl⟩
        · exact h p hp c (.inr hc)
      · exact h
    · exact h
  | reapLost =>
    simp only [W.env]
    split
    · rename_i p hp
      split
      · rename_i s he _
        intro q hq c hc
        cases hq
        rcases hc with hc | hc
        · cases hc; exact ⟨s, he, .inr rfl⟩
        · exact h p hp c (.inr hc)
      · exact h
    · exact h
  | deliver =>
    simp only [W.env]
    split
    · rename_i p hp
      split
      · rename_i s hr _
        intro q hq c hc
        cases hq
        rcases hc with hc | hc
        · exact h p hp c (.inl hc)
        · cases hc; exact h p hp _ (.inl hr)
      · exact h
    · exact h
  | cancel => exact same _ (cancelCaller_proc _ _)
  | timer =>
    simp only [W.env]
    split
    · exact same _ (cancelCaller_proc _ _)
    · exact h
  | userSignal s =>
    simp only [W.env]
    split
    · exact signal_truthful h _ _
    · exact h
  | timeout => exact h
  | resume => exact h
  | bodyGotCancel => exact h
  | bodyDone e => exact h

theorem fstable_truthful : FStable Truthful where
  env := fun fwd w ev h => env_truthful h fwd ev
  throw := fun _ h => h
  log := fun _ _ _ h => h
  cancelTask := fun _ _ h => h
  create := fun _ _ _ h => h
  signal := fun _ s h => signal_truthful h false s
  setCancelled := fun _ h => h
  stop := fun _ h => h
  mine := fun _ _ h => h
  poll := fun _ h => poll_truthful h
  spawn := fun _ h => h
  setTimer := fun _ _ h => h
  mark := fun _ _ _ h => h
  close := fun _ h => close_truthful h

def Remembers (w : W) : Prop := w.lastSignal = lastSent w.trace

theorem signal_remembers {w : W} (h : Remembers w) (b : Bool) (s : Option Nat) : Remembers (w.signal b s) := by
  unfold Remembers at *
  unfold W.signal
  split
  · exact h
  · cases s with
    | none =>
      simp only []
      split
      · simp only [W.log]
        rw [lastSent_other (by simp), lastSent_signal]
        exact h
      · simp only [W.log]
        rw [lastSent_signal]
        exact h
    | some s =>
      simp only []
      split
      · simp only [W.log]
        rw [lastSent_other (by simp), lastSent_signal]
      · simp only [W.log]
        rw [lastSent_signal]

theorem cancelCaller_lastSignal (fwd : Option Nat) (w : W) : (w.cancelCaller fwd).lastSignal = w.lastSignal := by
  unfold W.cancelCaller
  split
  · split <;> rfl
  · rfl

theorem endEffect_lastSignal (w : W) (k : TaskKind) (o : TOut) :
    (w.endEffect k o).lastSignal = w.lastSignal ∧ (w.endEffect k o).trace = w.trace := by
  unfold W.endEffect
  split
  · exact ⟨rfl, rfl⟩
  · split <;> exact ⟨rfl, rfl⟩
  · exact ⟨rfl, rfl⟩

theorem env_remembers {w : W} (h : Remembers w) (fwd : Option Nat) (ev : Ev) : Remembers (w.env fwd ev) := by
  have same : ∀ w' : W, w'.lastSignal = w.lastSignal → w'.trace = w.trace → Remembers w' :=
    fun w' h1 h2 => by unfold Remembers; rw [h1, h2]; exact h
  cases ev <;> simp only [W.env]
  case taskDone i out =>
    split
    · exact h
    · split
      · exact same _ (endEffect_lastSignal _ _ _).1 (endEffect_lastSignal _ _ _).2
      · exact h
  case cancel => exact same _ (cancelCaller_lastSignal _ _) (cancelCaller_trace _ _)
  case timer =>
    split
    · exact same _ (cancelCaller_lastSignal _ _) (cancelCaller_trace _ _)
    · exact h
  case userSignal s =>
    split
    · exact signal_remembers h _ _
    · exact h
  all_goals repeat' split
  all_goals exact h

theorem fstable_remembers : FStable Remembers := by
  have log : ∀ (w : W) (o : Obs), (∀ b s, o ≠ .auditSignal b s) → Remembers w → Remembers (w.log o) := by
    intro w o ho h
    unfold Remembers W.log at *
    simp only []
    rw [lastSent_other ho]
    exact h
  exact
    { env := fun fwd w ev h => env_remembers h fwd ev
      throw := fun w h => log _ _ (by simp) h
      log := fun w o ho h => log w o (by rintro b s rfl; cases ho) h
      cancelTask := fun _ _ h => h
      create := fun _ _ _ h => h
      signal := fun _ s h => signal_remembers h false s
      setCancelled := fun _ h => h
      stop := fun _ h => h
      mine := fun _ _ h => h
      poll := fun w h => by
        unfold Remembers at *
        rw [poll_trace, ← h]
        unfold W.pollWaitPid
        repeat' split
        all_goals rfl
      spawn := fun _ h => h
      setTimer := fun _ _ h => h
      mark := fun w o ho h => log w o (by rintro b s rfl; cases ho) h
      close := fun w h => by
        unfold W.transportClose
        split
        · exact h
        · split
          · exact h
          · simp only []
            split
            · have := log w .closeKill (by simp) h
              exact this
            · exact h }

/-- **C26, partial.** At every moment of every run, `run.result()` (checked or not) that gives or raises a `Result`
reports: the true exit status of the child; or, if somebody else collected the status (then `asyncio` only knows
255) or it really was 255, minus the last signal sent to the child other than SIGKILL, and 255 if there was none.
A status other than 255 that `asyncio` knows is never misreported. Missing: a lost status after a SIGKILL, and a true
255 after a signal (`C26_returncode_false`). -/
theorem C26_reported_partial (how : How) (cfg : RCfg) (w : W) (hf : w.Fresh) (evs : List Ev) (check : Bool) (r : Result)
    (ha : (execute how cfg w evs).2.attached = true)
    (hr : (runResult cfg check (execute how cfg w evs).2 []).1 = .ok r ∨
      (runResult cfg check (execute how cfg w evs).2 []).1 = .exc (.resultError r)) :
    ∃ p status known, (execute how cfg w evs).2.proc = some p ∧ p.exited = some status ∧ p.rc = some known ∧
      (known = status ∨ known = 255) ∧
      (known ≠ 255 → r.exitCode = status) ∧
      (known = 255 → lastSent (execute how cfg w evs).2.trace = none → r.exitCode = 255) ∧
      (known = 255 → ∀ s, lastSent (execute how cfg w evs).2.trace = some s → r.exitCode = -(s : Int)) := by
  have ht : Truthful (execute how cfg w evs).2 := execute_pres fstable_truthful how cfg w evs
    (fun p hp => by rw [hf.proc] at hp; cases hp)
  have hm : Remembers (execute how cfg w evs).2 := execute_pres fstable_remembers how cfg w evs
    (by unfold Remembers; rw [hf.lastSignal, hf.trace]; rfl)
  generalize (execute how cfg w evs).2 = w' at *
  have key : ∃ c, w'.proc.bind (·.rc) = some c ∧ r.exitCode = (match w'.lastSignal with
      | some s => if c = 255 then -(s : Int) else c
      | none => c) := by
    rw [runResult_out] at hr
    unfold runnerResult at hr
    rw [ha] at hr
    simp only [if_true] at hr
    cases hk : w'.proc.bind (·.rc) with
    | none =>
      rw [hk, returncode_unknown] at hr
      rcases hr with hr | hr <;> cases hr
    | some c =>
      refine ⟨c, rfl, ?_⟩
      rw [hk] at hr
      have hrc : runnerReturncode (some (some c)) w'.cancelled w'.lastSignal = some (match w'.lastSignal with
          | some s => if c = 255 then -(s : Int) else c
          | none => c) := by
        unfold runnerReturncode
        cases w'.lastSignal with
        | none => rfl
        | some s =>
          simp only [unknownExitCode, Option.some.injEq]
          split <;> rfl
      rw [hrc] at hr
      simp only [] at hr
      generalize (match w'.lastSignal with
          | some s => if c = 255 then -(s : Int) else c
          | none => c) = code at *
      cases check with
      | false =>
        simp only [Bool.not_false, if_true] at hr
        rcases hr with hr | hr <;> cases hr
        rfl
      | true =>
        simp only [Bool.not_true, Bool.false_eq_true, if_false] at hr
        unfold checkResult at hr
        generalize exitCodeAllowed _ _ = al at hr
        cases hw1 : w'.cancelled <;> cases hw2 : w'.timedOut <;> cases al <;> cases hw3 : cfg.opts.catchCancelled <;>
          simp [hw1, hw2, hw3] at hr <;> rw [← hr]
  obtain ⟨c, hc, hx⟩ := key
  cases hp : w'.proc with
  | none => rw [hp] at hc; cases hc
  | some p =>
    rw [hp] at hc
    have hc : p.rc = some c := hc
    obtain ⟨s, hs, hcs⟩ := ht p hp c (.inr hc)
    unfold Remembers at hm
    refine ⟨p, s, c, rfl, hs, hc, hcs, ?_, ?_, ?_⟩
    · intro h255
      rcases hcs with rfl | h
      · rw [hx]; cases w'.lastSignal with
        | none => rfl
        | some x => simp only [if_neg h255]
      · exact absurd h h255
    · rintro rfl hn
      rw [hx, hm, hn]
    · rintro rfl x hn
      rw [hx, hm, hn]
      rfl

/-- **C26, partial.** The same for the result of `await cmd`. -/
theorem C26_await_partial (f : Option Exc) (cfg : RCfg) (w : W) (hf : w.Fresh) (evs : List Ev) (r : Result) (w' : W)
    (h : execute (.await f) cfg w evs = (.ok (some (.result r)), w')) :
    ∃ p status known, w'.proc = some p ∧ p.exited = some status ∧ p.rc = some known ∧
      (known = status ∨ known = 255) ∧
      (known ≠ 255 → r.exitCode = status) ∧
      (known = 255 → lastSent w'.trace = none → r.exitCode = 255) ∧
      (known = 255 → ∀ s, lastSent w'.trace = some s → r.exitCode = -(s : Int)) := by
  have key := C26_reported_partial (.await f) cfg w hf evs true r
  rw [h] at key
  generalize hh : How.await f = how at h
  cases execute_ended hf h (by simp) with
  | ended w1 w2 w3 ex ob _ hl hr hbr x ho fin =>
    refine key (x.ext.attached (hl.atExit ex hbr).attached) (.inl ?_)
    generalize combine ex ob = oo at fin
    generalize hv : Out.ok (some (Returned.result r)) = v at fin
    cases fin with
    | blocked => cases hv
    | exc e => cases hv
    | block => cases hv
    | result g r' v' _ hres hret =>
      cases hv
      rcases hret with ⟨_, hv⟩ | ⟨_, t, _, hv⟩
      · cases hv; exact hres
      · cases hv
    | resultErr => cases hv
    | decodeErr => cases hv

/-- **C26.** When the wait for a killed child has timed out, the library looks itself: a child that has exited, and
whose status nobody else has collected, is reported with that status; one whose status somebody else has collected
with 255; one that is still running is an error. -/
theorem C26_last_look (w : W) (evs : List Ev) (p : Proc) (hp : w.proc = some p) (hr : p.rc = none) :
    (∀ s, p.exited = some s → p.reaped = none →
      ∃ w', killWaitExpired w evs = (.ok (), w', evs) ∧ w'.trace = w.trace ∧
        w'.proc = some { exited := some s, reaped := some s, rc := some s }) ∧
    (∀ s x, p.exited = some s → p.reaped = some x →
      ∃ w', killWaitExpired w evs = (.ok (), w', evs) ∧ w'.trace = w.trace ∧
        w'.proc = some { exited := some s, reaped := some x, rc := some 255 }) ∧
    (p.exited = none →
      ∃ w', killWaitExpired w evs = (.exc .runtimeError, w', evs) ∧ w'.trace = w.trace ++ [.unableToKill] ∧
        w'.proc = some p) := by
  obtain ⟨e, x, c⟩ := p
  cases hr
  refine ⟨?_, ?_, ?_⟩
  · rintro s rfl rfl
    have : killWaitExpired w evs = (.ok (), { w with proc := some ⟨some s, some s, some s⟩ }, evs) := by
      unfold killWaitExpired
      change Coro.bind Coro.get _ w evs = _
      simp [Coro.bind, Coro.get, W.pollWaitPid, hp, Coro.upd]
    exact ⟨_, this, rfl, rfl⟩
  · rintro s y rfl rfl
    have : killWaitExpired w evs = (.ok (), { w with proc := some ⟨some s, some y, some 255⟩ }, evs) := by
      unfold killWaitExpired
      change Coro.bind Coro.get _ w evs = _
      simp [Coro.bind, Coro.get, W.pollWaitPid, hp, Coro.upd, unknownExitCode]
    exact ⟨_, this, rfl, rfl⟩
  · rintro rfl
    have : killWaitExpired w evs = (.exc .runtimeError, w.log .unableToKill, evs) := by
      unfold killWaitExpired
      change Coro.bind Coro.get _ w evs = _
      have h1 : w.pollWaitPid.1 = false := by simp [W.pollWaitPid, hp]
      simp only [Coro.bind, Coro.get, h1, Bool.false_eq_true, if_false]
      rfl
    exact ⟨_, this, rfl, hp⟩

/-- The hypotheses are met: a child ends with code 3 and its status is known; a user sends SIGINT and somebody else
collects the status. -/
example : (execute .block { ({} : RCfg) with hasStdin := false } {} [.resume, .fork, .taskDone 0 (.val none), .resume,
      .exit 3, .reap, .deliver]).2.proc = some ⟨some 3, some 3, some 3⟩ ∧
    (runResult {} false (execute .block {} {} [.resume, .fork, .taskDone 0 (.val none), .resume,
      .userSignal (some 2), .exit (-2), .reapLost, .deliver]).2 []).1 =
        .ok ⟨-2, [], [], false, "utf-8".toList⟩ := by
  decide +kernel

end Shellous.Props
