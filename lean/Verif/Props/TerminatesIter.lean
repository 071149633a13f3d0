import Verif.Lemmas.EndsIter
import Verif.Props.TerminatesPipe

/-!
# C79: loops over the lines of a command or a pipeline come to an end
-/

namespace Shellous.Props

open Shellous

/-- **C79** for `async for line in cmd`: if the stream comes to its end and the child exits, the loop ends, however many lines the
stream has, however they are cut into pieces, whatever the decoder does, and with any number of cancellations, timeouts and
failures of tasks. -/
theorem C79_iter (cfg : RCfg) (gc : GenCfg) (w : W) (hf : w.Fresh) (σ : Sched) (hg : gc.Ends) (hr : σ.Runs) (hl : σ.Launches)
    (hx : σ.Exits) (hd : σ.Finishes) : IterEndsOn cfg gc w σ := by
  refine iterate_ends healthy_good (fun _ h => h.launches) (.inr fun _ h => ⟨h.exits, h.finishes⟩) hf
    (⟨hr, hl, hx, hd⟩ : Healthy σ) fun w1 k hla hσ _ => ?_
  refine (genBody_ends hg (stable_held w1.mine) hσ.runs (show Held w1.mine (w1.log .bodyStart) from ⟨hla.up, rfl⟩)).mono ?_
  rintro k' o w' ⟨⟨⟨r, g⟩, rfl⟩, hu, hm⟩
  have hu' : Up w' := by rw [Up, hm]; exact hu
  exact ⟨r, g, rfl, hu', fun _ => wait_fair healthy_good (fun _ h => ⟨h.exits, h.finishes⟩)
    (show Up (w'.log (.bodyEnd none)) from hu') (healthy_good.shift _ k' hσ)⟩

/-- Schedules on which the event loop, the launch and the clock get on, and the body of the loop gets no cancellation. -/
structure ClockIter (σ : Sched) : Prop extends Clock σ where
  passes : ∀ n, σ n ≠ .bodyGotCancel

theorem clockIter_good : Good ClockIter where
  shift σ k h := ⟨clock_good.shift σ k h.toClock, fun n => h.passes _⟩
  runs σ h := h.runs

/-- **C79** for `async for line in cmd`, cancelled: one cancellation ends the loop, even if the child never exits and the stream
never ends; the child must have fallen silent (a stream that has a line at every attempt is never waited for, and the
cancellation is not delivered), and the body of the loop must not have taken the cancellation for itself. -/
theorem C79_iter_cancelled (cfg : RCfg) (gc : GenCfg) (w : W) (hf : w.Fresh) (σ : Sched) (hg : gc.Silent) (hc : ∃ n, σ n = .cancel)
    (hb : ∀ n, σ n ≠ .bodyGotCancel) (ht : cfg.cancelTimed = true) (hr : σ.Runs) (hl : σ.Launches) (hk : σ.Ticks) :
    IterEndsOn cfg gc w σ := by
  refine iterate_ends clockIter_good (fun _ h => h.launches) (.inl ⟨ht, fun _ h => h.ticks⟩) hf
    (⟨⟨hr, hl, hk⟩, hb⟩ : ClockIter σ) fun w1 k hla hσ hh => ?_
  refine (genBody_cancelled hg (stable_held w1.mine) hσ.runs hσ.passes
    (show Held w1.mine (w1.log .bodyStart) from ⟨hla.up, rfl⟩) (.inr (hh hc))).mono ?_
  rintro k' o w' ⟨r, g, rfl, ⟨hu, hm⟩, hope⟩
  have hu' : Up w' := by rw [Up, hm]; exact hu
  exact ⟨r, g, rfl, hu', fun hn => wait_hope clockIter_good (show Up (w'.log (.bodyEnd none)) from hu')
    (clockIter_good.shift _ k' hσ) (hope hn)⟩

/-- **C79** for `async for line in pipeline`: if the first and the last command get launched (0 and 1 are the futures that tell so),
the run of every command ends and the stream comes to its end, the loop ends. -/
theorem C79_pipe (cfg : PRCfg) (gc : GenCfg) (w : W) (hf : w.Fresh) (σ : Sched) (hg : gc.Ends)
    (hl : ∃ n, (pipeIterExecute cfg gc w (σ.upto n)).2.isDone 0 = true ∧ (pipeIterExecute cfg gc w (σ.upto n)).2.isDone 1 = true)
    (hr : σ.Runs) (hd : σ.Finishes) : PIterEndsOn cfg gc w σ := by
  have due : ∀ ids, Due PHealthy (Crew ids) ids := crew_due fun _ h => h.finishes
  have hw : ∀ (kill : Bool) w' σ', Crew w'.mine w' → PHealthy σ' → Terms (pipeWait kill) w' σ' fun _ _ _ => True := by
    intro kill w' σ' hc hσ'
    refine pipeWait_ends pHealthy_good (stable_crew w'.mine) ?_ (.inr (due _)) hσ'
    refine asyncWait_ends pHealthy_good (stable_crew _) (ids := w'.mine) (.inr (due _)) (fun _ h => h) _ σ' ?_ hσ'
    cases kill with
    | false => exact hc
    | true => exact hc.ext (cancelAll_ext _ _)
  refine pipeIterate_ends pHealthy_good hf (⟨hr, hd⟩ : PHealthy σ) (fun hs => ?_) (hw true) fun m _ _ hcr => ?_
  · rcases waitLoop_dichotomy none (fun w => w.isDone 0 && w.isDone 1) (w.piped .block cfg) σ with ⟨m, r, w', h0, h3, h4⟩ | ⟨h1, h2⟩
    · exact ⟨m, r, w', h0, h3, h4.imp_right fun h => ⟨h.1, h.2.1⟩⟩
    · exfalso
      obtain ⟨n, ha, hb⟩ := hl
      rw [pipeIterate_waits hf hs (h1 n)] at ha hb
      obtain ⟨m, hm, hres⟩ := hr n
      have d0 := evolve_keeps (J := fun w => w.isDone 0 = true) (fun w e h => isDone_env w e h) hm ha
      have d1 := evolve_keeps (J := fun w => w.isDone 1 = true) (fun w e h => isDone_env w e h) hm hb
      have := (h2 m hres).2
      simp [d0, d1] at this
  · refine (genBody_ends hg (stable_crew (commands .block cfg)) (hr.shift _)
      (show Crew (commands .block cfg) ((evolve none (w.piped .block cfg) σ m).log .bodyStart) from hcr)).mono ?_
    rintro k' o w' ⟨⟨⟨r, g⟩, rfl⟩, hu⟩
    refine ⟨r, g, rfl, hu, fun _ => hw false _ _ ?_ (pHealthy_good.shift _ k' (pHealthy_good.shift σ _ ⟨hr, hd⟩))⟩
    show Crew w'.mine w'
    rw [hu.1]; exact hu

/-- Schedules on which the event loop and the clock get on, commands that are asked to cancel do so, and the body of the loop gets
no cancellation. -/
structure PYieldIter (σ : Sched) : Prop where
  runs : σ.Runs
  ticks : σ.Ticks
  yields : σ.Yields
  passes : ∀ n, σ n ≠ .bodyGotCancel

theorem pYieldIter_good : Good PYieldIter where
  shift σ k h := ⟨h.runs.shift k, h.ticks.shift k, fun i => (h.yields i).shift k, fun n => h.passes _⟩
  runs σ h := h.runs

/-- **C79** for `async for line in pipeline`, cancelled: one cancellation ends the loop, even if no command ever ends of its own
accord and the stream never ends, whether it comes before the commands have been launched or while the loop waits for a line.
The stream must have fallen silent, and the commands must end when they are asked to cancel (cf. C77). -/
theorem C79_pipe_cancelled (cfg : PRCfg) (gc : GenCfg) (w : W) (hf : w.Fresh) (σ : Sched) (hg : gc.Silent) (hc : ∃ n, σ n = .cancel)
    (hb : ∀ n, σ n ≠ .bodyGotCancel) (hr : σ.Runs) (hy : σ.Yields) (hk : σ.Ticks) : PIterEndsOn cfg gc w σ := by
  have hσ : PYieldIter σ := ⟨hr, hk, hy, hb⟩
  refine pipeIterate_ends pYieldIter_good hf hσ (fun hs => ?_)
    (fun w' σ' hc hσ' => pipeKill_ends pYieldIter_good (fun _ h => h.yields) hc hσ') fun m h0 hmc hcr => ?_
  · rcases waitLoop_dichotomy none (fun w => w.isDone 0 && w.isDone 1) (w.piped .block cfg) σ with ⟨m, r, w', h0, h3, h4⟩ | ⟨h1, h2⟩
    · exact ⟨m, r, w', h0, h3, h4.imp_right fun h => ⟨h.1, h.2.1⟩⟩
    · exfalso
      obtain ⟨n, hn⟩ := hc
      obtain ⟨m, hm, hres⟩ := hr (n + 1)
      have : (evolve none (w.piped .block cfg) σ m).mustCancel = true := by
        refine evolve_keeps (J := fun w => w.mustCancel = true) mustCancel_stays hm ?_
        rw [evolve_succ, hn]; rfl
      rw [(h2 m hres).1] at this; cases this
  · have hope : HasCancel (σ.shift (m + 1)) := by
      obtain ⟨n, hn⟩ := hc
      have : m + 1 ≤ n := by
        refine Nat.lt_of_not_le fun hle => ?_
        rcases Nat.lt_or_eq_of_le hle with h | rfl
        · have : (evolve none (w.piped .block cfg) σ m).mustCancel = true := by
            refine evolve_keeps (J := fun w => w.mustCancel = true) mustCancel_stays h ?_
            rw [evolve_succ, hn]; rfl
          rw [hmc] at this; cases this
        · rw [hn] at h0; cases h0
      refine ⟨n - (m + 1), ?_⟩
      simp only [Sched.shift]
      rw [show m + 1 + (n - (m + 1)) = n by omega]; exact hn
    refine (genBody_cancelled hg (stable_crew (commands .block cfg)) (hr.shift _) (fun n => hb _)
      (show Crew (commands .block cfg) ((evolve none (w.piped .block cfg) σ m).log .bodyStart) from hcr) (.inr hope)).mono ?_
    rintro k' o w' ⟨r, g, rfl, hu, hp⟩
    refine ⟨r, g, rfl, hu, fun hn => ?_⟩
    have hm' : w'.mine = commands .block cfg := hu.1
    have hσ' := pYieldIter_good.shift _ k' (pYieldIter_good.shift σ (m + 1) hσ)
    refine pipeWait_ends pYieldIter_good (stable_crew (commands .block cfg)) (kill := false) ?_ (.inl ⟨rfl, fun _ h => h.ticks⟩) hσ'
    simp only [Bool.false_eq_true, if_false]
    show Terms (asyncWait w'.mine false true) (w'.log (.bodyEnd none)) _ _
    rw [hm']
    have hu2 : Crew (commands .block cfg) (w'.log (.bodyEnd none)) := hu
    have hp2 : Hope (w'.log (.bodyEnd none)) ((σ.shift (m + 1)).shift k') := hp hn
    generalize w'.log (.bodyEnd none) = v at *
    generalize (σ.shift (m + 1)).shift k' = τ at *
    unfold asyncWait
    split
    · exact .raise hu2
    · obtain ⟨n, hn, hmc⟩ : ∃ n, τ n = .resume ∧ (evolve none v τ n).mustCancel = true := by
        rcases hp2 with h | ⟨j, hj⟩
        · obtain ⟨n, _, hn⟩ := hσ'.runs 0
          exact ⟨n, hn, evolve_keeps (J := fun w => w.mustCancel = true) mustCancel_stays (Nat.zero_le n) h⟩
        · obtain ⟨n, hjn, hn⟩ := hσ'.runs (j + 1)
          refine ⟨n, hn, evolve_keeps (J := fun w => w.mustCancel = true) mustCancel_stays hjn ?_⟩
          rw [evolve_succ, hj]; rfl
      obtain ⟨j, r, w', _, _, h3, h4⟩ := waitLoop_by none (fun v => (commands .block cfg).all v.isDone ||
        (true && (commands .block cfg).any v.failed)) false n false v τ hn (.inl hmc)
      have hj : Crew (commands .block cfg) (evolve none v τ j) :=
        evolve_keeps (fun w e h => (stable_crew _).env none w e h) (Nat.zero_le j) hu2
      refine ⟨j + 1, r, w', ?_, h3, ?_⟩
      · rcases h4 with ⟨h, _⟩ | ⟨h, _⟩ <;> rw [h] <;> simp
      · rcases h4 with ⟨_, h, _⟩ | ⟨_, h, _⟩ <;> rw [h]
        · exact hj
        · exact (stable_crew _).throw _ hj

/-! ## The hypotheses can be met -/

/-- Two and a half lines in four pieces, and the end of the stream. -/
def someLines : GenCfg where
  decode b := .ok (b.map fun x => Char.ofNat x.toNat)
  arrive
    | 0 => [.data [97, 98]]
    | 2 => [.data [10, 99], .data [10]]
    | 5 => [.data [100], .eof]
    | _ => []

/-- One line and a half, and then nothing any more. -/
def quiet : GenCfg where
  decode b := .ok (b.map fun x => Char.ofNat x.toNat)
  arrive
    | 0 => [.data [97, 10, 98]]
    | _ => []

/-- `C79_iter` and `C79_pipe` apply to `busy`. -/
example : IterEndsOn { ioTasks := 3 } someLines {} busy ∧ PIterEndsOn { n := 3 } someLines {} busy := by
  have hr : busy.Runs := mixed_often 0 (by omega) rfl
  have hl : busy.Launches := ⟨mixed_often 1 (by omega) rfl, fun n => (busy_finishes 0 n)⟩
  have hx : busy.Exits := ⟨mixed_often 2 (by omega) ⟨3, rfl⟩, mixed_often 3 (by omega) (.inl rfl), mixed_often 4 (by omega) rfl⟩
  have hg : someLines.Ends := ⟨5, .inl (by simp [someLines])⟩
  refine ⟨C79_iter _ _ _ fresh0 busy hg hr hl hx busy_finishes, C79_pipe _ _ _ fresh0 busy hg ⟨40, ?_⟩ hr busy_finishes⟩
  decide +kernel

theorem quiet_silent : quiet.Silent := ⟨1, fun n hn => by
  cases n with
  | zero => omega
  | succ n => rfl⟩

/-- The child never exits, no stream ends, and the consumer is cancelled. -/
def endless : List Ev := [.resume, .fork, .taskDone 0 (.val none), .resume, .resume, .resume, .cancel, .timeout]

/-- `C79_iter_cancelled` applies to a child that never exits. -/
example : IterEndsOn { ioTasks := 3 } quiet {} (cycle endless) := by
  refine C79_iter_cancelled _ _ _ fresh0 _ quiet_silent ⟨6, rfl⟩ (fun n hn => ?_) rfl (cycle_often 0 (by decide) rfl)
    ⟨cycle_often 1 (by decide) rfl, cycle_often 2 (by decide) ⟨none, rfl⟩⟩ (cycle_often 7 (by decide) rfl)
  have : ∀ i, i < 8 → endless.getD i .resume ≠ .bodyGotCancel := by decide
  exact this (n % 8) (Nat.mod_lt _ (by omega)) hn

/-- `C79_pipe_cancelled` applies to commands that end only when they are asked to cancel. -/
example : PIterEndsOn { n := 3 } quiet {} (mixed [.resume, .cancel, .timeout] .taskDrop) := by
  refine C79_pipe_cancelled _ _ _ fresh0 _ quiet_silent ⟨1, rfl⟩ (fun n hn => ?_) (mixed_often 0 (by omega) rfl)
    (fun i => mixed_each _ _ i) (mixed_often 2 (by omega) rfl)
  simp only [mixed] at hn
  split at hn
  · cases hn
  · have : ∀ i, i < 8 → ([.resume, .cancel, .timeout] : List Ev).getD i .resume ≠ .bodyGotCancel := by decide
    exact this (n % 8) (Nat.mod_lt _ (by omega)) hn

end Shellous.Props
