import Verif.Lemmas.EndsPipe
import Verif.Props.Terminates

/-!
# C78: pipelines come to an end
-/

namespace Shellous.Props

open Shellous

/-- The event loop runs, and every task ends. -/
structure PHealthy (σ : Sched) : Prop where
  runs : σ.Runs
  finishes : σ.Finishes

theorem pHealthy_good : Good PHealthy where
  shift σ k h := ⟨h.runs.shift k, fun i => (h.finishes i).shift k⟩
  runs σ h := h.runs

/-- The event loop runs, and the time limits of the clean-up expire. -/
structure PClock (σ : Sched) : Prop where
  runs : σ.Runs
  ticks : σ.Ticks

theorem pClock_good : Good PClock where
  shift σ k h := ⟨h.runs.shift k, h.ticks.shift k⟩
  runs σ h := h.runs

theorem waiting_crew (cfg : PRCfg) (w : W) : Crew (commands .await cfg) (w.waiting cfg) := piped_crew .await cfg w

/-- **C78** for `await pipeline`: it ends if the run of every command ends some time (cf. C76). -/
theorem C78_await (cfg : PRCfg) (w : W) (hf : w.Fresh) (σ : Sched) (hr : σ.Runs) (hd : σ.Finishes) : PEndsOn .await cfg w σ :=
  have due := crew_due (F := PHealthy) (fun _ h => h.finishes) (commands .await cfg)
  pipeAwait_ends pHealthy_good hf ⟨hr, hd⟩ (.inr due) fun _ =>
    asyncWait_ends pHealthy_good (stable_crew _) (ids := commands .await cfg) (.inr due) (fun _ h => h) _ σ (waiting_crew cfg w) ⟨hr, hd⟩

/-- `await pipeline` ends, or it waits for its commands for ever. -/
theorem await_dichotomy (cfg : PRCfg) (w : W) (hf : w.Fresh) (σ : Sched) (hr : σ.Runs) (hk : σ.Ticks) :
    PEndsOn .await cfg w σ ∨
    ((∀ m, pipeExecute .await cfg w (σ.upto m) = (.blocked, evolve none (w.waiting cfg) σ m)) ∧
      ∀ j, σ j = .resume → (evolve none (w.waiting cfg) σ j).mustCancel = false ∧
        (commands .await cfg).any (evolve none (w.waiting cfg) σ j).failed = false) := by
  by_cases hn : commands .await cfg = []
  · left
    refine pipeAwait_ends pClock_good hf ⟨hr, hk⟩ (.inl ⟨rfl, fun _ h => h.ticks⟩) fun _ => ?_
    unfold asyncWait
    rw [if_pos hn]
    exact .raise (waiting_crew cfg w)
  cases hs : cfg.setupErr with
  | some e =>
    exact .inl (pipeAwait_ends pClock_good hf ⟨hr, hk⟩ (.inl ⟨rfl, fun _ h => h.ticks⟩) fun h => by rw [hs] at h; cases h)
  | none =>
    rcases waitLoop_dichotomy none (fun v => (commands .await cfg).all v.isDone || (true && (commands .await cfg).any v.failed))
      (w.waiting cfg) σ with ⟨m, r, w', _, h3, h4⟩ | ⟨h1, h2⟩
    · left
      refine pipeAwait_ends pClock_good hf ⟨hr, hk⟩ (.inl ⟨rfl, fun _ h => h.ticks⟩) fun _ => ?_
      unfold asyncWait
      rw [if_neg hn]
      have hc : Crew (commands .await cfg) (evolve none (w.waiting cfg) σ m) :=
        evolve_keeps (fun w e h => (stable_crew _).env none w e h) (Nat.zero_le m) (waiting_crew cfg w)
      refine ⟨m + 1, r, w', ?_, h3, ?_⟩
      · rcases h4 with ⟨h, _⟩ | ⟨h, _⟩ <;> rw [h] <;> simp
      · rcases h4 with ⟨_, h, _⟩ | ⟨_, h, _⟩ <;> rw [h]
        · exact hc
        · exact (stable_crew _).throw _ hc
    · refine .inr ⟨fun m => pipeAwait_waits hf hs ?_, fun j hj => ?_⟩
      · unfold asyncWait
        rw [if_neg hn]; exact h1 m
      · obtain ⟨a, b⟩ := h2 j hj
        refine ⟨a, ?_⟩
        simp only [Bool.true_and, Bool.or_eq_false_iff] at b
        exact b.2

theorem mustCancel_stays (w : W) (e : Ev) (h : w.mustCancel = true) : (w.env none e).mustCancel = true := by
  cases hq : (w.env none e).mustCancel with
  | true => rfl
  | false => rw [(env_quiet w e).mustLost hq] at h; cases h

/-- **C78** for `await pipeline`, cancelled: one cancellation ends it, even if no command ever ends. -/
theorem C78_await_cancelled (cfg : PRCfg) (w : W) (hf : w.Fresh) (σ : Sched) (hc : ∃ n, σ n = .cancel) (hr : σ.Runs) (hk : σ.Ticks) :
    PEndsOn .await cfg w σ := by
  rcases await_dichotomy cfg w hf σ hr hk with h | ⟨_, h⟩
  · exact h
  · obtain ⟨n, hn⟩ := hc
    obtain ⟨m, hm, hs⟩ := hr (n + 1)
    have : (evolve none (w.waiting cfg) σ m).mustCancel = true := by
      refine evolve_keeps (J := fun w => w.mustCancel = true) mustCancel_stays hm ?_
      rw [evolve_succ, hn]; rfl
    rw [(h m hs).1] at this; cases this

/-- **C78** for `await pipeline` with a command that fails: when the run of one command has failed, the pipeline ends, even if the
other commands never do. -/
theorem C78_await_failed (cfg : PRCfg) (w : W) (hf : w.Fresh) (σ : Sched) (i : Nat) (hi : i ∈ commands .await cfg)
    (hfail : ∃ n, Failed (pipeExecute .await cfg w (σ.upto n)).2 i) (hr : σ.Runs) (hk : σ.Ticks) : PEndsOn .await cfg w σ := by
  rcases await_dichotomy cfg w hf σ hr hk with h | ⟨h1, h⟩
  · exact h
  · obtain ⟨n, e, hn⟩ := hfail
    rw [h1] at hn
    obtain ⟨m, hm, hs⟩ := hr n
    have : (evolve none (w.waiting cfg) σ m).outOf i = some (.err e) := by
      refine evolve_keeps (J := fun w => w.outOf i = some (.err e)) (fun w ev h => ?_) hm hn
      exact (env_ext none w ev).outOf h
    have hf' := (h m hs).2
    have : (commands .await cfg).any (evolve none (w.waiting cfg) σ m).failed = true := by
      rw [List.any_eq_true]
      exact ⟨i, hi, by simp [W.failed, this]⟩
    rw [hf'] at this; cases this

/-! ## Blocks -/

/-- Moreover the user's block ends. -/
structure PHealthyBlock (σ : Sched) : Prop extends PHealthy σ where
  leaves : σ.Leaves

theorem pHealthyBlock_good : Good PHealthyBlock where
  shift σ k h := ⟨pHealthy_good.shift σ k h.toPHealthy, h.leaves.shift k⟩
  runs σ h := h.runs

/-- **C78** for `async with pipeline`: if the first and the last command get launched (0 and 1 are the futures that tell so), the
run of every command ends, and the block ends, the statement ends. (If one of the two is never launched: C47_hangs_false.) -/
theorem C78_block (cfg : PRCfg) (w : W) (hf : w.Fresh) (σ : Sched)
    (hl : ∃ n, (pipeExecute .block cfg w (σ.upto n)).2.isDone 0 = true ∧ (pipeExecute .block cfg w (σ.upto n)).2.isDone 1 = true)
    (hr : σ.Runs) (hd : σ.Finishes) (hb : σ.Leaves) : PEndsOn .block cfg w σ := by
  have hσ : PHealthyBlock σ := ⟨⟨hr, hd⟩, hb⟩
  have due : ∀ ids, Due PHealthyBlock (Crew ids) ids := crew_due fun _ h => h.finishes
  have hw : ∀ (kill : Bool) w' σ', Crew w'.mine w' → PHealthyBlock σ' → Terms (pipeWait kill) w' σ' fun _ _ _ => True := by
    intro kill w' σ' hc hσ'
    refine pipeWait_ends pHealthyBlock_good (stable_crew w'.mine) ?_ (.inr (due _)) hσ'
    refine asyncWait_ends pHealthyBlock_good (stable_crew _) (ids := w'.mine) (.inr (due _)) (fun _ h => h) _ σ' ?_ hσ'
    cases kill with
    | false => exact hc
    | true => exact hc.ext (cancelAll_ext _ _)
  refine pipeBlock_ends_from pHealthyBlock_good (fun _ h => h.leaves) hf hσ (fun hs => ?_) (hw true) fun w' σ' hc hσ' _ => hw false w' σ' hc hσ'
  rcases waitLoop_dichotomy none (fun w => w.isDone 0 && w.isDone 1) (w.piped .block cfg) σ with ⟨m, r, w', _, h3, h4⟩ | ⟨h1, h2⟩
  · exact ⟨m, r, w', h3, h4.imp_right fun h => ⟨h.1, h.2.1⟩⟩
  · exfalso
    obtain ⟨n, ha, hb⟩ := hl
    rw [pipeBlock_waits hf hs (h1 n)] at ha hb
    obtain ⟨m, hm, hres⟩ := hr n
    have d0 := evolve_keeps (J := fun w => w.isDone 0 = true) (fun w e h => isDone_env w e h) hm ha
    have d1 := evolve_keeps (J := fun w => w.isDone 1 = true) (fun w e h => isDone_env w e h) hm hb
    have := (h2 m hres).2
    simp [d0, d1] at this

/-- Schedules on which commands that are asked to cancel do so, and the block ends with an exception. -/
structure PYield (σ : Sched) : Prop where
  runs : σ.Runs
  yields : σ.Yields
  leaves : σ.Leaves
  fails : ∀ n x, σ n = .bodyDone x → x ≠ none

theorem pYield_good : Good PYield where
  shift σ k h := ⟨h.runs.shift k, fun i => (h.yields i).shift k, h.leaves.shift k, fun n x hx => h.fails _ x hx⟩
  runs σ h := h.runs

/-- **C78** for `async with pipeline`, cancelled: the statement ends, even if no command ever ends of its own accord and whether the
cancellation comes before all commands have been launched or while the block runs (then the block must let some exception
out). The commands must end when they are asked to cancel (cf. C77). -/
theorem C78_block_cancelled (cfg : PRCfg) (w : W) (hf : w.Fresh) (σ : Sched) (hc : ∃ n, σ n = .cancel) (hr : σ.Runs)
    (hy : σ.Yields) (hb : σ.Leaves) (he : ∀ n x, σ n = .bodyDone x → x ≠ none) : PEndsOn .block cfg w σ := by
  have hσ : PYield σ := ⟨hr, hy, hb, he⟩
  refine pipeBlock_ends_from pYield_good (fun _ h => h.leaves) hf hσ (fun hs => ?_)
    (fun w' σ' hc hσ' => pipeKill_ends pYield_good (fun _ h => h.yields) hc hσ')
    fun w' σ' hc hσ' hn => by obtain ⟨n, hn⟩ := hn; exact absurd rfl (he n none hn)
  rcases waitLoop_dichotomy none (fun w => w.isDone 0 && w.isDone 1) (w.piped .block cfg) σ with ⟨m, r, w', _, h3, h4⟩ | ⟨h1, h2⟩
  · exact ⟨m, r, w', h3, h4.imp_right fun h => ⟨h.1, h.2.1⟩⟩
  · exfalso
    obtain ⟨n, hn⟩ := hc
    obtain ⟨m, hm, hres⟩ := hr (n + 1)
    have : (evolve none (w.piped .block cfg) σ m).mustCancel = true := by
      refine evolve_keeps (J := fun w => w.mustCancel = true) mustCancel_stays hm ?_
      rw [evolve_succ, hn]; rfl
    rw [(h2 m hres).1] at this; cases this

/-! ## The hypotheses can be met -/

theorem fresh0 : ({} : W).Fresh := ⟨rfl, rfl, rfl, rfl, rfl, rfl, rfl, rfl, rfl, rfl⟩

/-- `C78_await` and `C78_block` apply to `busy`. -/
example : PEndsOn .await { n := 3 } {} busy ∧ PEndsOn .block { n := 3 } {} busy := by
  have hr : busy.Runs := mixed_often 0 (by omega) rfl
  refine ⟨C78_await _ _ fresh0 busy hr busy_finishes, C78_block _ _ fresh0 busy ⟨40, ?_⟩ hr busy_finishes
    (mixed_often 5 (by omega) ⟨none, rfl⟩)⟩
  decide +kernel

/-- `C78_await_cancelled` applies to commands that never end. -/
example : PEndsOn .await { n := 3 } {} (cycle deaf) :=
  C78_await_cancelled _ _ fresh0 _ ⟨4, rfl⟩ (cycle_often 0 (by decide) rfl) (cycle_often 6 (by decide) rfl)

/-- `C78_await_failed` applies if the second command fails and the others never end. -/
example : PEndsOn .await { n := 3 } {} (cycle [.taskDone 1 (.err (.user 7)), .timeout, .resume]) :=
  C78_await_failed _ _ fresh0 _ 1 (by decide) ⟨1, .user 7, by decide +kernel⟩ (cycle_often 2 (by decide) rfl)
    (cycle_often 1 (by decide) rfl)

/-- `C78_block_cancelled` applies to commands that end only when they are asked to cancel. -/
example : PEndsOn .block { n := 3 } {} (mixed [.resume, .cancel, .bodyDone (some .cancelled)] .taskDrop) := by
  refine C78_block_cancelled _ _ fresh0 _ ⟨1, rfl⟩ (mixed_often 0 (by omega) rfl) (fun i => mixed_each _ _ i)
    (mixed_often 2 (by omega) ⟨_, rfl⟩) ?_
  rintro n x hx rfl
  have hlt : n % 8 < 8 := Nat.mod_lt _ (by omega)
  simp only [mixed] at hx
  split at hx
  · cases hx
  · have : ∀ i, i < 8 → ([.resume, .cancel, .bodyDone (some .cancelled)] : List Ev).getD i .resume ≠ .bodyDone none := by decide
    exact this _ hlt hx

end Shellous.Props
