import Verif.Lemmas.EndsExec
import Verif.Lemmas.RunTrace

/-!
# C76, C77: runs come to an end
-/

namespace Shellous.Props

open Shellous

/-! ## C76 -/

/-- Schedules on which everything gets on: the event loop, the launch, the child, every task. -/
structure Healthy (σ : Sched) : Prop where
  runs : σ.Runs
  launches : σ.Launches
  exits : σ.Exits
  finishes : σ.Finishes

theorem healthy_good : Good Healthy where
  shift σ k h := ⟨h.runs.shift k, ⟨h.launches.fork.shift k, h.launches.spawned.shift k⟩,
    ⟨h.exits.exit.shift k, h.exits.reap.shift k, h.exits.deliver.shift k⟩, fun i => (h.finishes i).shift k⟩
  runs σ h := h.runs

/-- **C76** for `await cmd`: on every schedule (with any number of cancellations, timeouts, signals, failures of tasks, in any
order) on which the launch makes progress, the child exits some time and asyncio gets to know, and every stream comes to
its end, the `await` ends. No limit on time is needed for that: none of the waits of the library waits for something that
cannot come. -/
theorem C76_await (f : Option Exc) (cfg : RCfg) (w : W) (hf : w.Fresh) (σ : Sched) (hr : σ.Runs) (hl : σ.Launches)
    (hx : σ.Exits) (hd : σ.Finishes) : EndsOn (.await f) cfg w σ :=
  execute_await_ends healthy_good (fun _ h => h.launches) (.inr fun _ h => ⟨h.exits, h.finishes⟩) hf ⟨hr, hl, hx, hd⟩
    fun w1 _ hl hσ _ _ _ => wait_fair healthy_good (fun _ h => ⟨h.exits, h.finishes⟩)
      (show Up ((w1.log .bodyStart).log (.bodyEnd none)) from hl.up) hσ

/-- Schedules on which the user's block ends, too. -/
structure HealthyBlock (σ : Sched) : Prop extends Healthy σ where
  leaves : σ.Leaves

theorem healthyBlock_good : Good HealthyBlock where
  shift σ k h := ⟨healthy_good.shift σ k h.toHealthy, h.leaves.shift k⟩
  runs σ h := h.runs

/-- **C76** for `async with cmd`: the same if the block ends some time. -/
theorem C76_block (cfg : RCfg) (w : W) (hf : w.Fresh) (σ : Sched) (hr : σ.Runs) (hl : σ.Launches) (hx : σ.Exits)
    (hd : σ.Finishes) (hb : σ.Leaves) : EndsOn .block cfg w σ := by
  refine execute_block_ends healthyBlock_good (fun _ h => h.launches) (.inr fun _ h => ⟨h.exits, h.finishes⟩) hf
    ⟨⟨hr, hl, hx, hd⟩, hb⟩ fun w1 σ1 hu hσ1 => ?_
  refine (userBody_ends hσ1.leaves hu).mono fun k o w2 h => ⟨h.1, fun _ => ?_⟩
  exact wait_fair healthyBlock_good (fun _ h => ⟨h.exits, h.finishes⟩) (show Up (w2.log (.bodyEnd none)) from h.1)
    (healthyBlock_good.shift σ1 k hσ1)

/-! ## C77 -/

/-- Schedules on which the event loop, the launch and the clock get on; nothing is said of the child or of the streams. -/
structure Clock (σ : Sched) : Prop where
  runs : σ.Runs
  launches : σ.Launches
  ticks : σ.Ticks

theorem clock_good : Good Clock where
  shift σ k h := ⟨h.runs.shift k, ⟨h.launches.fork.shift k, h.launches.spawned.shift k⟩, h.ticks.shift k⟩
  runs σ h := h.runs

/-- **C77** for `await cmd`: a run that is cancelled ends, even if the child ignores every signal and never exits, and even
if its streams never come to their ends. One cancellation is enough, whenever it comes; all that is needed is that the launch
itself ends and that the time limits of the clean-up expire. (`cancel_timeout` must not be None.) -/
theorem C77_await (f : Option Exc) (cfg : RCfg) (w : W) (hf : w.Fresh) (σ : Sched) (hc : ∃ n, σ n = .cancel)
    (ht : cfg.cancelTimed = true) (hr : σ.Runs) (hl : σ.Launches) (hk : σ.Ticks) : EndsOn (.await f) cfg w σ :=
  execute_await_ends clock_good (fun _ h => h.launches) (.inl ⟨ht, fun _ h => h.ticks⟩) hf ⟨hr, hl, hk⟩
    fun w1 _ hl hσ hh _ _ => wait_cancel clock_good (show Up ((w1.log .bodyStart).log (.bodyEnd none)) from hl.up) hσ (hh hc)

/-- Schedules on which the user's block ends with an exception. -/
structure ClockFail (σ : Sched) : Prop extends Clock σ where
  leaves : σ.Leaves
  fails : ∀ n x, σ n = .bodyDone x → x ≠ none

theorem clockFail_good : Good ClockFail where
  shift σ k h := ⟨clock_good.shift σ k h.toClock, h.leaves.shift k, fun n x hx => h.fails _ x hx⟩
  runs σ h := h.runs

/-- **C77** for `async with cmd`: if the block is left by an exception, the statement ends, whatever the child and its streams
do. -/
theorem C77_block (cfg : RCfg) (w : W) (hf : w.Fresh) (σ : Sched) (hb : σ.Leaves)
    (he : ∀ n x, σ n = .bodyDone x → x ≠ none) (ht : cfg.cancelTimed = true) (hr : σ.Runs) (hl : σ.Launches) (hk : σ.Ticks) :
    EndsOn .block cfg w σ := by
  refine execute_block_ends clockFail_good (fun _ h => h.launches) (.inl ⟨ht, fun _ h => h.ticks⟩) hf
    ⟨⟨hr, hl, hk⟩, hb, he⟩ fun w1 σ1 hu hσ1 => ?_
  refine (userBody_ends hσ1.leaves hu).mono ?_
  rintro k o w2 ⟨h, n, x, hn, hx⟩
  exact ⟨h, fun ho => absurd (hx ho) (hσ1.fails n x hn)⟩

/-! ## The `timeout` option -/

/-- `await cmd` waits for the background tasks. -/
theorem await_waits {cfg : RCfg} {w wa w' : W} {evs r : List Ev} (hA : aenter cfg w evs = (.ok (), wa, r)) (hm : wa.mine ≠ [])
    (h1 : asyncWait wa.mine false true ((wa.log .bodyStart).log (.bodyEnd none)) r = (.blocked, w', [])) :
    runCommand cfg none w evs = (.blocked, w', []) := by
  generalize hb : (wa.log .bodyStart).log (.bodyEnd none) = wb at h1
  have hmb : wb.mine = wa.mine := by rw [← hb]; rfl
  rw [← hmb] at h1 hm
  have h2 : harvestWait wb.mine false true false wb r = (.blocked, w', []) := by
    simp only [harvestWait, Bind.bind, Coro.bind, Coro.catch_, h1]
  have h3 : harvest wb.mine false true false wb r = (.blocked, w', []) := by
    simp only [harvest, Bind.bind, Coro.bind, h2]
  have h4 : waitRun cfg wb r = (.blocked, w', []) := by
    have hne : decide (wb.mine ≠ []) = true := by simpa using hm
    simp only [waitRun, waitTry, Bind.bind, Coro.bind, Coro.catch_, Coro.get, Coro.when, hne, if_true, h3]
  have h5 : aexit cfg none wb r = (.blocked, w', []) := by
    simp only [aexit, finish, finishTry, Bind.bind, Coro.bind, Coro.catch_, Coro.finally_, h4]
  have h6 : withRun cfg (raiseOpt none) w evs = (.blocked, w', []) := by
    unfold withRun
    rw [bind_ok hA]
    subst hb
    simp only [Bind.bind, Coro.bind, Coro.upd, attempt, raiseOpt, Coro.pure, h5]
  unfold runCommand
  exact bind_blocked h6

/-- While the return code is not known, the timer stays armed until it goes off. -/
def Armed (w : W) : Prop :=
  w.mustCancel = true ∨ (w.timer = true ∧ ∀ (i : Nat) (t : TaskSt), w.tasks[i]? = some t → t.kind = .waiter → t.cancels = 0)

theorem armed_env {w : W} (h : Armed w) (hr : w.rcKnown = false) (e : Ev) : Armed (w.env none e) := by
  have quiet : ∀ w' : W, w'.mustCancel = w.mustCancel → w'.timer = w.timer → w'.tasks = w.tasks → Armed w' := by
    intro w' h1 h2 h3
    unfold Armed
    rw [h1, h2, h3]; exact h
  rcases h with h | ⟨ht, hw⟩
  · left
    cases hq : (w.env none e).mustCancel with
    | true => rfl
    | false => rw [(env_quiet w e).mustLost hq] at h; cases h
  · have setOut : ∀ (w1 : W) i o, w1.timer = true → w1.tasks = w.tasks → Armed (w1.setOut i o) := by
      intro w1 i o h1 h2
      refine .inr ⟨h1, fun j t hj hk => ?_⟩
      simp only [W.setOut, List.getElem?_modify, h2] at hj
      cases hg : w.tasks[j]? with
      | none => rw [hg] at hj; cases hj
      | some u =>
        rw [hg] at hj
        simp only [Option.map_eq_map, Option.map_some, Option.some.injEq] at hj
        subst hj
        split at hk
        · split
          · exact hw j u hg hk
          · exact hw j u hg hk
        · split
          · exact hw j u hg hk
          · exact hw j u hg hk
    cases e with
    | taskDone i out =>
      simp only [W.env]
      split
      · exact quiet w rfl rfl rfl
      · rename_i t hti
        split
        · rename_i hc
          have hc := (Bool.and_eq_true _ _ ▸ hc).2
          have hnw : t.kind ≠ .waiter := by
            intro hk
            simp only [W.mayEnd, hk] at hc
            cases ho : out.norm with
            | val r => rw [ho] at hc; rw [hr] at hc; cases hc
            | err x => rw [ho] at hc; cases hc
            | cancelled => rw [ho, hw i t hti hk] at hc; cases hc
          refine setOut _ i _ ?_ ?_
          · unfold W.endEffect
            split
            · exact absurd ‹_› hnw
            · split <;> exact ht
            · exact ht
          · unfold W.endEffect W.stopTimer
            split
            · rfl
            · split <;> rfl
            · rfl
        · exact quiet w rfl rfl rfl
    | taskDrop i =>
      simp only [W.env]
      split
      · exact quiet w rfl rfl rfl
      · split
        · exact setOut w i _ ht rfl
        · exact quiet w rfl rfl rfl
    | cancel => exact .inl rfl
    | timer => simp only [W.env, ht, if_true]; exact .inl rfl
    | userSignal s =>
      simp only [W.env]
      split
      · refine quiet _ ?_ ?_ (signal_tasks _ _ _)
        · unfold W.signal; split
          · rfl
          · rename_i p _; cases p.exited.isNone <;> rfl
        · unfold W.signal; split
          · rfl
          · rename_i p _; cases p.exited.isNone <;> rfl
      · exact quiet w rfl rfl rfl
    | _ =>
      refine quiet _ ?_ ?_ ?_ <;> (simp only [W.env]; repeat' split) <;> rfl

/-- Nobody but the timer itself stops the timer, unless the caller has been asked to cancel more often than `c` times. -/
def NoWaiter (c : Nat) (w : W) : Prop :=
  (∀ t, t ∈ w.tasks → t.kind ≠ .waiter) ∧ c ≤ w.cancels ∧ (w.timer = true ∨ c < w.cancels)

theorem mem_modify {l : List TaskSt} {i : Nat} {f : TaskSt → TaskSt} (hf : ∀ t, (f t).kind = t.kind)
    (h : ∀ t, t ∈ l → t.kind ≠ .waiter) : ∀ t, t ∈ l.modify i f → t.kind ≠ .waiter := by
  intro t ht
  obtain ⟨j, hj⟩ := List.mem_iff_getElem?.1 ht
  rw [List.getElem?_modify] at hj
  cases hg : l[j]? with
  | none => rw [hg] at hj; cases hj
  | some u =>
    have hu := h u (List.mem_of_getElem? hg)
    rw [hg] at hj
    simp only [Option.map_eq_map, Option.map_some, Option.some.injEq] at hj
    subst hj
    split
    · rw [hf]; exact hu
    · exact hu

theorem stable_noWaiter (c : Nat) : Stable (NoWaiter c) where
  env fwd w e h := by
    obtain ⟨h1, h2, h3⟩ := h
    have quiet : ∀ w' : W, w'.tasks = w.tasks → w'.cancels = w.cancels → w'.timer = w.timer → NoWaiter c w' := by
      intro w' e1 e2 e3
      unfold NoWaiter
      rw [e1, e2, e3]; exact ⟨h1, h2, h3⟩
    have out : ∀ (w1 : W) i o, NoWaiter c w1 → NoWaiter c (w1.setOut i o) := fun w1 i o h =>
      ⟨mem_modify (fun _ => rfl) h.1, h.2⟩
    have caller : ∀ w1 : W, w1.tasks = w.tasks → w1.cancels = w.cancels → NoWaiter c (w1.cancelCaller fwd) := by
      intro w1 e1 e2
      have more : ∀ w' : W, w'.tasks = w.tasks → w'.cancels = w.cancels + 1 → NoWaiter c w' := by
        intro w' e1 e2
        unfold NoWaiter
        rw [e1, e2]
        exact ⟨h1, by omega, .inr (by omega)⟩
      unfold W.cancelCaller
      split
      · split
        · exact more _ e1 (congrArg (· + 1) e2)
        · have := more { w1 with cancels := w1.cancels + 1 } e1 (congrArg (· + 1) e2)
          exact ⟨mem_modify (fun t => by unfold TaskSt.cancel; split <;> rfl) this.1, this.2⟩
      · exact more _ e1 (congrArg (· + 1) e2)
    cases e with
    | taskDone i o =>
      simp only [W.env]
      split
      · exact quiet w rfl rfl rfl
      · rename_i t hti
        split
        · refine out _ i _ ?_
          unfold W.endEffect
          split
          · exact absurd ‹_› (h1 t (List.mem_of_getElem? hti))
          · split <;> exact quiet _ rfl rfl rfl
          · exact quiet _ rfl rfl rfl
        · exact quiet w rfl rfl rfl
    | taskDrop i =>
      simp only [W.env]
      split
      · exact quiet w rfl rfl rfl
      · split
        · exact out w i _ ⟨h1, h2, h3⟩
        · exact quiet w rfl rfl rfl
    | cancel => exact caller w rfl rfl
    | timer =>
      simp only [W.env]
      split
      · exact caller _ rfl rfl
      · exact quiet w rfl rfl rfl
    | userSignal s =>
      simp only [W.env]
      split
      · refine quiet _ (signal_tasks _ _ _) ?_ ?_
        · unfold W.signal; split
          · rfl
          · rename_i p _; cases p.exited.isNone <;> rfl
        · unfold W.signal; split
          · rfl
          · rename_i p _; cases p.exited.isNone <;> rfl
      · exact quiet w rfl rfl rfl
    | _ =>
      refine quiet _ ?_ ?_ ?_ <;> (simp only [W.env]; repeat' split) <;> rfl
  throw w h := h
  log w o _ h := h
  cancelTask w i h := ⟨mem_modify (fun t => by unfold TaskSt.cancel; split <;> rfl) h.1, h.2⟩

/-- The timer goes off, at the latest, unless somebody cancels the caller before. -/
theorem timer_hits {w : W} {σ : Sched} (hr : σ.Runs) (hti : Often σ (· = .timer)) (h : NoWaiter w.cancels w) :
    ∃ m, σ m = .resume ∧ (evolve none w σ m).mustCancel = true := by
  obtain ⟨m, _, hm⟩ := hti 0
  have hn := evolve_keeps (σ := σ) (J := NoWaiter w.cancels) (fun w e h => (stable_noWaiter _).env none w e h) (Nat.zero_le m) h
  have hq := evolve_keeps (σ := σ) (J := fun v => Quiet w v) (fun v e h => h.trans (env_quiet v e)) (Nat.zero_le m) (.refl w)
  have hmc : (evolve none w σ (m + 1)).mustCancel = true := by
    rw [evolve_succ, hm]
    rcases hn.2.2 with ht | hc
    · simp only [W.env, ht, if_true]; rfl
    · refine must_env _ _ ?_
      cases hx : (evolve none w σ m).mustCancel with
      | true => rfl
      | false => rw [hq.lost hx] at hc; omega
  obtain ⟨n, hmn, hs⟩ := hr (m + 1)
  exact ⟨n, hs, evolve_keeps (J := fun w => w.mustCancel = true) must_env hmn hmc⟩

/-- **C77** for the `timeout` option on a BSD pty: there is no task that waits for the child, so nothing but the end of the run stops the
timer, and the run ends. -/
theorem C77_timeout_bsd (cfg : RCfg) (w : W) (hf : w.Fresh) (σ : Sched) (hbsd : cfg.bsd = true) (hpty : cfg.pty = true)
    (ht : cfg.cancelTimed = true) (ho : cfg.opts.timeout.isSome = true) (hr : σ.Runs) (hl : σ.Launches) (hk : σ.Ticks) (hti : Often σ (· = .timer)) :
    EndsOn (.await none) cfg w σ := by
  have hb : cfg.bsdPty = true := by rw [RCfg.bsdPty, hbsd, hpty]; rfl
  refine execute_await_ends clock_good (fun _ h => h.launches) (.inl ⟨ht, fun _ h => h.ticks⟩) hf ⟨hr, hl, hk⟩
    fun w1 k hla hσ _ hrun _ => ?_
  generalize hwb : (w1.log .bodyStart).log (.bodyEnd none) = wb
  have hu : Up wb := by rw [← hwb]; exact (show Up ((w1.log .bodyStart).log (.bodyEnd none)) from hla.up)
  have hnw : NoWaiter wb.cancels wb := by
    rw [← hwb]
    refine ⟨fun t hm => ?_, Nat.le_refl _, .inl (hla.timer.trans ho)⟩
    obtain ⟨i, hi⟩ := List.mem_iff_getElem?.1 hm
    exact hla.noWaiter hb i t hi
  refine ⟨?_, fun _ => ?_⟩
  · unfold TasksEnd asyncWait
    split
    · exact .raise ⟨hu, rfl⟩
    · exact wait_by (stable_held wb.mine) _ ⟨hu, rfl⟩ (timer_hits hσ.runs (hti.shift k) hnw)
  · intro j v hv huv
    have hnv : NoWaiter v.cancels v := by
      rcases hv with ⟨_, rfl, _⟩ | h
      · exact hnw
      · have hs := harvest_spec wb.mine false true false wb ((σ.shift k).upto j ++ [])
        have hp := (stable_noWaiter wb.cancels).harvest wb.mine false true false wb hnw ((σ.shift k).upto j ++ [])
        rw [h] at hs hp
        obtain ⟨_, hm, q, _⟩ := hs.ok rfl
        have hl : v.cancels = wb.cancels := q.lost hm
        rw [hl]; exact hp
    have hpn : NoWaiter v.pollOnce.cancels v.pollOnce := by
      have e : v.pollOnce.cancels = v.cancels := pollOnce_cancels v
      rw [e]
      exact (stable_noWaiter _).env _ _ _ ((stable_noWaiter _).env _ _ _ hnv)
    have hup : Held v.mine v.pollOnce := (stable_held v.mine).env _ _ _ ((stable_held v.mine).env _ _ _ ⟨huv, rfl⟩)
    have up : ∀ x, Held v.mine x → Up x := fun x ⟨h, h'⟩ => by rw [Up, h']; exact h
    refine Terms.updThen (Terms.getThen (.when (fun _ => ?_) fun _ => up _ hup))
    exact (wait_by (stable_held v.mine) _ hup (timer_hits (clock_good.shift _ j hσ).runs ((hti.shift k).shift j) hpn)).mono
      fun _ _ x h => up x h

/-- **C77** for the `timeout` option: when the timer goes off, a run that does not end is one whose child has exited by then. (See
`C77_timeout_false` for what happens in that case.) -/
theorem C77_timeout (cfg : RCfg) (w : W) (hf : w.Fresh) (σ : Sched) (ht : cfg.cancelTimed = true)
    (ho : cfg.opts.timeout.isSome = true) (hr : σ.Runs) (hl : σ.Launches) (hk : σ.Ticks) (hti : Often σ (· = .timer))
    (hno : ¬ EndsOn (.await none) cfg w σ) : ∃ n, (execute (.await none) cfg w (σ.upto n)).2.rcKnown = true := by
  have hbsd : cfg.bsdPty = false := by
    cases hb : cfg.bsdPty with
    | false => rfl
    | true => exact absurd (C77_timeout_bsd cfg w hf σ (Bool.and_eq_true_iff.1 hb).1 (Bool.and_eq_true_iff.1 hb).2 ht ho hr hl hk hti) hno
  refine Classical.byContradiction fun hrc => hno ?_
  refine execute_await_ends clock_good (fun _ h => h.launches) (.inl ⟨ht, fun _ h => h.ticks⟩) hf ⟨hr, hl, hk⟩
    fun w1 k hla hσ _ hrun _ => ?_
  refine Classical.byContradiction fun hne => ?_
  generalize hwb : (w1.log .bodyStart).log (.bodyEnd none) = wb at hne
  have hu : Up wb := by rw [← hwb]; exact (show Up ((w1.log .bodyStart).log (.bodyEnd none)) from hla.up)
  have hmine : wb.mine = w1.mine := by rw [← hwb]; rfl
  have hmne : w1.mine ≠ [] := by rw [hla.mine]; simp [RCfg.waiters, hbsd]
  -- the wait is blocked for ever
  have blk : ∀ m, waitLoop none (fun v => wb.mine.all v.isDone || (true && wb.mine.any v.failed)) false false wb
      ((σ.shift k).upto m) = (.blocked, evolve none wb (σ.shift k) m, []) := by
    intro m
    refine waitLoop_stuck none _ m wb _ fun j _ hj => ?_
    have no : ¬((evolve none wb (σ.shift k) j).mustCancel = true ∨
        (wb.mine.all (evolve none wb (σ.shift k) j).isDone || (true && wb.mine.any (evolve none wb (σ.shift k) j).failed)) = true) := by
      intro hc
      refine hne ⟨?_, fun h => by rw [hbsd] at h; cases h⟩
      unfold TasksEnd asyncWait
      rw [if_neg (by rw [hmine]; exact hmne)]
      obtain ⟨a, r, w', _, _, h3, h4⟩ := waitLoop_by none (fun v => wb.mine.all v.isDone || (true && wb.mine.any v.failed)) false j
        false wb (σ.shift k) hj (hc.imp_right .inl)
      have ha : Held wb.mine (evolve none wb (σ.shift k) a) :=
        evolve_keeps (fun w e h => (stable_held _).env none w e h) (Nat.zero_le a) ⟨hu, rfl⟩
      refine ⟨a + 1, r, w', ?_, h3, ?_⟩
      · rcases h4 with ⟨h, _⟩ | ⟨h, _⟩ <;> rw [h] <;> simp
      · rcases h4 with ⟨_, h, _⟩ | ⟨_, h, _⟩ <;> rw [h]
        · exact ha
        · exact (stable_held _).throw _ ha
    simpa using no
  have rc : ∀ m, (evolve none wb (σ.shift k) m).rcKnown = false := by
    intro m
    cases hq : (evolve none wb (σ.shift k) m).rcKnown with
    | false => rfl
    | true =>
      refine absurd ⟨k + m, ?_⟩ hrc
      have := await_waits (cfg := cfg) (w := w) (wa := w1) (w' := evolve none wb (σ.shift k) m) (evs := σ.upto (k + m))
        (r := (σ.shift k).upto m) (by rw [Sched.upto_add]; exact hrun _) hmne (by
          rw [hwb, ← hmine]
          unfold asyncWait
          rw [if_neg (by rw [hmine]; exact hmne)]
          exact blk m)
      simp only [execute, this]
      exact hq
  have arm : ∀ m, Armed (evolve none wb (σ.shift k) m) := by
    intro m
    induction m with
    | zero =>
      refine .inr ⟨?_, ?_⟩
      · rw [evolve, ← hwb]; exact hla.timer.trans ho
      · rw [evolve, ← hwb]; exact hla.waiters
    | succ m ih => rw [evolve_succ]; exact armed_env ih (rc m) _
  obtain ⟨m, _, hm⟩ := hti.shift k 0
  have hmc : (evolve none wb (σ.shift k) (m + 1)).mustCancel = true := by
    rw [evolve_succ, hm]
    rcases arm m with h | ⟨h, _⟩
    · cases hq : ((evolve none wb (σ.shift k) m).env none .timer).mustCancel with
      | true => rfl
      | false => rw [(env_quiet _ _).mustLost hq] at h; cases h
    · simp only [W.env, h, if_true]; rfl
  obtain ⟨n, hn, hs⟩ := hσ.runs (m + 1)
  have hmn : (evolve none wb (σ.shift k) n).mustCancel = true := by
    refine evolve_keeps (J := fun w => w.mustCancel = true) (fun w e h => ?_) hn hmc
    cases hq : (w.env none e).mustCancel with
    | true => rfl
    | false => rw [(env_quiet w e).mustLost hq] at h; cases h
  obtain ⟨a, r, w', han, _, h3, h4⟩ := waitLoop_by none (fun v => wb.mine.all v.isDone || (true && wb.mine.any v.failed)) false n
    false wb (σ.shift k) hs (.inl hmn)
  have := h3 []
  rw [List.append_nil, blk (a + 1)] at this
  rcases h4 with ⟨h, _⟩ | ⟨h, _⟩ <;> rw [h] at this <;> cases this

/-- A schedule that repeats a list. -/
def cycle (l : List Ev) : Sched := fun n => l.getD (n % l.length) .resume

theorem cycle_often {l : List Ev} {p : Ev → Prop} (i : Nat) (hi : i < l.length) (h : p (l.getD i .resume)) : Often (cycle l) p := by
  intro n
  refine ⟨n * l.length + i, ?_, ?_⟩
  · have : n ≤ n * l.length := Nat.le_mul_of_pos_right n (by omega)
    omega
  · have : (n * l.length + i) % l.length = i := by
      rw [Nat.mul_add_mod_self_right, Nat.mod_eq_of_lt hi]
    simpa only [cycle, this] using h

/-- The child exits at once; one of its streams stays open (for example because it has started another program that still
has it); the timer of the `timeout` option goes off again and again. -/
def lingering : List Ev :=
  [.resume, .fork, .taskDone 0 (.val none), .resume, .exit 0, .reap, .deliver, .taskDone 2 (.val none), .timer, .timeout]

/-- One stream to copy, and a time limit. -/
def limited : RCfg := { ioTasks := 1, opts := { timeout := some 1 } }

/-- The world when `lingering` has happened once. -/
def stuck : W := (execute (.await none) limited {} lingering).2

theorem stuck_wait (l : List Ev) (hl : ∀ e, e ∈ l → e ∈ lingering) :
    waitLoop none (fun v => [1, 2].all v.isDone || (true && [1, 2].any v.failed)) false false stuck l = (.blocked, stuck, []) := by
  have fix : ∀ e, e ∈ lingering → stuck.env none e = stuck := by decide +kernel
  have notReady : ([1, 2].all stuck.isDone || (true && [1, 2].any stuck.failed)) = false := by decide +kernel
  have noCancel : stuck.mustCancel = false := by decide +kernel
  induction l with
  | nil => rw [waitLoop_nil]
  | cons e l ih =>
    have ih := ih fun e he => hl e (List.mem_cons_of_mem _ he)
    by_cases h1 : e = .resume
    · subst h1
      rw [waitLoop_resume, noCancel, notReady]
      simpa using ih
    · by_cases h2 : e = .timeout
      · subst h2
        rw [waitLoop_timeout]
        exact ih
      · rw [waitLoop_ev _ _ _ _ _ _ _ h1 h2, fix e (hl e List.mem_cons_self)]
        exact ih

theorem stuck_blocked (l : List Ev) (hl : ∀ e, e ∈ l → e ∈ lingering) :
    (execute (.await none) limited {} (lingering ++ l)).1 = .blocked := by
  have hw := stuck_wait l hl
  let wa : W := (aenter limited {} (lingering.take 4)).2.1
  let wb : W := (wa.log .bodyStart).log (.bodyEnd none)
  have hA : aenter limited {} (lingering ++ l) = (.ok (), wa, lingering.drop 4 ++ l) := rfl
  have hm : wb.mine = [1, 2] := by decide +kernel
  have h1 : asyncWait wb.mine false true wb (lingering.drop 4 ++ l) = (.blocked, stuck, []) := by
    rw [hm]
    have e : asyncWait [1, 2] false true wb (lingering.drop 4 ++ l) =
      waitLoop none (fun v => [1, 2].all v.isDone || (true && [1, 2].any v.failed)) false false stuck l := rfl
    rw [e, hw]
  have h7 := await_waits (cfg := limited) hA (by show wb.mine ≠ []; rw [hm]; simp) h1
  simp only [execute, h7]

/-- Not so (**C77** for the `timeout` option): `Runner._waiter` stops the timer when the child exits; if then a stream stays
open (e.g. a grandchild has inherited it), `await cmd` hangs in spite of its `timeout`. -/
theorem C77_timeout_false :
    ∃ cfg σ, cfg.opts.timeout = some 1 ∧ cfg.cancelTimed = true ∧ σ.Runs ∧ σ.Launches ∧ σ.Exits ∧ σ.Ticks ∧ Often σ (· = .timer) ∧
      ¬ EndsOn (.await none) cfg {} σ := by
  refine ⟨limited, cycle lingering, rfl, rfl, ?_, ⟨?_, ?_⟩, ⟨?_, ?_, ?_⟩, ?_, ?_, ?_⟩
  · exact cycle_often 0 (by decide) rfl
  · exact cycle_often 1 (by decide) rfl
  · exact cycle_often 2 (by decide) ⟨none, rfl⟩
  · exact cycle_often 4 (by decide) ⟨0, rfl⟩
  · exact cycle_often 5 (by decide) (.inl rfl)
  · exact cycle_often 6 (by decide) rfl
  · exact cycle_often 9 (by decide) rfl
  · exact cycle_often 8 (by decide) rfl
  · rintro ⟨n, hn⟩
    refine hn ?_
    by_cases h : n < 10
    · have : ∀ n, n < 10 → (execute (.await none) limited {} ((cycle lingering).upto n)).1 = .blocked := by decide +kernel
      exact this n h
    · obtain ⟨m, rfl⟩ := Nat.le.dest (Nat.le_of_not_lt h)
      rw [Sched.upto_add, show (cycle lingering).upto 10 = lingering from by decide +kernel]
      refine stuck_blocked _ fun e he => ?_
      have mem : ∀ (m : Nat) (σ : Sched), (∀ k, σ k ∈ lingering) → ∀ e, e ∈ σ.upto m → e ∈ lingering := by
        intro m
        induction m with
        | zero => intro σ _ e he; cases he
        | succ m ih =>
          intro σ hσ e he
          rcases List.mem_cons.1 he with rfl | he
          · exact hσ 0
          · exact ih _ (fun k => hσ _) e he
      refine mem m _ (fun k => ?_) e he
      have hlt : (10 + k) % lingering.length < lingering.length := Nat.mod_lt _ (by decide)
      have : ∀ i, i < lingering.length → lingering.getD i .resume ∈ lingering := by decide
      exact this _ hlt

/-! ## The hypotheses can be met -/

/-- Up to seven events again and again, and in between an event for each number, again and again. -/
def mixed (l : List Ev) (f : Nat → Ev) : Sched := fun n =>
  if n % 8 = 7 then f (n / 8 - 2 ^ (n / 8).log2) else l.getD (n % 8) .resume

theorem mixed_often {l : List Ev} {f : Nat → Ev} (i : Nat) (hi : i < 7) {p : Ev → Prop} (h : p (l.getD i .resume)) :
    Often (mixed l f) p := by
  intro n
  refine ⟨8 * n + i, by omega, ?_⟩
  have : (8 * n + i) % 8 = i := by omega
  simpa only [mixed, this, show ¬ i = 7 by omega, if_false] using h

theorem mixed_each (l : List Ev) (f : Nat → Ev) (i : Nat) : Often (mixed l f) (· = f i) := by
  intro n
  have hi : i < 2 ^ (i + n) := Nat.lt_of_lt_of_le Nat.lt_two_pow_self (Nat.pow_le_pow_right (by omega) (by omega))
  have hn : n < 2 ^ (i + n) := Nat.lt_of_lt_of_le Nat.lt_two_pow_self (Nat.pow_le_pow_right (by omega) (by omega))
  have hl : (2 ^ (i + n) + i).log2 = i + n :=
    (Nat.log2_eq_iff (by omega)).2 ⟨by omega, by rw [Nat.pow_succ]; omega⟩
  refine ⟨8 * (2 ^ (i + n) + i) + 7, by omega, ?_⟩
  have h1 : (8 * (2 ^ (i + n) + i) + 7) % 8 = 7 := by omega
  have h2 : (8 * (2 ^ (i + n) + i) + 7) / 8 = 2 ^ (i + n) + i := by omega
  simp only [mixed, h1, h2, hl, if_true]
  rw [show 2 ^ (i + n) + i - 2 ^ (i + n) = i by omega]

/-- A schedule on which everything happens again and again: every task ends, too. -/
def busy : Sched := mixed [Ev.resume, .fork, .exit 3, .reap, .deliver, .bodyDone none, .timeout] fun i => .taskDone i (.val none)

theorem busy_finishes : busy.Finishes := fun i n =>
  let ⟨m, hm, h⟩ := mixed_each _ (fun i => .taskDone i (.val none)) i n
  ⟨m, hm, none, h⟩

/-- `C76_await` and `C76_block` apply to `busy`. -/
example : EndsOn (.await none) { ioTasks := 3 } {} busy ∧ EndsOn .block { ioTasks := 3 } {} busy := by
  have hr : busy.Runs := mixed_often 0 (by omega) rfl
  have hl : busy.Launches := ⟨mixed_often 1 (by omega) rfl, fun n => (busy_finishes 0 n)⟩
  have hx : busy.Exits := ⟨mixed_often 2 (by omega) ⟨3, rfl⟩, mixed_often 3 (by omega) (.inl rfl), mixed_often 4 (by omega) rfl⟩
  exact ⟨C76_await none _ _ ⟨rfl, rfl, rfl, rfl, rfl, rfl, rfl, rfl, rfl, rfl⟩ busy hr hl hx busy_finishes,
    C76_block _ _ ⟨rfl, rfl, rfl, rfl, rfl, rfl, rfl, rfl, rfl, rfl⟩ busy hr hl hx busy_finishes (mixed_often 5 (by omega) ⟨none, rfl⟩)⟩

/-- The child never exits, no stream ends, and the block is left by an exception again and again. -/
def deaf : List Ev := [.resume, .fork, .taskDone 0 (.val none), .resume, .cancel, .bodyDone (some (.user 7)), .timeout]

/-- `C77_await` and `C77_block` apply to a child that never exits. -/
example : EndsOn (.await none) { ioTasks := 3 } {} (cycle deaf) ∧ EndsOn .block { ioTasks := 3 } {} (cycle deaf) := by
  have hr : (cycle deaf).Runs := cycle_often 0 (by decide) rfl
  have hl : (cycle deaf).Launches := ⟨cycle_often 1 (by decide) rfl, cycle_often 2 (by decide) ⟨none, rfl⟩⟩
  have hk : (cycle deaf).Ticks := cycle_often 6 (by decide) rfl
  refine ⟨C77_await none _ _ ⟨rfl, rfl, rfl, rfl, rfl, rfl, rfl, rfl, rfl, rfl⟩ _ ⟨4, rfl⟩ rfl hr hl hk,
    C77_block _ _ ⟨rfl, rfl, rfl, rfl, rfl, rfl, rfl, rfl, rfl, rfl⟩ _ (cycle_often 5 (by decide) ⟨_, rfl⟩) (fun n x hx => ?_) rfl hr hl hk⟩
  have all : ∀ i, i < deaf.length → ∀ x, deaf.getD i .resume = .bodyDone x → x ≠ none := by
    intro i hi x h
    have : ∀ i, i < deaf.length → deaf.getD i .resume ≠ .bodyDone none := by decide
    rintro rfl
    exact this i hi h
  exact all _ (Nat.mod_lt _ (by decide)) x hx

/-- `C77_timeout` applies to the schedule of `C77_timeout_false`: the child has exited. -/
example : ∃ n, (execute (.await none) limited {} ((cycle lingering).upto n)).2.rcKnown = true := ⟨7, rfl⟩

/-- On a BSD pty the same schedule ends with the timeout: the timer is stopped by `_wait` itself. -/
def limitedPty : RCfg := { limited with pty := true, bsd := true }

/-- `C77_timeout_bsd` applies to it. -/
example : EndsOn (.await none) limitedPty {} (cycle lingering) :=
  C77_timeout_bsd limitedPty {} ⟨rfl, rfl, rfl, rfl, rfl, rfl, rfl, rfl, rfl, rfl⟩ _ rfl rfl rfl rfl
    (cycle_often 0 (by decide) rfl) ⟨cycle_often 1 (by decide) rfl, cycle_often 2 (by decide) ⟨none, rfl⟩⟩
    (cycle_often 9 (by decide) rfl) (cycle_often 8 (by decide) rfl)

/-- A run on a BSD pty: the stream ends, the child exits and is reaped by the second poll. -/
def ptyRun : List Ev :=
  [.resume, .resume, .resume, .fork, .taskDone 0 (.val none), .resume, .taskDone 1 (.val none), .resume, .exit 3, .reap, .deliver, .resume,
    .taskDone 2 (.val none), .resume]

example : (execute (.await none) { pty := true, bsd := true, ioTasks := 1, opts := { returnResult := true } } {} ptyRun).2.rcKnown = true ∧
    (execute (.await none) { pty := true, bsd := true, ioTasks := 1, opts := { returnResult := true } } {} ptyRun).2.trace =
      [.auditStart, .bodyStart, .bodyEnd none, .auditStop none] := by
  decide +kernel

end Shellous.Props
