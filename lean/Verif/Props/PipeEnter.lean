import Verif.Props.PipeOutcome
import Verif.Lemmas.HarvestLive

/-!
# C46 (progress), C47 and C62
-/

namespace Shellous.Props

/-- **C46, a pipeline run ends.** When the run waits for its commands (the body has ended, or the launch was
interrupted), all of them have ended, and no cancellation is pending, then the run ends as soon as the event loop
resumes it. -/
theorem C46_completes (how : PHow) (cfg : PRCfg) (hn : 0 < cfg.n) (w : W) (hf : w.Fresh) (evs : List Ev) (w1 : W)
    (h : pipeExecute how cfg w evs = (.blocked, w1))
    (hb : BodyEnded w1 ∨ (.bodyStart ∉ w1.trace ∧ .thrown ∈ w1.trace)) (hd : AllDone w1 (commands how cfg))
    (hm : w1.mustCancel = false) : (pipeExecute how cfg w (evs ++ [.resume])).1 ≠ .blocked := by
  have hne : commands how cfg ≠ [] := by
    intro hz
    have := congrArg List.length hz
    cases how <;> simp [commands] at this <;> omega
  have quietOnly : ∀ {w1 : W}, Quiet (w.piped how cfg) w1 → (∀ e, .bodyEnd e ∉ w1.trace) ∧ .thrown ∉ w1.trace := by
    intro w1 q
    obtain ⟨l, hl, hu⟩ := q.user
    rw [show (w.piped how cfg).trace = w.trace from rfl, hf.trace, List.nil_append] at hl
    rw [hl]
    exact ⟨fun e hm => (by have := hu _ hm; cases this), fun hm => (by have := hu _ hm; cases this)⟩
  have settled : ∀ {w3 : W}, SameTasks w3 w1 → Settled (commands how cfg) w3 := by
    intro w3 s
    refine ⟨by rw [← s.must]; exact hm, allDone_iff.2 ?_⟩
    exact allDone_same ⟨s.tasks.symm, s.trace.symm, s.must.symm⟩ hd
  cases phase how cfg w hf evs with
  | setup e hs hx =>
    have := hx []
    rw [List.append_nil, h] at this
    cases this
  | launching w2 _ _ q hx =>
    rw [h] at hx; cases hx
    obtain ⟨h1, h2⟩ := quietOnly q
    rcases hb with ⟨e, he⟩ | hb
    · exact absurd he (h1 e)
    · exact absurd hb.2 h2
  | body w2 w3 _ _ q _ b hx =>
    rw [h] at hx; cases hx
    rcases hb with ⟨e, he⟩ | hb
    · refine absurd he (noBodyEnd_quiet (fun _ => rfl) b.ext.trace ?_ _)
      intro e hm
      rcases List.mem_append.1 hm with hm | hm
      · exact (quietOnly q).1 e hm
      · simp at hm
    · refine absurd ?_ hb.1
      obtain ⟨l, hl, _⟩ := b.ext.trace
      rw [hl]
      simp [W.log]
  | interrupted w2 rest hs hh q hm' hx =>
    have h0 := hx []
    have h1 := hx [.resume]
    rw [List.append_nil, List.append_nil, h] at h0
    have live := harvestResults_live (commands how cfg) hne false true w2.interrupted rest
    rcases hr : harvestResults (commands how cfg) false true w2.interrupted rest with ⟨oh, w3, r⟩
    rw [hr] at h0 live
    obtain ⟨same, hbl⟩ := pipeFail_same h0
    have := live (hbl.1 rfl) (settled same)
    rcases hr2 : harvestResults (commands how cfg) false true w2.interrupted (rest ++ [.resume]) with ⟨oh2, w4, r2⟩
    rw [hr2] at this h1
    rcases hpe : pipeExecute how cfg w (evs ++ [.resume]) with ⟨o2, w6⟩
    rw [hpe] at h1
    intro hz
    rw [hpe] at hz
    exact this ((pipeFail_same h1).2.1 hz)
  | exiting w2 w3 ex rest hs q ha hrd b hx =>
    have h0 := hx []
    have h1 := hx [.resume]
    rw [List.append_nil, List.append_nil, h] at h0
    have live := harvestResults_live (commands how cfg) hne false true ((w3.log (.bodyEnd ex)).atExit ex) rest
    rcases hr : harvestResults (commands how cfg) false true ((w3.log (.bodyEnd ex)).atExit ex) rest with ⟨oh, w4, r⟩
    rw [hr] at h0 live
    obtain ⟨same, hbl⟩ := pipeEnd_same h0
    have := live (hbl.1 rfl) (settled same)
    rcases hr2 : harvestResults (commands how cfg) false true ((w3.log (.bodyEnd ex)).atExit ex) (rest ++ [.resume]) with ⟨oh2, w5, r2⟩
    rw [hr2] at this h1
    rcases hpe : pipeExecute how cfg w (evs ++ [.resume]) with ⟨o2, w6⟩
    rw [hpe] at h1
    intro hz
    rw [hpe] at hz
    exact this ((pipeEnd_same h1).2.1 hz)

/-! ## C47 -/

/-- The future `f`, that the command of task `o` sets when it has been launched, is not set, and that task has ended. -/
structure Stuck (f o : Nat) (w : W) : Prop where
  must : w.mustCancel = false
  timer : w.timer = false
  owner : w.isDone o = true
  fut : w.tasks[f]? = some { kind := .ready o }

theorem stuck_env {f o : Nat} {w : W} (h : Stuck f o w) (ev : Ev) (hc : ev ≠ .cancel) : Stuck f o (w.env none ev) := by
  have keepOut : ∀ (w' : W) (i : Nat) (x : TOut), w'.tasks = w.tasks → w'.mustCancel = w.mustCancel → w'.timer = false → i ≠ f →
      Stuck f o (w'.setOut i x) := by
    intro w' i x ht hm htm hi
    refine ⟨hm.trans h.must, htm, ?_, ?_⟩
    · have := h.owner
      unfold W.isDone W.setOut at *
      dsimp only
      rw [ht, List.getElem?_modify]
      split at this
      · rename_i t ht'
        rw [ht']
        by_cases hio : i = o <;> simp [hio, this]
      · cases this
    · unfold W.setOut
      dsimp only
      rw [ht, List.getElem?_modify, h.fut]
      simp [hi]
  have same : ∀ w' : W, w'.tasks = w.tasks → w'.mustCancel = w.mustCancel → w'.timer = w.timer → Stuck f o w' := by
    intro w' ht hm htm
    refine ⟨hm.trans h.must, htm.trans h.timer, ?_, by rw [ht]; exact h.fut⟩
    have := h.owner
    unfold W.isDone at *
    rw [ht]; exact this
  cases ev with
  | cancel => exact absurd rfl hc
  | taskDone i out =>
    unfold W.env
    dsimp only
    split
    · exact h
    · rename_i t ht
      split
      · rename_i hcond
        have hif : i ≠ f := by
          rintro rfl
          rw [h.fut] at ht
          cases ht
          cases hx : out.norm <;> rw [hx] at hcond <;> simp [W.mayEnd, h.owner] at hcond
        refine keepOut _ i _ ?_ ?_ ?_ hif
        · unfold W.endEffect; split <;> (try split) <;> rfl
        · unfold W.endEffect; split <;> (try split) <;> rfl
        · unfold W.endEffect
          split
          · rfl
          · split <;> exact h.timer
          · exact h.timer
      · exact h
  | taskDrop i =>
    unfold W.env
    dsimp only
    split
    · exact h
    · rename_i t ht
      split
      · rename_i hcond
        have hif : i ≠ f := by
          rintro rfl
          rw [h.fut] at ht
          cases ht
          simp at hcond
        exact keepOut _ i _ rfl rfl h.timer hif
      · exact h
  | fork => unfold W.env; dsimp only; split <;> exact same _ rfl rfl rfl
  | exit c => unfold W.env; dsimp only; split <;> (try split) <;> exact same _ rfl rfl rfl
  | reap => unfold W.env; dsimp only; split <;> (try split) <;> exact same _ rfl rfl rfl
  | reapLost => unfold W.env; dsimp only; split <;> (try split) <;> exact same _ rfl rfl rfl
  | deliver => unfold W.env; dsimp only; split <;> (try split) <;> exact same _ rfl rfl rfl
  | timer => unfold W.env; dsimp only; rw [h.timer]; exact h
  | userSignal s =>
    unfold W.env
    dsimp only
    split
    · unfold W.signal
      split
      · exact h
      · split <;> exact same _ rfl rfl rfl
    · exact h
  | timeout => exact h
  | resume => exact h
  | bodyGotCancel => exact h
  | bodyDone _ => exact h

theorem stuck_waits {f o : Nat} (hfo : f = 0 ∨ f = 1) (evs : List Ev) : ∀ (w : W), Stuck f o w → Ev.cancel ∉ evs →
    ∃ w', waitLoop none (fun w => w.isDone 0 && w.isDone 1) false false w evs = (.blocked, w', []) ∧ Stuck f o w' := by
  induction evs with
  | nil => intro w h _; exact ⟨w, rfl, h⟩
  | cons ev evs ih =>
    intro w h hc
    rw [List.mem_cons, not_or] at hc
    by_cases hr : ev = .resume
    · subst hr
      have hnd : w.isDone f = false := by unfold W.isDone; rw [h.fut]; rfl
      have : (w.isDone 0 && w.isDone 1) = false := by
        rcases hfo with rfl | rfl <;> rw [hnd] <;> simp
      unfold waitLoop
      rw [if_neg (by rw [h.must]; simp), if_neg (by rw [this]; simp)]
      exact ih w h hc.2
    · by_cases ht : ev = .timeout
      · subst ht
        unfold waitLoop
        exact ih w h hc.2
      · have : waitLoop none (fun w => w.isDone 0 && w.isDone 1) false false w (ev :: evs) =
            waitLoop none (fun w => w.isDone 0 && w.isDone 1) false false (w.env none ev) evs := by
          cases ev <;> first | rfl | exact absurd rfl hr | exact absurd rfl ht
        rw [this]
        exact ih _ (stuck_env h ev (fun hz => hc.1 hz.symm)) hc.2

/-- **C47 is false: `async with pipeline` hangs when its first or last command cannot be launched.** Let the task of the
first (or of the last) command end with an exception before anything else happens. Whatever happens then - all the
other commands may end - `async with pipeline` does not end and its body is not started, unless somebody cancels
it. -/
theorem C47_hangs_false (cfg : PRCfg) (hn : 2 ≤ cfg.n) (hs : cfg.setupErr = none) (w : W) (hf : w.Fresh) (hm : w.mustCancel = false)
    (i : Nat) (hi : (commands .block cfg).head? = some i ∨ (commands .block cfg).getLast? = some i) (e : Exc)
    (evs : List Ev) (hc : Ev.cancel ∉ evs) :
    ∃ w', pipeExecute .block cfg w (.taskDone i (.err e) :: evs) = (.blocked, w') ∧
      ¬ Unfinished w' i ∧ .bodyStart ∉ w'.trace := by
  have hlen : (w.piped .block cfg).tasks.length = 2 + cfg.n := by
    simp [W.piped, readyFutures]; omega
  have hi' : i = 2 ∨ i = 1 + cfg.n := by
    rcases hi with hi | hi
    · left
      simp only [commands] at hi
      cases hcn : cfg.n with
      | zero => omega
      | succ k => rw [hcn, List.range'_succ] at hi; simpa using hi.symm
    · right
      simp only [commands] at hi
      rw [List.getLast?_eq_getElem?, List.length_range', List.getElem?_range' (by omega)] at hi
      simp at hi; omega
  have hio : ∀ j, 2 ≤ j → j < 2 + cfg.n → (w.piped .block cfg).tasks[j]? = some { kind := .io } := by
    intro j h1 h2
    show ([_, _] ++ List.replicate cfg.n _)[j]? = _
    rw [List.getElem?_append_right (by simpa using h1)]
    rw [List.getElem?_replicate]
    simp; omega
  obtain ⟨f, hf01, hfut⟩ : ∃ f, (f = 0 ∨ f = 1) ∧ (w.piped .block cfg).tasks[f]? = some { kind := .ready i } := by
    rcases hi' with rfl | rfl
    · exact ⟨0, .inl rfl, rfl⟩
    · exact ⟨1, .inr rfl, rfl⟩
  have hil : 2 ≤ i ∧ i < 2 + cfg.n := by omega
  have hst : Stuck f i ((w.piped .block cfg).env none (.taskDone i (.err e))) := by
    have henv : (w.piped .block cfg).env none (.taskDone i (.err e)) = (w.piped .block cfg).setOut i (TOut.err e).norm := by
      unfold W.env
      dsimp only
      rw [hio i hil.1 hil.2]
      simp [W.mayEnd, W.endEffect]
    rw [henv]
    refine ⟨hm, hf.timer, ?_, ?_⟩
    · unfold W.isDone W.setOut
      dsimp only
      rw [List.getElem?_modify, hio i hil.1 hil.2]
      simp
    · unfold W.setOut
      dsimp only
      rw [List.getElem?_modify, hfut]
      have : i ≠ f := by omega
      simp [this]
  obtain ⟨w', hw, hst'⟩ := stuck_waits hf01 evs _ hst hc
  have hrun : pipeExecute .block cfg w (.taskDone i (.err e) :: evs) = (.blocked, w') := by
    rw [pipeExecute_eq]
    have : pipeAenter cfg (decide (PHow.block = .block)) w (.taskDone i (.err e) :: evs) = (.blocked, w', []) := by
      unfold pipeAenter
      refine catch_blocked ?_
      unfold pipeStartRun
      refine (bind_ok (a := ()) (w' := w) (evs' := .taskDone i (.err e) :: evs) (by rw [hs]; rfl)).trans ?_
      simp only [decide_true, if_true]
      rw [setupCapturing_eq cfg w hf]
      exact hw
    rw [withPipe_enter_blocked this]
    rfl
  refine ⟨w', hrun, ?_, ?_⟩
  · rintro ⟨t, ht, ho⟩
    have := hst'.owner
    unfold W.isDone at this
    rw [ht] at this
    simp [ho] at this
  · have hq : Quiet ((w.piped .block cfg).env none (.taskDone i (.err e))) w' := by
      have := wp_waitLoop (fwd := none) (ready := fun w => w.isDone 0 && w.isDone 1) (timed := false) (expired := false)
        (R := fun o w' => o = .blocked → Quiet ((w.piped .block cfg).env none (.taskDone i (.err e))) w')
        (w := (w.piped .block cfg).env none (.taskDone i (.err e))) (by simp)
        (by intros; simp_all) (by intros; simp_all) (fun w' h _ => h.quiet) evs
      rw [hw] at this
      exact this rfl
    have ht : ((w.piped .block cfg).env none (.taskDone i (.err e))).trace = w.trace := by
      unfold W.env
      dsimp only
      rw [hio i hil.1 hil.2]
      simp [W.mayEnd, W.endEffect, W.setOut, W.piped]
    obtain ⟨l, hl, hu⟩ := hq.user
    rw [ht, hf.trace, List.nil_append] at hl
    rw [hl]
    exact fun hm => (by have := hu _ hm; cases this)

/-- A hang: the first of three commands cannot be launched; the others end. -/
example : ∃ w', pipeExecute .block { n := 3 } {} [.taskDone 2 (.err .fileNotFound), .resume, .taskDone 1 (.val none),
      .taskDone 3 (.val (some ⟨0, [], [], false, []⟩)), .taskDone 4 (.val (some ⟨0, [], [], false, []⟩)), .resume, .resume] =
    (.blocked, w') ∧ ¬ Unfinished w' 2 ∧ .bodyStart ∉ w'.trace :=
  C47_hangs_false { n := 3 } (by decide) rfl {} ⟨rfl, rfl, rfl, rfl, rfl, rfl, rfl, rfl, rfl, rfl⟩ rfl 2 (.inl rfl) .fileNotFound _ (by decide)

/-- **C47, the part that holds.** When the first and the last command have been launched (and nobody cancels), the
body of `async with pipeline` is started as soon as the event loop resumes the caller. (Missing: see
`C47_hangs_false`, `C47_not_raised_false`, `C47_setup_masked_false`.) -/
theorem C47_enters_partial (cfg : PRCfg) (w : W) (hf : w.Fresh) (evs : List Ev) (w1 : W)
    (h : pipeExecute .block cfg w evs = (.blocked, w1)) (hn : .bodyStart ∉ w1.trace) (ht : .thrown ∉ w1.trace)
    (hm : w1.mustCancel = false) (h0 : w1.isDone 0 = true) (h1 : w1.isDone 1 = true) :
    .bodyStart ∈ (pipeExecute .block cfg w (evs ++ [.resume])).2.trace := by
  cases phase .block cfg w hf evs with
  | setup e hs hx =>
    have := hx []
    rw [List.append_nil, h] at this
    cases this
  | launching w2 hs _ q hx hw =>
    rw [h] at hx; cases hx
    obtain ⟨_, exp', he⟩ := (waitLoop_goOn none (fun w => w.isDone 0 && w.isDone 1) false false (w.piped .block cfg) evs [.resume]).1 (by rw [hw])
    rw [hw] at he
    have hend : waitLoop none (fun w => w.isDone 0 && w.isDone 1) false false (w.piped .block cfg) (evs ++ [.resume]) = (.ok (), w1, []) := by
      rw [he]
      unfold waitLoop
      rw [if_neg (by rw [hm]; simp), if_pos (by rw [h0, h1]; simp)]
    have hent : pipeAenter cfg true w (evs ++ [.resume]) = (.ok (), w1, []) := by
      unfold pipeAenter
      refine catch_ok ?_
      unfold pipeStartRun
      refine (bind_ok (a := ()) (w' := w) (evs' := evs ++ [.resume]) (by rw [hs]; rfl)).trans ?_
      simp only [if_true]
      rw [setupCapturing_eq cfg w hf]
      exact hend
    have hbody : attempt userBody (w1.log .bodyStart) [] = (.blocked, w1.log .bodyStart, []) := rfl
    rw [pipeExecute_eq]
    simp only [decide_true, pipeBody]
    rw [withPipe_body_blocked hent hbody]
    simp [pipeOutcome, W.log]
  | body w2 w3 _ _ q _ b hx =>
    rw [h] at hx; cases hx
    refine absurd ?_ hn
    obtain ⟨l, hl, _⟩ := b.ext.trace
    rw [hl]
    simp [W.log]
  | interrupted w2 rest hs hh q hm' hx =>
    have h2 := hx []
    rw [List.append_nil, List.append_nil, h] at h2
    have hp := harvestResults_spec (commands .block cfg) false true w2.interrupted rest
    rcases hr : harvestResults (commands .block cfg) false true w2.interrupted rest with ⟨oh, w3, r⟩
    rw [hr] at h2 hp
    refine absurd ?_ ht
    rw [(pipeFail_same h2).1.trace]
    have := (interrupted_trace hf q hp.ext).2.2.1
    have hle := hp.ext.throws
    exact List.count_pos_iff.1 (show 0 < w3.throws by dsimp only at hle; omega)
  | exiting w2 w3 ex rest hs q ha hrd b hx =>
    have h2 := hx []
    rw [List.append_nil, List.append_nil, h] at h2
    have hp := harvestResults_spec (commands .block cfg) false true ((w3.log (.bodyEnd ex)).atExit ex) rest
    rcases hr : harvestResults (commands .block cfg) false true ((w3.log (.bodyEnd ex)).atExit ex) rest with ⟨oh, w4, r⟩
    rw [hr] at h2 hp
    dsimp only at hp
    obtain ⟨l, hl1, _⟩ := exit_trace hf q b hp.ext
    refine absurd ?_ hn
    rw [(pipeEnd_same h2).1.trace, hl1]
    obtain ⟨l', hl', _⟩ := b.ext.trace
    rw [hl']
    simp [W.log]

example : .bodyStart ∈ (pipeExecute .block { n := 2 } {} ([.taskDone 1 (.val none), .resume, .taskDone 0 (.val none)] ++ [.resume])).2.trace :=
  C47_enters_partial { n := 2 } {} ⟨rfl, rfl, rfl, rfl, rfl, rfl, rfl, rfl, rfl, rfl⟩ _ _ rfl (by decide +kernel) (by decide +kernel)
    (by decide +kernel) (by decide +kernel) (by decide +kernel)

/-- **C47 is false: the block does not raise a launch error of a command.** Whatever error the commands of the
pipeline have had, `async with pipeline` itself raises only what the body has raised, a cancellation, or an error of the
library. -/
theorem C47_not_raised_false (cfg : PRCfg) (hn : 0 < cfg.n) (w : W) (hf : w.Fresh) (evs : List Ev) (e : Exc) (w' : W)
    (h : pipeExecute .block cfg w evs = (.exc e, w')) (hb : .bodyEnd (some e) ∉ w'.trace) :
    e = .cancelled ∨ e = .runtimeError ∨ e = .assertionError ∨ e = .invalidState ∨ (e = .valueError ∧ cfg.setupErr ≠ none) := by
  cases C46_block_outcome cfg hn w hf evs _ w' h (by simp) with
  | body _ h1 => exact absurd h1 hb
  | launch => exact .inl rfl
  | serious _ hx =>
    obtain ⟨_, _, _, _, _, hx, _⟩ := hx
    rcases hx with rfl | rfl
    · exact .inr (.inr (.inl rfl))
    · exact .inr (.inl rfl)
  | gaveUp => exact .inr (.inl rfl)
  | twice _ _ hx =>
    rcases hx with rfl | rfl | rfl
    · exact .inr (.inr (.inr (.inl rfl)))
    · exact .inr (.inr (.inl rfl))
    · exact .inr (.inl rfl)
  | setup _ hs => exact .inr (.inr (.inr (.inr ⟨rfl, by rw [hs]; simp⟩)))

/-- The middle one of three commands cannot be launched. The block is entered, and it ends without an exception. -/
theorem C47_middle_false : ∃ evs, (pipeExecute .block { n := 3 } {} evs).1 = .ok none ∧
    (pipeExecute .block { n := 3 } {} evs).2.outOf 3 = some (.err .fileNotFound) :=
  ⟨[.taskDone 3 (.err .fileNotFound), .taskDone 0 (.val none), .taskDone 1 (.val none), .resume, .bodyDone none, .resume,
    .taskDone 2 (.val (some ⟨0, [], [], false, []⟩)), .taskDone 4 (.val (some ⟨0, [], [], false, []⟩)), .resume,
    .resume], by decide +kernel⟩

/-- **C47 is false: an error while the pipes are created is replaced by `ValueError`.** -/
theorem C47_setup_masked_false (how : PHow) (cfg : PRCfg) (w : W) (hf : w.Fresh) (evs : List Ev) (e : Exc) (hs : cfg.setupErr = some e) :
    (pipeExecute how cfg w evs).1 = .exc .valueError := by
  cases phase how cfg w hf evs with
  | setup _ _ hx =>
    have := hx []
    rw [List.append_nil] at this
    rw [this]
  | launching _ hs' => rw [hs] at hs'; cases hs'
  | interrupted _ _ hs' => rw [hs] at hs'; cases hs'
  | body _ _ hs' => rw [hs] at hs'; cases hs'
  | exiting _ _ _ _ hs' => rw [hs] at hs'; cases hs'

example : (pipeExecute .await { n := 2, setupErr := some .osError } {} []).1 = .exc .valueError :=
  C47_setup_masked_false _ _ _ ⟨rfl, rfl, rfl, rfl, rfl, rfl, rfl, rfl, rfl, rfl⟩ _ _ rfl

/-! ## C46: what does not hold, and examples -/

/-- Exit code `c`, not cancelled. -/
def exited (c : Int) : Result := ⟨c, [], [], false, []⟩

/-- C46 without restriction is false: the library gives up on a command that ignores its cancellation. -/
theorem C46_gave_up_false : ∃ evs, (pipeExecute .await { n := 2 } {} evs).1 = .exc .runtimeError ∧
    (pipeExecute .await { n := 2 } {} evs).2.outOf 1 = none :=
  ⟨[.taskDone 0 (.err .fileNotFound), .resume, .timeout, .resume], by decide +kernel⟩

/-- C46 without restriction is false: when a command has failed, two cancellations of the caller abandon the others. -/
theorem C46_two_cancels_false : ∃ evs, (pipeExecute .await { n := 2 } {} evs).1 = .exc .invalidState ∧
    (pipeExecute .await { n := 2 } {} evs).2.outOf 1 = none ∧
    throwsIn (cleanupLog (pipeExecute .await { n := 2 } {} evs).2.trace) = 2 :=
  ⟨[.taskDone 0 (.err .fileNotFound), .resume, .cancel, .resume, .cancel, .resume], by decide +kernel⟩

/-- A cancellation of the caller that arrives after a command has failed is lost: here the command has exited with 1, which
the pipeline accepts, so that the statement even returns normally. -/
theorem C46_swallowed_false : ∃ evs, (pipeExecute .await { n := 2, opts := { exitCodes := some (.ofList [0, 1]), returnResult := true } } {} evs).1 =
      .ok (some (.result (exited 1))) ∧
    .thrown ∈ (pipeExecute .await { n := 2, opts := { exitCodes := some (.ofList [0, 1]), returnResult := true } } {} evs).2.trace :=
  ⟨[.taskDone 0 (.err (.resultError (exited 1))), .resume, .cancel, .resume, .taskDone 1 (.val (some (exited 0))), .resume], by decide +kernel⟩

/-- A command that is cancelled while it is being launched has no result; when it is the last one, the caller gets
`AssertionError` instead of the error of the command that failed. -/
theorem C46_assertion_false : ∃ evs, (pipeExecute .await { n := 2 } {} evs).1 = .exc .assertionError ∧
    (pipeExecute .await { n := 2 } {} evs).2.outOf 0 = some (.err (.resultError (exited 1))) ∧
    (pipeExecute .await { n := 2 } {} evs).2.outOf 1 = some .cancelled :=
  ⟨[.taskDone 0 (.err (.resultError (exited 1))), .resume, .taskDone 1 .cancelled, .resume], by decide +kernel⟩

/-- A block whose body is cancelled: the commands are cancelled, the block ends when they have ended. -/
example : ∃ evs, (pipeExecute .block { n := 2 } {} evs).1 = .ok none ∧
    .gaveUp ∉ cleanupLog (pipeExecute .block { n := 2 } {} evs).2.trace ∧
    throwsIn (cleanupLog (pipeExecute .block { n := 2 } {} evs).2.trace) ≤ 1 ∧
    .bodyEnd (some .cancelled) ∈ (pipeExecute .block { n := 2 } {} evs).2.trace ∧
    (pipeExecute .block { n := 2 } {} evs).2.outOf 2 = some (.val (some ⟨-15, [], [], true, []⟩)) :=
  ⟨[.taskDone 0 (.val none), .taskDone 1 (.val none), .resume, .cancel, .bodyGotCancel, .bodyDone (some .cancelled), .resume,
    .taskDone 2 (.val (some ⟨-15, [], [], true, []⟩)), .resume, .taskDone 3 (.val (some ⟨-15, [], [], true, []⟩)), .resume], by decide +kernel⟩

/-- A launch interrupted by a cancellation; one command is still unfinished, and has been asked to cancel. -/
example : ∃ evs, (pipeExecute .block { n := 2 } {} evs).1 = .blocked ∧
    (.bodyStart ∉ (pipeExecute .block { n := 2 } {} evs).2.trace ∧ .thrown ∈ (pipeExecute .block { n := 2 } {} evs).2.trace) ∧
    (pipeExecute .block { n := 2 } {} evs).2.outOf 3 = none :=
  ⟨[.taskDone 0 (.val none), .cancel, .resume, .taskDone 2 (.val none)], by decide +kernel⟩

/-- A run that waits for its commands, one of which has failed. -/
example : ∃ evs, (pipeExecute .await { n := 3 } {} evs).1 = .blocked ∧
    .bodyEnd none ∈ (pipeExecute .await { n := 3 } {} evs).2.trace ∧
    (pipeExecute .await { n := 3 } {} evs).2.outOf 1 = some (.err .fileNotFound) ∧
    (pipeExecute .await { n := 3 } {} evs).2.outOf 0 = none ∧
    (pipeExecute .await { n := 3 } {} (evs ++ [.resume])).2.tasks = [⟨.io, none, 1⟩, ⟨.io, some (.err .fileNotFound), 0⟩, ⟨.io, none, 1⟩] :=
  ⟨[.resume, .taskDone 1 (.err .fileNotFound)], by decide +kernel⟩

/-- A run whose commands have all ended. -/
example : (pipeExecute .await { n := 2, opts := { returnResult := true } } {} ([.taskDone 1 (.val (some (exited 0))), .resume,
    .taskDone 0 (.val (some (exited 0)))] ++ [.resume])).1 ≠ .blocked :=
  C46_completes .await _ (by decide) {} ⟨rfl, rfl, rfl, rfl, rfl, rfl, rfl, rfl, rfl, rfl⟩ _ _ rfl (.inl ⟨none, by decide +kernel⟩)
    (by intro i hi
        have : i = 0 ∨ i = 1 := by revert hi; simp [commands, List.range']
        rcases this with rfl | rfl <;> exact ⟨_, rfl⟩) (by decide +kernel)

/-! ## C62 -/

/-- **C62, the part that holds.** With the default `exit_codes` of the last command, `await pipeline` returns normally only
if no command failed by itself, i.e. exited with a code other than 0 without having been cancelled. -/
theorem C62_success_partial (cfg : PRCfg) (hn : 0 < cfg.n) (hd : cfg.opts.exitCodes = none) (w : W) (hf : w.Fresh) (evs : List Ev)
    (v : Option Returned) (w' : W) (h : pipeExecute .await cfg w evs = (.ok v, w')) :
    ∀ i ∈ commands .await cfg, ∃ r, Gave w' i r ∧ ¬ FailedItself r := by
  have key : ∀ r, Combined w' (commands .await cfg) false r → Allowed cfg.opts.exitCodes r.exitCode →
      ∀ i ∈ commands .await cfg, ∃ r, Gave w' i r ∧ ¬ FailedItself r := by
    rintro r ⟨k, l, i, hk, _, _, rfl⟩ ha
    rw [hd] at ha
    cases hk with
    | failed _ _ _ _ _ hx => exact absurd ha hx.1
    | uncancelled _ _ _ _ _ _ hx => exact hx
    | last _ _ _ _ hx => exact fun j hj => (by obtain ⟨r, h1, h2, _⟩ := hx j hj; exact ⟨r, h1, h2⟩)
  cases C46_await_outcome cfg hn w hf evs _ w' h (by simp) with
  | result r hc ha => exact key r hc ha
  | text r t hc ha => exact key r hc ha

theorem gave_unique {w : W} {i : Nat} {r r' : Result} (h : Gave w i r) (h' : Gave w i r') : r = r' := by
  rcases h with h | h <;> rcases h' with h' | h' <;> rw [h] at h' <;> cases h' <;> rfl

/-- **C62, the other direction.** If every command exited with code 0, none was cancelled, and the caller was not cancelled,
then `await pipeline` does not raise `ResultError`: with the default options it returns (or the output cannot be decoded). -/
theorem C62_all_zero_partial (cfg : PRCfg) (hn : 0 < cfg.n) (hd : cfg.opts.exitCodes = none) (hs : cfg.setupErr = none) (w : W) (hf : w.Fresh)
    (evs : List Ev) (o : Out (Option Returned)) (w' : W) (h : pipeExecute .await cfg w evs = (o, w')) (hb : o ≠ .blocked)
    (ht : .thrown ∉ w'.trace) (hg : .gaveUp ∉ w'.trace)
    (hz : ∀ i ∈ commands .await cfg, ∃ r, Gave w' i r ∧ r.exitCode = 0 ∧ r.cancelled = false) :
    (∃ v, o = .ok v) ∨ ∃ (r : Result) (e : Exc), cfg.opts.returnResult = false ∧ cfg.decode r.outputBytes r.encoding = .error e ∧ o = .exc e := by
  have nobroke : ∀ i ∈ commands .await cfg, ∀ e, ¬ Broke w' i e := by
    intro i hi e hb
    obtain ⟨r, hr, _⟩ := hz i hi
    rcases hr with hr | hr <;> rw [hb.1] at hr <;> cases hr
    exact hb.2.2 r rfl
  cases C46_await_outcome cfg hn w hf evs _ w' h hb with
  | result r => exact .inl ⟨_, rfl⟩
  | text r t => exact .inl ⟨_, rfl⟩
  | decode r e _ _ hr hde => exact .inr ⟨r, e, hr, hde, rfl⟩
  | badCode r hc ha =>
    exfalso
    obtain ⟨k, l, i, hk, _, _, rfl⟩ := hc
    rw [hd] at ha
    have zero : ∀ j ∈ commands .await cfg, Gave w' j k → k.exitCode = 0 := by
      intro j hj hgj
      obtain ⟨r, hr, h0, _⟩ := hz j hj
      rw [gave_unique hgj hr]; exact h0
    cases hk with
    | failed pre post j hj hgj => exact ha (zero j (by rw [hj]; simp) hgj)
    | uncancelled pre post j hj hgj => exact ha (zero j (by rw [hj]; simp) hgj)
    | last pre j hj hgj => exact ha (zero j (by rw [hj]; simp) hgj)
  | cancelled _ _ hx => exact absurd hx ht
  | cancelledResult _ _ hx => exact absurd hx ht
  | broke pre post i e hi hbr => exact absurd hbr (nobroke i (by rw [hi]; simp) e)
  | noResult i hi hx =>
    obtain ⟨r, hr, _⟩ := hz i hi
    exact absurd hr (hx r)
  | serious e hx =>
    obtain ⟨l, i, l', hi, ho, hx, _⟩ := hx
    refine absurd ⟨ho, ?_, ?_⟩ (nobroke i (by rw [hi]; simp) e)
    · rcases hx with rfl | rfl <;> simp
    · rcases hx with rfl | rfl <;> simp
  | gaveUp hx => exact absurd hx hg
  | twice e hx =>
    exact absurd (List.count_pos_iff.1 (show 0 < w'.trace.count .thrown by unfold throwsIn at hx; omega)) ht
  | setup e hx => rw [hs] at hx; cases hx

/-- Two commands exit with 0. -/
example : ∃ evs, (pipeExecute .await { n := 2, opts := { returnResult := true } } {} evs).1 = .ok (some (.result (exited 0))) ∧
    .thrown ∉ (pipeExecute .await { n := 2, opts := { returnResult := true } } {} evs).2.trace ∧
    .gaveUp ∉ (pipeExecute .await { n := 2, opts := { returnResult := true } } {} evs).2.trace ∧
    (pipeExecute .await { n := 2, opts := { returnResult := true } } {} evs).2.outOf 0 = some (.val (some (exited 0))) ∧
    (pipeExecute .await { n := 2, opts := { returnResult := true } } {} evs).2.outOf 1 = some (.val (some (exited 0))) :=
  ⟨[.taskDone 1 (.val (some (exited 0))), .resume, .taskDone 0 (.val (some (exited 0))), .resume], by decide +kernel⟩

/-- C62 is false: the first command exits with 1, which its own `exit_codes` accept (its task returns a `Result`), and the
pipeline fails. -/
theorem C62_own_ignored_false : ∃ evs, (pipeExecute .await { n := 2 } {} evs).1 = .exc (.resultError (exited 1)) ∧
    (pipeExecute .await { n := 2 } {} evs).2.outOf 0 = some (.val (some (exited 1))) ∧
    (pipeExecute .await { n := 2 } {} evs).2.outOf 1 = some (.val (some (exited 0))) :=
  ⟨[.taskDone 0 (.val (some (exited 1))), .taskDone 1 (.val (some (exited 0))), .resume], by decide +kernel⟩

/-- C62 is false: the first command exits with 1, which its own `exit_codes` reject (its task raises `ResultError`); the last
command accepts 1 and exits with 0. The pipeline succeeds. -/
theorem C62_own_rejected_false :
    ∃ evs, (pipeExecute .await { n := 2, opts := { exitCodes := some (.ofList [0, 1]), returnResult := true } } {} evs).1 =
      .ok (some (.result (exited 1))) ∧
    (pipeExecute .await { n := 2, opts := { exitCodes := some (.ofList [0, 1]), returnResult := true } } {} evs).2.outOf 0 =
      some (.err (.resultError (exited 1))) ∧
    (pipeExecute .await { n := 2, opts := { exitCodes := some (.ofList [0, 1]), returnResult := true } } {} evs).2.outOf 1 =
      some (.val (some (exited 0))) :=
  ⟨[.taskDone 0 (.err (.resultError (exited 1))), .taskDone 1 (.val (some (exited 0))), .resume, .resume], by decide +kernel⟩

/-- C62 is false: both commands accept {0, 1}; the first exits with 1, the last with 2, which nobody accepts. The pipeline
succeeds. -/
theorem C62_later_failure_false :
    ∃ evs, (pipeExecute .await { n := 2, opts := { exitCodes := some (.ofList [0, 1]), returnResult := true } } {} evs).1 =
      .ok (some (.result (exited 1))) ∧
    (pipeExecute .await { n := 2, opts := { exitCodes := some (.ofList [0, 1]), returnResult := true } } {} evs).2.outOf 1 =
      some (.err (.resultError (exited 2))) :=
  ⟨[.taskDone 0 (.val (some (exited 1))), .taskDone 1 (.err (.resultError (exited 2))), .resume, .resume], by decide +kernel⟩

end Shellous.Props
