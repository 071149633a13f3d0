import Verif.Lemmas.PipePhases
import Verif.Lemmas.RunCleanup

/-!
# C46: a pipeline run and the commands it started
-/

namespace Shellous.Props

theorem unfinished_iff {w : W} {i : Nat} (hi : i < w.tasks.length) : Unfinished w i ↔ w.outOf i = none := by
  unfold Unfinished W.outOf
  rw [List.getElem?_eq_getElem hi]
  simp

theorem unfinished_outOf {w : W} {i : Nat} (h : Unfinished w i) : w.outOf i = none := by
  obtain ⟨t, ht, ho⟩ := h
  unfold W.outOf
  rw [ht]
  exact ho

theorem piped_known (how : PHow) (cfg : PRCfg) (w : W) : Known (w.piped how cfg) (commands how cfg) := by
  intro i hi
  cases how <;> simp [W.piped, readyFutures, commands, List.mem_range'] at hi ⊢ <;> omega

theorem known_quiet {w w' : W} {ids : List Nat} (h : Known w ids) (q : Quiet w w') : Known w' ids :=
  fun i hi => by rw [q.lenEq]; exact h i hi

theorem known_body {w w' : W} {ids : List Nat} (h : Known w ids) (q : BodyRel w w') : Known w' ids :=
  fun i hi => by rw [q.len]; exact h i hi

theorem known_ext {w w' : W} {ids : List Nat} (h : Known w ids) (q : Ext w w') : Known w' ids :=
  fun i hi => Nat.lt_of_lt_of_le (h i hi) q.len

theorem atExit_ext (w : W) (ex : Option Exc) : w.tasks.length = (w.atExit ex).tasks.length ∧ (w.atExit ex).trace = w.trace := by
  cases ex with
  | none => exact ⟨rfl, rfl⟩
  | some e =>
    refine ⟨?_, cancelAll_trace _ _⟩
    have h := (cancelAll_ext w.mine { w with cancelled := w.cancelled || decide (e = .cancelled) })
    refine Nat.le_antisymm h.len ?_
    have : ∀ (ids : List Nat) (w : W), (w.cancelAll ids).tasks.length ≤ w.tasks.length := by
      intro ids
      induction ids with
      | nil => intro w; exact Nat.le_refl _
      | cons i ids ih => intro w; exact Nat.le_trans (ih _) (by simp [W.cancelTask])
    exact this _ _

theorem noBodyEnd_quiet {p : Obs → Bool} (hp : ∀ e, p (.bodyEnd e) = false) {t t' : List Obs} (h : Grew p t t')
    (h0 : ∀ e, .bodyEnd e ∉ t) (e : Option Exc) : .bodyEnd e ∉ t' := by
  obtain ⟨l, rfl, hl⟩ := h
  intro hm
  rcases List.mem_append.1 hm with hm | hm
  · exact h0 e hm
  · have := hl _ hm
    rw [hp] at this
    cases this

/-- The trace of a run whose body has ended: `thrown` and `gaveUp` of the cleanup are those of `harvest_results`. -/
theorem exit_trace {how : PHow} {cfg : PRCfg} {w w1 w2 w3 : W} {ex : Option Exc} (hf : w.Fresh)
    (q : Quiet (w.piped how cfg) w1) (b : BodyRel (w1.log .bodyStart) w2) (e : Ext ((w2.log (.bodyEnd ex)).atExit ex) w3) :
    ∃ l, w3.trace = w2.trace ++ .bodyEnd ex :: l ∧ cleanupLog w3.trace = .bodyEnd ex :: l ∧
      w3.throws = ((w2.log (.bodyEnd ex)).atExit ex).throws + l.count .thrown ∧
      w3.gaveUps = ((w2.log (.bodyEnd ex)).atExit ex).gaveUps + l.count .gaveUp := by
  obtain ⟨l, hl, _⟩ := e.trace
  have ht : ((w2.log (.bodyEnd ex)).atExit ex).trace = w2.trace ++ [.bodyEnd ex] := (atExit_ext _ _).2
  rw [ht] at hl
  have hl' : w3.trace = w2.trace ++ .bodyEnd ex :: l := by rw [hl]; simp
  refine ⟨l, hl', ?_, ?_, ?_⟩
  · rw [hl']
    refine cleanupLog_append ?_
    refine noBodyEnd_quiet (fun _ => rfl) b.ext.trace ?_
    intro e hm
    rcases List.mem_append.1 hm with hm | hm
    · refine noBodyEnd_quiet (fun _ => rfl) q.toExt.trace ?_ e hm
      intro e hm
      rw [show (w.piped how cfg).trace = w.trace from rfl, hf.trace] at hm
      cases hm
    · simp at hm
  · unfold W.throws; rw [ht, hl]; simp [List.count_append]
  · unfold W.gaveUps; rw [ht, hl]; simp [List.count_append]

/-- The trace of an interrupted launch. -/
theorem interrupted_trace {how : PHow} {cfg : PRCfg} {w w1 w3 : W} (hf : w.Fresh)
    (q : Quiet (w.piped how cfg) w1) (e : Ext w1.interrupted w3) :
    (∀ e, .bodyEnd e ∉ w3.trace) ∧ .bodyStart ∉ w3.trace ∧ w1.interrupted.throws = 1 ∧ w1.interrupted.gaveUps = 0 := by
  have ht : w1.interrupted.trace = w1.trace ++ [.thrown] := cancelAll_trace _ _
  obtain ⟨l, hl, hu⟩ := q.user
  rw [show (w.piped how cfg).trace = w.trace from rfl, hf.trace] at hl
  rw [hl] at ht
  obtain ⟨l', hl', hu'⟩ := e.trace
  rw [hl', ht]
  have hn : ∀ o ∈ l, o.isUser = true := hu
  refine ⟨?_, ?_, ?_, ?_⟩
  · intro e hm
    simp only [List.nil_append, List.mem_append, List.mem_singleton, reduceCtorEq, or_false] at hm
    rcases hm with hm | hm
    · have := hn _ hm; cases this
    · have := hu' _ hm; cases this
  · intro hm
    simp only [List.nil_append, List.mem_append, List.mem_singleton, reduceCtorEq, or_false] at hm
    rcases hm with hm | hm
    · have := hn _ hm; cases this
    · have := hu' _ hm; cases this
  · unfold W.throws
    rw [ht]
    have : l.count .thrown = 0 := List.count_eq_zero.2 fun hm => (by have := hn _ hm; cases this)
    simp [List.count_append, this]
  · unfold W.gaveUps
    rw [ht]
    have : l.count .gaveUp = 0 := List.count_eq_zero.2 fun hm => (by have := hn _ hm; cases this)
    simp [List.count_append, this]

theorem harvestResults_done {ids : List Nat} {w0 w' : W} {o : Out (Bool × List TOut)}
    (p : HRPost ids false w0 o w') (hb : o ≠ .blocked) (hg : w'.gaveUps = w0.gaveUps) (ht : w'.throws ≤ w0.throws + 1) :
    AllDone w' ids := by
  cases o with
  | blocked => exact absurd rfl hb
  | ok x =>
    obtain ⟨c, l⟩ := x
    have hm := (toResults_ok (p.ok c l rfl).1).1
    intro i hi
    have : w'.outOf i ∈ l.map some := by rw [hm]; exact List.mem_map.2 ⟨i, hi, rfl⟩
    obtain ⟨o, _, ho⟩ := List.mem_map.1 this
    exact ⟨o, ho.symm⟩
  | exc e =>
    rcases p.exc e rfl with ⟨_, h, _⟩ | ⟨_, h⟩ | ⟨_, rfl⟩ | ⟨_, h | h⟩
    · cases h
    · omega
    · intro i hi; cases hi
    · exact allDone_iff.1 h
    · omega

/-- **C46, when a pipeline run ends.** `await pipeline` and `async with pipeline` do not end before every command they
started has ended - provided that the library did not give up on its cancelled commands, and the cleanup was
interrupted at most once (a cleanup that follows an interrupted launch: at most once, too, so that `CancelledError`
was received at most twice). -/
theorem C46_done_partial (how : PHow) (cfg : PRCfg) (w : W) (hf : w.Fresh) (evs : List Ev) (o : Out (Option Returned)) (w' : W)
    (h : pipeExecute how cfg w evs = (o, w')) (hb : o ≠ .blocked) (hg : .gaveUp ∉ cleanupLog w'.trace)
    (ht : throwsIn (cleanupLog w'.trace) ≤ 1 ∨ (throwsIn (cleanupLog w'.trace) ≤ 2 ∧ ¬ BodyEnded w')) :
    ∀ i ∈ commands how cfg, ¬ Unfinished w' i := by
  intro i hi hu
  have fin : ∀ {w3 : W}, AllDone w3 (commands how cfg) → w3.tasks = w'.tasks → False := by
    intro w3 hd he
    obtain ⟨x, hx⟩ := hd i hi
    have := unfinished_outOf hu
    unfold W.outOf at this hx
    rw [he, this] at hx
    cases hx
  cases phase how cfg w hf evs with
  | setup e hs hx =>
    have := hx []
    rw [List.append_nil, h] at this
    cases this
    obtain ⟨t, ht, _⟩ := hu
    simp [hf.tasks] at ht
  | launching w1 _ _ _ hx => rw [h] at hx; cases hx; exact hb rfl
  | body w1 w2 _ _ _ _ _ hx => rw [h] at hx; cases hx; exact hb rfl
  | interrupted w1 rest hs hh q hm hx =>
    have := hx []
    rw [List.append_nil, List.append_nil, h] at this
    have hp := harvestResults_spec (commands how cfg) false true w1.interrupted rest
    rcases hr : harvestResults (commands how cfg) false true w1.interrupted rest with ⟨oh, w3, r⟩
    rw [hr] at this hp
    dsimp only at hp
    obtain ⟨hn1, hn2, ht1, hg1⟩ := interrupted_trace hf q hp.ext
    have htr : w'.trace = w3.trace ∧ w3.tasks = w'.tasks ∧ oh ≠ .blocked := by
      cases oh with
      | blocked => cases this; exact absurd rfl hb
      | exc e => cases this; exact ⟨rfl, rfl, by simp⟩
      | ok x => obtain ⟨c, l⟩ := x; cases this; exact ⟨rfl, rfl, by simp⟩
    rw [htr.1, cleanupLog_none hn1] at ht hg
    refine fin (harvestResults_done hp htr.2.2 ?_ ?_) htr.2.1
    · rw [hg1]; exact List.count_eq_zero.2 hg
    · show w3.trace.count .thrown ≤ _
      unfold throwsIn at ht
      omega
  | exiting w1 w2 ex rest hs q ha hrd b hx =>
    have := hx []
    rw [List.append_nil, List.append_nil, h] at this
    have hp := harvestResults_spec (commands how cfg) false true ((w2.log (.bodyEnd ex)).atExit ex) rest
    rcases hr : harvestResults (commands how cfg) false true ((w2.log (.bodyEnd ex)).atExit ex) rest with ⟨oh, w3, r⟩
    rw [hr] at this hp
    dsimp only at hp
    obtain ⟨l, hl1, hl2, hl3, hl4⟩ := exit_trace hf q b hp.ext
    have htr : w'.trace = w3.trace ∧ w3.tasks = w'.tasks ∧ oh ≠ .blocked := by
      cases oh with
      | blocked => cases this; exact absurd rfl hb
      | exc e => cases this; exact ⟨rfl, rfl, by simp⟩
      | ok x =>
        obtain ⟨c, l⟩ := x
        unfold pipeEnd at this
        cases ex with
        | none => cases this; exact ⟨rfl, rfl, by simp⟩
        | some e =>
          dsimp only at this
          split at this <;> cases this <;> exact ⟨rfl, rfl, by simp⟩
    have hbe : BodyEnded w' := ⟨ex, by rw [htr.1, hl1]; simp⟩
    rw [htr.1, hl2] at ht hg
    have ht' : l.count .thrown ≤ 1 := by
      rcases ht with ht | ⟨_, ht⟩
      · simpa [throwsIn, List.count_cons] using ht
      · exact absurd hbe ht
    refine fin (harvestResults_done hp htr.2.2 ?_ ?_) htr.2.1
    · rw [hl4, List.count_eq_zero.2 fun hm => hg (List.mem_cons_of_mem _ hm)]; rfl
    · omega


/-- What the end of the statement leaves untouched. -/
structure SameTasks (w w' : W) : Prop where
  tasks : w'.tasks = w.tasks
  trace : w'.trace = w.trace
  must : w'.mustCancel = w.mustCancel

theorem pipeEnd_same {how : PHow} {cfg : PRCfg} {ex : Option Exc} {oh : Out (Bool × List TOut)} {w3 w' : W} {r : List Ev}
    {o : Out (Option Returned)} (h : (o, w') = pipeEnd how cfg ex (oh, w3, r)) :
    SameTasks w3 w' ∧ (o = .blocked ↔ oh = .blocked) := by
  have conc : ∀ l w, conclude how cfg l w ≠ .blocked := by
    intro l w
    unfold conclude
    split
    · simp
    · split
      · simp
      · split
        · simp
        · split <;> simp
  cases oh with
  | blocked => cases h; exact ⟨⟨rfl, rfl, rfl⟩, by simp⟩
  | exc e => cases h; exact ⟨⟨rfl, rfl, rfl⟩, by simp⟩
  | ok x =>
    obtain ⟨c, l⟩ := x
    unfold pipeEnd at h
    cases ex with
    | none =>
      have h1 := congrArg Prod.fst h
      have h2 := congrArg Prod.snd h
      dsimp only at h1 h2
      subst h1 h2
      exact ⟨⟨rfl, rfl, rfl⟩, by simpa using conc _ _⟩
    | some e =>
      dsimp only at h
      split at h
      · have h1 := congrArg Prod.fst h
        have h2 := congrArg Prod.snd h
        dsimp only at h1 h2
        subst h1 h2
        exact ⟨⟨rfl, rfl, rfl⟩, by simpa using conc _ _⟩
      · cases h
        exact ⟨⟨rfl, rfl, rfl⟩, by simp⟩

theorem pipeFail_same {oh : Out (Bool × List TOut)} {w3 w' : W} {r : List Ev} {o : Out (Option Returned)}
    (h : (o, w') = pipeFail (oh, w3, r)) : SameTasks w3 w' ∧ (o = .blocked ↔ oh = .blocked) := by
  cases oh with
  | blocked => cases h; exact ⟨⟨rfl, rfl, rfl⟩, by simp⟩
  | exc e => cases h; exact ⟨⟨rfl, rfl, rfl⟩, by simp⟩
  | ok x => obtain ⟨c, l⟩ := x; cases h; exact ⟨⟨rfl, rfl, rfl⟩, by simp⟩

theorem SameTasks.unfinished {w w' : W} (h : SameTasks w w') (i : Nat) : Unfinished w' i ↔ Unfinished w i := by
  unfold Unfinished; rw [h.tasks]

theorem SameTasks.requested {w w' : W} (h : SameTasks w w') (i : Nat) : CancelRequested w' i ↔ CancelRequested w i := by
  unfold CancelRequested; rw [h.tasks]

theorem requested_of_asked {w w' : W} {i : Nat} (h : AskedToCancel w w' i) : CancelRequested w' i := by
  obtain ⟨t, t', _, ht', hc⟩ := h
  exact ⟨t', ht', Nat.lt_of_le_of_lt (Nat.zero_le _) hc⟩

theorem askedRest_requested {ids : List Nat} {w w' : W} (h : AskedRest ids w w') {i : Nat} (hi : i ∈ ids) (hu : Unfinished w' i) :
    CancelRequested w' i := requested_of_asked (h i hi (unfinished_outOf hu))

theorem body_known {how : PHow} {cfg : PRCfg} {w w1 w2 : W} {ex : Option Exc} (q : Quiet (w.piped how cfg) w1)
    (b : BodyRel (w1.log .bodyStart) w2) : Known ((w2.log (.bodyEnd ex)).atExit ex) (commands how cfg) := by
  intro i hi
  have k : Known (w1.log .bodyStart) (commands how cfg) := fun j hj => known_quiet (piped_known how cfg w) q j hj
  have k2 : i < w2.tasks.length := known_body k b i hi
  rw [show ((w2.log (.bodyEnd ex)).atExit ex).tasks.length = w2.tasks.length from (atExit_ext _ _).1.symm]
  exact k2

/-- When the body has raised, every unfinished command is asked to cancel before anything else happens. -/
theorem atExit_asked {how : PHow} {cfg : PRCfg} {w w1 w2 w3 : W} {e : Exc} (q : Quiet (w.piped how cfg) w1)
    (b : BodyRel (w1.log .bodyStart) w2) (hx : Ext ((w2.log (.bodyEnd (some e))).atExit (some e)) w3) :
    AskedRest (commands how cfg) { w2.log (.bodyEnd (some e)) with cancelled := w2.cancelled || decide (e = .cancelled) } w3 := by
  have hm : (w2.log (.bodyEnd (some e))).mine = commands how cfg := b.ext.mine.trans q.toExt.mine
  refine cancelAll_askedRest (ids' := (w2.log (.bodyEnd (some e))).mine) ?_ hx ?_
  · have k : Known (w1.log .bodyStart) (commands how cfg) := fun j hj => known_quiet (piped_known how cfg w) q j hj
    exact fun i hi => known_body k b i hi
  · intro i hi _
    rw [hm]; exact hi

theorem interrupted_asked {how : PHow} {cfg : PRCfg} {w w1 w3 : W} (q : Quiet (w.piped how cfg) w1) (hx : Ext w1.interrupted w3) :
    AskedRest (commands how cfg) { w1.throwCancel with cancelled := true } w3 := by
  refine cancelAll_askedRest (ids' := w1.mine) ?_ hx ?_
  · exact fun i hi => known_quiet (piped_known how cfg w) q i hi
  · intro i hi _
    rw [q.toExt.mine]; exact hi

/-- **C46, when the commands are cancelled.** At every moment: if the launch was interrupted by a cancellation, or
the body raised (`CancelledError` included), or the caller received `CancelledError` while waiting for the
commands, then every command that is still unfinished has been asked to cancel. -/
theorem C46_cancelled_asked (how : PHow) (cfg : PRCfg) (w : W) (hf : w.Fresh) (evs : List Ev) (o : Out (Option Returned)) (w' : W)
    (h : pipeExecute how cfg w evs = (o, w'))
    (hc : (.bodyStart ∉ w'.trace ∧ .thrown ∈ w'.trace) ∨ (∃ e, .bodyEnd (some e) ∈ w'.trace) ∨
      (BodyEnded w' ∧ .thrown ∈ cleanupLog w'.trace)) :
    ∀ i ∈ commands how cfg, Unfinished w' i → CancelRequested w' i := by
  intro i hi hu
  have quietOnly : ∀ {w1 : W}, Quiet (w.piped how cfg) w1 → (∀ e, .bodyEnd e ∉ w1.trace) ∧ .thrown ∉ w1.trace := by
    intro w1 q
    obtain ⟨l, hl, hu⟩ := q.user
    rw [show (w.piped how cfg).trace = w.trace from rfl, hf.trace, List.nil_append] at hl
    rw [hl]
    exact ⟨fun e hm => (by have := hu _ hm; cases this), fun hm => (by have := hu _ hm; cases this)⟩
  cases phase how cfg w hf evs with
  | setup e hs hx =>
    have := hx []
    rw [List.append_nil, h] at this
    cases this
    obtain ⟨t, ht, _⟩ := hu
    simp [hf.tasks] at ht
  | launching w1 _ _ q hx =>
    rw [h] at hx; cases hx
    obtain ⟨h1, h2⟩ := quietOnly q
    rcases hc with hc | ⟨e, he⟩ | ⟨⟨e, he⟩, _⟩
    · exact absurd hc.2 h2
    · exact absurd he (h1 _)
    · exact absurd he (h1 _)
  | body w1 w2 _ _ q _ b hx =>
    rw [h] at hx; cases hx
    obtain ⟨h1, h2⟩ := quietOnly q
    have hne : ∀ e, .bodyEnd e ∉ w'.trace := by
      refine noBodyEnd_quiet (fun _ => rfl) b.ext.trace ?_
      intro e hm
      rcases List.mem_append.1 hm with hm | hm
      · exact h1 e hm
      · simp at hm
    rcases hc with hc | ⟨e, he⟩ | ⟨⟨e, he⟩, _⟩
    · refine absurd ?_ hc.1
      obtain ⟨l, hl, _⟩ := b.ext.trace
      rw [hl]
      simp [W.log]
    · exact absurd he (hne _)
    · exact absurd he (hne _)
  | interrupted w1 rest hs hh q hm hx =>
    have := hx []
    rw [List.append_nil, List.append_nil, h] at this
    have hp := harvestResults_spec (commands how cfg) false true w1.interrupted rest
    rcases hr : harvestResults (commands how cfg) false true w1.interrupted rest with ⟨oh, w3, r⟩
    rw [hr] at this hp
    have same := (pipeFail_same this).1
    rw [same.requested]
    exact askedRest_requested (interrupted_asked q hp.ext) hi ((same.unfinished i).1 hu)
  | exiting w1 w2 ex rest hs q ha hrd b hx =>
    have := hx []
    rw [List.append_nil, List.append_nil, h] at this
    have hp := harvestResults_spec (commands how cfg) false true ((w2.log (.bodyEnd ex)).atExit ex) rest
    have hA := harvestResults_asked (commands how cfg) false true ((w2.log (.bodyEnd ex)).atExit ex) (body_known q b) rest
    rcases hr : harvestResults (commands how cfg) false true ((w2.log (.bodyEnd ex)).atExit ex) rest with ⟨oh, w3, r⟩
    rw [hr] at this hp hA
    dsimp only at hp hA
    obtain ⟨l, hl1, hl2, hl3, hl4⟩ := exit_trace hf q b hp.ext
    have same := (pipeEnd_same this).1
    rw [same.requested]
    rw [same.unfinished] at hu
    rw [same.trace] at hc
    cases ex with
    | some e => exact askedRest_requested (atExit_asked q b hp.ext) hi hu
    | none =>
      have hthrown : .thrown ∈ l := by
        have hno : ∀ e, .bodyEnd e ∉ w2.trace := by
          refine noBodyEnd_quiet (fun _ => rfl) b.ext.trace ?_
          intro e hm
          rcases List.mem_append.1 hm with hm | hm
          · exact (quietOnly q).1 e hm
          · simp at hm
        rcases hc with hc | ⟨e, he⟩ | ⟨_, he⟩
        · refine absurd ?_ hc.1
          obtain ⟨l', hl', _⟩ := b.ext.trace
          rw [hl1, hl']
          simp [W.log]
        · rw [hl1] at he
          rcases List.mem_append.1 he with he | he
          · exact absurd he (hno _)
          · simp only [List.mem_cons, Obs.bodyEnd.injEq, reduceCtorEq, false_or] at he
            obtain ⟨l2, hl2', hq⟩ := hp.ext.trace
            rw [hl1, (atExit_ext _ _).2] at hl2'
            have : l = l2 := by
              simpa [W.log] using hl2'
            subst this
            have := hq _ he
            cases this
        · rw [hl2] at he
          simpa using he
      rcases hA with ⟨_, hq⟩ | ⟨_, he⟩ | hA
      · exfalso
        have := hq.throws
        rw [hl3] at this
        have : l.count .thrown = 0 := by omega
        exact (List.count_eq_zero.1 this) hthrown
      · rw [he] at hi; cases hi
      · exact askedRest_requested hA hi hu

/-- **C46, a failure cancels the others.** Suppose the pipeline run waits for its commands, and a command has failed
with an exception, or the caller has been cancelled. From the next time on that the event loop resumes the run,
every command that is still unfinished has been asked to cancel. -/
theorem C46_failure_asked (how : PHow) (cfg : PRCfg) (w : W) (hf : w.Fresh) (evs more : List Ev) (w1 : W)
    (h : pipeExecute how cfg w evs = (.blocked, w1)) (hb : BodyEnded w1)
    (hc : (∃ i ∈ commands how cfg, Failed w1 i) ∨ w1.mustCancel = true) :
    ∀ i ∈ commands how cfg, Unfinished (pipeExecute how cfg w (evs ++ .resume :: more)).2 i →
      CancelRequested (pipeExecute how cfg w (evs ++ .resume :: more)).2 i := by
  intro i hi hu
  have quietOnly : ∀ {w1 : W}, Quiet (w.piped how cfg) w1 → (∀ e, .bodyEnd e ∉ w1.trace) := by
    intro w1 q
    obtain ⟨l, hl, hu⟩ := q.user
    rw [show (w.piped how cfg).trace = w.trace from rfl, hf.trace, List.nil_append] at hl
    rw [hl]
    exact fun e hm => (by have := hu _ hm; cases this)
  obtain ⟨e0, he0⟩ := hb
  cases phase how cfg w hf evs with
  | setup e hs hx =>
    have := hx []
    rw [List.append_nil, h] at this
    cases this
  | launching w2 _ _ q hx =>
    rw [h] at hx; cases hx
    exact absurd he0 (quietOnly q _)
  | body w2 w3 _ _ q _ b hx =>
    rw [h] at hx; cases hx
    refine absurd he0 (noBodyEnd_quiet (fun _ => rfl) b.ext.trace ?_ _)
    intro e hm
    rcases List.mem_append.1 hm with hm | hm
    · exact quietOnly q e hm
    · simp at hm
  | interrupted w2 rest hs hh q hm hx =>
    have h0 := hx []
    rw [List.append_nil, List.append_nil, h] at h0
    have hp := harvestResults_spec (commands how cfg) false true w2.interrupted rest
    rcases hr : harvestResults (commands how cfg) false true w2.interrupted rest with ⟨oh, w3, r⟩
    rw [hr] at h0 hp
    have same := (pipeFail_same h0).1
    have := (interrupted_trace hf q hp.ext).1 e0
    rw [same.trace] at he0
    exact absurd he0 this
  | exiting w2 w3 ex rest hs q ha hrd b hx =>
    have h0 := hx []
    have h1 := hx (.resume :: more)
    rw [List.append_nil, List.append_nil, h] at h0
    have rouse := harvestResults_rouse (commands how cfg) (fun hn => (by rw [hn] at hi; cases hi)) false true
      ((w3.log (.bodyEnd ex)).atExit ex) (body_known q b) rest more
    rcases hr : harvestResults (commands how cfg) false true ((w3.log (.bodyEnd ex)).atExit ex) rest with ⟨oh, w4, r⟩
    rw [hr] at h0 rouse
    obtain ⟨same, hbl⟩ := pipeEnd_same h0
    have hc' : (∃ i ∈ commands how cfg, w4.failed i = true) ∨ w4.mustCancel = true := by
      rcases hc with ⟨j, hj, e, he⟩ | hc
      · refine .inl ⟨j, hj, ?_⟩
        have : w4.outOf j = some (.err e) := by
          unfold W.outOf at he ⊢
          rw [← same.tasks]; exact he
        unfold W.failed
        rw [this]
      · exact .inr (by rw [← same.must]; exact hc)
    have ar := rouse (hbl.1 rfl) hc'
    rcases hr2 : harvestResults (commands how cfg) false true ((w3.log (.bodyEnd ex)).atExit ex) (rest ++ .resume :: more) with ⟨oh2, w5, r2⟩
    rw [hr2] at h1 ar
    have same2 := (pipeEnd_same (o := (pipeExecute how cfg w (evs ++ .resume :: more)).1)
      (w' := (pipeExecute how cfg w (evs ++ .resume :: more)).2) h1).1
    rw [same2.requested]
    exact askedRest_requested ar hi ((same2.unfinished i).1 hu)

end Shellous.Props
