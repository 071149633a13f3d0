import Verif.Lemmas.RunStart

/-!
# A whole run
-/

namespace Shellous

variable {α β : Type}

/-- Facts about the world after a successful launch. -/
structure Launched (cfg : RCfg) (w w' : W) : Prop where
  good : w'.Ok
  proc : ∃ p, w'.proc = some p
  waiter : cfg.bsdPty = false → w'.HasWaiter
  owned : w'.Owned
  attached : w'.attached = true
  cancelled : w'.cancelled = false
  timedOut : w'.timedOut = false
  timer : w'.timer = cfg.opts.timeout.isSome
  cancels : w'.cancels = w.cancels
  pending : w'.mustCancel = false
  initial : w.mustCancel = false
  mine : w'.mine = List.range' 1 (cfg.procsubs + cfg.ioTasks + cfg.waiters)
  throws : w'.throws = w.throws
  quiet : Grew Obs.quiet w.trace w'.trace
  first : ∃ t, w'.tasks[0]? = some t ∧ t.kind = .spawn ∧ t.cancels = 0 ∧ w'.isDone 0 = true
  timerOff : w'.TimerOff
  last : cfg.bsdPty = false → ∃ t, w'.tasks[cfg.procsubs + cfg.ioTasks + 1]? = some t ∧ t.kind = .waiter
  copy : ∀ i ∈ List.range' 1 (cfg.procsubs + cfg.ioTasks), w'.tasks[i]? = some { kind := .io }
  waiters : ∀ (i : Nat) (t : TaskSt), w'.tasks[i]? = some t → t.kind = .waiter → t.cancels = 0
  noWaiter : cfg.bsdPty = true → ∀ (i : Nat) (t : TaskSt), w'.tasks[i]? = some t → t.kind ≠ .waiter

theorem SPost.launched {cfg : RCfg} {w w1 : W} (sp : SPost cfg w (.ok ()) w1) (hn : w1.tasks.length = 1 + cfg.procsubs + cfg.ioTasks) :
    Launched cfg w (w1.started cfg) := by
  obtain ⟨ha, hc, hm, ht, hi0⟩ := sp.ok rfl
  have hl : 0 < w1.tasks.length := by omega
  have hst : cfg.bsdPty = false → (w1.started cfg).tasks = w1.tasks ++ [{ kind := .waiter }] := fun h => by simp [W.started, h]
  have hst' : cfg.bsdPty = true → (w1.started cfg).tasks = w1.tasks := fun h => by simp [W.started, h]
  have hok : W.Ok (w1.started cfg) := by
    cases hb : cfg.bsdPty with
    | false => exact (sp.good.append .waiter (by simp)).same (hst hb) rfl rfl
    | true => exact sp.good.same (hst' hb) rfl rfl
  have hleft : ∀ i, i < w1.tasks.length → (w1.started cfg).tasks[i]? = w1.tasks[i]? := by
    intro i h
    rw [W.started, List.getElem?_append_left h]
  have isD : ∀ i, w1.isDone i = true → (w1.started cfg).isDone i = true := by
    intro i h
    unfold W.isDone at h ⊢
    split at h
    · rename_i t hti
      have hli := (List.getElem?_eq_some_iff.1 hti).1
      rw [hleft i hli, hti]
      exact h
    · cases h
  have kinds : ∀ (i : Nat) (t : TaskSt), (w1.started cfg).tasks[i]? = some t → t.kind = .waiter → t = { kind := .waiter } := by
    intro i t hi hk
    have old : w1.tasks[i]? = some t → t = { kind := .waiter } := by
      intro hi
      by_cases h0 : i = 0
      · subst h0
        rw [(sp.first t hi).1] at hk; cases hk
      · rw [sp.others i t hi h0] at hk; cases hk
    cases hb : cfg.bsdPty with
    | true => rw [hst' hb] at hi; exact old hi
    | false =>
      rw [hst hb, List.getElem?_append] at hi
      split at hi
      · exact old hi
      · rw [List.getElem?_singleton] at hi
        split at hi
        · cases hi; rfl
        · cases hi
  have hmine : (w1.started cfg).mine = List.range' 1 (cfg.procsubs + cfg.ioTasks + cfg.waiters) := by
    cases hb : cfg.bsdPty with
    | true =>
      simp only [W.started, sp.mine, hn, RCfg.waiters, hb, if_true, List.append_nil]
      congr 1; omega
    | false =>
      simp only [W.started, sp.mine, hn, RCfg.waiters, hb, Bool.false_eq_true, if_false]
      rw [show 1 + cfg.procsubs + cfg.ioTasks - 1 = cfg.procsubs + cfg.ioTasks by omega, List.range'_1_concat]
      congr 2; omega
  have hlen : (w1.started cfg).tasks.length = 1 + cfg.procsubs + cfg.ioTasks + cfg.waiters := by
    cases hb : cfg.bsdPty with
    | true => rw [hst' hb, hn]; simp [RCfg.waiters, hb]
    | false => rw [hst hb]; simp [RCfg.waiters, hb, hn]
  refine ⟨hok, sp.good.attached ha, ?_, ?_, ha, sp.cancelled, sp.timedOut, ?_, hc, hm, hi0, hmine, ht, sp.quiet, ?_, ?_, ?_, ?_, ?_, ?_⟩
  · intro hb
    exact ⟨w1.tasks.length, by simp [W.started, hb], { kind := .waiter }, by simp [W.started, hb], rfl, rfl⟩
  · intro i hi
    rw [hlen] at hi
    by_cases h0 : i = 0
    · left; subst h0
      exact isD 0 (sp.done (by simp) hl)
    · right
      rw [hmine, List.mem_range'_1]
      omega
  · simp [W.started, sp.timer]
  · obtain ⟨t, ht0⟩ : ∃ t, w1.tasks[0]? = some t := ⟨_, List.getElem?_eq_getElem hl⟩
    obtain ⟨hk, hcs⟩ := sp.first t ht0
    refine ⟨t, ?_, hk, ?_, isD 0 (sp.done (by simp) hl)⟩
    · rw [hleft 0 hl, ht0]
    · rcases hcs with h | h
      · exact h
      · omega
  · intro i t r hi hk ho
    rw [kinds i t hi hk] at ho; cases ho
  · intro hb
    refine ⟨{ kind := .waiter }, ?_, rfl⟩
    rw [hst hb, show cfg.procsubs + cfg.ioTasks + 1 = w1.tasks.length by omega]
    simp
  · intro i hi
    rw [List.mem_range'_1] at hi
    have hlt : i < w1.tasks.length := by omega
    have hg : w1.tasks[i]? = some w1.tasks[i] := List.getElem?_eq_getElem hlt
    rw [hleft i hlt, hg, sp.others i _ hg (by omega)]
  · intro i t hi hk
    rw [kinds i t hi hk]
  · intro hb i t hi hk
    rw [hst' hb] at hi
    by_cases h0 : i = 0
    · subst h0
      rw [(sp.first t hi).1] at hk; cases hk
    · rw [sp.others i t hi h0] at hk; cases hk

/-- Facts about `__aenter__`; `w0` is the world just after the audit callback "start". -/
inductive APost (cfg : RCfg) (w0 : W) : Out Unit → W → Prop
  | launching (w' : W) : LMid cfg w0 w' → APost cfg w0 .blocked w'
  | failed (e1 e : Exc) (w1 : W) : LFail cfg w0 e1 w1 →
      (e = e1 ∨ (w1.cancelled = true ∧ cfg.opts.catchCancelled = true ∧
        (runResult cfg true (w1.stopTimer.log (.auditStop (some e1))) []).1 = .exc e)) →
      APost cfg w0 (.exc e) (w1.stopTimer.log (.auditStop (some e1)))
  | ok (w' : W) : Launched cfg w0 w' → APost cfg w0 (.ok ()) w'

theorem runResult_eq (cfg : RCfg) (check : Bool) (w : W) (evs : List Ev) :
    runResult cfg check w evs = ((runResult cfg check w []).1, w, evs) := by
  unfold runResult
  change Coro.bind Coro.get _ w evs = ((Coro.bind Coro.get _ w []).1, w, evs)
  unfold Coro.bind Coro.get
  simp only []
  generalize runnerResult _ _ _ = r
  cases r <;> rfl

theorem wp_runResult {cfg : RCfg} {check : Bool} {R : Out Result → W → Prop} {w : W}
    (h : R (runResult cfg check w []).1 w) : wp (runResult cfg check) R w := by
  intro evs
  rw [runResult_eq]
  exact h

theorem runResult_not_blocked (cfg : RCfg) (check : Bool) (w : W) : (runResult cfg check w []).1 ≠ .blocked := by
  unfold runResult
  change (Coro.bind Coro.get _ w []).1 ≠ _
  unfold Coro.bind Coro.get
  simp only []
  generalize runnerResult _ _ _ = r
  cases r <;> simp [Coro.pure, Coro.raise]

theorem W.Fresh.blank {w : W} (h : w.Fresh) : (w.log .auditStart).Blank :=
  ⟨⟨h.tasks, h.proc, h.attached⟩, h.mine, h.cancelled, h.timedOut, h.timer⟩

theorem aenter_spec (cfg : RCfg) (w : W) (hf : w.Fresh) :
    wp (aenter cfg) (APost cfg (w.log .auditStart)) w := by
  unfold aenter
  refine wp_bind (wp_upd ?_)
  simp only []
  refine wp_finally (wp_catch (wp_mono (startRun_spec cfg _ hf.blank) ?_))
  rintro o w1 (⟨rfl, w2, sp, hl, rfl⟩ | ⟨e, rfl, hfail⟩ | ⟨rfl, hm⟩)
  · simp only []
    refine wp_bind (wp_get ?_)
    simp only []
    have hc : (w2.started cfg).cancelled = false := sp.cancelled
    refine wp_when (fun h => ?_) (fun _ => .ok _ (sp.launched hl))
    rw [hc] at h
    simp at h
  · simp only []
    refine wp_bind (wp_upd ?_)
    simp only []
    refine wp_raise ?_
    simp only []
    refine wp_bind (wp_get ?_)
    simp only []
    refine wp_when (fun h => ?_) (fun _ => .failed e e w1 hfail (.inl rfl))
    rw [Bool.and_eq_true] at h
    refine wp_bind (wp_runResult ?_)
    cases hr : (runResult cfg true (w1.stopTimer.log (.auditStop (some e))) []).1 with
    | ok r =>
      simp only []
      exact wp_pure (.failed e e w1 hfail (.inl rfl))
    | exc e' =>
      exact .failed e e' w1 hfail (.inr ⟨h.1, h.2, hr⟩)
    | blocked => exact absurd hr (runResult_not_blocked _ _ _)
  · exact .launching w1 hm

/-! ## The body -/

/-- What the body of an `async with` cannot do: touch the tasks of the runner. -/
structure BodyRel (w w' : W) : Prop where
  ext : Ext w w'
  len : w'.tasks.length = w.tasks.length
  same : ∀ (i : Nat) (t : TaskSt), w.tasks[i]? = some t → ∃ t', w'.tasks[i]? = some t' ∧ t'.cancels = t.cancels
  good : w.Ok → w'.Ok
  timerOff : w.TimerOff → w'.TimerOff

theorem BodyRel.refl (w : W) : BodyRel w w := ⟨.refl w, rfl, fun _ t h => ⟨t, h, rfl⟩, id, id⟩

theorem BodyRel.trans {w w' w'' : W} (h : BodyRel w w') (h' : BodyRel w' w'') : BodyRel w w'' where
  ext := h.ext.trans h'.ext
  len := h'.len.trans h.len
  same i t ht := by
    obtain ⟨t', ht', e⟩ := h.same i t ht
    obtain ⟨t'', ht'', e'⟩ := h'.same i t' ht'
    exact ⟨t'', ht'', e'.trans e⟩
  good hg := h'.good (h.good hg)
  timerOff hg := h'.timerOff (h.timerOff hg)

theorem Quiet.bodyRel {w w' : W} (q : Quiet w w') (h : w.Ok → w'.Ok) (h' : w.TimerOff → w'.TimerOff) :
    BodyRel w w' := ⟨q.toExt, q.lenEq, q.same, h, h'⟩

theorem env_bodyRel (w : W) (ev : Ev) : BodyRel w (w.env none ev) :=
  (env_quiet w ev).bodyRel (fun h => env_ok h none ev) (kstable_timerOff.env none w ev)

theorem throw_bodyRel (w : W) : BodyRel w w.throwCancel :=
  ⟨throwCancel_ext w, rfl, fun _ t h => ⟨t, h, rfl⟩, fun h => h.same rfl rfl rfl, kstable_timerOff.throw w⟩

theorem userBody_bodyRel (w : W) : wp userBody (fun _ w' => BodyRel w w') w := by
  intro evs
  change BodyRel w (userBodyLoop w evs).2.1
  induction evs generalizing w with
  | nil => exact .refl w
  | cons ev evs ih =>
    have step : ∀ ev, BodyRel w (userBodyLoop (w.env none ev) evs).2.1 := fun ev => (env_bodyRel w ev).trans (ih _)
    cases ev
    case bodyDone e => cases e <;> exact .refl w
    case bodyGotCancel =>
      unfold userBodyLoop
      split
      · exact (throw_bodyRel w).trans (ih _)
      · exact ih w
    all_goals exact step _

theorem raiseOpt_bodyRel (e : Option Exc) (w : W) : wp (raiseOpt e) (fun o w' => w' = w ∧
    o = (match e with | none => .ok () | some e => .exc e)) w := by
  cases e with
  | none => exact wp_pure ⟨rfl, rfl⟩
  | some e => exact wp_raise ⟨rfl, rfl⟩

/-! ## `async with` -/

/-- The outcome of `async with`, from that of the body and that of `__aexit__`. -/
def combine (ex : Option Exc) : Out Bool → Out Unit
  | .blocked => .blocked
  | .exc e => .exc e
  | .ok b => match ex with
    | none => .ok ()
    | some e => if b then .ok () else .exc e

/-- The outcome of a body, as `__aexit__` sees it. -/
def bodyOut : Option Exc → Out Unit
  | none => .ok ()
  | some e => .exc e

/-- All the ways a run can be, or end. `R` tells what the body did. -/
inductive RunPost (cfg : RCfg) (R : W → Out Unit → W → Prop) (w : W) : Out Unit → W → Prop
  | launching (w' : W) : LMid cfg (w.log .auditStart) w' → RunPost cfg R w .blocked w'
  | failed (e1 e : Exc) (w1 : W) : LFail cfg (w.log .auditStart) e1 w1 →
      (e = e1 ∨ (w1.cancelled = true ∧ cfg.opts.catchCancelled = true ∧
        (runResult cfg true (w1.stopTimer.log (.auditStop (some e1))) []).1 = .exc e)) →
      RunPost cfg R w (.exc e) (w1.stopTimer.log (.auditStop (some e1)))
  | inBody (w1 w2 : W) : Launched cfg (w.log .auditStart) w1 → R (w1.log .bodyStart) .blocked w2 →
      BodyRel (w1.log .bodyStart) w2 → RunPost cfg R w .blocked w2
  | exiting (w1 w2 w3 : W) (ex : Option Exc) : Launched cfg (w.log .auditStart) w1 →
      R (w1.log .bodyStart) (bodyOut ex) w2 → BodyRel (w1.log .bodyStart) w2 →
      XPost cfg ex (w2.log (.bodyEnd ex)) .blocked w3 → RunPost cfg R w .blocked w3
  | ended (w1 w2 w3 : W) (ex : Option Exc) (o : Out Bool) : Launched cfg (w.log .auditStart) w1 →
      R (w1.log .bodyStart) (bodyOut ex) w2 → BodyRel (w1.log .bodyStart) w2 →
      XPost cfg ex (w2.log (.bodyEnd ex)) o w3 → o ≠ .blocked →
      RunPost cfg R w (combine ex o) (w3.stopTimer.log (.auditStop none))

/-- The world in which `__aexit__` begins. -/
structure AtExit (cfg : RCfg) (w : W) : Prop where
  good : w.Ok
  proc : ∃ p, w.proc = some p
  waiter : cfg.bsdPty = false → w.HasWaiter
  owned : w.Owned
  attached : w.attached = true
  timerOff : w.TimerOff

theorem Launched.atExit {cfg : RCfg} {w w1 w2 : W} (ex : Option Exc) (h : Launched cfg w w1) (b : BodyRel (w1.log .bodyStart) w2) :
    AtExit cfg (w2.log (.bodyEnd ex)) where
  good := (b.good (h.good.same rfl rfl rfl)).same rfl rfl rfl
  proc := b.ext.toRExt.procSome h.proc
  waiter := by
    intro hb
    obtain ⟨i, hi, t, ht, hk, hc⟩ := h.waiter hb
    obtain ⟨t', ht', e⟩ := b.ext.task i t ht
    obtain ⟨t'', ht'', hc'⟩ := b.same i t ht
    rw [ht'] at ht''; cases ht''
    exact ⟨i, (by rw [show (w2.log (.bodyEnd ex)).mine = w1.mine from b.ext.mine]; exact hi), t', ht',
      e.kind.trans hk, hc'.trans hc⟩
  owned i hi := by
    have hi' : i < w1.tasks.length := by
      have := b.len
      change i < w2.tasks.length at hi
      change w2.tasks.length = w1.tasks.length at this
      omega
    rcases h.owned i hi' with h | h
    · exact .inl (b.ext.isDone (w := w1.log .bodyStart) h)
    · right
      rw [show (w2.log (.bodyEnd ex)).mine = w1.mine from b.ext.mine]
      exact h
  attached := b.ext.attached h.attached
  timerOff := timerOff_same (w := w2) rfl id (b.timerOff (timerOff_same (w := w1) rfl id h.timerOff))

theorem withRun_spec (cfg : RCfg) (body : Coro Unit) (R : W → Out Unit → W → Prop)
    (hbody : ∀ w, wp body (R w) w) (hR : ∀ w o w', R w o w' → BodyRel w w') (w : W) (hf : w.Fresh) :
    wp (withRun cfg body) (RunPost cfg R w) w := by
  unfold withRun
  refine wp_bind (wp_mono (aenter_spec cfg w hf) ?_)
  intro o w1 ha
  cases ha with
  | launching w' h => exact .launching _ h
  | failed e1 e w1 h h' => exact .failed e1 e w1 h h'
  | ok w' hl =>
    simp only []
    refine wp_bind (wp_upd ?_)
    simp only []
    have hat : wp (attempt body) (fun (o : Out (Option Exc)) w2 => match o with
        | .ok ex => R (w1.log .bodyStart) (bodyOut ex) w2
        | .exc _ => False
        | .blocked => R (w1.log .bodyStart) .blocked w2) (w1.log .bodyStart) := by
      intro evs
      have := hbody (w1.log .bodyStart) evs
      unfold attempt
      rcases hb : body (w1.log .bodyStart) evs with ⟨o, w2, evs'⟩
      rw [hb] at this
      cases o <;> exact this
    refine wp_bind (wp_mono hat ?_)
    intro o w2 hr
    cases o with
    | blocked => exact .inBody w1 w2 hl hr (hR _ _ _ hr)
    | exc e => exact hr.elim
    | ok ex =>
      simp only [] at hr ⊢
      have hb := hR _ _ _ hr
      have ae := hl.atExit ex hb
      refine wp_bind (wp_upd ?_)
      simp only []
      refine wp_bind (wp_mono (aexit_spec cfg ex _ ae.good ae.proc ae.waiter ae.timerOff) ?_)
      rintro o w4 ⟨w3, x, rfl⟩
      cases o with
      | blocked => exact .exiting w1 w2 w3 ex hl hr hb x
      | exc e => exact .ended w1 w2 w3 ex (.exc e) hl hr hb x (by simp)
      | ok b =>
        simp only []
        have key := RunPost.ended (cfg := cfg) (R := R) (w := w) w1 w2 w3 ex (.ok b) hl hr hb x (by simp)
        simp only [reduceCtorEq, if_false]
        cases ex with
        | none => exact wp_pure key
        | some e =>
          simp only [combine] at key ⊢
          split
          · rename_i hbt
            rw [if_pos hbt] at key
            exact wp_pure key
          · rename_i hbt
            rw [if_neg hbt] at key
            exact wp_raise key

end Shellous
