import Verif.Lemmas.RunTimed

/-!
# Invariants about signals
-/

namespace Shellous

variable {α β : Type}

theorem cancelCaller_trace (fwd : Option Nat) (w : W) : (w.cancelCaller fwd).trace = w.trace := by
  unfold W.cancelCaller
  split
  · split <;> rfl
  · rfl

/-- Only a signal sent by the user adds to the log. -/
theorem env_trace_attached (fwd : Option Nat) (w : W) (ev : Ev) :
    (w.env fwd ev).trace = w.trace ∨ ∃ sig, w.attached = true ∧ w.env fwd ev = w.signal true sig := by
  cases ev <;> simp only [W.env]
  case userSignal sig =>
    split
    · rename_i h
      simp only [Bool.and_eq_true] at h
      exact .inr ⟨sig, h.1, rfl⟩
    · exact .inl rfl
  case taskDone i out =>
    left
    split
    · rfl
    · split
      · rename_i t _ _
        cases hk : t.kind <;> cases out <;> simp [W.endEffect, W.setOut, W.stopTimer, TOut.norm] <;> (try split) <;> rfl
      · rfl
  case cancel => exact .inl (cancelCaller_trace _ _)
  case timer =>
    left
    split
    · exact cancelCaller_trace _ _
    · rfl
  all_goals try left
  all_goals repeat' split
  all_goals first | rfl | exact .inl rfl | exact .intro

theorem env_trace (fwd : Option Nat) (w : W) (ev : Ev) :
    (w.env fwd ev).trace = w.trace ∨ ∃ sig, w.env fwd ev = w.signal true sig := by
  rcases env_trace_attached fwd w ev with h | ⟨s, _, h⟩
  · exact .inl h
  · exact .inr ⟨s, h⟩

/-- A signal is logged twice: audit callback, then delivery. -/
theorem signal_trace (w : W) (b : Bool) (s : Option Nat) : (w.signal b s).trace = w.trace ∨
    (w.signal b s).trace = w.trace ++ [.auditSignal b s] ∨
    (w.exitedBy = false ∧ (w.signal b s).trace = w.trace ++ [.auditSignal b s, .kill b s]) := by
  unfold W.signal
  split
  · exact .inl rfl
  · rename_i p hp
    right
    cases hx : p.exited with
    | none => right; simp [W.log, W.exitedBy, hp, hx]
    | some c => left; simp [W.log]

theorem close_trace (w : W) : w.transportClose.trace = w.trace ∨
    (w.exitedBy = false ∧ w.transportClose.trace = w.trace ++ [.closeKill]) := by
  unfold W.transportClose
  split
  · exact .inl rfl
  · rename_i p hp
    split
    · exact .inl rfl
    · cases hx : p.exited with
      | none => right; simp [W.log, W.exitedBy, hp, hx]
      | some c => left; simp

theorem poll_trace (w : W) : w.pollWaitPid.2.trace = w.trace := by
  unfold W.pollWaitPid
  repeat' split
  all_goals rfl

/-- Properties of the log alone. -/
theorem fstable_log {P : List Obs → Prop} (one : ∀ t o, (∀ b s, o ≠ .kill b s) → P t → P (t ++ [o]))
    (two : ∀ t b s, P t → P (t ++ [.auditSignal b s, .kill b s])) : FStable fun w => P w.trace := by
  have sig : ∀ (w : W) b s, P w.trace → P (w.signal b s).trace := by
    intro w b s h
    rcases signal_trace w b s with e | e | ⟨_, e⟩ <;> rw [e]
    · exact h
    · exact one _ _ (by simp) h
    · exact two _ _ _ h
  exact
    { env := fun fwd w ev h => by
        rcases env_trace fwd w ev with e | ⟨s, e⟩ <;> rw [e]
        · exact h
        · exact sig w true s h
      throw := fun w h => one _ _ (by simp) h
      log := fun w o ho h => one _ _ (by rintro b s rfl; cases ho) h
      cancelTask := fun w i h => h
      create := fun w k _ h => h
      signal := fun w s h => sig w false s h
      setCancelled := fun w h => h
      stop := fun w h => h
      mine := fun w m h => h
      poll := fun w h => by rw [poll_trace]; exact h
      spawn := fun w h => h
      setTimer := fun w b h => h
      mark := fun w o ho h => one _ _ (by rintro b s rfl; cases ho) h
      close := fun w h => by
        rcases close_trace w with e | ⟨_, e⟩ <;> rw [e]
        · exact h
        · exact one _ _ (by simp) h }

theorem append_singleton_split {t l1 l2 : List Obs} {o x : Obs} (h : t ++ [o] = l1 ++ x :: l2) :
    (l2 = [] ∧ t = l1 ∧ o = x) ∨ ∃ l, l2 = l ++ [o] ∧ t = l1 ++ x :: l := by
  rcases List.eq_nil_or_concat l2 with rfl | ⟨l, a, rfl⟩
  · left
    have := List.append_inj' h rfl
    exact ⟨rfl, this.1, by simpa using this.2⟩
  · right
    rw [List.concat_eq_append] at h ⊢
    rw [← List.cons_append, ← List.append_assoc] at h
    have := List.append_inj' h rfl
    refine ⟨l, ?_, this.1⟩
    have h2 : o = a := by simpa using this.2
    rw [h2]

/-- Every delivered signal was announced just before. -/
def Announced (t : List Obs) : Prop := ∀ l1 l2 b s, t = l1 ++ .kill b s :: l2 → ∃ l0, l1 = l0 ++ [.auditSignal b s]

theorem Announced.one {t : List Obs} {o : Obs} (ho : ∀ b s, o ≠ .kill b s) (h : Announced t) : Announced (t ++ [o]) := by
  intro l1 l2 b s ht
  rcases append_singleton_split ht with ⟨_, _, h'⟩ | ⟨l, _, h'⟩
  · exact absurd h' (ho b s)
  · exact h l1 l b s h'

theorem Announced.two {t : List Obs} (b : Bool) (s : Option Nat) (h : Announced t) :
    Announced (t ++ [.auditSignal b s, .kill b s]) := by
  intro l1 l2 b' s' ht
  rw [show t ++ [Obs.auditSignal b s, .kill b s] = (t ++ [.auditSignal b s]) ++ [.kill b s] by simp] at ht
  rcases append_singleton_split ht with ⟨_, h1, h'⟩ | ⟨l, _, h'⟩
  · cases h'
    exact ⟨t, h1.symm⟩
  · exact h.one (by simp) l1 l b' s' h'

theorem fstable_announced : FStable fun w => Announced w.trace :=
  fstable_log (fun _ _ ho h => h.one ho) fun _ b s h => h.two b s

theorem delivered_append (t t' : List Obs) : delivered (t ++ t') = delivered t + delivered t' := by
  induction t with
  | nil => simp [delivered]
  | cons o t ih => cases o <;> simp [delivered, ih] <;> omega

/-- Nothing is delivered to a child that has exited. -/
theorem fstable_delivered (n : Nat) : FStable fun w => w.exitedBy = true ∧ delivered w.trace = n := by
  have log : ∀ (w : W) (o : Obs), delivered [o] = 0 → w.exitedBy = true ∧ delivered w.trace = n →
      (w.log o).exitedBy = true ∧ delivered (w.log o).trace = n := by
    intro w o ho h
    exact ⟨h.1, by rw [W.log, delivered_append, ho]; exact h.2⟩
  have sig : ∀ (w : W) b s, w.exitedBy = true ∧ delivered w.trace = n →
      (w.signal b s).exitedBy = true ∧ delivered (w.signal b s).trace = n := by
    intro w b s h
    refine ⟨(rsignal_ext w b s).exitedBy h.1, ?_⟩
    rcases signal_trace w b s with e | e | ⟨hx, e⟩
    · rw [e]; exact h.2
    · rw [e, delivered_append, h.2]; rfl
    · rw [h.1] at hx; cases hx
  exact
    { env := fun fwd w ev h => by
        rcases env_trace fwd w ev with e | ⟨s, e⟩
        · exact ⟨(env_ext fwd w ev).toRExt.exitedBy h.1, by rw [e]; exact h.2⟩
        · rw [e]; exact sig w true s h
      throw := fun w h => log _ _ rfl h
      log := fun w o ho h => log w o (by cases o <;> first | rfl | cases ho) h
      cancelTask := fun w i h => h
      create := fun w k _ h => h
      signal := fun w s h => sig w false s h
      setCancelled := fun w h => h
      stop := fun w h => h
      mine := fun w m h => h
      poll := fun w h => ⟨(poll_ext w).exitedBy h.1, by rw [poll_trace]; exact h.2⟩
      spawn := fun w h => h
      setTimer := fun w b h => h
      mark := fun w o ho h => log w o (by cases o <;> first | rfl | cases ho) h
      close := fun w h => by
        refine ⟨(transportClose_ext w).exitedBy h.1, ?_⟩
        rcases close_trace w with e | ⟨hx, e⟩
        · rw [e]; exact h.2
        · rw [h.1] at hx; cases hx }

theorem lstable_noClose : LStable fun w => .closeKill ∉ w.trace := by
  have one : ∀ (w : W) o, o ≠ .closeKill → .closeKill ∉ w.trace → .closeKill ∉ (w.log o).trace := by
    intro w o ho h
    simp only [W.log, List.mem_append, List.mem_singleton, not_or]
    exact ⟨h, fun h => ho h.symm⟩
  have sig : ∀ (w : W) b s, .closeKill ∉ w.trace → .closeKill ∉ (w.signal b s).trace := by
    intro w b s h
    rcases signal_trace w b s with e | e | ⟨_, e⟩ <;> rw [e] <;> simp [h]
  exact
    { env := fun fwd w ev h => by
        rcases env_trace fwd w ev with e | ⟨s, e⟩ <;> rw [e]
        · exact h
        · exact sig w true s h
      throw := fun w h => one _ _ (by simp) h
      log := fun w o ho h => one w o (by rintro rfl; cases ho) h
      cancelTask := fun w i h => h
      create := fun w k _ h => h
      signal := fun w s h => sig w false s h
      setCancelled := fun w h => h
      stop := fun w h => h
      mine := fun w m h => h
      poll := fun w h => by rw [poll_trace]; exact h
      spawn := fun w h => h
      setTimer := fun w b h => h
      mark := fun w o ho h => one w o (by rintro rfl; cases ho) h }

theorem stable_noClose : Stable fun w => .closeKill ∉ w.trace := lstable_noClose.toStable

/-- asyncio's own kill happens only if the return code is unknown to the end. -/
def CloseLate (w : W) : Prop := .closeKill ∈ w.trace → w.rcKnown = false

theorem closeRun_late (cfg : RCfg) (w : W) (hok : w.Ok) (hn : .closeKill ∉ w.trace) :
    wp (closeRun cfg) (fun (_ : Out Unit) w' => CloseLate w') w := by
  cases hr : w.rcKnown with
  | false => exact wp_mono (closeRun_spec cfg w hok) fun _ _ c _ => (c.unknown hr).2
  | true =>
    have htc : w.transportClose = w := by
      unfold W.transportClose
      unfold W.rcKnown at hr
      cases hp : w.proc with
      | none => rfl
      | some p => rw [hp] at hr; simp [hr]
    have key : wp (closeRun cfg) (fun (_ : Out Unit) w' => .closeKill ∉ w'.trace) w := by
      unfold closeRun
      refine wp_bind (wp_upd ?_)
      rw [htc]
      simp only []
      refine wp_bind (wp_get ?_)
      simp only [hr, Bool.not_true, Bool.false_eq_true, if_false]
      refine (Pres.when (Pres.catch (.bind ?_ fun i => ?_) fun e => ?_) : Pres (fun w => .closeKill ∉ w.trace) _).run w hn
      · exact lstable_noClose.createTask (by simp)
      · exact stable_noClose.harvest _ _ _ _
      · exact .ite (.upd fun w h => lstable_noClose.log w _ rfl h) (.raise _)
    exact wp_mono key fun _ _ h h' => absurd h' h

theorem finish_late (cfg : RCfg) (ex : Option Exc) (w : W) (hok : w.Ok) (hn : .closeKill ∉ w.trace) :
    wp (finish cfg ex) (fun (_ : Out Bool) w' => CloseLate w') w := by
  unfold finish
  have h1 := (lstable_noClose.finishTry cfg ex).run w hn
  have h2 := (rstable_ok.toKStable.finishTry cfg ex).run w hok
  refine wp_finally (wp_mono (wp_and h1 h2) ?_)
  rintro o w1 ⟨hn1, hok1⟩
  have hc := closeRun_late cfg w1 hok1 hn1
  cases o with
  | blocked => exact fun h => absurd h hn1
  | ok b =>
    refine wp_mono hc fun o w2 h => ?_
    cases o <;> exact h
  | exc e =>
    refine wp_mono hc fun o w2 h => ?_
    cases o <;> exact h

/-- `CloseLate`, and it happens only after the body. -/
def CloseLast (w : W) : Prop := .closeKill ∈ w.trace → w.rcKnown = false ∧ ∃ ex, .bodyEnd ex ∈ w.trace

theorem withRun_late (cfg : RCfg) (body : Coro Unit) (hb : ∀ {I : W → Prop}, LStable I → Pres I body) (w : W)
    (hf : w.Fresh) (hokb : ∀ w, wp body (fun (_ : Out Unit) w' => BodyRel w w') w) :
    wp (withRun cfg body) (fun (_ : Out Unit) w' => CloseLast w') w := by
  have late : ∀ {w : W}, .closeKill ∉ w.trace → CloseLast w := fun h h' => absurd h' h
  have hn : .closeKill ∉ w.trace := by rw [hf.trace]; simp
  unfold withRun
  refine wp_bind (wp_mono (wp_and ((lstable_noClose.aenter cfg).run w hn) (aenter_spec cfg w hf)) ?_)
  rintro o w1 ⟨hn1, ap⟩
  have hok1 : w1.Ok := by
    cases ap with
    | launching _ h => exact h.good
    | failed e1 e w1 h _ => exact h.good.same rfl rfl rfl
    | ok _ h => exact h.good
  cases o with
  | blocked => exact late hn1
  | exc e => exact late hn1
  | ok _ =>
    simp only []
    refine wp_bind (wp_upd ?_)
    simp only []
    have hn2 := lstable_noClose.mark w1 .bodyStart rfl hn1
    have hok2 : (w1.log .bodyStart).Ok := hok1.same rfl rfl rfl
    have hat : wp (attempt body) (fun (o : Out (Option Exc)) w' => .closeKill ∉ w'.trace ∧ w'.Ok) (w1.log .bodyStart) := by
      intro evs
      have h1 := (Pres.attempt (hb lstable_noClose)).run _ hn2 evs
      have h2 := (hokb _ evs).good hok2
      refine ⟨h1, ?_⟩
      unfold attempt
      rcases hb : body (w1.log .bodyStart) evs with ⟨o, w2, evs'⟩
      rw [hb] at h2
      cases o <;> exact h2
    refine wp_bind (wp_mono hat ?_)
    rintro o w2 ⟨hn3, hok3⟩
    cases o with
    | blocked => exact late hn3
    | exc e => exact late hn3
    | ok r =>
      simp only []
      refine wp_bind (wp_upd ?_)
      simp only []
      have hx : wp (aexit cfg r) (fun (_ : Out Bool) w' => CloseLate w') (w2.log (.bodyEnd r)) := by
        unfold aexit
        refine wp_bind (wp_finally (wp_catch (wp_mono (finish_late cfg r _ (hok3.same rfl rfl rfl)
          (lstable_noClose.mark w2 _ rfl hn3)) ?_)))
        have stop : ∀ w : W, CloseLate w → CloseLate (w.stopTimer.log (.auditStop none)) := by
          intro w h hm
          refine h ?_
          simpa [W.log, W.stopTimer] using hm
        intro o w3 h
        have tail : ∀ b : Bool, wp (do
            let w ← Coro.get
            if w.cancelled && w.timedOut && !cfg.opts.catchCancelled then Coro.raise .timeout
            else Coro.pure b) (fun (_ : Out Bool) w' => CloseLate w') (w3.stopTimer.log (.auditStop none)) := by
          intro b
          refine wp_bind (wp_get ?_)
          simp only []
          split
          · exact wp_raise (stop _ h)
          · exact wp_pure (stop _ h)
        cases o with
        | blocked => exact h
        | ok b =>
          simp only []
          refine wp_upd ?_
          exact tail b
        | exc e =>
          simp only []
          split
          · refine wp_bind (wp_upd ?_)
            simp only []
            refine wp_pure ?_
            simp only []
            refine wp_upd ?_
            have h' : CloseLate w3.setCancelled := h
            refine wp_bind (wp_get ?_)
            simp only []
            split
            · exact wp_raise (stop _ h')
            · exact wp_pure (stop _ h')
          · refine wp_raise ?_
            simp only []
            refine wp_upd ?_
            exact stop _ h
      have hg := ((fstable_trace (w2.log (.bodyEnd r)).trace).aexit cfg r).run (w2.log (.bodyEnd r)) ⟨[], by simp⟩
      refine wp_bind (wp_mono (wp_and hx hg) ?_)
      rintro o w3 ⟨h, l, hl⟩
      have h : CloseLast w3 := fun hm => ⟨h hm, r, by rw [hl, W.log]; simp⟩
      cases o with
      | blocked => exact h
      | exc e => exact h
      | ok b =>
        simp only []
        cases r with
        | none => exact wp_pure h
        | some e =>
          simp only []
          split
          · exact wp_pure h
          · exact wp_raise h

theorem execute_late (how : How) (cfg : RCfg) (w : W) (hf : w.Fresh) (evs : List Ev) :
    CloseLast (execute how cfg w evs).2 := by
  cases how with
  | block =>
    have h := withRun_late cfg userBody (fun h => h.userBody) w hf userBody_bodyRel evs
    unfold execute
    simp only []
    rcases hr : withRun cfg userBody w evs with ⟨o, w', r⟩
    rw [hr] at h
    cases o <;> exact h
  | await f =>
    have h := withRun_late cfg (raiseOpt f) (fun _ => .raiseOpt f) w hf
      (fun w => wp_mono (raiseOpt_bodyRel f w) fun _ _ h => by rw [h.1]; exact .refl w)
    have key : wp (runCommand cfg f) (fun (_ : Out Returned) w' => CloseLast w') w := by
      unfold runCommand
      refine wp_bind (wp_mono h ?_)
      intro o w' h
      cases o with
      | blocked => exact h
      | exc e => exact h
      | ok _ =>
        simp only []
        refine wp_bind (wp_runResult ?_)
        cases hr : (runResult cfg true w' []).1 with
        | blocked => exact h
        | exc e => exact h
        | ok r =>
          simp only []
          split
          · exact wp_pure h
          · split
            · exact wp_pure h
            · exact wp_raise h
    have h := key evs
    unfold execute
    simp only []
    rcases hr : runCommand cfg f w evs with ⟨o, w', r⟩
    rw [hr] at h
    cases o <;> exact h

end Shellous
