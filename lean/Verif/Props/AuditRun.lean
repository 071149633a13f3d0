import Verif.Lemmas.AuditRun
import Verif.Lemmas.RunAll
import Verif.Props.RunAudit
import Verif.Props.RunStatus
import Verif.Spec.AuditRun

/-!
# C75: an audit callback that raises
-/

namespace Shellous.Props
open Shellous

/-- C75: as long as the callback does not raise, the run is the run without it. -/
theorem C75_silent (cb : Callback) (how : How) (cfg : RCfg) (w : W) (evs : List Ev)
    (h : ∀ t, t <+: (execute how cfg w evs).2.trace → w.trace.length < t.length → cb t = none) :
    executeA cb how cfg w evs = execute how cfg w evs := by
  cases how with
  | block =>
    unfold executeA execute at *
    simp only [] at *
    suffices key : withRunA cb cfg userBody w evs = withRun cfg userBody w evs by
      rw [key]
      rcases withRun cfg userBody w evs with ⟨o, w', r⟩
      cases o <;> rfl
    refine (Sim.withRun (cb := cb) cfg mono_userBody).agree w evs fun t ht hl => ?_
    refine h t ?_ hl
    rcases he : withRun cfg userBody w evs with ⟨o, w', r⟩
    rw [he] at ht
    cases o <;> exact ht
  | await f =>
    unfold executeA execute at *
    simp only [] at *
    suffices key : runCommandA cb cfg f w evs = runCommand cfg f w evs by
      rw [key]
      rcases runCommand cfg f w evs with ⟨o, w', r⟩
      cases o <;> rfl
    refine (Sim.runCommand (cb := cb) cfg f).agree w evs fun t ht hl => ?_
    refine h t ?_ hl
    rcases he : runCommand cfg f w evs with ⟨o, w', r⟩
    rw [he] at ht
    cases o <;> exact ht

/-- C75: if the callback raises when it is told the start, the command is not run: nothing else is done, and no event
of the world is waited for. -/
theorem C75_start (cb : Callback) (how : How) (cfg : RCfg) (w : W) (evs : List Ev) (e : Exc)
    (h : cb (w.trace ++ [.auditStart]) = some e) :
    executeA cb how cfg w evs = (.exc e, { w with trace := w.trace ++ [.auditStart] }) := by
  have h1 : aenterA cb cfg w evs = (.exc e, w.log .auditStart, evs) := by
    refine bind_exc ?_
    show raiseOpt (cb (w.trace ++ [.auditStart])) (w.log .auditStart) evs = _
    rw [h]; rfl
  cases how with
  | block =>
    unfold executeA
    simp only []
    rw [show withRunA cb cfg userBody w evs = _ from bind_exc h1]
    rfl
  | await f =>
    unfold executeA
    simp only []
    rw [show runCommandA cb cfg f w evs = _ from bind_exc (bind_exc h1)]
    rfl

/-! ## A callback that raises at the end -/

theorem runResult_stays (cfg : RCfg) (w : W) (r : List Ev) :
    ∃ o, runResult cfg true w r = (o, w, r) ∧ o ≠ .blocked := by
  unfold runResult
  rw [bind_ok (f := fun _ => _) (show Coro.get w r = (.ok w, w, r) from rfl)]
  generalize runnerResult _ _ _ = x
  cases x with
  | ok a => exact ⟨_, rfl, by simp⟩
  | error e => exact ⟨_, rfl, by simp⟩

section stop
variable {cb : Callback} (hcb : RaisesAtStop cb)
include hcb

theorem audit_eq {o : Obs} (ho : o.isStop = false) : audit cb o = Coro.upd (·.log o) := by
  funext w evs
  show raiseOpt (cb (w.trace ++ [o])) (w.log o) evs = _
  rw [hcb.other _ _ ho]; rfl

theorem sim_eq {α : Type} {cA c : Coro α} (h : ∀ w evs, cA w evs = c w evs) : cA = c := funext fun w => funext fun evs => h w evs

theorem signalA_is (sig : Option Nat) : signalA cb sig = Coro.upd (·.signal false sig) := by
  funext w evs
  cases hp : w.proc with
  | none =>
    show Coro.when w.proc.isSome _ w evs = _
    rw [hp]
    simp only [Coro.upd, W.signal, hp]
    rfl
  | some p =>
    show Coro.when w.proc.isSome _ w evs = _
    rw [hp, audit_eq hcb (by rfl)]
    show (_, W.sendSignal sig (w.log _), _) = _
    simp only [W.log, Coro.upd, W.sendSignal, W.signal, hp]
    cases p.exited.isNone <;> rfl

theorem killA_is (cfg : RCfg) : killA cb cfg = kill cfg := by
  unfold killA kill killTryA killTry killWaitA killWait killWaitTry
  simp only [signalA_is hcb]

theorem finishA_is (cfg : RCfg) (ex : Option Exc) : finishA cb cfg ex = finish cfg ex := by
  unfold finishA finish
  cases ex <;> simp only [finishTryA, finishTry, waitRunA, waitRun, killA_is hcb]

theorem startRunA_is (cfg : RCfg) : startRunA cb cfg = startRun cfg := by
  unfold startRunA startRun
  simp only [killA_is hcb]

/-- `cA` does what `c` does, but if `c` ends, it ends with an exception, which (if `p`) is the one of the callback. -/
def Spoiled {α : Type} (cb : Callback) (p : Prop) (cA c : Out α × W × List Ev) : Prop :=
  (c.1 = .blocked → cA = c) ∧
  (c.1 ≠ .blocked → ∃ e, cA = (.exc e, c.2.1, c.2.2) ∧ (p → cb c.2.1.trace = some e))

theorem aexitA_stop (cfg : RCfg) (ex : Option Exc) (w : W) (evs : List Ev) :
    Spoiled cb True (aexitA cb cfg ex w evs) (aexit cfg ex w evs) := by
  unfold aexitA aexit
  rw [finishA_is hcb]
  generalize (Coro.catch_ (finish cfg ex) fun e =>
      if e = .cancelled then do
        Coro.upd W.setCancelled
        Coro.pure false
      else Coro.raise e) = c
  rcases hc : c w evs with ⟨o, w1, r⟩
  obtain ⟨e, he⟩ := Option.isSome_iff_exists.1 (hcb.stop w1.trace none)
  have hf : ∀ r, (do
      Coro.upd W.stopTimer
      audit cb (.auditStop none) : Coro Unit) w1 r = (.exc e, w1.stopTimer.log (.auditStop none), r) := by
    intro r
    show raiseOpt (cb (w1.trace ++ [.auditStop none])) _ _ = _
    rw [he]; rfl
  cases o with
  | blocked =>
    rw [bind_blocked (f := fun _ => _) (show Coro.finally_ c _ w evs = (.blocked, w1, r) by unfold Coro.finally_; rw [hc])]
    rw [bind_blocked (f := fun _ => _) (show Coro.finally_ c _ w evs = (.blocked, w1, r) by unfold Coro.finally_; rw [hc])]
    exact ⟨fun _ => rfl, fun h => absurd rfl h⟩
  | ok a =>
    rw [bind_exc (f := fun _ => _) (show Coro.finally_ c _ w evs = (.exc e, _, r) by
      unfold Coro.finally_; rw [hc]; exact bind_exc (f := fun _ => Coro.pure a) (hf r))]
    rw [bind_ok (f := fun _ => _) (show Coro.finally_ c _ w evs = (.ok a, w1.stopTimer.log (.auditStop none), r) by
      unfold Coro.finally_; rw [hc]; rfl)]
    rw [bind_ok (f := fun _ => _) (show Coro.get (w1.stopTimer.log (.auditStop none)) r = (.ok _, _, _) from rfl)]
    split
    · exact ⟨fun h => (by cases h), fun _ => ⟨e, rfl, fun _ => he⟩⟩
    · exact ⟨fun h => (by cases h), fun _ => ⟨e, rfl, fun _ => he⟩⟩
  | exc x =>
    rw [bind_exc (f := fun _ => _) (show Coro.finally_ c _ w evs = (.exc e, _, r) by
      unfold Coro.finally_; rw [hc]; exact bind_exc (f := fun _ => Coro.raise x) (hf r))]
    rw [bind_exc (f := fun _ => _) (show Coro.finally_ c _ w evs = (.exc x, w1.stopTimer.log (.auditStop none), r) by
      unfold Coro.finally_; rw [hc]; rfl)]
    exact ⟨fun h => (by cases h), fun _ => ⟨e, rfl, fun _ => he⟩⟩

theorem start_stop {s fin : Coro Unit} {p : Prop}
    (hfin : ∀ w r, ∃ o, fin w r = (o, w, r) ∧ (p → o = .ok ()) ∧ o ≠ .blocked) (w : W) (evs : List Ev) :
    let c := Coro.finally_ (Coro.catch_ s fun e => do
      Coro.upd fun w => w.stopTimer.log (.auditStop (some e))
      Coro.raise e) fin w evs
    let cA := Coro.finally_ (Coro.catch_ s fun e => do
      Coro.upd W.stopTimer
      audit cb (.auditStop (some e))
      Coro.raise e) fin w evs
    (cA = c ∧ (p → ∀ x, c.1 ≠ .exc x)) ∨ ∃ x e, c.1 = .exc x ∧ cA = (.exc e, c.2.1, c.2.2) ∧ (p → cb c.2.1.trace = some e) := by
  simp only [Coro.finally_, Coro.catch_]
  rcases hs : s w evs with ⟨o, w1, r⟩
  cases o with
  | blocked => exact .inl ⟨rfl, fun _ x h => (by cases h)⟩
  | ok a =>
    obtain ⟨o, ho, hp, hb⟩ := hfin w1 r
    refine .inl ⟨rfl, fun h x => ?_⟩
    cases hp h
    simp only []
    rw [show Coro.bind fin (fun _ => (Coro.pure a : Coro Unit)) _ r = _ from bind_ok ho]
    simp [Coro.pure]
  | exc x =>
    right
    obtain ⟨e, he⟩ := Option.isSome_iff_exists.1 (hcb.stop w1.trace (some x))
    have h1 : (do
        Coro.upd W.stopTimer
        audit cb (.auditStop (some x))
        Coro.raise x : Coro Unit) w1 r = (.exc e, w1.stopTimer.log (.auditStop (some x)), r) := by
      show Coro.bind (raiseOpt (cb (w1.trace ++ [.auditStop (some x)]))) _ _ _ = _
      rw [he]; rfl
    have h2 : (do
        Coro.upd fun w => w.stopTimer.log (.auditStop (some x))
        Coro.raise x : Coro Unit) w1 r = (.exc x, w1.stopTimer.log (.auditStop (some x)), r) := rfl
    simp only []
    rw [h1, h2]
    simp only []
    obtain ⟨o, ho, hp, hb⟩ := hfin (w1.stopTimer.log (.auditStop (some x))) r
    cases o with
    | blocked => exact absurd rfl hb
    | ok a =>
      rw [show Coro.bind fin (fun _ => (Coro.raise x : Coro Unit)) _ r = _ from bind_ok ho,
        show Coro.bind fin (fun _ => (Coro.raise e : Coro Unit)) _ r = _ from bind_ok ho]
      exact ⟨x, e, rfl, rfl, fun _ => he⟩
    | exc y =>
      rw [show Coro.bind fin (fun _ => (Coro.raise x : Coro Unit)) _ r = _ from bind_exc ho,
        show Coro.bind fin (fun _ => (Coro.raise e : Coro Unit)) _ r = _ from bind_exc ho]
      exact ⟨y, y, rfl, rfl, fun h => (by have := hp h; cases this)⟩

theorem aenterA_stop (cfg : RCfg) (w : W) (evs : List Ev) :
    (aenterA cb cfg w evs = aenter cfg w evs ∧
      (cfg.opts.catchCancelled = false → ∀ x, (aenter cfg w evs).1 ≠ .exc x)) ∨
    ∃ x e, (aenter cfg w evs).1 = .exc x ∧
      aenterA cb cfg w evs = (.exc e, (aenter cfg w evs).2.1, (aenter cfg w evs).2.2) ∧
      (cfg.opts.catchCancelled = false → cb (aenter cfg w evs).2.1.trace = some e) := by
  unfold aenterA aenter
  rw [audit_eq hcb (by rfl), startRunA_is hcb]
  refine start_stop hcb (p := cfg.opts.catchCancelled = false) (fun w r => ?_) (w.log .auditStart) evs
  show ∃ o, Coro.when (w.cancelled && cfg.opts.catchCancelled) _ w r = _ ∧ _
  cases hx : w.cancelled && cfg.opts.catchCancelled with
  | false => exact ⟨.ok (), rfl, fun _ => rfl, by simp⟩
  | true =>
    have hc : cfg.opts.catchCancelled = true := by
      rw [Bool.and_eq_true] at hx; exact hx.2
    obtain ⟨o, ho, hb⟩ := runResult_stays cfg w r
    show ∃ o, Coro.bind (runResult cfg true) _ w r = _ ∧ _
    cases o with
    | ok a => exact ⟨.ok (), bind_ok ho, fun _ => rfl, by simp⟩
    | exc e => exact ⟨.exc e, bind_exc ho, fun h => (by rw [hc] at h; cases h), by simp⟩
    | blocked => exact absurd rfl hb

theorem withRunA_stop (cfg : RCfg) (body : Coro Unit) (w : W) (evs : List Ev) :
    Spoiled cb (cfg.opts.catchCancelled = false) (withRunA cb cfg body w evs) (withRun cfg body w evs) := by
  unfold withRunA withRun
  rcases he : aenter cfg w evs with ⟨o, w1, r⟩
  rcases aenterA_stop hcb cfg w evs with ⟨h, hx⟩ | ⟨x, e, h1, h2, h3⟩
  · rw [he] at h hx
    cases o with
    | blocked =>
      rw [bind_blocked h, bind_blocked he]
      exact ⟨fun _ => rfl, fun h => absurd rfl h⟩
    | exc y =>
      rw [bind_exc h, bind_exc he]
      exact ⟨fun h => (by cases h), fun _ => ⟨y, rfl, fun hp => absurd rfl (hx hp y)⟩⟩
    | ok a =>
      rw [bind_ok h, bind_ok he]
      rcases hb : attempt body (w1.log .bodyStart) r with ⟨o, w2, r2⟩
      have hu : ∀ f : W → W, ∀ w r, Coro.upd f w r = (.ok (), f w, r) := fun _ _ _ => rfl
      rw [bind_ok (hu _ _ _), bind_ok (hu _ _ _)]
      cases o with
      | blocked =>
        rw [bind_blocked hb, bind_blocked hb]
        exact ⟨fun _ => rfl, fun h => absurd rfl h⟩
      | exc y =>
        unfold attempt at hb
        exfalso
        split at hb <;> cases hb
      | ok ex =>
        rw [bind_ok hb, bind_ok hb, bind_ok (hu _ _ _), bind_ok (hu _ _ _)]
        obtain ⟨h1, h2⟩ := aexitA_stop hcb cfg ex (w2.log (.bodyEnd ex)) r2
        rcases hx : aexit cfg ex (w2.log (.bodyEnd ex)) r2 with ⟨o, w3, r3⟩
        rw [hx] at h1 h2
        cases o with
        | blocked =>
          rw [bind_blocked (h1 rfl), bind_blocked hx]
          exact ⟨fun _ => rfl, fun h => absurd rfl h⟩
        | exc y =>
          obtain ⟨e, h3, h4⟩ := h2 (by simp)
          rw [bind_exc h3, bind_exc hx]
          exact ⟨fun h => (by cases h), fun _ => ⟨e, rfl, fun _ => h4 trivial⟩⟩
        | ok b =>
          obtain ⟨e, h3, h4⟩ := h2 (by simp)
          rw [bind_exc h3, bind_ok hx]
          cases ex with
          | none => exact ⟨fun h => (by cases h), fun _ => ⟨e, rfl, fun _ => h4 trivial⟩⟩
          | some x =>
            cases b
            · exact ⟨fun h => (by cases h), fun _ => ⟨e, rfl, fun _ => h4 trivial⟩⟩
            · exact ⟨fun h => (by cases h), fun _ => ⟨e, rfl, fun _ => h4 trivial⟩⟩
  · rw [he] at h1 h2 h3
    cases h1
    rw [bind_exc h2, bind_exc he]
    exact ⟨fun h => (by cases h), fun _ => ⟨e, rfl, h3⟩⟩

end stop

/-- C75: if the callback raises when it is told the end, and only then, the run does what it does without it, but
the statement raises: if `catch_cancelled` is not set, what the callback has raised. -/
theorem C75_stop (cb : Callback) (hcb : RaisesAtStop cb) (how : How) (cfg : RCfg) (w : W) (evs : List Ev) :
    (executeA cb how cfg w evs).2 = (execute how cfg w evs).2 ∧
    ((executeA cb how cfg w evs).1 = .blocked ↔ (execute how cfg w evs).1 = .blocked) ∧
    ((execute how cfg w evs).1 ≠ .blocked → ∃ e, (executeA cb how cfg w evs).1 = .exc e ∧
      (cfg.opts.catchCancelled = false → cb (execute how cfg w evs).2.trace = some e)) := by
  cases how with
  | block =>
    unfold executeA execute
    simp only []
    obtain ⟨h1, h2⟩ := withRunA_stop hcb cfg userBody w evs
    rcases hx : withRun cfg userBody w evs with ⟨o, w3, r3⟩
    rw [hx] at h1 h2
    cases o with
    | blocked => rw [h1 rfl]; simp
    | ok b => obtain ⟨e, h3, h4⟩ := h2 (by simp); rw [h3]; simpa using h4
    | exc b => obtain ⟨e, h3, h4⟩ := h2 (by simp); rw [h3]; simpa using h4
  | await f =>
    unfold executeA execute
    simp only []
    unfold runCommandA runCommand
    obtain ⟨h1, h2⟩ := withRunA_stop hcb cfg (raiseOpt f) w evs
    rcases hx : withRun cfg (raiseOpt f) w evs with ⟨o, w3, r3⟩
    rw [hx] at h1 h2
    cases o with
    | blocked => rw [bind_blocked (h1 rfl), bind_blocked hx]; simp
    | exc b =>
      obtain ⟨e, h3, h4⟩ := h2 (by simp)
      rw [bind_exc h3, bind_exc hx]; simpa using h4
    | ok b =>
      obtain ⟨e, h3, h4⟩ := h2 (by simp)
      rw [bind_exc h3, bind_ok hx]
      obtain ⟨o, ho, hb⟩ := runResult_stays cfg w3 r3
      cases o with
      | blocked => exact absurd rfl hb
      | exc y => rw [bind_exc ho]; simpa using h4
      | ok a =>
        rw [bind_ok ho]
        cases cfg.opts.returnResult with
        | true => simpa [Coro.pure] using h4
        | false =>
          cases cfg.decode a.outputBytes a.encoding with
          | ok t => simpa [Coro.pure] using h4
          | error e => simpa [Coro.raise] using h4

/-! ## Whatever the callback raises -/

theorem send_proc {w : W} (s : Option Nat) : (w.sendSignal s).proc = (w.signal false s).proc := by
  unfold W.sendSignal W.signal W.log
  cases w.proc with
  | none => rfl
  | some p => cases p.exited.isNone <;> rfl

theorem send_ext (w : W) (s : Option Nat) : RExt w (w.sendSignal s) := by
  unfold W.sendSignal
  split
  · exact .refl w
  · rename_i p hp
    have h2 : RExt w (if p.exited.isNone = true then w.log (.kill false s) else w) := by
      split
      · exact { RExt.refl w with trace := Grew.one rfl }
      · exact .refl w
    refine { h2 with proc := ?_ }
    intro p' hp'
    rw [hp] at hp'; cases hp'
    exact ⟨_, rfl, signalReaps_ext p⟩

theorem astable_ext (w0 : W) : AStable (RExt w0) :=
  { (rstable_ext w0).toKStable with
    sig := fun _ _ h => h.trans (rlog_ext rfl)
    send := fun w s h => h.trans (send_ext w s) }

theorem astable_truthful : AStable Truthful :=
  { fstable_truthful.toKStable with
    sig := fun _ _ h => h
    send := fun w s h => by
      have := signal_truthful h false s
      unfold Truthful at *
      rw [send_proc]; exact this }

/-- There is a child, and it has exited or has been sent SIGKILL by the closing transport. -/
def Stopped (w : W) : Prop := ∃ p, w.proc = some p ∧ (p.exited ≠ none ∨ .closeKill ∈ w.trace)

theorem Stopped.ext {w w' : W} (h : Stopped w) (hx : RExt w w') : Stopped w' := by
  obtain ⟨p, hp, h⟩ := h
  obtain ⟨p', hp', hx'⟩ := hx.proc p hp
  refine ⟨p', hp', ?_⟩
  rcases h with h | h
  · obtain ⟨c, hc⟩ := Option.ne_none_iff_exists'.1 h
    exact .inl (by rw [hx'.exited c hc]; simp)
  · obtain ⟨l, hl, _⟩ := hx.trace
    exact .inr (by rw [hl]; simp [h])

theorem close_stopped {w : W} {p : Proc} (hp : w.proc = some p) (h : Truthful w) : Stopped w.transportClose := by
  unfold W.transportClose
  rw [hp]
  simp only []
  split
  · rename_i hr
    obtain ⟨c, hc⟩ := Option.isSome_iff_exists.1 hr
    obtain ⟨s, hs, _⟩ := h p hp c (.inr hc)
    exact ⟨p, hp, .inl (by rw [hs]; simp)⟩
  · refine ⟨p.signalReaps, rfl, ?_⟩
    cases hx : p.exited with
    | none => exact .inr (by simp [W.log])
    | some c => exact .inl (by unfold Proc.signalReaps; split <;> simp_all)

theorem rstable_of_ext {I : W → Prop} (hI : ∀ {w w' : W}, I w → RExt w w' → I w') : RStable I where
  env fwd w ev h := hI h (env_ext fwd w ev).toRExt
  throw w h := hI h (throwCancel_ext w).toRExt
  log _ _ ho h := hI h (rlog_ext (Obs.inner_of_note ho))
  cancelTask w i h := hI h (cancelTask_ext w i).toRExt
  create w k _ h := hI h (createTask_ext w k).toRExt
  signal w s h := hI h (rsignal_ext w _ s)
  setCancelled w h := hI h (setCancelled_ext w)
  stop w h := hI h (stopTimer_ext w)
  mine w m h := hI h (rmine_ext w m)
  close w h := hI h (transportClose_ext w)
  poll w h := hI h (poll_ext w)

theorem closeRun_stopped (cfg : RCfg) {w : W} {p : Proc} (hp : w.proc = some p) (h : Truthful w) :
    wp (closeRun cfg) (fun _ w' => Stopped w') w := by
  have hI : RStable Stopped := rstable_of_ext fun h hx => h.ext hx
  have rest : Pres Stopped (do
      let w ← Coro.get
      if !w.rcKnown then Coro.upd (·.log .stillRunning)
      else Coro.when cfg.hasStdin (Coro.catch_
        (do
          let i ← createTask .closer
          harvest [i] true true true)
        fun e => if e = .timeout then Coro.upd (·.log .closeTimeout) else Coro.raise e)) :=
    .bind .get fun _ => .ite (.upd fun w h => hI.log w _ rfl h)
      (.when (.catch (.bind (hI.createTask (by simp)) fun _ => hI.harvest _ _ _ _) fun _ =>
        .ite (.upd fun w h => hI.log w _ rfl h) (.raise _)))
  exact fun evs => rest.run _ (close_stopped hp h) evs

/-- If the coroutine has ended, the child is stopped. -/
abbrev Stops {α : Type} (c : Coro α) (w : W) : Prop := wp c (fun o w' => o ≠ .blocked → Stopped w') w

theorem Stops.bind {α β : Type} {c : Coro α} {f : α → Coro β} {w : W} (h : Stops c w) (hf : ∀ a, Pres Stopped (f a)) :
    Stops (Coro.bind c f) w := by
  refine wp_bind' (wp_mono h fun o w' h' => ?_)
  cases o with
  | ok a => exact wp_mono (hf a w' (h' (by simp))) fun _ _ h _ => h
  | exc e => exact fun _ => h' (by simp)
  | blocked => exact fun h => absurd rfl h

theorem Stops.catch {α : Type} {c : Coro α} {f : Exc → Coro α} {w : W} (h : Stops c w) (hf : ∀ a, Pres Stopped (f a)) :
    Stops (Coro.catch_ c f) w := by
  refine wp_catch (wp_mono h fun o w' h' => ?_)
  cases o with
  | exc a => exact wp_mono (hf a w' (h' (by simp))) fun _ _ h _ => h
  | ok e => exact fun _ => h' (by simp)
  | blocked => exact fun h => absurd rfl h

theorem Stops.finally {α : Type} {c : Coro α} {f : Coro Unit} {w : W} (h : Stops c w) (hf : Pres Stopped f) :
    Stops (Coro.finally_ c f) w := by
  rw [finally_eq]
  refine .bind (.catch (.bind h fun _ => .pure _) fun _ => .pure _) fun r => ?_
  cases r with
  | inl a => exact Pres.bind hf fun _ => .pure a
  | inr e => exact Pres.bind hf fun _ => .raise e

theorem finishA_stopped (cb : Callback) (cfg : RCfg) (ex : Option Exc) {w : W} {p : Proc} (hp : w.proc = some p)
    (h : Truthful w) : Stops (finishA cb cfg ex) w := by
  refine wp_finally (wp_mono (wp_and ((astable_ext w).finishTryA cfg ex w (.refl _))
    (astable_truthful.finishTryA cfg ex w h)) fun o w' hw => ?_)
  obtain ⟨p', hp', _⟩ := hw.1.proc p hp
  cases o with
  | blocked => exact fun h => absurd rfl h
  | ok a =>
    refine wp_mono (closeRun_stopped cfg hp' hw.2) fun o w'' hs => ?_
    cases o <;> exact fun _ => hs
  | exc e =>
    refine wp_mono (closeRun_stopped cfg hp' hw.2) fun o w'' hs => ?_
    cases o <;> exact fun _ => hs

theorem stopped_log (o : Obs) (w : W) (h : Stopped w) : Stopped (w.log o) := by
  obtain ⟨p, hp, h⟩ := h
  exact ⟨p, hp, h.imp id fun h => by simp [W.log, h]⟩

theorem aexitA_stopped (cb : Callback) (cfg : RCfg) (ex : Option Exc) {w : W} {p : Proc} (hp : w.proc = some p)
    (h : Truthful w) : Stops (aexitA cb cfg ex) w := by
  have hI : RStable Stopped := rstable_of_ext fun h hx => h.ext hx
  refine .bind (.finally (.catch (finishA_stopped cb cfg ex hp h) fun _ => .ite
      (.bind (.upd fun w h => hI.setCancelled w h) fun _ => .pure _) (.raise _))
    (.bind (.upd fun w h => h) fun _ => .bind (.upd fun w h => stopped_log _ w h) fun _ => .bind .get fun _ =>
      .raiseOpt _)) fun _ => .bind .get fun _ => .ite (.raise _) (.pure _)

/-- The coroutine never ends normally. -/
def NoOk {α : Type} (c : Coro α) : Prop := ∀ w evs a, (c w evs).1 ≠ .ok a

theorem NoOk.bind {α β : Type} {c : Coro α} {f : α → Coro β} (h : ∀ a, NoOk (f a)) : NoOk (Coro.bind c f) := by
  intro w evs b
  unfold Coro.bind
  rcases c w evs with ⟨o, w', r⟩
  cases o with
  | ok a => exact h a w' r b
  | exc e => simp
  | blocked => simp

theorem NoOk.raise {α : Type} (e : Exc) : NoOk (Coro.raise e : Coro α) := by
  intro w evs a; simp [Coro.raise]

theorem audit_ok {cb : Callback} {o : Obs} {w w' : W} {evs r : List Ev} (h : audit cb o w evs = (.ok (), w', r)) :
    w' = w.log o := by
  have h : raiseOpt (cb (w.trace ++ [o])) (w.log o) evs = (.ok (), w', r) := h
  cases hc : cb (w.trace ++ [o]) with
  | none => rw [hc] at h; cases h; rfl
  | some e => rw [hc] at h; cases h

/-- Entering the block gives a child. -/
theorem aenterA_child (cb : Callback) (cfg : RCfg) (w : W) (hf : w.Fresh) :
    wp (aenterA cb cfg) (fun o w' => o = .ok () → (∃ p, w'.proc = some p) ∧ Truthful w') w := by
  have no : ∀ {c : Coro Unit} {P : W → Prop} {w : W}, NoOk c → wp c (fun o w' => o = .ok () → P w') w :=
    fun h evs ho => absurd ho (h _ evs _)
  have pr : ∀ {c : Coro Unit} {P : W → Prop} {w : W}, Pres P c → P w → wp c (fun o w' => o = .ok () → P w') w :=
    fun h hp => wp_mono (h.run _ hp) fun _ _ h _ => h
  intro evs
  rcases ha : audit cb .auditStart w evs with ⟨o, w1, r⟩
  cases o with
  | blocked => rw [show aenterA cb cfg w evs = _ from bind_blocked ha]; intro h; cases h
  | exc e => rw [show aenterA cb cfg w evs = _ from bind_exc ha]; intro h; cases h
  | ok _ =>
    rw [show aenterA cb cfg w evs = _ from bind_ok ha]
    have hw := audit_ok ha
    have hbl : w1.Blank := by
      rw [hw]
      exact ⟨⟨hf.tasks, hf.proc, hf.attached⟩, hf.mine, hf.cancelled, hf.timedOut, hf.timer⟩
    have htr : Truthful w1 := by
      rw [hw]
      intro p hp
      rw [show (w.log .auditStart).proc = w.proc from rfl, hf.proc] at hp
      cases hp
    revert r
    intro r _
    suffices hs : wp (startRunA cb cfg) (fun o w' => o = .ok () → (∃ p, w'.proc = some p) ∧ Truthful w') w1 by
      refine wp_finally (R := fun o w' => o = .ok () → (∃ p, w'.proc = some p) ∧ Truthful w')
        (wp_catch (wp_mono hs fun o w' h => ?_)) r
      cases o with
      | ok a =>
        have h := h rfl
        refine wp_mono (Pres.run (I := fun w => (∃ p, w.proc = some p) ∧ Truthful w) (.bind .get fun _ => .when
          (.bind (.runResult _ _) fun _ => .pure _)) w' h) fun o w'' h => ?_
        cases o <;> exact fun _ => h
      | blocked => intro h; cases h
      | exc e =>
        refine wp_mono (R := fun o _ => o ≠ .ok ()) (fun evs => (NoOk.bind (c := Coro.upd W.stopTimer) fun _ => .bind fun _ => .raise e) w' evs ()) fun o w' h => ?_
        cases o with
        | ok a => exact absurd rfl h
        | blocked => intro h; cases h
        | exc e => exact wp_mono (R := fun _ _ => True) (fun _ => trivial) fun o w' h => by cases o <;> (intro h; cases h)
    refine wp_bind (wp_catch (wp_mono (wp_and (startTry_spec cfg w1 hbl)
      (fstable_truthful.toLStable.startTry cfg w1 htr)) fun o w' h => ?_))
    cases o with
    | blocked => intro h; cases h
    | exc e =>
      refine wp_mono (R := fun o _ => o ≠ .ok ()) (fun evs => (NoOk.bind fun _ => .bind fun _ => .bind fun _ => .raise e) w' evs ()) fun o w' h => ?_
      cases o with
      | ok a => exact absurd rfl h
      | blocked => intro h; cases h
      | exc e => intro h; cases h
    | ok a =>
      have h1 := h.1.1.good.attached (h.1.1.ok rfl).1
      refine pr (P := fun w => (∃ p, w.proc = some p) ∧ Truthful w) ?_ ⟨h1, h.2⟩
      exact .bind (.when (.bind (.atomic (fun w => (.ok w.tasks.length, { w with tasks := w.tasks ++ [{ kind := .waiter }] }))
        (by simp) (fun _ _ => rfl) fun w h => h) fun _ => .upd fun _ h => h)) fun _ => .when (.upd fun _ h => h)

theorem attempt_caught (c : Coro Unit) (w : W) : wp (attempt c) (fun o _ => ∀ e, o ≠ .exc e) w := by
  intro evs e
  unfold attempt
  rcases c w evs with ⟨o, w', r⟩
  cases o <;> simp

theorem withRunA_stopped (cb : Callback) (cfg : RCfg) {body : Coro Unit} (hb : ∀ I, FStable I → Pres I body) (w : W)
    (hf : w.Fresh) (evs : List Ev) (w1 : W) (r1 : List Ev) (h1 : aenterA cb cfg w evs = (.ok (), w1, r1))
    (h : (withRunA cb cfg body w evs).1 ≠ .blocked) : Stopped (withRunA cb cfg body w evs).2.1 := by
  have hc := aenterA_child cb cfg w hf evs
  rw [h1] at hc
  obtain ⟨⟨p, hp⟩, ht⟩ := hc rfl
  rw [show withRunA cb cfg body w evs = _ from bind_ok h1] at h ⊢
  have hI : FStable fun w => (∃ p, w.proc = some p) ∧ Truthful w :=
    { env := fun fwd w ev h => ⟨let ⟨p, hp⟩ := h.1; let ⟨p', hp', _⟩ := (env_ext fwd w ev).proc p hp; ⟨p', hp'⟩,
        fstable_truthful.env fwd w ev h.2⟩
      throw := fun _ h => h
      log := fun _ _ _ h => h
      cancelTask := fun _ _ h => h
      create := fun _ _ _ h => h
      signal := fun w s h => ⟨let ⟨p, hp⟩ := h.1; let ⟨p', hp', _⟩ := (rsignal_ext w false s).proc p hp; ⟨p', hp'⟩,
        fstable_truthful.signal w s h.2⟩
      setCancelled := fun _ h => h
      stop := fun _ h => h
      mine := fun _ _ h => h
      poll := fun w h => ⟨let ⟨p, hp⟩ := h.1; let ⟨p', hp', _⟩ := (poll_ext w).proc p hp; ⟨p', hp'⟩,
        fstable_truthful.poll w h.2⟩
      spawn := fun _ h => h
      setTimer := fun _ _ h => h
      mark := fun _ _ _ h => h
      close := fun w h => ⟨let ⟨p, hp⟩ := h.1; let ⟨p', hp', _⟩ := (transportClose_ext w).proc p hp; ⟨p', hp'⟩,
        fstable_truthful.close w h.2⟩ }
  refine (wp_bind (R := fun o w' => o ≠ .blocked → Stopped w') (wp_upd ?_)) r1 h
  refine wp_bind (wp_mono (wp_and (attempt_caught body _) (Pres.attempt (hb _ hI) (w1.log .bodyStart) ⟨⟨p, hp⟩, ht⟩))
    fun o w2 h2 => ?_)
  cases o with
  | blocked => exact fun h => absurd rfl h
  | exc e => exact absurd rfl (h2.1 e)
  | ok ex =>
    refine wp_bind (wp_upd ?_)
    obtain ⟨_, ⟨p2, hp2⟩, ht2⟩ := h2
    refine Stops.bind (aexitA_stopped cb cfg ex (p := p2) hp2 ht2) fun b => ?_
    cases ex with
    | none => exact .pure _
    | some e => exact .ite (.pure _) (.raise _)

/-- C75: whatever the callback raises, and whenever it does: once the block has been entered and has ended, the child has
exited or has been sent SIGKILL. (A callback that is called because the user calls `run.send_signal` raises into the
code of the user; this is not modelled.) -/
theorem C75_child_partial (cb : Callback) (how : How) (cfg : RCfg) (w : W) (hf : w.Fresh) (evs : List Ev) (w1 : W)
    (r1 : List Ev) (h1 : aenterA cb cfg w evs = (.ok (), w1, r1)) (h : (executeA cb how cfg w evs).1 ≠ .blocked) :
    ∃ p, (executeA cb how cfg w evs).2.proc = some p ∧
      (p.exited ≠ none ∨ .closeKill ∈ (executeA cb how cfg w evs).2.trace) := by
  show Stopped _
  cases how with
  | block =>
    have := withRunA_stopped cb cfg (body := userBody) (fun I hI => hI.toLStable.userBody) w hf evs w1 r1 h1
    unfold executeA at *
    simp only [] at *
    rcases hx : withRunA cb cfg userBody w evs with ⟨o, w3, r3⟩
    rw [hx] at this h
    cases o with
    | blocked => exact absurd rfl h
    | ok a => exact this (by simp)
    | exc e => exact this (by simp)
  | await f =>
    have := withRunA_stopped cb cfg (body := raiseOpt f) (fun I hI => .raiseOpt f) w hf evs w1 r1 h1
    unfold executeA runCommandA at *
    simp only [] at *
    rcases hx : withRunA cb cfg (raiseOpt f) w evs with ⟨o, w3, r3⟩
    rw [hx] at this
    cases o with
    | blocked => rw [bind_blocked hx] at h; exact absurd rfl h
    | exc e => rw [bind_exc hx]; exact this (by simp)
    | ok a =>
      rw [bind_ok hx]
      obtain ⟨o, ho, hb⟩ := runResult_stays cfg w3 r3
      cases o with
      | blocked => exact absurd rfl hb
      | exc y => rw [bind_exc ho]; exact this (by simp)
      | ok a =>
        rw [bind_ok ho]
        cases cfg.opts.returnResult with
        | true => exact this (by simp)
        | false =>
          cases cfg.decode a.outputBytes a.encoding with
          | ok t => exact this (by simp)
          | error e => exact this (by simp)

/-- A callback that raises whenever it is told of a signal. -/
def noSignals : Callback := fun t => match t.getLast? with
  | some (.auditSignal _ _) => some (.user 7)
  | _ => none

/-- The events of a run whose body raises while the child runs. -/
def bodyRaises : List Ev := [.resume, .fork, .taskDone 0 (.val none), .resume, .bodyDone (some (.user 1))]

/-- C75 is only partly true: if the callback raises when it is told of a signal, the signal is not sent, the exception of the
body is lost, the background tasks of the run are neither awaited nor cancelled, and the block ends while the child (just
sent SIGKILL by the transport) has not been reaped. -/
theorem C75_signal_false : (executeA noSignals .block twoCopies {} bodyRaises).1 = .exc (.user 7) ∧
    (executeA noSignals .block twoCopies {} bodyRaises).2.proc = some {} ∧
    (executeA noSignals .block twoCopies {} bodyRaises).2.trace =
      [.auditStart, .bodyStart, .bodyEnd (some (.user 1)), .auditSignal false (some 15), .auditSignal false none,
       .closeKill, .stillRunning, .auditStop none] ∧
    (executeA noSignals .block twoCopies {} bodyRaises).2.tasks =
      [{ kind := .spawn, out := some (.val none) }, { kind := .io }, { kind := .io }, { kind := .waiter }] := by
  decide +kernel

/-- C75 is only partly true: if the launch fails after the child has been forked, and the callback raises when it is told of a
signal, the child is left running, and no signal is sent to it at all. -/
theorem C75_launch_false :
    (executeA noSignals .block { twoCopies with wireErr := some (.user 3) } {} (bodyRaises.take 4)).1 = .exc (.user 7) ∧
    (executeA noSignals .block { twoCopies with wireErr := some (.user 3) } {} (bodyRaises.take 4)).2.proc = some {} ∧
    (executeA noSignals .block { twoCopies with wireErr := some (.user 3) } {} (bodyRaises.take 4)).2.trace =
      [.auditStart, .auditSignal false (some 15), .auditSignal false none, .auditStop (some (.user 7))] := by
  decide +kernel

/-- A callback that raises when it is told the end. -/
def noEnd : Callback := fun t => match t.getLast? with
  | some (.auditStop _) => some (.user 8)
  | _ => none

/-- The hypotheses of `C75_stop` are met. -/
example : RaisesAtStop noEnd := ⟨fun t f => by simp [noEnd], fun t o h => by cases o <;> simp_all [noEnd, Obs.isStop]⟩

/-- A run that ends well. -/
def endsWell : List Ev := [.resume, .fork, .taskDone 0 (.val none), .resume, .bodyDone none, .taskDone 1 (.val none),
  .taskDone 2 (.val none), .exit 0, .reap, .deliver, .taskDone 3 (.val none), .resume, .taskDone 4 (.val none), .resume]

example : (execute .block twoCopies {} endsWell).1 = .ok none ∧
    (executeA noEnd .block twoCopies {} endsWell).1 = .exc (.user 8) ∧
    (execute .block twoCopies {} endsWell).2.trace =
      [.auditStart, .bodyStart, .bodyEnd none, .auditStop none] := by
  decide +kernel

/-- The hypothesis of `C75_silent` is met by a callback that raises at signals, in a run without signals. -/
example : executeA noSignals .block twoCopies {} endsWell = execute .block twoCopies {} endsWell := by
  refine C75_silent _ _ _ _ _ fun t ht _ => ?_
  rw [show (execute .block twoCopies {} endsWell).2.trace = [.auditStart, .bodyStart, .bodyEnd none, .auditStop none] by
    decide +kernel] at ht
  rw [List.prefix_iff_eq_take] at ht
  have : ∀ n, noSignals ([Obs.auditStart, .bodyStart, .bodyEnd none, .auditStop none].take n) = none := by
    intro n
    match n with
    | 0 => rfl
    | 1 => rfl
    | 2 => rfl
    | 3 => rfl
    | n + 4 => rw [List.take_of_length_le (by simp)]; rfl
  rw [ht]; exact this _

/-- The hypotheses of `C75_child_partial` are met, by a callback that raises at signals. -/
example : (∃ w1 r1, aenterA noSignals twoCopies {} bodyRaises = (.ok (), w1, r1)) ∧
    (executeA noSignals .block twoCopies {} bodyRaises).1 ≠ .blocked := by
  refine ⟨⟨(aenterA noSignals twoCopies {} bodyRaises).2.1, (aenterA noSignals twoCopies {} bodyRaises).2.2, ?_⟩, ?_⟩
  · have : (aenterA noSignals twoCopies {} bodyRaises).1 = .ok () := by decide +kernel
    rw [← this]
  · decide +kernel

end Shellous.Props
