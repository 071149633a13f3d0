import Verif.Model.AuditRun
import Verif.Lemmas.RunPres

/-!
# A run with a callback that may raise agrees with the run of Model/Run until the callback raises
-/

namespace Shellous

variable {α β : Type}

/-- What has been observed stays observed. -/
def Mono (c : Coro α) : Prop := ∀ w evs, w.trace <+: (c w evs).2.1.trace

theorem env_prefix (fwd : Option Nat) (w : W) (ev : Ev) : w.trace <+: (w.env fwd ev).trace := by
  obtain ⟨l, h, _⟩ := (env_ext fwd w ev).trace
  rw [h]; exact List.prefix_append _ _

/-- `t` is the beginning of what has been observed: no step of a run can break this. -/
theorem fstable_prefix (t : List Obs) : FStable (fun w => t <+: w.trace) where
  env fwd w ev h := h.trans (env_prefix fwd w ev)
  throw w h := h.trans (List.prefix_append _ _)
  log w o _ h := h.trans (List.prefix_append _ _)
  cancelTask w i h := h
  create w k _ h := h
  signal w s h := by
    refine h.trans ?_
    unfold W.signal W.log
    split
    · exact List.prefix_refl _
    · dsimp only
      split
      · simp only [List.append_assoc]; exact List.prefix_append _ _
      · exact List.prefix_append _ _
  setCancelled w h := h
  stop w h := h
  mine w m h := h
  poll w h := by
    refine h.trans ?_
    unfold W.pollWaitPid
    repeat' split
    all_goals exact List.prefix_refl _
  spawn w h := h
  setTimer w b h := h
  mark w o _ h := h.trans (List.prefix_append _ _)
  close w h := by
    refine h.trans ?_
    unfold W.transportClose W.log
    split
    · exact List.prefix_refl _
    · split
      · exact List.prefix_refl _
      · dsimp only
        split
        · exact List.prefix_append _ _
        · exact List.prefix_refl _

theorem Mono.of {c : Coro α} (h : ∀ t, Pres (fun w => t <+: w.trace) c) : Mono c :=
  fun w evs => (h w.trace).run w (List.prefix_refl _) evs

/-- `cA` is `c` with the callback: as long as the callback does not raise on anything observed during `c`,
they do the same. -/
structure Sim (cb : Callback) (cA c : Coro α) : Prop where
  mono : Mono c
  agree : ∀ w evs, (∀ t, t <+: (c w evs).2.1.trace → w.trace.length < t.length → cb t = none) →
    cA w evs = c w evs

variable {cb : Callback}

theorem Sim.same {c : Coro α} (h : Mono c) : Sim cb c c := ⟨h, fun _ _ _ => rfl⟩

theorem Sim.of {c : Coro α} (h : ∀ t, Pres (fun w => t <+: w.trace) c) : Sim cb c c := .same (.of h)

theorem Sim.pure (a : α) : Sim cb (Coro.pure a) (Coro.pure a) := .same fun _ _ => List.prefix_refl _
theorem Sim.raise (e : Exc) : Sim cb (Coro.raise e : Coro α) (Coro.raise e) := .same fun _ _ => List.prefix_refl _
theorem Sim.get : Sim cb Coro.get Coro.get := .same fun _ _ => List.prefix_refl _
theorem Sim.upd {f : W → W} (h : ∀ w, w.trace <+: (f w).trace) : Sim cb (Coro.upd f) (Coro.upd f) :=
  .same fun w _ => h w

theorem Sim.when {b : Bool} {cA c : Coro Unit} (h : Sim cb cA c) : Sim cb (Coro.when b cA) (Coro.when b c) := by
  cases b
  · exact .pure ()
  · exact h

theorem Sim.ite {p : Prop} [Decidable p] {cA c dA d : Coro α} (h : Sim cb cA c) (h' : Sim cb dA d) :
    Sim cb (if p then cA else dA) (if p then c else d) := by
  split
  · exact h
  · exact h'

theorem Sim.bind {cA c : Coro α} {fA f : α → Coro β} (hc : Sim cb cA c) (hf : ∀ a, Sim cb (fA a) (f a)) :
    Sim cb (Coro.bind cA fA) (Coro.bind c f) where
  mono w evs := by
    have h1 := hc.mono w evs
    unfold Coro.bind
    rcases h : c w evs with ⟨o, w', r⟩
    rw [h] at h1
    cases o with
    | ok a => exact List.IsPrefix.trans h1 ((hf a).mono w' r)
    | exc e => exact h1
    | blocked => exact h1
  agree w evs hcb := by
    have h1 := hc.mono w evs
    have h2 := hc.agree w evs
    unfold Coro.bind at hcb ⊢
    rcases h : c w evs with ⟨o, w', r⟩
    rw [h] at h1 h2 hcb
    cases o with
    | ok a =>
      have hm := (hf a).mono w' r
      rw [h2 fun t ht hl => hcb t (List.IsPrefix.trans ht hm) hl]
      exact (hf a).agree w' r fun t ht hl => hcb t ht (Nat.lt_of_le_of_lt h1.length_le hl)
    | exc e => rw [h2 hcb]
    | blocked => rw [h2 hcb]

theorem Sim.catch {cA c : Coro α} {fA f : Exc → Coro α} (hc : Sim cb cA c) (hf : ∀ a, Sim cb (fA a) (f a)) :
    Sim cb (Coro.catch_ cA fA) (Coro.catch_ c f) where
  mono w evs := by
    have h1 := hc.mono w evs
    unfold Coro.catch_
    rcases h : c w evs with ⟨o, w', r⟩
    rw [h] at h1
    cases o with
    | exc a => exact List.IsPrefix.trans h1 ((hf a).mono w' r)
    | ok e => exact h1
    | blocked => exact h1
  agree w evs hcb := by
    have h1 := hc.mono w evs
    have h2 := hc.agree w evs
    unfold Coro.catch_ at hcb ⊢
    rcases h : c w evs with ⟨o, w', r⟩
    rw [h] at h1 h2 hcb
    cases o with
    | exc a =>
      have hm := (hf a).mono w' r
      rw [h2 fun t ht hl => hcb t (List.IsPrefix.trans ht hm) hl]
      exact (hf a).agree w' r fun t ht hl => hcb t ht (Nat.lt_of_le_of_lt h1.length_le hl)
    | ok e => rw [h2 hcb]
    | blocked => rw [h2 hcb]

theorem Sim.finally {cA c : Coro α} {fA f : Coro Unit} (hc : Sim cb cA c) (hf : Sim cb fA f) :
    Sim cb (Coro.finally_ cA fA) (Coro.finally_ c f) := by
  rw [finally_eq, finally_eq]
  refine .bind (.catch (.bind hc fun _ => .pure _) fun e => .pure _) fun r => ?_
  cases r with
  | inl a => exact Sim.bind hf fun _ => .pure a
  | inr e => exact Sim.bind hf fun _ => .raise e

/-- The call of the callback. -/
theorem Sim.audit (o : Obs) : Sim cb (audit cb o) (Coro.upd (·.log o)) where
  mono w evs := List.prefix_append _ _
  agree w evs h := by
    have h1 : cb (w.trace ++ [o]) = none := h _ (List.prefix_refl _) (by simp)
    show raiseOpt (cb (w.trace ++ [o])) (w.log o) evs = _
    rw [h1]; rfl

theorem signalA_eq (sig : Option Nat) : Sim cb (signalA cb sig) (Coro.upd (·.signal false sig)) where
  mono w evs := (fstable_prefix w.trace).signal w sig (List.prefix_refl _)
  agree w evs h := by
    cases hp : w.proc with
    | none =>
      show Coro.when w.proc.isSome _ w evs = _
      rw [hp]
      simp only [Coro.upd, W.signal, hp]
      rfl
    | some p =>
      show Coro.when w.proc.isSome _ w evs = _
      rw [hp]
      have h1 : cb (w.trace ++ [.auditSignal false sig]) = none := by
        refine h _ ?_ (by simp)
        simp only [Coro.upd, W.signal, hp, W.log]
        split
        · exact List.prefix_append _ _
        · exact List.prefix_refl _
      show Coro.bind (fun w evs => raiseOpt (cb (w.log (.auditSignal false sig)).trace) (w.log (.auditSignal false sig)) evs)
        (fun _ => Coro.upd (·.sendSignal sig)) w evs = _
      simp only [W.log, Coro.bind, h1, raiseOpt, Coro.pure, Coro.upd, W.sendSignal, W.signal, hp]
      cases p.exited.isNone <;> rfl

theorem Sim.harvest (ids : List Nat) (t ct cf : Bool) : Sim cb (harvest ids t ct cf) (harvest ids t ct cf) :=
  .of fun t => (fstable_prefix t).harvest _ _ _ _

theorem Sim.createWaiter : Sim cb (createTask .waiter) (createTask .waiter) :=
  .of fun t => (fstable_prefix t).createTask (by simp)

theorem Sim.killWait : Sim cb (killWaitA cb) killWait := by
  unfold killWaitA Shellous.killWait killWaitTry
  exact .bind .get fun _ => .when (.catch (.bind (signalA_eq _) fun _ => .bind (.createWaiter) fun _ =>
    .harvest _ _ _ _) fun _ => .ite (.of fun t => (fstable_prefix t).killWaitExpired) (.raise _))

variable (cfg : RCfg)

theorem Sim.killTry : Sim cb (killTryA cb cfg) (killTry cfg) := by
  unfold killTryA Shellous.killTry
  refine .bind .get fun w => ?_
  refine .bind (.when (signalA_eq _)) fun _ => ?_
  refine .bind (.when (.harvest _ _ _ _)) fun _ => ?_
  refine .bind .get fun w => ?_
  exact .when (.bind (.createWaiter) fun _ => .harvest _ _ _ _)

theorem Sim.kill : Sim cb (killA cb cfg) (kill cfg) :=
  .catch (.killTry cfg) fun _ =>
    .ite (.bind (.when (.upd fun _ => List.prefix_refl _)) fun _ => .killWait)
      (.bind .killWait fun _ => .raise _)

theorem Sim.waitRun : Sim cb (waitRunA cb cfg) (waitRun cfg) :=
  .catch (.of fun t => (fstable_prefix t).toKStable.waitTry cfg) fun _ =>
    .ite (.bind (.upd fun _ => List.prefix_refl _) fun _ => .kill cfg)
      (.bind (.upd fun _ => List.prefix_refl _) fun _ => .bind (.kill cfg) fun _ => .raise _)

theorem Sim.finishTry (ex : Option Exc) : Sim cb (finishTryA cb cfg ex) (finishTry cfg ex) := by
  cases ex with
  | none => exact .bind (.waitRun cfg) fun _ => .pure _
  | some e =>
    exact .bind (.when (.upd fun _ => List.prefix_refl _)) fun _ => .bind (.kill cfg) fun _ =>
      .bind .get fun _ => .pure _

theorem Sim.closeRun : Sim cb (closeRun cfg) (closeRun cfg) :=
  .of fun t => RStable.closeRun ⟨(fstable_prefix t).toKStable, (fstable_prefix t).close⟩ cfg

/-- A change of the world followed by a call of the callback. -/
theorem Sim.stop (o : Obs) : Sim cb (do Coro.upd W.stopTimer; Shellous.audit cb o) (Coro.upd fun w => w.stopTimer.log o) where
  mono w evs := List.prefix_append _ _
  agree w evs h := (Sim.audit (cb := cb) o).agree w.stopTimer evs h

theorem Sim.aexit (ex : Option Exc) : Sim cb (aexitA cb cfg ex) (aexit cfg ex) :=
  .bind (.finally (.catch (.finally (.finishTry cfg ex) (.closeRun cfg)) fun _ =>
    .ite (.bind (.upd fun _ => List.prefix_refl _) fun _ => .pure _) (.raise _)) (.stop _)) fun _ =>
    .bind .get fun _ => .ite (.raise _) (.pure _)

theorem Sim.startRun : Sim cb (startRunA cb cfg) (startRun cfg) :=
  .bind (.catch (.of fun t => (fstable_prefix t).toLStable.startTry cfg) fun _ =>
    .bind (.when (.upd fun _ => List.prefix_refl _)) fun _ =>
    .bind .get fun _ => .bind (.when (.kill cfg)) fun _ => .raise _) fun _ =>
    .bind (.when (.of fun t => (fstable_prefix t).addTask (by simp))) fun _ => .when (.upd fun _ => List.prefix_refl _)

theorem Sim.stopRaise (o : Obs) (e : Exc) :
    Sim cb (do Coro.upd W.stopTimer; Shellous.audit cb o; Coro.raise e : Coro Unit)
      (do Coro.upd fun w => w.stopTimer.log o
          Coro.raise e) where
  mono w evs := List.prefix_append _ _
  agree w evs h := by
    have h1 : cb (w.trace ++ [o]) = none := h _ (List.prefix_refl _) (by simp)
    show Coro.bind (raiseOpt (cb (w.trace ++ [o]))) (fun _ => Coro.raise e) (w.stopTimer.log o) evs = _
    rw [h1]; rfl

theorem Sim.runResult : Sim cb (do let _ ← runResult cfg) (do let _ ← runResult cfg) :=
  .of fun _ => .bind (.runResult _ _) fun _ => .pure _

theorem Sim.aenter : Sim cb (aenterA cb cfg) (aenter cfg) :=
  .bind (.audit _) fun _ => .finally (.catch (.startRun cfg) fun _ => .stopRaise _ _)
    (.bind .get fun _ => .when (.runResult cfg))

theorem Sim.attempt {c : Coro Unit} (hc : Mono c) : Sim cb (attempt c) (attempt c) :=
  .same fun w evs => by
    have := hc w evs
    unfold Shellous.attempt
    rcases h : c w evs with ⟨o, w', r⟩
    rw [h] at this
    cases o <;> exact this

theorem Sim.withRun {body : Coro Unit} (hb : Mono body) : Sim cb (withRunA cb cfg body) (withRun cfg body) :=
  .bind (.aenter cfg) fun _ => .bind (.upd fun _ => List.prefix_append _ _) fun _ => .bind (.attempt hb) fun r =>
    .bind (.upd fun _ => List.prefix_append _ _) fun _ => .bind (.aexit cfg r) fun s => by
      cases r with
      | none => exact .pure _
      | some e => exact .ite (.pure _) (.raise _)

theorem Sim.runCommand (futErr : Option Exc) : Sim cb (runCommandA cb cfg futErr) (runCommand cfg futErr) :=
  .bind (.withRun cfg (.of fun _ => .raiseOpt _)) fun _ => .bind (.of fun _ => .runResult _ _) fun r =>
    .ite (.pure _) (by cases cfg.decode r.outputBytes r.encoding with
      | ok t => exact .pure _
      | error e => exact .raise _)

theorem mono_userBody : Mono userBody := by
  intro w evs
  show w.trace <+: (userBodyLoop w evs).2.1.trace
  induction evs generalizing w with
  | nil => exact List.prefix_refl _
  | cons ev evs ih =>
    cases ev
    case bodyDone e => cases e <;> exact List.prefix_refl _
    case bodyGotCancel =>
      show w.trace <+: (if w.mustCancel then userBodyLoop w.throwCancel evs else userBodyLoop w evs).2.1.trace
      split
      · exact List.IsPrefix.trans (List.prefix_append _ _) (ih w.throwCancel)
      · exact ih w
    all_goals exact List.IsPrefix.trans (env_prefix _ _ _) (ih _)

/-! ## Invariants -/

/-- Invariants that no step of a run with a callback that may raise can break. -/
structure AStable (I : W → Prop) : Prop extends KStable I where
  sig : ∀ w s, I w → I (w.log (.auditSignal false s))
  send : ∀ w s, I w → I (w.sendSignal s)

section inv
variable {I : W → Prop} (hI : AStable I)
include hI

theorem AStable.audit {o : Obs} (h : ∀ w, I w → I (w.log o)) : Pres I (audit cb o) :=
  .bind (.upd fun w hw => h w hw) fun _ => .bind .get fun _ => .raiseOpt _

theorem AStable.signalA (s : Option Nat) : Pres I (signalA cb s) :=
  .bind .get fun _ => .when (.bind (hI.audit fun w h => hI.sig w s h) fun _ => .upd fun w h => hI.send w s h)

theorem AStable.killWaitA : Pres I (killWaitA cb) := by
  refine .bind .get fun _ => .when (.catch ?_ fun e => .ite hI.killWaitExpired (.raise _))
  exact .bind (hI.signalA _) fun _ => .bind (hI.createTask (by simp)) fun _ => hI.harvest _ _ _ _

theorem AStable.killTryA : Pres I (killTryA cb cfg) := by
  unfold Shellous.killTryA
  refine .bind .get fun w => ?_
  refine .bind (.when (hI.signalA _)) fun _ => ?_
  refine .bind (.when (hI.harvest _ _ _ _)) fun _ => .bind .get fun _ => ?_
  exact .when (.bind (hI.createTask (by simp)) fun _ => hI.harvest _ _ _ _)

theorem AStable.killA : Pres I (killA cb cfg) :=
  .catch (hI.killTryA cfg) fun _ => .ite
    (.bind (.when (.upd fun w h => hI.setCancelled w h)) fun _ => hI.killWaitA)
    (.bind hI.killWaitA fun _ => .raise _)

theorem AStable.waitRunA : Pres I (waitRunA cb cfg) :=
  .catch (hI.waitTry cfg) fun _ => .ite
    (.bind (.upd fun w h => hI.mine _ _ (hI.setCancelled w h)) fun _ => hI.killA cfg)
    (.bind (.upd fun w h => hI.mine _ _ h) fun _ => .bind (hI.killA cfg) fun _ => .raise _)

theorem AStable.finishTryA (ex : Option Exc) : Pres I (finishTryA cb cfg ex) := by
  cases ex with
  | none => exact .bind (hI.waitRunA cfg) fun _ => .pure _
  | some e =>
    exact .bind (.when (.upd fun w h => hI.setCancelled w h)) fun _ => .bind (hI.killA cfg) fun _ =>
      .bind .get fun _ => .pure _

end inv

end Shellous
