import Verif.Lemmas.RunAll

/-!
# Invariants of a whole run, from its start and from every suspension point
-/

namespace Shellous

variable {α β : Type}

/-- Invariants that no step of a launch can break. -/
structure LStable (I : W → Prop) : Prop extends KStable I where
  spawn : ∀ (w : W), I w → I { w with tasks := w.tasks ++ [{ kind := .spawn }] }
  setTimer : ∀ (w : W) b, I w → I { w with timer := b }
  mark : ∀ w o, o.inner = false → I w → I (w.log o)

/-- Invariants that no step of a run can break. -/
structure FStable (I : W → Prop) : Prop extends LStable I where
  close : ∀ w, I w → I w.transportClose

section rules
variable {I : W → Prop}

theorem Pres.attempt {c : Coro Unit} (hc : Pres I c) : Pres I (attempt c) := by
  have : Shellous.attempt c = Coro.catch_ (Coro.bind c fun _ => Coro.pure none) fun e => Coro.pure (some e) := by
    funext w evs
    unfold Shellous.attempt Coro.catch_ Coro.bind
    simp only []
    rcases c w evs with ⟨o, w', r⟩
    cases o <;> rfl
  rw [this]
  exact .catch (Pres.bind hc fun _ => .pure _) fun _ => .pure _

variable (hI : LStable I)
include hI

theorem LStable.createSpawn : Pres I (createTask .spawn) :=
  .atomic (fun w => (.ok w.tasks.length, { w with tasks := w.tasks ++ [{ kind := .spawn }] })) (by simp)
    (fun _ _ => rfl) fun w h => hI.spawn w h

theorem LStable.uninterruptedSpawn : Pres I uninterruptedSpawn :=
  .bind hI.createSpawn fun _ => .catch (.bind (hI.wait _ _ _) fun _ => .bind (hI.taskResult _) fun _ => .pure _)
    fun _ => .ite (.bind .get fun _ => .bind (.when (.bind (hI.awaitTask _) fun _ => .pure _)) fun _ => .raise _) (.raise _)

theorem LStable.spawnStage (cfg : RCfg) : Pres I (spawnStage cfg) :=
  .bind (.when (.bind hI.sleep0 fun _ => .bind hI.sleep0 fun _ => .raiseOpt _)) fun _ =>
    .bind hI.sleep0 fun _ => .bind hI.uninterruptedSpawn fun _ => hI.addTasks _

theorem LStable.startTry (cfg : RCfg) : Pres I (startTry cfg) :=
  .bind (.raiseOpt _) fun _ => .bind (.catch (hI.spawnStage cfg) fun _ => .raise _) fun _ =>
    .bind (.raiseOpt _) fun _ => .bind (hI.addTasks _) fun _ => .raiseOpt _

theorem LStable.startRun (cfg : RCfg) : Pres I (startRun cfg) :=
  .bind (.catch (hI.startTry cfg) fun _ => .bind (.when (.upd fun w h => hI.setCancelled w h)) fun _ =>
    .bind .get fun _ => .bind (.when (hI.kill cfg)) fun _ => .raise _) fun _ =>
    .bind (.when (hI.addTask (by simp))) fun _ => .when (.upd fun w h => hI.setTimer w _ h)

theorem LStable.aenter (cfg : RCfg) : Pres I (aenter cfg) :=
  .bind (.upd fun w h => hI.mark w _ rfl h) fun _ => .finally
    (.catch (hI.startRun cfg) fun _ => .bind (.upd fun w h => hI.mark _ _ rfl (hI.setTimer w _ h)) fun _ => .raise _)
    (.bind .get fun _ => .when (.bind (.runResult _ _) fun _ => .pure _))

omit hI in
theorem userBodyLoop_goOn (w : W) (evs more : List Ev) :
    ((userBodyLoop w evs).1 = .blocked → (userBodyLoop w evs).2.2 = [] ∧
      userBodyLoop w (evs ++ more) = userBodyLoop (userBodyLoop w evs).2.1 more) ∧
    ((userBodyLoop w evs).1 ≠ .blocked → userBodyLoop w (evs ++ more) =
      ((userBodyLoop w evs).1, (userBodyLoop w evs).2.1, (userBodyLoop w evs).2.2 ++ more)) := by
  induction evs generalizing w with
  | nil => exact ⟨fun _ => ⟨rfl, rfl⟩, fun h => absurd rfl h⟩
  | cons ev evs ih =>
    rw [List.cons_append]
    cases ev
    case bodyDone e => cases e <;> exact ⟨fun h => (by cases h), fun _ => rfl⟩
    case bodyGotCancel =>
      have eq : ∀ evs, userBodyLoop w (.bodyGotCancel :: evs) =
        if w.mustCancel then userBodyLoop w.throwCancel evs else userBodyLoop w evs := fun _ => rfl
      rw [eq, eq]
      split
      · exact ih _
      · exact ih _
    all_goals exact ih _

theorem LStable.userBody : Pres I userBody := by
  have key : ∀ w evs, I w → I (userBodyLoop w evs).2.1 := by
    intro w evs
    induction evs generalizing w with
    | nil => exact id
    | cons ev evs ih =>
      intro h
      cases ev
      case bodyDone e => cases e <;> exact h
      case bodyGotCancel =>
        unfold userBodyLoop
        split
        · exact ih _ (hI.throw _ h)
        · exact ih _ h
      all_goals exact ih _ (hI.env _ _ _ h)
  refine ⟨fun w h evs => key w evs h, fun w evs => ⟨fun h => ((userBodyLoop_goOn w evs []).1 h).1,
    fun h more => (userBodyLoop_goOn w evs more).2 h⟩, fun w evs more hb hi => ?_⟩
  change I (userBodyLoop w (evs ++ more)).2.1
  rw [((userBodyLoop_goOn w evs more).1 hb).2]
  exact key _ _ hi

omit hI
variable (hF : FStable I)
include hF

theorem FStable.toRStable : RStable I := { hF.toLStable.toKStable with close := hF.close }

theorem FStable.aexit (cfg : RCfg) (ex : Option Exc) : Pres I (aexit cfg ex) :=
  .bind (.finally (.catch (hF.toRStable.finish cfg ex) fun _ => .ite
      (.bind (.upd fun w h => hF.setCancelled w h) fun _ => .pure _) (.raise _))
    (.upd fun w h => hF.mark _ _ rfl (hF.setTimer w _ h))) fun _ => .bind .get fun _ => .ite (.raise _) (.pure _)

theorem FStable.withRun (cfg : RCfg) {body : Coro Unit} (hb : Pres I body) : Pres I (withRun cfg body) := by
  refine .bind (hF.toLStable.aenter cfg) fun _ => .bind (.upd fun w h => hF.mark w _ rfl h) fun _ =>
    .bind (.attempt hb) fun r => .bind (.upd fun w h => hF.mark w _ rfl h) fun _ =>
    .bind (hF.aexit cfg r) fun b => ?_
  cases r with
  | none => exact .pure _
  | some e => exact .ite (.pure _) (.raise _)

theorem FStable.runCommand (cfg : RCfg) (futErr : Option Exc) : Pres I (runCommand cfg futErr) := by
  refine .bind (hF.withRun cfg (.raiseOpt _)) fun _ => .bind (.runResult _ _) fun r => .ite (.pure _) ?_
  split
  · exact .pure _
  · exact .raise _

end rules

end Shellous
