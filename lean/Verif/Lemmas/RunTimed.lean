import Verif.Lemmas.RunTrace

/-!
# Schedules in which no timer of a wait fires

Then it does not matter whether the waits had a timeout.
-/

namespace Shellous

variable {α β : Type}

/-- Two coroutines that do the same unless a timer of a wait fires. -/
def Same (c c' : Coro α) : Prop := ∀ w evs, .timeout ∉ evs →
  c w evs = c' w evs ∧ .timeout ∉ (c w evs).2.2

theorem Same.atomic {c : Coro α} (hc : ∀ w evs, (c w evs).2.2 = evs) : Same c c :=
  fun w evs h => ⟨rfl, by rw [hc]; exact h⟩

theorem Same.pure (a : α) : Same (Coro.pure a) (Coro.pure a) := .atomic fun _ _ => rfl
theorem Same.raise (e : Exc) : Same (Coro.raise e : Coro α) (Coro.raise e) := .atomic fun _ _ => rfl
theorem Same.get : Same Coro.get Coro.get := .atomic fun _ _ => rfl
theorem Same.upd (f : W → W) : Same (Coro.upd f) (Coro.upd f) := .atomic fun _ _ => rfl
theorem Same.createTask (k : TaskKind) : Same (createTask k) (createTask k) := .atomic fun _ _ => rfl
theorem Same.taskResult (i : Nat) : Same (taskResult i) (taskResult i) := .atomic fun w evs => by
  unfold Shellous.taskResult
  split <;> rfl

theorem Same.when {b : Bool} {c c' : Coro Unit} (h : Same c c') : Same (Coro.when b c) (Coro.when b c') := by
  cases b
  · exact Same.pure ()
  · exact h

theorem Same.ite {p : Prop} [Decidable p] {c d c' d' : Coro α} (h : Same c c') (h' : Same d d') :
    Same (if p then c else d) (if p then c' else d') := by
  split
  · exact h
  · exact h'

theorem Same.bind {c c' : Coro α} {f f' : α → Coro β} (hc : Same c c') (hf : ∀ a, Same (f a) (f' a)) :
    Same (c >>= f) (c' >>= f') := by
  intro w evs hn
  obtain ⟨h1, h2⟩ := hc w evs hn
  change Coro.bind c f w evs = Coro.bind c' f' w evs ∧ _ ∉ (Coro.bind c f w evs).2.2
  unfold Coro.bind
  rw [← h1]
  rcases h : c w evs with ⟨o, w', r⟩
  rw [h] at h2
  cases o with
  | ok a => exact hf a w' r h2
  | exc e => exact ⟨rfl, h2⟩
  | blocked => exact ⟨rfl, h2⟩

theorem Same.catch {c c' : Coro α} {f f' : Exc → Coro α} (hc : Same c c') (hf : ∀ a, Same (f a) (f' a)) :
    Same (Coro.catch_ c f) (Coro.catch_ c' f') := by
  intro w evs hn
  obtain ⟨h1, h2⟩ := hc w evs hn
  unfold Coro.catch_
  rw [← h1]
  rcases h : c w evs with ⟨o, w', r⟩
  rw [h] at h2
  cases o with
  | exc a => exact hf a w' r h2
  | ok e => exact ⟨rfl, h2⟩
  | blocked => exact ⟨rfl, h2⟩

theorem Same.finally {c c' : Coro α} {f f' : Coro Unit} (hc : Same c c') (hf : Same f f') :
    Same (Coro.finally_ c f) (Coro.finally_ c' f') := by
  rw [finally_eq, finally_eq]
  refine .bind (.catch (.bind hc fun _ => .pure _) fun e => .pure _) fun r => ?_
  cases r with
  | inl a => exact Same.bind hf fun _ => .pure a
  | inr e => exact Same.bind hf fun _ => .raise e

theorem waitLoop_same (fwd : Option Nat) (ready : W → Bool) (t t' exp : Bool) (w : W) (evs : List Ev)
    (h : .timeout ∉ evs) : waitLoop fwd ready t exp w evs = waitLoop fwd ready t' exp w evs ∧
      .timeout ∉ (waitLoop fwd ready t exp w evs).2.2 := by
  induction evs generalizing exp w with
  | nil => exact ⟨rfl, h⟩
  | cons ev evs ih =>
    have hn : .timeout ∉ evs := fun hm => h (by simp [hm])
    cases ev
    case resume =>
      unfold waitLoop
      split
      · exact ⟨rfl, hn⟩
      · split
        · exact ⟨rfl, hn⟩
        · exact ih _ _ hn
    case timeout => simp at h
    all_goals exact ih _ _ hn

theorem Same.wait {ready : W → Bool} {fwd : Option Nat} (t t' : Bool) :
    Same (wait ready t fwd) (wait ready t' fwd) := fun w evs h => waitLoop_same fwd ready t t' false w evs h

theorem Same.asyncWait (ids : List Nat) (t t' fe : Bool) : Same (asyncWait ids t fe) (asyncWait ids t' fe) :=
  .ite (.raise _) (.wait _ _)

theorem Same.cancelWaiter (ids : List Nat) (t t' : Bool) : Same (cancelWaiter ids t) (cancelWaiter ids t') :=
  .bind (.asyncWait _ _ _ _) fun _ => .bind .get fun _ => .ite (.bind (.upd _) fun _ => .raise _) (.pure _)

theorem Same.cancelWait (ids : List Nat) (t t' cf : Bool) : Same (cancelWait ids t cf) (cancelWait ids t' cf) :=
  .catch (.bind (.when (.upd _)) fun _ => .cancelWaiter _ _ _) fun _ =>
    .ite (.bind (.upd _) fun _ => .cancelWaiter _ _ _) (.raise _)

theorem Same.consume (ids : List Nat) : Same (consumeExceptions ids) (consumeExceptions ids) :=
  .bind .get fun _ => .ite (.pure _) (.raise _)

theorem Same.harvestWait (ids : List Nat) (t t' ct ct' cf : Bool) :
    Same (harvestWait ids t ct cf) (harvestWait ids t' ct' cf) :=
  .bind (.catch (.bind (.asyncWait _ _ _ _) fun _ => .bind .get fun _ => .pure _) fun _ =>
    .ite (.bind (.cancelWait _ _ _ _) fun _ => .bind (.consume _) fun _ => .raise _) (.raise _)) fun _ =>
  .bind (.when (.cancelWait _ _ _ _)) fun _ => .bind .get fun _ =>
    .ite (.raise _) (.ite (.bind (.consume _) fun _ => .raise _) (.pure _))

theorem Same.raiseFirst (ids : List Nat) : Same (raiseFirst ids) (raiseFirst ids) := by
  induction ids with
  | nil => exact .pure _
  | cons i ids ih =>
    exact .bind .get fun _ => .ite ih (.bind (.taskResult _) fun _ => ih)

theorem Same.harvest (ids : List Nat) (t t' ct ct' cf : Bool) : Same (harvest ids t ct cf) (harvest ids t' ct' cf) :=
  .bind (.harvestWait _ _ _ _ _ _) fun _ => .bind (.consume _) fun _ => .raiseFirst ids

theorem Same.killWait : Same killWait killWait :=
  .bind .get fun _ => .when (.catch (.bind (.upd _) fun _ => .bind (.createTask _) fun _ => .harvest _ _ _ _ _ _)
    fun _ => .ite (.bind .get fun _ => .ite (.upd _) (.bind (.upd _) fun _ => .raise _)) (.raise _))

section
variable (cfg : RCfg) (b : Bool)

theorem Same.kill : Same (kill cfg) (kill { cfg with cancelTimed := b }) :=
  .catch (.bind .get fun _ => .bind (.when (.upd _)) fun _ => .bind (.when (.harvest _ _ _ _ _ _)) fun _ =>
      .bind .get fun _ => .when (.bind (.createTask _) fun _ => .harvest _ _ _ _ _ _)) fun _ =>
    .ite (.bind (.when (.upd _)) fun _ => .killWait) (.bind .killWait fun _ => .raise _)

theorem Same.waitRun : Same (waitRun cfg) (waitRun { cfg with cancelTimed := b }) :=
  .catch (.bind .get fun _ => .bind (.when (.harvest _ _ _ _ _ _)) fun _ => .when (.finally (.bind (.upd _) fun _ => .bind .get fun _ => .when (.wait _ _)) (.upd _))) fun _ =>
    .ite (.bind (.upd _) fun _ => .kill cfg b) (.bind (.upd _) fun _ => .bind (.kill cfg b) fun _ => .raise _)

theorem Same.closeRun : Same (closeRun cfg) (closeRun { cfg with cancelTimed := b }) :=
  .bind (.upd _) fun _ => .bind .get fun _ => .ite (.upd _)
    (.when (.catch (.bind (.createTask _) fun _ => .harvest _ _ _ _ _ _) fun _ => .ite (.upd _) (.raise _)))

theorem Same.finishTry (ex : Option Exc) : Same (finishTry cfg ex) (finishTry { cfg with cancelTimed := b } ex) := by
  cases ex with
  | none => exact .bind (.waitRun cfg b) fun _ => .pure _
  | some e => exact .bind (.when (.upd _)) fun _ => .bind (.kill cfg b) fun _ => .bind .get fun _ => .pure _

theorem Same.aexit (ex : Option Exc) : Same (aexit cfg ex) (aexit { cfg with cancelTimed := b } ex) :=
  .bind (.finally (.catch (.finally (.finishTry cfg b ex) (.closeRun cfg b)) fun _ =>
    .ite (.bind (.upd _) fun _ => .pure _) (.raise _)) (.upd _)) fun _ =>
    .bind .get fun _ => .ite (.raise _) (.pure _)

theorem Same.raiseOpt (e : Option Exc) : Same (raiseOpt e) (raiseOpt e) := by
  cases e with
  | none => exact .pure _
  | some e => exact .raise e

theorem Same.runResult (check : Bool) : Same (runResult cfg check) (runResult { cfg with cancelTimed := b } check) :=
  .bind .get fun w => by
    generalize runnerResult _ _ _ = r
    cases r with
    | ok r => exact .pure _
    | error e => exact .raise _

theorem Same.addTask (k : TaskKind) : Same (addTask k) (addTask k) := .bind (.createTask _) fun _ => .upd _

theorem Same.addTasks (n : Nat) : Same (addTasks n) (addTasks n) := by
  induction n with
  | zero => exact .pure _
  | succ n ih => exact .bind (.addTask _) fun _ => ih

theorem Same.awaitTask (i : Nat) : Same (awaitTask i) (awaitTask i) :=
  .bind .get fun _ => .bind (.when (.wait _ _)) fun _ => .bind .get fun _ => .bind (.when (.upd _)) fun _ => .taskResult i

theorem Same.uninterruptedSpawn : Same uninterruptedSpawn uninterruptedSpawn :=
  .bind (.createTask _) fun _ => .catch (.bind (.wait _ _) fun _ => .bind (.taskResult _) fun _ => .pure _) fun _ =>
    .ite (.bind .get fun _ => .bind (.when (.bind (.awaitTask _) fun _ => .pure _)) fun _ => .raise _) (.raise _)

theorem Same.spawnStage : Same (spawnStage cfg) (spawnStage { cfg with cancelTimed := b }) :=
  .bind (.when (.bind (.wait _ _) fun _ => .bind (.wait _ _) fun _ => .raiseOpt _)) fun _ =>
    .bind (.wait _ _) fun _ => .bind .uninterruptedSpawn fun _ => .addTasks _

theorem Same.startTry : Same (startTry cfg) (startTry { cfg with cancelTimed := b }) :=
  .bind (.raiseOpt _) fun _ => .bind (.catch (.spawnStage cfg b) fun _ => .raise _) fun _ => .bind (.raiseOpt _) fun _ =>
    .bind (.addTasks _) fun _ => .raiseOpt _

theorem Same.startRun : Same (startRun cfg) (startRun { cfg with cancelTimed := b }) :=
  .bind (.catch (.startTry cfg b) fun _ => .bind (.when (.upd _)) fun _ => .bind .get fun _ =>
    .bind (.when (.kill cfg b)) fun _ => .raise _) fun _ => .bind (.when (.addTask _)) fun _ => .when (.upd _)

theorem Same.aenter : Same (aenter cfg) (aenter { cfg with cancelTimed := b }) :=
  .bind (.upd _) fun _ => .finally (.catch (.startRun cfg b) fun _ => .bind (.upd _) fun _ => .raise _)
    (.bind .get fun _ => .when (.bind (.runResult cfg b true) fun _ => .pure _))

theorem Same.attempt {c c' : Coro Unit} (h : Same c c') : Same (attempt c) (attempt c') := by
  intro w evs hn
  obtain ⟨h1, h2⟩ := h w evs hn
  unfold Shellous.attempt
  rw [← h1]
  rcases h : c w evs with ⟨o, w', r⟩
  rw [h] at h2
  cases o <;> exact ⟨rfl, h2⟩

theorem Same.withRun {body : Coro Unit} (h : Same body body) :
    Same (withRun cfg body) (withRun { cfg with cancelTimed := b } body) :=
  .bind (.aenter cfg b) fun _ => .bind (.upd _) fun _ => .bind (.attempt h) fun r => .bind (.upd _) fun _ =>
    .bind (.aexit cfg b r) fun s => by
      cases r with
      | none => exact .pure _
      | some e => exact .ite (.pure _) (.raise _)

theorem Same.userBody : Same userBody userBody := by
  intro w evs hn
  refine ⟨rfl, ?_⟩
  change _ ∉ (userBodyLoop w evs).2.2
  induction evs generalizing w with
  | nil => exact hn
  | cons ev evs ih =>
    have hn' : .timeout ∉ evs := fun hm => hn (by simp [hm])
    cases ev
    case bodyDone e => cases e <;> exact hn'
    case bodyGotCancel =>
      unfold userBodyLoop
      split
      · exact ih _ hn'
      · exact ih _ hn'
    all_goals exact ih _ hn'

theorem Same.runCommand (f : Option Exc) : Same (runCommand cfg f) (runCommand { cfg with cancelTimed := b } f) :=
  .bind (.withRun cfg b (.raiseOpt f)) fun _ => .bind (.runResult cfg b true) fun r =>
    .ite (.pure _) (by
      simp only []
      split
      · exact .pure _
      · exact .raise _)

theorem execute_untimed (how : How) (w : W) (evs : List Ev) (h : .timeout ∉ evs) :
    execute how cfg w evs = execute how { cfg with cancelTimed := b } w evs := by
  cases how with
  | block => simp only [execute, ((Same.withRun cfg b .userBody) w evs h).1]
  | await f => simp only [execute, ((Same.runCommand cfg b f) w evs h).1]

end

end Shellous
