import Verif.Model.Harvest

/-!
# Reasoning about coroutines: weakest preconditions and what events can change
-/

namespace Shellous

variable {α β : Type}

/-- After running `c` from `w`, under any events, `R` holds of the outcome and the world. -/
def wp (c : Coro α) (R : Out α → W → Prop) (w : W) : Prop := ∀ evs, R (c w evs).1 (c w evs).2.1

theorem wp_mono {c : Coro α} {R R' : Out α → W → Prop} {w : W} (h : wp c R w)
    (hr : ∀ o w', R o w' → R' o w') : wp c R' w := fun evs => hr _ _ (h evs)

theorem wp_and {c : Coro α} {R R' : Out α → W → Prop} {w : W} (h : wp c R w) (h' : wp c R' w) :
    wp c (fun o w' => R o w' ∧ R' o w') w := fun evs => ⟨h evs, h' evs⟩

theorem wp_pure {a : α} {R : Out α → W → Prop} {w : W} (h : R (.ok a) w) : wp (Coro.pure a) R w :=
  fun _ => h

theorem wp_raise {e : Exc} {R : Out α → W → Prop} {w : W} (h : R (.exc e) w) :
    wp (Coro.raise e) R w := fun _ => h

theorem wp_get {R : Out W → W → Prop} {w : W} (h : R (.ok w) w) : wp Coro.get R w := fun _ => h

theorem wp_upd {f : W → W} {R : Out Unit → W → Prop} {w : W} (h : R (.ok ()) (f w)) :
    wp (Coro.upd f) R w := fun _ => h

theorem wp_when {b : Bool} {c : Coro Unit} {R : Out Unit → W → Prop} {w : W}
    (ht : b = true → wp c R w) (hf : b = false → R (.ok ()) w) : wp (Coro.when b c) R w := by
  cases b
  · exact wp_pure (hf rfl)
  · exact ht rfl

theorem wp_bind' {c : Coro α} {f : α → Coro β} {R : Out β → W → Prop} {w : W}
    (h : wp c (fun o w' => match o with
      | .ok a => wp (f a) R w'
      | .exc e => R (.exc e) w'
      | .blocked => R .blocked w') w) : wp (Coro.bind c f) R w := by
  intro evs
  have := h evs
  unfold Coro.bind
  rcases hc : c w evs with ⟨o, w', evs'⟩
  rw [hc] at this
  cases o with
  | ok a => exact this evs'
  | exc e => exact this
  | blocked => exact this

theorem wp_bind {c : Coro α} {f : α → Coro β} {R : Out β → W → Prop} {w : W}
    (h : wp c (fun o w' => match o with
      | .ok a => wp (f a) R w'
      | .exc e => R (.exc e) w'
      | .blocked => R .blocked w') w) : wp (c >>= f) R w := wp_bind' h

theorem wp_catch {c : Coro α} {f : Exc → Coro α} {R : Out α → W → Prop} {w : W}
    (h : wp c (fun o w' => match o with
      | .ok a => R (.ok a) w'
      | .exc e => wp (f e) R w'
      | .blocked => R .blocked w') w) : wp (Coro.catch_ c f) R w := by
  intro evs
  have := h evs
  unfold Coro.catch_
  rcases hc : c w evs with ⟨o, w', evs'⟩
  rw [hc] at this
  cases o with
  | ok a => exact this
  | exc e => exact this evs'
  | blocked => exact this

theorem wp_finally {c : Coro α} {f : Coro Unit} {R : Out α → W → Prop} {w : W}
    (h : wp c (fun o w' => match o with
      | .ok a => wp f (fun o' w'' => match o' with
          | .ok _ => R (.ok a) w''
          | .exc e => R (.exc e) w''
          | .blocked => R .blocked w'') w'
      | .exc e => wp f (fun o' w'' => match o' with
          | .ok _ => R (.exc e) w''
          | .exc e' => R (.exc e') w''
          | .blocked => R .blocked w'') w'
      | .blocked => R .blocked w') w) : wp (Coro.finally_ c f) R w := by
  intro evs
  have := h evs
  unfold Coro.finally_
  rcases hc : c w evs with ⟨o, w', evs'⟩
  rw [hc] at this
  cases o with
  | ok a =>
    refine wp_bind' (f := fun _ => Coro.pure a) ?_ evs'
    exact wp_mono this fun o w' h => by cases o <;> first | exact wp_pure h | exact h
  | exc e =>
    refine wp_bind' (f := fun _ => Coro.raise e) ?_ evs'
    exact wp_mono this fun o w' h => by cases o <;> first | exact wp_raise h | exact h
  | blocked => exact this

/-! ## Suspension -/

/-- `w'` can be reached from `w` by events while the caller is suspended. -/
inductive Envs (fwd : Option Nat) : W → W → Prop where
  | refl (w : W) : Envs fwd w w
  | step (w : W) (ev : Ev) (w' : W) : Envs fwd (w.env fwd ev) w' → Envs fwd w w'

theorem wp_waitLoop {fwd : Option Nat} {ready : W → Bool} {timed expired : Bool}
    {R : Out Unit → W → Prop} {w : W}
    (hexp : expired = true → timed = true)
    (hc : ∀ w', Envs fwd w w' → w'.mustCancel = true → R (.exc .cancelled) w'.throwCancel)
    (hr : ∀ w', Envs fwd w w' → w'.mustCancel = false → ready w' = true ∨ timed = true →
      R (.ok ()) w')
    (hb : ∀ w', Envs fwd w w' → R .blocked w') :
    wp (waitLoop fwd ready timed expired) R w := by
  intro evs
  induction evs generalizing w expired with
  | nil => unfold waitLoop; exact hb w (.refl w)
  | cons ev evs ih =>
    have step : ∀ ev, (∀ w', Envs fwd (w.env fwd ev) w' → Envs fwd w w') := fun ev w' h =>
      .step w ev w' h
    have ihw := fun {e} (he : e = true → timed = true) (ev : Ev) =>
      ih (w := w.env fwd ev) (expired := e) he
        (fun w' h => hc w' (step ev w' h)) (fun w' h => hr w' (step ev w' h))
        (fun w' h => hb w' (step ev w' h))
    have ihs := fun {e} (he : e = true → timed = true) => ih (w := w) (expired := e) he hc hr hb
    unfold waitLoop
    cases ev <;> simp only []
    case resume =>
      split
      · exact hc w (.refl w) ‹_›
      · rename_i hm
        split
        · rename_i h
          refine hr w (.refl w) (by simpa using hm) ?_
          cases hw : ready w with
          | true => exact .inl rfl
          | false => rw [hw] at h; exact .inr (hexp (by simpa using h))
        · exact ihs hexp
    case timeout =>
      refine ihs ?_
      intro h
      rw [Bool.or_eq_true] at h
      exact h.elim hexp id
    all_goals exact ihw hexp _

theorem wp_wait {fwd : Option Nat} {ready : W → Bool} {timed : Bool}
    {R : Out Unit → W → Prop} {w : W}
    (hc : ∀ w', Envs fwd w w' → w'.mustCancel = true → R (.exc .cancelled) w'.throwCancel)
    (hr : ∀ w', Envs fwd w w' → w'.mustCancel = false → ready w' = true ∨ timed = true →
      R (.ok ()) w')
    (hb : ∀ w', Envs fwd w w' → R .blocked w') : wp (wait ready timed fwd) R w :=
  wp_waitLoop (fun h => nomatch h) hc hr hb

/-! ## What events can change -/

/-- Something the user did, not the library. -/
def Obs.isUser : Obs → Bool
  | .auditSignal true _ => true
  | .kill true _ => true
  | _ => false

/-- Something that is neither an audit start/stop, nor a signal of the library, nor a step of
`Runner`. -/
def Obs.quiet : Obs → Bool
  | .auditSignal b _ => b
  | .kill b _ => b
  | .thrown => true
  | .gaveUp => true
  | .cleanupCancelled => true
  | _ => false

theorem Obs.quiet_of_isUser {o : Obs} (h : o.isUser = true) : o.quiet = true := by
  cases o <;> simp_all [isUser, quiet]
  all_goals (rename_i b _; cases b <;> simp_all)

/-- The trace grew by items satisfying `p`. -/
def Grew (p : Obs → Bool) (t t' : List Obs) : Prop := ∃ l, t' = t ++ l ∧ ∀ o ∈ l, p o = true

theorem Grew.refl {p : Obs → Bool} (t : List Obs) : Grew p t t := ⟨[], by simp, by simp⟩

theorem Grew.trans {p : Obs → Bool} {t t' t'' : List Obs} (h : Grew p t t') (h' : Grew p t' t'') :
    Grew p t t'' := by
  obtain ⟨l, rfl, hl⟩ := h
  obtain ⟨l', rfl, hl'⟩ := h'
  exact ⟨l ++ l', by simp, fun o ho => (List.mem_append.1 ho).elim (hl o) (hl' o)⟩

theorem Grew.mono {p q : Obs → Bool} {t t' : List Obs} (h : Grew p t t')
    (hpq : ∀ o, p o = true → q o = true) : Grew q t t' := by
  obtain ⟨l, rfl, hl⟩ := h
  exact ⟨l, rfl, fun o ho => hpq o (hl o ho)⟩

theorem Grew.one {p : Obs → Bool} {t : List Obs} {o : Obs} (h : p o = true) :
    Grew p t (t ++ [o]) := ⟨[o], rfl, by simpa using h⟩

/-- How a child process can evolve: what is known stays known. -/
structure ProcExt (p p' : Proc) : Prop where
  exited : ∀ c, p.exited = some c → p'.exited = some c
  reaped : ∀ c, p.reaped = some c → p'.reaped = some c
  rc : ∀ c, p.rc = some c → p'.rc = some c

theorem ProcExt.refl (p : Proc) : ProcExt p p := ⟨fun _ h => h, fun _ h => h, fun _ h => h⟩

theorem ProcExt.trans {p p' p'' : Proc} (h : ProcExt p p') (h' : ProcExt p' p'') : ProcExt p p'' :=
  ⟨fun c hc => h'.exited c (h.exited c hc), fun c hc => h'.reaped c (h.reaped c hc),
   fun c hc => h'.rc c (h.rc c hc)⟩

/-- How a task can evolve: its kind stays, a done task is frozen. -/
structure TaskExt (t t' : TaskSt) : Prop where
  kind : t'.kind = t.kind
  cancels : t.cancels ≤ t'.cancels
  out : t.out.isSome = true → t' = t

theorem TaskExt.refl (t : TaskSt) : TaskExt t t := ⟨rfl, Nat.le_refl _, fun _ => rfl⟩

theorem TaskExt.trans {t t' t'' : TaskSt} (h : TaskExt t t') (h' : TaskExt t' t'') :
    TaskExt t t'' :=
  ⟨h'.kind.trans h.kind, Nat.le_trans h.cancels h'.cancels, fun ho => by
    have := h.out ho; subst this; exact h'.out ho⟩

/-- How the world can change by events and by library code that does not touch the `Runner`'s fields. -/
structure Ext (w w' : W) : Prop where
  len : w.tasks.length ≤ w'.tasks.length
  task : ∀ (i : Nat) (t : TaskSt), w.tasks[i]? = some t → ∃ t', w'.tasks[i]? = some t' ∧ TaskExt t t'
  cancels : w.cancels ≤ w'.cancels
  mine : w'.mine = w.mine
  cancelled : w'.cancelled = w.cancelled
  timer : w'.timer = true → w.timer = true
  timedOut : w.timedOut = true → w'.timedOut = true
  timedOutBy : w'.timedOut = true → w.timedOut = true ∨ w.timer = true
  proc : ∀ p, w.proc = some p → ∃ p', w'.proc = some p' ∧ ProcExt p p'
  attached : w.attached = true → w'.attached = true
  trace : Grew Obs.quiet w.trace w'.trace

theorem Ext.refl (w : W) : Ext w w where
  len := Nat.le_refl _
  task _ t h := ⟨t, h, .refl t⟩
  cancels := Nat.le_refl _
  mine := rfl
  cancelled := rfl
  timer h := h
  timedOut h := h
  timedOutBy h := .inl h
  proc p h := ⟨p, h, .refl p⟩
  attached h := h
  trace := .refl _

theorem Ext.trans {w w' w'' : W} (h : Ext w w') (h' : Ext w' w'') : Ext w w'' where
  len := Nat.le_trans h.len h'.len
  task i t ht := by
    obtain ⟨t', ht', e⟩ := h.task i t ht
    obtain ⟨t'', ht'', e'⟩ := h'.task i t' ht'
    exact ⟨t'', ht'', e.trans e'⟩
  cancels := Nat.le_trans h.cancels h'.cancels
  mine := h'.mine.trans h.mine
  cancelled := h'.cancelled.trans h.cancelled
  timer ht := h.timer (h'.timer ht)
  timedOut ht := h'.timedOut (h.timedOut ht)
  timedOutBy ht := by
    rcases h'.timedOutBy ht with h1 | h1
    · exact h.timedOutBy h1
    · exact .inr (h.timer h1)
  proc p hp := by
    obtain ⟨p', hp', e⟩ := h.proc p hp
    obtain ⟨p'', hp'', e'⟩ := h'.proc p' hp'
    exact ⟨p'', hp'', e.trans e'⟩
  attached ha := h'.attached (h.attached ha)
  trace := h.trace.trans h'.trace

theorem Ext.isDone {w w' : W} (h : Ext w w') {i : Nat} (hd : w.isDone i = true) :
    w'.isDone i = true := by
  unfold W.isDone at *
  split at hd
  · rename_i t ht
    obtain ⟨t', ht', e⟩ := h.task i t ht
    rw [ht']
    rw [e.out hd]; exact hd
  · simp at hd

theorem Ext.outOf {w w' : W} (h : Ext w w') {i : Nat} {o : TOut} (hd : w.outOf i = some o) :
    w'.outOf i = some o := by
  unfold W.outOf at *
  split at hd
  · rename_i t ht
    obtain ⟨t', ht', e⟩ := h.task i t ht
    rw [ht']
    simp only []
    rw [e.out (by simp [hd])]; exact hd
  · simp at hd

theorem W.isDone_iff {w : W} {i : Nat} : w.isDone i = true ↔ ∃ o, w.outOf i = some o := by
  unfold W.isDone W.outOf
  split
  · exact Option.isSome_iff_exists
  · simp

theorem Ext.rcKnown {w w' : W} (h : Ext w w') (hr : w.rcKnown = true) : w'.rcKnown = true := by
  unfold W.rcKnown at *
  split at hr
  · rename_i p hp
    obtain ⟨p', hp', e⟩ := h.proc p hp
    rw [hp']
    obtain ⟨c, hc⟩ := Option.isSome_iff_exists.1 hr
    simp [e.rc c hc]
  · simp at hr

/-! ## Each event is an extension -/

theorem taskModify_ext {w : W} {i : Nat} {f : TaskSt → TaskSt} (hf : ∀ t, w.tasks[i]? = some t → TaskExt t (f t)) :
    Ext w { w with tasks := w.tasks.modify i f } where
  len := by simp
  task j t ht := by
    simp only [List.getElem?_modify, ht, Option.map_some, Option.map_eq_map]
    refine ⟨_, rfl, ?_⟩
    split
    · rename_i h; subst h; exact hf t ht
    · exact .refl t
  cancels := Nat.le_refl _
  mine := rfl
  cancelled := rfl
  timer h := h
  timedOut h := h
  timedOutBy h := .inl h
  proc p h := ⟨p, h, .refl p⟩
  attached h := h
  trace := .refl _

theorem TaskSt.cancel_ext (t : TaskSt) : TaskExt t t.cancel := by
  unfold TaskSt.cancel
  split
  · exact .refl t
  · rename_i h
    exact ⟨rfl, Nat.le_succ _, fun h' => absurd h' h⟩

theorem cancelTask_ext (w : W) (i : Nat) : Ext w (w.cancelTask i) :=
  taskModify_ext fun t _ => t.cancel_ext

theorem cancelAll_ext (ids : List Nat) (w : W) : Ext w (w.cancelAll ids) := by
  unfold W.cancelAll
  induction ids generalizing w with
  | nil => exact .refl w
  | cons i ids ih => exact (cancelTask_ext w i).trans (ih _)

theorem log_ext {w : W} {o : Obs} (h : o.quiet = true) : Ext w (w.log o) :=
  { Ext.refl w with trace := Grew.one h }

theorem throwCancel_ext (w : W) : Ext w w.throwCancel :=
  { Ext.refl w with trace := Grew.one rfl }

theorem createTask_ext (w : W) (k : TaskKind) : Ext w { w with tasks := w.tasks ++ [{ kind := k }] } :=
  { Ext.refl w with
    len := by simp
    task := fun i t ht => ⟨t, by
      rw [List.getElem?_append_left]
      · exact ht
      · exact (List.getElem?_eq_some_iff.1 ht).1, .refl t⟩ }

theorem setOut_ext {w : W} {i : Nat} {t : TaskSt} {o : TOut} (ht : w.tasks[i]? = some t)
    (hn : t.out.isNone = true) : Ext w (w.setOut i o) :=
  taskModify_ext fun t' ht' => by
    rw [ht] at ht'; cases ht'
    refine ⟨rfl, Nat.le_refl _, fun h => ?_⟩
    rw [Option.isNone_iff_eq_none] at hn
    rw [hn] at h; simp at h

theorem endEffect_ext (w : W) (k : TaskKind) (o : TOut) : Ext w (w.endEffect k o) := by
  unfold W.endEffect
  split
  · exact { Ext.refl w with timer := fun h => by simp [W.stopTimer] at h }
  · split
    · exact { Ext.refl w with attached := fun _ => rfl }
    · exact .refl w
  · exact .refl w

theorem endEffect_tasks (w : W) (k : TaskKind) (o : TOut) : (w.endEffect k o).tasks = w.tasks := by
  unfold W.endEffect; split <;> (try split) <;> rfl

theorem cancelCaller_ext (fwd : Option Nat) (w : W) : Ext w (w.cancelCaller fwd) := by
  have base : ∀ b, Ext w { w with mustCancel := b, cancels := w.cancels + 1 } := fun b =>
    { Ext.refl w with cancels := Nat.le_succ _ }
  unfold W.cancelCaller
  split
  · split
    · exact base _
    · exact (base w.mustCancel).trans (cancelTask_ext _ _)
  · exact base _

theorem signalReaps_ext (p : Proc) : ProcExt p p.signalReaps := by
  unfold Proc.signalReaps
  split
  · rename_i h
    exact ⟨fun _ h => h, fun c hc => (by rw [h] at hc; cases hc), fun _ h => h⟩
  · exact .refl p

theorem signal_ext (w : W) (sig : Option Nat) : Ext w (w.signal true sig) := by
  unfold W.signal
  split
  · exact .refl w
  · rename_i p hp
    simp only []
    have h1 : Ext w (w.log (.auditSignal true sig)) := log_ext rfl
    have h2 : Ext w (if p.exited.isNone = true then (w.log (.auditSignal true sig)).log (.kill true sig)
        else w.log (.auditSignal true sig)) := by
      split
      · exact h1.trans (log_ext rfl)
      · exact h1
    refine { h2 with proc := ?_ }
    intro p' hp'
    rw [hp] at hp'; cases hp'
    exact ⟨_, rfl, signalReaps_ext p⟩

theorem env_ext (fwd : Option Nat) (w : W) (ev : Ev) : Ext w (w.env fwd ev) := by
  have procUpd : ∀ (p p' : Proc), w.proc = some p → ProcExt p p' → Ext w { w with proc := some p' } :=
    fun p p' hp h => { Ext.refl w with
      proc := fun q hq => by rw [hp] at hq; cases hq; exact ⟨p', rfl, h⟩ }
  cases ev <;> unfold W.env <;> simp only []
  case taskDone i out =>
    split
    · exact .refl w
    · rename_i t ht
      split
      · rename_i h
        rw [Bool.and_eq_true] at h
        exact (endEffect_ext w _ _).trans (setOut_ext (by rw [endEffect_tasks]; exact ht) h.1)
      · exact .refl w
  case taskDrop i =>
    split
    · exact .refl w
    · rename_i t ht
      split
      · rename_i h
        simp only [Bool.and_eq_true] at h
        exact setOut_ext ht h.1.1
      · exact .refl w
  case fork =>
    split
    · rename_i h
      rw [Bool.and_eq_true, Option.isNone_iff_eq_none] at h
      exact { Ext.refl w with proc := fun p hp => by rw [h.2] at hp; cases hp }
    · exact .refl w
  case exit c =>
    split
    · rename_i p hp
      split
      · rename_i h
        rw [Option.isNone_iff_eq_none] at h
        exact procUpd p _ hp ⟨fun c hc => (by rw [h] at hc; cases hc), fun _ h => h, fun _ h => h⟩
      · exact .refl w
    · exact .refl w
  case reap =>
    split
    · rename_i p hp
      split
      · rename_i h
        exact procUpd p _ hp ⟨fun _ h => h, fun c hc => (by rw [h] at hc; cases hc), fun _ h => h⟩
      · exact .refl w
    · exact .refl w
  case reapLost =>
    split
    · rename_i p hp
      split
      · rename_i h
        exact procUpd p _ hp ⟨fun _ h => h, fun c hc => (by rw [h] at hc; cases hc), fun _ h => h⟩
      · exact .refl w
    · exact .refl w
  case deliver =>
    split
    · rename_i p hp
      split
      · rename_i h
        exact procUpd p _ hp ⟨fun _ h => h, fun _ h => h, fun c hc => (by rw [h] at hc; cases hc)⟩
      · exact .refl w
    · exact .refl w
  case cancel => exact cancelCaller_ext fwd w
  case timer =>
    split
    · rename_i h
      exact Ext.trans (w' := { w with timedOut := true, timer := false })
        { Ext.refl w with
          timer := fun h => (by cases h)
          timedOut := fun _ => rfl
          timedOutBy := fun _ => .inr h } (cancelCaller_ext fwd _)
    · exact .refl w
  case userSignal sig =>
    split
    · exact signal_ext w sig
    · exact .refl w
  all_goals exact .refl w

theorem Envs.ext {fwd : Option Nat} {w w' : W} (h : Envs fwd w w') : Ext w w' := by
  induction h with
  | refl w => exact .refl w
  | step w ev w' _ ih => exact (env_ext fwd w ev).trans ih

/-- What events do while the caller is not directly awaiting a task: additionally, no task is
created or asked to cancel, a cancellation of the caller stays pending, a firing timer cancels. -/
structure Quiet (w w' : W) : Prop extends Ext w w' where
  lenEq : w'.tasks.length = w.tasks.length
  same : ∀ (i : Nat) (t : TaskSt), w.tasks[i]? = some t → ∃ t', w'.tasks[i]? = some t' ∧ t'.cancels = t.cancels
  must : w.mustCancel = true → w'.mustCancel = true
  lost : w'.mustCancel = false → w'.cancels = w.cancels
  timed : w'.cancels = w.cancels → w'.timedOut = w.timedOut
  user : Grew Obs.isUser w.trace w'.trace

theorem Quiet.refl (w : W) : Quiet w w :=
  { Ext.refl w with
    lenEq := rfl
    same := fun i t ht => ⟨t, ht, rfl⟩
    must := fun h => h
    lost := fun _ => rfl
    timed := fun _ => rfl
    user := .refl _ }

theorem Quiet.trans {w w' w'' : W} (h : Quiet w w') (h' : Quiet w' w'') : Quiet w w'' :=
  { h.toExt.trans h'.toExt with
    lenEq := h'.lenEq.trans h.lenEq
    same := fun i t ht => by
      obtain ⟨t', ht', e⟩ := h.same i t ht
      obtain ⟨t'', ht'', e'⟩ := h'.same i t' ht'
      exact ⟨t'', ht'', e'.trans e⟩
    must := fun hm => h'.must (h.must hm)
    lost := fun hm => by
      have h1 := h'.lost hm
      by_cases hw : w'.mustCancel = true
      · rw [h'.must hw] at hm; cases hm
      · rw [h1, h.lost (by simpa using hw)]
    timed := fun hc => by
      have h1 := h.toExt.cancels
      have h2 := h'.toExt.cancels
      rw [h'.timed (by omega), h.timed (by omega)]
    user := h.user.trans h'.user }

theorem env_quiet (w : W) (ev : Ev) : Quiet w (w.env none ev) := by
  have hx := env_ext none w ev
  have sameSet : ∀ (w1 : W) i o, w1.tasks = w.tasks → ∀ (j : Nat) (t : TaskSt), w.tasks[j]? = some t →
      ∃ t', (w1.setOut i o).tasks[j]? = some t' ∧ t'.cancels = t.cancels := by
    intro w1 i o h1 j t ht
    simp only [W.setOut, h1, List.getElem?_modify, ht, Option.map_some, Option.map_eq_map]
    refine ⟨_, rfl, ?_⟩
    split <;> rfl
  have idn : ∀ (j : Nat) (t : TaskSt), w.tasks[j]? = some t → ∃ t', w.tasks[j]? = some t' ∧ t'.cancels = t.cancels :=
    fun j t ht => ⟨t, ht, rfl⟩
  have eff : ∀ k o, (w.endEffect k o).mustCancel = w.mustCancel ∧ (w.endEffect k o).cancels = w.cancels ∧
      (w.endEffect k o).timedOut = w.timedOut ∧ (w.endEffect k o).trace = w.trace := by
    intro k o
    unfold W.endEffect W.stopTimer
    split <;> (try split) <;> exact ⟨rfl, rfl, rfl, rfl⟩
  cases ev <;> unfold W.env at hx ⊢ <;> simp only [] at hx ⊢
  case taskDone i out =>
    split at hx
    · exact .refl w
    · rename_i t ht
      split at hx
      · rename_i h
        simp only [h, if_true]
        obtain ⟨e1, e2, e3, e4⟩ := eff t.kind out.norm
        exact { hx with
          lenEq := by simp [W.setOut, endEffect_tasks]
          same := sameSet _ _ _ (endEffect_tasks ..)
          must := fun h => by simpa [W.setOut, e1] using h
          lost := fun _ => by simp [W.setOut, e2]
          timed := fun _ => by simp [W.setOut, e3]
          user := by simp only [W.setOut, e4]; exact .refl _ }
      · rename_i h
        simp only [h]
        exact .refl w
  case taskDrop i =>
    split at hx
    · exact .refl w
    · rename_i t ht
      split at hx
      · rename_i h
        simp only [h, if_true]
        exact { hx with
          lenEq := by simp [W.setOut]
          same := sameSet _ _ _ rfl
          must := fun h => h
          lost := fun _ => rfl
          timed := fun _ => rfl
          user := .refl _ }
      · rename_i h
        simp only [h]
        exact .refl w
  case fork =>
    split at hx
    · rename_i h
      simp only [h, if_true]
      exact { hx with lenEq := rfl, same := idn, must := fun h => h, lost := fun _ => rfl,
                      timed := fun _ => rfl, user := .refl _ }
    · rename_i h
      simp only [h]
      exact .refl w
  case cancel =>
    simp only [W.cancelCaller] at hx ⊢
    exact { hx with
      lenEq := rfl, same := idn, must := fun _ => rfl, lost := fun h => by simp at h,
      timed := fun h => by simp at h, user := .refl _ }
  case timer =>
    split at hx
    · rename_i h
      simp only [h, if_true, W.cancelCaller] at hx ⊢
      exact { hx with
        lenEq := rfl, same := idn, must := fun _ => rfl, lost := fun h => by simp at h,
        timed := fun h => by simp at h, user := .refl _ }
    · rename_i h
      simp only [h]
      exact .refl w
  case userSignal sig =>
    split at hx
    · rename_i h
      simp only [h, if_true]
      unfold W.signal at hx ⊢
      split at hx
      · exact .refl w
      · rename_i p hp
        simp only [W.log] at hx ⊢
        cases hq : p.exited.isNone <;> simp only [hq, if_true, Bool.false_eq_true, if_false] at hx ⊢
        · exact { hx with lenEq := rfl, same := idn, must := fun h => h, lost := fun _ => rfl,
                          timed := fun _ => rfl, user := Grew.one rfl }
        · exact { hx with lenEq := rfl, same := idn, must := fun h => h, lost := fun _ => rfl,
                          timed := fun _ => rfl, user := Grew.trans (Grew.one rfl) (Grew.one rfl) }
    · rename_i h
      simp only [h]
      exact .refl w
  case exit c =>
    cases hp : w.proc with
    | none => exact .refl w
    | some p =>
      simp only [hp] at hx ⊢
      split at hx
      · rename_i h
        simp only [h, if_true]
        exact { hx with lenEq := rfl, same := idn, must := fun h => h, lost := fun _ => rfl,
                        timed := fun _ => rfl, user := .refl _ }
      · rename_i h
        simp only [h]
        exact .refl w
  case reap =>
    cases hp : w.proc with
    | none => exact .refl w
    | some p =>
      simp only [hp] at hx ⊢
      split at hx
      · exact { hx with lenEq := rfl, same := idn, must := fun h => h, lost := fun _ => rfl,
                        timed := fun _ => rfl, user := .refl _ }
      · exact .refl w
  case reapLost =>
    cases hp : w.proc with
    | none => exact .refl w
    | some p =>
      simp only [hp] at hx ⊢
      split at hx
      · exact { hx with lenEq := rfl, same := idn, must := fun h => h, lost := fun _ => rfl,
                        timed := fun _ => rfl, user := .refl _ }
      · exact .refl w
  case deliver =>
    cases hp : w.proc with
    | none => exact .refl w
    | some p =>
      simp only [hp] at hx ⊢
      split at hx
      · exact { hx with lenEq := rfl, same := idn, must := fun h => h, lost := fun _ => rfl,
                        timed := fun _ => rfl, user := .refl _ }
      · exact .refl w
  all_goals exact .refl w

theorem Envs.quiet {w w' : W} (h : Envs none w w') : Quiet w w' := by
  induction h with
  | refl w => exact .refl w
  | step w ev w' _ ih => exact (env_quiet w ev).trans ih

end Shellous
