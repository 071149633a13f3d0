import Verif.Lemmas.Inv
import Verif.Lemmas.HarvestSplit

/-!
# What the steps of `Runner` after the launch do
-/

namespace Shellous

variable {α β : Type}

/-! ## How a run changes the world -/

/-- How the inside of a run can change the world. -/
structure RExt (w w' : W) : Prop where
  len : w.tasks.length ≤ w'.tasks.length
  task : ∀ (i : Nat) (t : TaskSt), w.tasks[i]? = some t → ∃ t', w'.tasks[i]? = some t' ∧ TaskExt t t'
  cancels : w.cancels ≤ w'.cancels
  cancelled : w.cancelled = true → w'.cancelled = true
  timer : w'.timer = true → w.timer = true
  timedOut : w.timedOut = true → w'.timedOut = true
  timedOutBy : w'.timedOut = true → w.timedOut = true ∨ w.timer = true
  proc : ∀ p, w.proc = some p → ∃ p', w'.proc = some p' ∧ ProcExt p p'
  attached : w.attached = true → w'.attached = true
  trace : Grew Obs.inner w.trace w'.trace

theorem RExt.refl (w : W) : RExt w w where
  len := Nat.le_refl _
  task _ t h := ⟨t, h, .refl t⟩
  cancels := Nat.le_refl _
  cancelled h := h
  timer h := h
  timedOut h := h
  timedOutBy h := .inl h
  proc p h := ⟨p, h, .refl p⟩
  attached h := h
  trace := .refl _

theorem RExt.trans {w w' w'' : W} (h : RExt w w') (h' : RExt w' w'') : RExt w w'' where
  len := Nat.le_trans h.len h'.len
  task i t ht := by
    obtain ⟨t', ht', e⟩ := h.task i t ht
    obtain ⟨t'', ht'', e'⟩ := h'.task i t' ht'
    exact ⟨t'', ht'', e.trans e'⟩
  cancels := Nat.le_trans h.cancels h'.cancels
  cancelled ht := h'.cancelled (h.cancelled ht)
  timer ht := h.timer (h'.timer ht)
  timedOut ht := h'.timedOut (h.timedOut ht)
  timedOutBy ht := by
    rcases h'.timedOutBy ht with h1 | h1
    · exact h.timedOutBy h1
    · exact .inr (h.timer h1)
  proc p hp := by
    obtain ⟨p', hp', e⟩ := h.proc p hp
    obtain ⟨p'', hp'', e'⟩ := h'.proc p' hp'
    exact ⟨p'', hp'', e.trans e'⟩
  attached ha := h'.attached (h.attached ha)
  trace := h.trace.trans h'.trace

theorem Ext.toRExt {w w' : W} (h : Ext w w') : RExt w w' where
  len := h.len
  task := h.task
  cancels := h.cancels
  cancelled hc := by rw [h.cancelled]; exact hc
  timer := h.timer
  timedOut := h.timedOut
  timedOutBy := h.timedOutBy
  proc := h.proc
  attached := h.attached
  trace := h.trace.mono fun _ => Obs.inner_of_quiet

theorem RExt.isDone {w w' : W} (h : RExt w w') {i : Nat} (hd : w.isDone i = true) :
    w'.isDone i = true := by
  unfold W.isDone at *
  split at hd
  · rename_i t ht
    obtain ⟨t', ht', e⟩ := h.task i t ht
    rw [ht']
    rw [e.out hd]; exact hd
  · simp at hd

theorem RExt.outOf {w w' : W} (h : RExt w w') {i : Nat} {o : TOut} (hd : w.outOf i = some o) :
    w'.outOf i = some o := by
  unfold W.outOf at *
  split at hd
  · rename_i t ht
    obtain ⟨t', ht', e⟩ := h.task i t ht
    rw [ht']
    simp only []
    rw [e.out (by simp [hd])]; exact hd
  · simp at hd

theorem RExt.rcKnown {w w' : W} (h : RExt w w') (hr : w.rcKnown = true) : w'.rcKnown = true := by
  unfold W.rcKnown at *
  split at hr
  · rename_i p hp
    obtain ⟨p', hp', e⟩ := h.proc p hp
    rw [hp']
    obtain ⟨c, hc⟩ := Option.isSome_iff_exists.1 hr
    simp [e.rc c hc]
  · simp at hr

theorem RExt.throws {w w' : W} (h : RExt w w') : w.throws ≤ w'.throws := h.trace.count_le _
theorem RExt.gaveUps {w w' : W} (h : RExt w w') : w.gaveUps ≤ w'.gaveUps := h.trace.count_le _

/-- The process is known to have exited, if it exists. -/
def W.exitedBy (w : W) : Bool :=
  match w.proc with
  | some p => p.exited.isSome
  | none => false

theorem RExt.exitedBy {w w' : W} (h : RExt w w') (hr : w.exitedBy = true) : w'.exitedBy = true := by
  unfold W.exitedBy at *
  split at hr
  · rename_i p hp
    obtain ⟨p', hp', e⟩ := h.proc p hp
    rw [hp']
    obtain ⟨c, hc⟩ := Option.isSome_iff_exists.1 hr
    simp [e.exited c hc]
  · simp at hr

theorem RExt.procSome {w w' : W} (h : RExt w w') (hr : ∃ p, w.proc = some p) : ∃ p, w'.proc = some p := by
  obtain ⟨p, hp⟩ := hr
  obtain ⟨p', hp', _⟩ := h.proc p hp
  exact ⟨p', hp'⟩

theorem rsignal_ext (w : W) (b : Bool) (sig : Option Nat) : RExt w (w.signal b sig) := by
  unfold W.signal
  split
  · exact .refl w
  · rename_i p hp
    simp only []
    have h2 : RExt w (if p.exited.isNone = true then (w.log (.auditSignal b sig)).log (.kill b sig)
        else w.log (.auditSignal b sig)) := by
      split
      · exact { RExt.refl w with trace := Grew.trans (Grew.one rfl) (Grew.one rfl) }
      · exact { RExt.refl w with trace := Grew.one rfl }
    refine { h2 with proc := ?_ }
    intro p' hp'
    rw [hp] at hp'; cases hp'
    exact ⟨_, rfl, signalReaps_ext p⟩

theorem transportClose_ext (w : W) : RExt w w.transportClose := by
  unfold W.transportClose
  split
  · exact .refl w
  · rename_i p hp
    split
    · exact .refl w
    · have h2 : RExt w (if p.exited.isNone = true then w.log .closeKill else w) := by
        split
        · exact { RExt.refl w with trace := Grew.one rfl }
        · exact .refl w
      refine { h2 with proc := ?_ }
      intro p' hp'
      rw [hp] at hp'; cases hp'
      exact ⟨_, rfl, signalReaps_ext p⟩

theorem poll_ext (w : W) : RExt w w.pollWaitPid.2 := by
  have procUpd : ∀ (p p' : Proc), w.proc = some p → ProcExt p p' → RExt w { w with proc := some p' } :=
    fun p p' hp h => { RExt.refl w with
      proc := fun q hq => by rw [hp] at hq; cases hq; exact ⟨p', rfl, h⟩ }
  unfold W.pollWaitPid
  split
  · exact .refl w
  · rename_i p hp
    split
    · exact .refl w
    · rename_i hrc
      have hrc : p.rc = none := by simpa using hrc
      split
      · exact .refl w
      · rename_i he hr
        refine procUpd p _ hp ⟨fun _ h => h, fun c h => ?_, fun c h => ?_⟩
        · rw [hr] at h; cases h
        · rw [hrc] at h; cases h
      · rename_i he hr
        refine procUpd p _ hp ⟨fun _ h => h, fun c h => h, fun c h => ?_⟩
        rw [hrc] at h; cases h

theorem rlog_ext {w : W} {o : Obs} (h : o.inner = true) : RExt w (w.log o) :=
  { RExt.refl w with trace := Grew.one h }

theorem setCancelled_ext (w : W) : RExt w w.setCancelled :=
  { RExt.refl w with cancelled := fun _ => rfl, timer := fun h => by simp [W.setCancelled] at h }

theorem stopTimer_ext (w : W) : RExt w w.stopTimer :=
  { RExt.refl w with timer := fun h => by simp [W.stopTimer] at h }

theorem rmine_ext (w : W) (m : List Nat) : RExt w { w with mine := m } := { RExt.refl w with }

theorem rstable_ext (w0 : W) : RStable (RExt w0) where
  env fwd w ev h := h.trans (env_ext fwd w ev).toRExt
  throw w h := h.trans (throwCancel_ext w).toRExt
  log _ _ ho h := h.trans (rlog_ext (Obs.inner_of_note ho))
  cancelTask w i h := h.trans (cancelTask_ext w i).toRExt
  create w k _ h := h.trans (createTask_ext w k).toRExt
  signal w s h := h.trans (rsignal_ext w _ s)
  setCancelled w h := h.trans (setCancelled_ext w)
  stop w h := h.trans (stopTimer_ext w)
  mine w m h := h.trans (rmine_ext w m)
  close w h := h.trans (transportClose_ext w)
  poll w h := h.trans (poll_ext w)

theorem Pres.rel {R : W → W → Prop} {c : Coro α} {w : W} (hr : R w w) (h : ∀ w0, Pres (R w0) c) :
    wp c (fun _ w' => R w w') w := h w w hr

/-! ## Tasks and processes -/

/-- Number of tasks is kept by `harvest`. -/
theorem stable_len (n : Nat) : Stable fun w => w.tasks.length = n where
  env fwd w ev h := by
    have len : ∀ i (w : W), (w.cancelTask i).tasks.length = w.tasks.length := by
      intro i w; simp [W.cancelTask]
    have cc : ∀ (w : W), (w.cancelCaller fwd).tasks.length = w.tasks.length := by
      intro w; unfold W.cancelCaller; split
      · split
        · rfl
        · rw [len]
      · rfl
    cases ev <;> unfold W.env <;> simp only []
    case taskDone i out =>
      split
      · exact h
      · split
        · simp [W.setOut, endEffect_tasks, h]
        · exact h
    case taskDrop i =>
      split
      · exact h
      · split
        · simp [W.setOut, h]
        · exact h
    case cancel => rw [cc]; exact h
    case timer => split <;> simp [cc, h]
    case userSignal s =>
      split
      · unfold W.signal; split
        · exact h
        · simp only []; split <;> exact h
      · exact h
    all_goals (repeat' split) <;> exact h
  throw w h := h
  log w o _ h := h
  cancelTask w i h := by simpa [W.cancelTask] using h

/-- Every unfinished task is in `Runner._tasks`. -/
def W.Owned (w : W) : Prop := ∀ i < w.tasks.length, w.isDone i = true ∨ i ∈ w.mine

/-- Every task is done. -/
def W.AllTasksDone (w : W) : Prop := ∀ i < w.tasks.length, w.isDone i = true

theorem W.AllTasksDone.owned {w : W} (h : w.AllTasksDone) : w.Owned := fun i hi => .inl (h i hi)

/-- Library signals in a trace, in order. -/
def libSigs (t : List Obs) : List (Option Nat) :=
  t.filterMap fun
    | .auditSignal false s => some s
    | _ => none

theorem libSigs_append (t t' : List Obs) : libSigs (t ++ t') = libSigs t ++ libSigs t' := by
  simp [libSigs]

theorem libSigs_quiet {l : List Obs} (h : ∀ o ∈ l, o.quiet = true) : libSigs l = [] := by
  induction l with
  | nil => rfl
  | cons o l ih =>
    have h1 := h o (by simp)
    have h2 := ih fun o ho => h o (by simp [ho])
    unfold libSigs at *
    rw [List.filterMap_cons, h2]
    cases o <;> try rfl
    rename_i b _
    cases b
    · simp [Obs.quiet] at h1
    · rfl

theorem Ext.libSigs {w w' : W} (h : Ext w w') : libSigs w'.trace = libSigs w.trace := by
  obtain ⟨l, hl, hq⟩ := h.trace
  rw [hl, libSigs_append, libSigs_quiet hq, List.append_nil]

theorem wp_createTask {k : TaskKind} {R : Out Nat → W → Prop} {w : W}
    (h : R (.ok w.tasks.length) { w with tasks := w.tasks ++ [{ kind := k }] }) :
    wp (createTask k) R w := fun _ => h

/-- Harvesting a fresh waiter task. -/
theorem waiter_harvest (timed : Bool) (w : W) (hok : w.Ok) :
    wp (do
      let i ← createTask .waiter
      harvest [i] timed) (fun o w' =>
        Ext w w' ∧ w'.Ok ∧ w'.tasks.length = w.tasks.length + 1 ∧
        (o = .ok () → w'.rcKnown = true ∧ w'.mustCancel = false ∧ w'.isDone w.tasks.length = true ∧
          w'.throws = w.throws ∧ w'.gaveUps = w.gaveUps ∧ w'.cancels = w.cancels) ∧
        (∀ e, o = .exc e → w'.mustCancel = false ∧
          ((e = .cancelled ∧ w.throws < w'.throws ∧
            (w'.isDone w.tasks.length = true ∨ w.throws + 1 < w'.throws)) ∨
          (e = .timeout ∧ timed = true ∧ w'.isDone w.tasks.length = true) ∨
          (e = .runtimeError ∧ w.gaveUps < w'.gaveUps)))) w := by
  refine wp_bind (wp_createTask ?_)
  simp only []
  have hok0 := hok.append .waiter (by simp)
  have hlen := stable_len (w.tasks.length + 1) |>.harvest [w.tasks.length] timed true false
    { w with tasks := w.tasks ++ [{ kind := .waiter }] } (by simp)
  refine wp_mono (wp_and (wp_and hlen (stable_ok.harvest _ _ _ _ _ hok0)) (harvest_spec _ _ _ _ _)) ?_
  rintro o w' ⟨⟨hlen, hok'⟩, post⟩
  have hext : Ext w w' := (createTask_ext w .waiter).trans post.ext
  refine ⟨hext, hok', hlen, ?_, ?_⟩
  · intro ho
    obtain ⟨hd, hm, q, hf⟩ := post.ok ho
    simp only [List.all_cons, List.all_nil, Bool.and_true] at hd
    refine ⟨?_, hm, hd, q.throws, q.gaveUps, ?_⟩
    · obtain ⟨t', ht', hc⟩ := q.same w.tasks.length { kind := .waiter } (by simp)
      obtain ⟨t'', ht'', hk⟩ := q.task w.tasks.length { kind := .waiter } (by simp)
      rw [ht'] at ht''; cases ht''
      have := hok'.task _ _ ht'
      unfold W.isDone at hd
      rw [ht'] at hd
      simp only [] at hd
      unfold TaskOk at this
      have hk := hk.kind
      simp only [] at hk hc
      rw [hk, hc] at this
      cases ho' : t'.out with
      | none => rw [ho'] at hd; simp at hd
      | some out =>
        rw [ho'] at this
        cases out with
        | val r => exact this
        | err e => exact this.2.elim
        | cancelled => exact absurd this (by simp)
    · have := q.lost hm; exact this
  · intro e he
    rcases post.exc e he with ⟨rfl, ht, hm, hd⟩ | ⟨rfl, ht, hd, hm, _⟩ | ⟨rfl, hg, hm⟩ | ⟨rfl, h, _⟩ |
      ⟨hd, hf, hm, hg, ht⟩
    · exact ⟨hm, .inl ⟨rfl, ht, hd.imp_left fun h => by simpa using h⟩⟩
    · exact ⟨hm, .inr (.inl ⟨rfl, ht, by simpa using hd⟩)⟩
    · exact ⟨hm, .inr (.inr ⟨rfl, hg⟩)⟩
    · cases h
    · exfalso
      obtain ⟨t', ht', hk⟩ := post.ext.task w.tasks.length { kind := .waiter } (by simp)
      have := hok'.task _ _ ht'
      unfold W.firstFailure at hf
      simp only [List.findSome?_cons, List.findSome?_nil] at hf
      unfold W.outOf at hf
      rw [ht'] at hf
      unfold TaskOk at this
      have hk := hk.kind
      simp only [] at hk hf
      rw [hk] at this
      cases ho' : t'.out with
      | none => rw [ho'] at hf; simp at hf
      | some out =>
        rw [ho'] at this hf
        cases out with
        | val r => simp at hf
        | err e => exact this.2.elim
        | cancelled => simp at hf

/-- At most one `CancelledError` was thrown into the caller and no cleanup gave up. -/
def Few (w w' : W) : Prop := w'.gaveUps = w.gaveUps ∧ w'.throws ≤ w.throws + 1

theorem Few.split {w w1 w2 : W} (h : Few w w2) (h1 : RExt w w1) (h2 : RExt w1 w2) :
    Few w w1 ∧ Few w1 w2 := by
  have := h1.throws; have := h2.throws; have := h1.gaveUps; have := h2.gaveUps
  unfold Few at *
  omega

theorem libSigs_signal {w : W} {p : Proc} (hp : w.proc = some p) (s : Option Nat) :
    ∃ l, (w.signal false s).trace = w.trace ++ .auditSignal false s :: l ∧
      (l = [] ∧ p.exited.isSome = true ∨ l = [.kill false s]) := by
  unfold W.signal
  rw [hp]
  simp only []
  cases h : p.exited with
  | none => exact ⟨_, by simp [W.log], .inr rfl⟩
  | some c => exact ⟨_, by simp [W.log], .inl ⟨rfl, rfl⟩⟩

theorem signal_rcKnown (w : W) (b : Bool) (s : Option Nat) : (w.signal b s).rcKnown = w.rcKnown := by
  unfold W.signal
  split
  · rfl
  · rename_i p hp
    unfold W.rcKnown Proc.signalReaps
    simp only [hp]
    split <;> rfl

theorem signal_tasks (w : W) (b : Bool) (s : Option Nat) : (w.signal b s).tasks = w.tasks := by
  unfold W.signal
  split
  · rfl
  · simp only []; split <;> rfl

theorem signal_mine (w : W) (b : Bool) (s : Option Nat) : (w.signal b s).mine = w.mine := by
  unfold W.signal
  split
  · rfl
  · simp only []; split <;> rfl

theorem signal_cancelled (w : W) (b : Bool) (s : Option Nat) : (w.signal b s).cancelled = w.cancelled := by
  unfold W.signal
  split
  · rfl
  · simp only []; split <;> rfl

theorem signal_throws (w : W) (b : Bool) (s : Option Nat) : (w.signal b s).throws = w.throws := by
  unfold W.signal
  split
  · rfl
  · simp only []; split <;> simp [W.throws, W.log]

theorem signal_gaveUps (w : W) (b : Bool) (s : Option Nat) : (w.signal b s).gaveUps = w.gaveUps := by
  unfold W.signal
  split
  · rfl
  · simp only []; split <;> simp [W.gaveUps, W.log]

theorem signal_isDone (w : W) (b : Bool) (s : Option Nat) (i : Nat) :
    (w.signal b s).isDone i = w.isDone i := by
  unfold W.isDone; rw [signal_tasks]

theorem count_lt_mem {o : Obs} {t l : List Obs} {n : Nat} (h : (t ++ l).count o = n) (hl : t.count o < n) :
    o ∈ l := by
  rw [List.count_append] at h
  exact List.count_pos_iff.1 (by omega)

/-- Facts about `_kill_wait`. -/
structure KWPost (w : W) (o : Out Unit) (w' : W) : Prop where
  ext : RExt w w'
  good : w'.Ok
  mine : w'.mine = w.mine
  cancelled : w'.cancelled = w.cancelled
  known : w.rcKnown = true → o = .ok () ∧ w' = w
  ok : o = .ok () → w'.rcKnown = true
  sigs : w.rcKnown = false → ∃ l, w'.trace = w.trace ++ .auditSignal false none :: l ∧ libSigs l = []
  killed : w.rcKnown = false → w'.exitedBy = true ∨ .kill false none ∈ w'.trace
  exc : ∀ e, o = .exc e → w.rcKnown = false ∧ ∃ l, w'.trace = w.trace ++ .auditSignal false none :: l ∧
    ((e = .cancelled ∧ .thrown ∈ l ∧ w.throws < w'.throws) ∨
      (e = .runtimeError ∧ (.unableToKill ∈ l ∨ .gaveUp ∈ l)))
  done : o ≠ .blocked → Few w w' → w.AllTasksDone → w'.AllTasksDone

theorem libSigs_unable (l : List Obs) (h : libSigs l = []) : libSigs (l ++ [.unableToKill]) = [] := by
  rw [libSigs_append, h]; rfl

theorem poll_facts (w : W) : w.pollWaitPid.2.mine = w.mine ∧ w.pollWaitPid.2.cancelled = w.cancelled ∧
    w.pollWaitPid.2.trace = w.trace ∧ w.pollWaitPid.2.tasks = w.tasks ∧
    (w.pollWaitPid.1 = true → w.pollWaitPid.2.rcKnown = true) ∧
    (w.pollWaitPid.1 = false → w.rcKnown = false) := by
  unfold W.pollWaitPid W.rcKnown
  split
  · rename_i h; simp [h]
  · rename_i p hp
    simp only [hp]
    split
    · rename_i h; simp [h, hp]
    · rename_i h
      split <;> simp_all

theorem killWait_spec (w : W) (hok : w.Ok) (hp : ∃ p, w.proc = some p) :
    wp killWait (KWPost w) w := by
  unfold killWait
  refine wp_bind (wp_get (wp_when ?_ ?_))
  rotate_left
  · intro h
    simp only [Bool.not_eq_false'] at h
    exact ⟨.refl w, hok, rfl, rfl, fun _ => ⟨rfl, rfl⟩, fun _ => h, fun h' => absurd h (by simp [h']),
      fun h' => absurd h (by simp [h']), by simp, fun _ _ h => h⟩
  intro hrc
  simp only [Bool.not_eq_true'] at hrc
  obtain ⟨p, hp⟩ := hp
  refine wp_catch (wp_bind (wp_upd ?_))
  obtain ⟨l0, htr, hl0⟩ := libSigs_signal hp none
  have hrc1 := signal_rcKnown w false none
  have hx1 := rsignal_ext w false none
  have hok1 := signal_ok hok false none
  have hmi := signal_mine w false none
  have hca := signal_cancelled w false none
  have hth := signal_throws w false none
  have hgu := signal_gaveUps w false none
  have hta := signal_tasks w false none
  have hki : (w.signal false none).exitedBy = true ∨ .kill false none ∈ (w.signal false none).trace := by
    rcases hl0 with ⟨_, h⟩ | h
    · left
      have : w.exitedBy = true := by unfold W.exitedBy; rw [hp]; exact h
      exact hx1.exitedBy this
    · right; rw [htr, h]; simp
  generalize w.signal false none = w1 at *
  simp only []
  have hl0' : libSigs l0 = [] := by rcases hl0 with ⟨h, _⟩ | h <;> rw [h] <;> rfl
  refine wp_mono (waiter_harvest true w1 hok1) ?_
  rintro o w2 ⟨hx2, hok2, hlen, hOk, hExc⟩
  have hx := hx1.trans hx2.toRExt
  obtain ⟨l2, htr2, hq2⟩ := hx2.trace
  have htr' : w2.trace = w.trace ++ .auditSignal false none :: (l0 ++ l2) := by
    rw [htr2, htr]; simp
  have hsig : libSigs (l0 ++ l2) = [] := by rw [libSigs_append, hl0', libSigs_quiet hq2]; rfl
  have hki2 : w2.exitedBy = true ∨ .kill false none ∈ w2.trace := by
    rcases hki with h | h
    · exact .inl (hx2.toRExt.exitedBy h)
    · right; rw [htr2]; simp [h]
  have hdone : w2.isDone w1.tasks.length = true → w.AllTasksDone → w2.AllTasksDone := by
    intro hd ha i hi
    rw [hlen] at hi
    by_cases hi' : i < w.tasks.length
    · exact hx.isDone (ha i hi')
    · have : i = w1.tasks.length := by rw [hta] at hi ⊢; omega
      rw [this]; exact hd
  have hmine : w2.mine = w.mine := hx2.mine.trans hmi
  have hcan : w2.cancelled = w.cancelled := hx2.cancelled.trans hca
  have h0 : w.rcKnown = true → False := fun h => by rw [hrc] at h; cases h
  cases o with
  | blocked =>
    exact ⟨hx, hok2, hmine, hcan, fun h => (h0 h).elim, by simp, fun _ => ⟨_, htr', hsig⟩,
      fun _ => hki2, by simp, by simp⟩
  | ok _ =>
    obtain ⟨h1, h2, h3, _⟩ := hOk rfl
    exact ⟨hx, hok2, hmine, hcan, fun h => (h0 h).elim, fun _ => h1, fun _ => ⟨_, htr', hsig⟩,
      fun _ => hki2, by simp, fun _ _ h => hdone h3 h⟩
  | exc e =>
    simp only []
    rcases (hExc e rfl).2 with ⟨rfl, ht, hd⟩ | ⟨rfl, _, hd⟩ | ⟨rfl, hg⟩
    · simp only [reduceCtorEq, if_false]
      refine wp_raise ⟨hx, hok2, hmine, hcan, fun h => (h0 h).elim, by simp, fun _ => ⟨_, htr', hsig⟩,
        fun _ => hki2, ?_, ?_⟩
      · intro e he; cases he
        refine ⟨hrc, _, htr', .inl ⟨rfl, ?_, by omega⟩⟩
        have : Obs.thrown ∈ l2 := count_lt_mem (t := w1.trace) (by rw [← htr2]) (by exact ht)
        simp [this]
      · intro _ hf ha
        rcases hd with h | h
        · exact hdone h ha
        · unfold Few at hf; omega
    · simp only [if_true]
      unfold killWaitExpired
      refine wp_bind (wp_get ?_)
      obtain ⟨p1, p2, p3, p4, p5, p6⟩ := poll_facts w2
      simp only []
      split
      · rename_i hpoll
        refine wp_upd ⟨hx.trans (poll_ext w2), pollWaitPid_ok hok2, p1.trans hmine, p2.trans hcan,
          fun h => (h0 h).elim, fun _ => p5 hpoll, fun _ => ⟨_, by rw [p3, htr'], hsig⟩, ?_, by simp, ?_⟩
        · intro _
          rcases hki2 with h | h
          · exact .inl ((poll_ext w2).exitedBy h)
          · right; rw [p3]; exact h
        · intro _ _ ha i hi
          rw [p4] at hi
          unfold W.isDone
          rw [p4]
          exact hdone hd ha i hi
      · rename_i hpoll
        refine wp_bind (wp_upd (wp_raise ?_))
        have hx3 : RExt w (w2.log .unableToKill) := hx.trans (rlog_ext rfl)
        have htr3 : (w2.log .unableToKill).trace =
            w.trace ++ .auditSignal false none :: (l0 ++ l2 ++ [.unableToKill]) := by
          rw [W.log]; simp [htr']
        refine ⟨hx3, hok2.same rfl rfl rfl, hmine, hcan, fun h => (h0 h).elim, by simp,
          fun _ => ⟨_, htr3, libSigs_unable _ hsig⟩, ?_, ?_, ?_⟩
        · intro _
          rcases hki2 with h | h
          · exact .inl h
          · right; simp [W.log, h]
        · intro e he; cases he
          exact ⟨hrc, _, htr3, .inr ⟨rfl, .inl (by simp)⟩⟩
        · intro _ _ ha
          exact hdone hd ha
    · simp only [reduceCtorEq, if_false]
      refine wp_raise ⟨hx, hok2, hmine, hcan, fun h => (h0 h).elim, by simp, fun _ => ⟨_, htr', hsig⟩,
        fun _ => hki2, ?_, ?_⟩
      · intro e he; cases he
        refine ⟨hrc, _, htr', .inr ⟨rfl, .inr ?_⟩⟩
        have : Obs.gaveUp ∈ l2 := count_lt_mem (t := w1.trace) (by rw [← htr2]) (by exact hg)
        simp [this]
      · intro _ hf ha
        unfold Few at hf; omega

/-- Facts about the `try` block of `_kill`. -/
structure KTPost (cfg : RCfg) (w : W) (o : Out Unit) (w' : W) : Prop where
  ext : RExt w w'
  good : w'.Ok
  mine : w'.mine = w.mine
  cancelled : w'.cancelled = w.cancelled
  ok : o = .ok () → w'.rcKnown = true
  sigs : if w.rcKnown = true then libSigs w'.trace = libSigs w.trace else
    ∃ l, w'.trace = w.trace ++ .auditSignal false cfg.opts.cancelSignal :: l ∧ libSigs l = []
  exc : ∀ e, o = .exc e → (e = .cancelled ∧ w.throws < w'.throws) ∨ (e = .timeout ∧ cfg.cancelTimed = true) ∨
    (e = .runtimeError ∧ w.gaveUps < w'.gaveUps) ∨
    (w.mine.all w'.isDone = true ∧ w'.firstFailure w.mine = some e)
  done : o ≠ .blocked → Few w w' → w.Owned → w'.AllTasksDone

theorem RExt.firstFailure {w w' : W} (h : RExt w w') {ids : List Nat} (hd : ids.all w.isDone = true) :
    w'.firstFailure ids = w.firstFailure ids := by
  unfold W.firstFailure
  induction ids with
  | nil => rfl
  | cons i ids ih =>
    rw [List.all_cons, Bool.and_eq_true] at hd
    obtain ⟨o, ho⟩ := W.isDone_iff.1 hd.1
    rw [List.findSome?_cons, List.findSome?_cons, ih hd.2, ho, h.outOf ho]

theorem RExt.allDone {w w' : W} (h : RExt w w') {ids : List Nat} (hd : ids.all w.isDone = true) :
    ids.all w'.isDone = true := by
  rw [List.all_eq_true] at *
  exact fun i hi => h.isDone (hd i hi)

/-- The tail of `killTry`, after the first `harvest`. -/
theorem killTail_spec (cfg : RCfg) (w : W) (hok : w.Ok) :
    wp (do
      let w ← Coro.get
      Coro.when (!w.rcKnown) (do
        let i ← createTask .waiter
        harvest [i] cfg.cancelTimed)) (fun o w' =>
        Ext w w' ∧ w'.Ok ∧ (o = .ok () → w'.rcKnown = true) ∧
        (∀ e, o = .exc e → (e = .cancelled ∧ w.throws < w'.throws) ∨
          (e = .timeout ∧ cfg.cancelTimed = true) ∨ (e = .runtimeError ∧ w.gaveUps < w'.gaveUps)) ∧
        (o ≠ .blocked → Few w w' → w.AllTasksDone → w'.AllTasksDone)) w := by
  refine wp_bind (wp_get (wp_when ?_ ?_))
  · intro _
    refine wp_mono (waiter_harvest cfg.cancelTimed w hok) ?_
    rintro o w' ⟨hx, hok', hlen, hOk, hExc⟩
    have hdone : w'.isDone w.tasks.length = true → w.AllTasksDone → w'.AllTasksDone := by
      intro hd ha i hi
      rw [hlen] at hi
      by_cases hi' : i < w.tasks.length
      · exact hx.isDone (ha i hi')
      · have : i = w.tasks.length := by omega
        rw [this]; exact hd
    refine ⟨hx, hok', fun h => (hOk h).1, ?_, ?_⟩
    · intro e he
      rcases (hExc e he).2 with ⟨rfl, ht, _⟩ | ⟨rfl, ht, _⟩ | ⟨rfl, hg⟩
      · exact .inl ⟨rfl, ht⟩
      · exact .inr (.inl ⟨rfl, ht⟩)
      · exact .inr (.inr ⟨rfl, hg⟩)
    · intro hb hf ha
      cases o with
      | blocked => exact absurd rfl hb
      | ok _ => exact hdone (hOk rfl).2.2.1 ha
      | exc e =>
        unfold Few at hf
        rcases (hExc e rfl).2 with ⟨rfl, ht, h | h⟩ | ⟨rfl, ht, h⟩ | ⟨rfl, hg⟩
        · exact hdone h ha
        · omega
        · exact hdone h ha
        · omega
  · intro h
    simp only [Bool.not_eq_false'] at h
    exact ⟨.refl w, hok, fun _ => h, by simp, fun _ _ h => h⟩

theorem killTry_spec (cfg : RCfg) (w : W) (hok : w.Ok) (hp : ∃ p, w.proc = some p) :
    wp (killTry cfg) (KTPost cfg w) w := by
  unfold killTry
  refine wp_bind (wp_get ?_)
  simp only []
  -- the signal
  have step1 : ∀ R : Out Unit → W → Prop,
      (∀ w1, RExt w w1 → w1.Ok → w1.mine = w.mine → w1.cancelled = w.cancelled → w1.tasks = w.tasks →
        w1.throws = w.throws → w1.gaveUps = w.gaveUps →
        (if w.rcKnown = true then libSigs w1.trace = libSigs w.trace else
          ∃ l, w1.trace = w.trace ++ .auditSignal false cfg.opts.cancelSignal :: l ∧ libSigs l = []) →
        R (.ok ()) w1) →
      wp (Coro.when (!w.rcKnown) (Coro.upd (·.signal false cfg.opts.cancelSignal))) R w := by
    intro R h
    refine wp_when (fun hrc => wp_upd ?_) (fun hrc => ?_)
    · simp only [Bool.not_eq_true'] at hrc
      obtain ⟨p, hp⟩ := hp
      obtain ⟨l0, htr, hl0⟩ := libSigs_signal hp cfg.opts.cancelSignal
      refine h _ (rsignal_ext ..) (signal_ok hok ..) (signal_mine ..) (signal_cancelled ..) (signal_tasks ..)
        (signal_throws ..) (signal_gaveUps ..) ?_
      rw [hrc]
      simp only [Bool.false_eq_true, if_false]
      exact ⟨l0, htr, by rcases hl0 with ⟨h, _⟩ | h <;> rw [h] <;> rfl⟩
    · simp only [Bool.not_eq_false'] at hrc
      exact h w (.refl w) hok rfl rfl rfl rfl rfl (by simp [hrc])
  refine wp_bind (step1 _ ?_)
  intro w1 hx1 hok1 hm1 hc1 ht1 hth1 hg1 hs1
  -- signals stay as they are afterwards
  have sig : ∀ w2, Ext w1 w2 → (if w.rcKnown = true then libSigs w2.trace = libSigs w.trace else
      ∃ l, w2.trace = w.trace ++ .auditSignal false cfg.opts.cancelSignal :: l ∧ libSigs l = []) := by
    intro w2 hx
    split
    · rename_i h
      rw [if_pos h] at hs1
      rw [hx.libSigs, hs1]
    · rename_i h
      rw [if_neg h] at hs1
      obtain ⟨l, h1, h2⟩ := hs1
      obtain ⟨l', h3, h4⟩ := hx.trace
      exact ⟨l ++ l', by rw [h3, h1]; simp, by rw [libSigs_append, h2, libSigs_quiet h4]; rfl⟩
  have done1 : ∀ i, w1.isDone i = w.isDone i := fun i => by unfold W.isDone; rw [ht1]
  simp only []
  refine wp_bind (wp_when ?_ ?_)
  · intro hne
    have hne : w.mine ≠ [] := of_decide_eq_true hne
    have hlen := stable_len w1.tasks.length |>.harvest w.mine cfg.cancelTimed true false w1 rfl
    refine wp_mono (wp_and (wp_and hlen (stable_ok.harvest _ _ _ _ _ hok1)) (harvest_spec _ _ _ _ _)) ?_
    rintro o w2 ⟨⟨hlen, hok2⟩, post⟩
    have hx2 := hx1.trans post.ext.toRExt
    have hmine := post.ext.mine.trans hm1
    have hcan := post.ext.cancelled.trans hc1
    have all : w.mine.all w2.isDone = true → w.Owned → w2.AllTasksDone := by
      intro h ho i hi
      rw [hlen, ht1] at hi
      rcases ho i hi with h' | h'
      · exact hx2.isDone h'
      · exact (List.all_eq_true.1 h) i h'
    cases o with
    | blocked => exact ⟨hx2, hok2, hmine, hcan, by simp, sig w2 post.ext, by simp, by simp⟩
    | exc e =>
      refine ⟨hx2, hok2, hmine, hcan, by simp, sig w2 post.ext, ?_, ?_⟩
      · intro e' he; cases he
        rcases post.exc e rfl with ⟨rfl, h, _⟩ | ⟨rfl, h, _⟩ | ⟨rfl, h, _⟩ | ⟨_, h, _⟩ | ⟨h', h, _⟩
        · exact .inl ⟨rfl, by omega⟩
        · exact .inr (.inl ⟨rfl, h⟩)
        · exact .inr (.inr (.inl ⟨rfl, by omega⟩))
        · exact absurd h hne
        · exact .inr (.inr (.inr ⟨h', h⟩))
      · intro _ hf ho
        unfold Few at hf
        rcases post.exc e rfl with ⟨_, _, _, h | h⟩ | ⟨_, _, h, _⟩ | ⟨_, h, _⟩ | ⟨_, h, _⟩ | ⟨h, _⟩
        · exact all h ho
        · omega
        · exact all h ho
        · omega
        · exact absurd h hne
        · exact all h ho
    | ok _ =>
      obtain ⟨hd, _, q, hff⟩ := post.ok rfl
      simp only []
      refine wp_mono (killTail_spec cfg w2 hok2) ?_
      rintro o w3 ⟨hx3, hok3, hOk, hExc, hDone⟩
      refine ⟨hx2.trans hx3.toRExt, hok3, hx3.mine.trans hmine, hx3.cancelled.trans hcan, hOk,
        sig w3 (post.ext.trans hx3), ?_, ?_⟩
      · intro e he
        have := hx2.throws
        have := hx2.gaveUps
        rcases hExc e he with ⟨h, h'⟩ | h | ⟨h, h'⟩
        · exact .inl ⟨h, by omega⟩
        · exact .inr (.inl h)
        · exact .inr (.inr (.inl ⟨h, by omega⟩))
      · intro hb hf ho
        exact hDone hb (hf.split hx2 hx3.toRExt).2 (all hd ho)
  · intro hne
    have hne : w.mine = [] := Classical.not_not.1 (of_decide_eq_false hne)
    simp only []
    refine wp_mono (killTail_spec cfg w1 hok1) ?_
    rintro o w3 ⟨hx3, hok3, hOk, hExc, hDone⟩
    refine ⟨hx1.trans hx3.toRExt, hok3, hx3.mine.trans hm1, hx3.cancelled.trans hc1, hOk,
      sig w3 hx3, ?_, ?_⟩
    · intro e he
      rcases hExc e he with ⟨h, h'⟩ | h | ⟨h, h'⟩
      · exact .inl ⟨h, by omega⟩
      · exact .inr (.inl h)
      · exact .inr (.inr (.inl ⟨h, by omega⟩))
    · intro hb hf ho
      refine hDone hb (hf.split hx1 hx3.toRExt).2 ?_
      intro i hi
      rw [ht1] at hi
      rw [done1]
      rcases ho i hi with h | h
      · exact h
      · rw [hne] at h; cases h

/-- The child survived: SIGKILL was sent to it, but the wait that followed was interrupted, or given up. -/
def Undead (t : List Obs) (e : Exc) (t' : List Obs) : Prop :=
  ∃ l1 l2, t' = t ++ l1 ++ .auditSignal false none :: l2 ∧
    (.thrown ∈ l2 ∨ .gaveUp ∈ l2 ∨ (.unableToKill ∈ l2 ∧ e = .runtimeError))

theorem Undead.left {t t1 t2 l : List Obs} {e : Exc} (h : Undead t1 e t2) (ht : t1 = t ++ l) : Undead t e t2 := by
  obtain ⟨l1, l2, h, hc⟩ := h
  exact ⟨l ++ l1, l2, by rw [h, ht]; simp, hc⟩

/-- Facts about `_kill`. -/
structure KPost (cfg : RCfg) (w : W) (o : Out Unit) (w' : W) : Prop where
  ext : RExt w w'
  good : w'.Ok
  mine : w'.mine = w.mine
  cancelled : w'.cancelled = true → w.cancelled = true ∨ w.throws < w'.throws
  ok : o = .ok () → w'.rcKnown = true
  sigs : ∃ s, libSigs w'.trace = libSigs w.trace ++ s ∧
    (s = [] ∨ s = [cfg.opts.cancelSignal] ∨ s = [cfg.opts.cancelSignal, none]) ∧
    (w.rcKnown = true → s = [])
  calm : libSigs w'.trace ≠ libSigs w.trace ++ [cfg.opts.cancelSignal, none] ∨ cfg.cancelTimed = true ∨
    w.throws < w'.throws ∨ w.gaveUps < w'.gaveUps ∨ ∃ e, w'.firstFailure w.mine = some e
  exc : ∀ e, o = .exc e → (w'.rcKnown = true ∨
    Undead w.trace e w'.trace ∧ (w'.exitedBy = true ∨ .kill false none ∈ w'.trace))
  why : ∀ e, o = .exc e → (e = .cancelled ∧ w.throws < w'.throws) ∨
    (e = .runtimeError ∧ (w.gaveUps < w'.gaveUps ∨ .unableToKill ∈ w'.trace)) ∨
    (w.mine.all w'.isDone = true ∧ w'.firstFailure w.mine = some e)
  done : o ≠ .blocked → Few w w' → w.Owned → w'.AllTasksDone

/-- `_kill_wait` as the second half of `_kill`: `e0` is the exception of the first half, `c` is
what happens after a successful `_kill_wait`. -/
theorem killAfter_spec (cfg : RCfg) (w w1 w1' : W) (e0 : Exc) (c : Unit → Coro Unit) (o' : Out Unit)
    (hp : ∃ p, w.proc = some p) (post : KTPost cfg w (.exc e0) w1)
    (hx : RExt w1 w1') (hg : w1'.Ok) (hm : w1'.mine = w1.mine) (htr : w1'.trace = w1.trace)
    (hta : w1'.tasks = w1.tasks) (hrc : w1'.rcKnown = w1.rcKnown)
    (hcan : w1'.cancelled = true → w1.cancelled = true ∨ w.throws < w1'.throws)
    (hc : ∀ w2, c () w2 = fun evs => (o', w2, evs))
    (ho' : o' = .ok () ∨ (o' = .exc e0 ∧ (e0 = .runtimeError ∧ w.gaveUps < w1.gaveUps ∨
      (w.mine.all w1.isDone = true ∧ w1.firstFailure w.mine = some e0)))) :
    wp (killWait >>= c) (KPost cfg w) w1' := by
  have hp' : ∃ p, w1'.proc = some p := hx.procSome (post.ext.procSome hp)
  refine wp_bind (wp_mono (killWait_spec w1' hg hp') ?_)
  intro o w2 k
  have hth1 : w1'.throws = w1.throws := by unfold W.throws; rw [htr]
  have hgu1 : w1'.gaveUps = w1.gaveUps := by unfold W.gaveUps; rw [htr]
  have hx1 := post.ext.trans hx
  have hx2 := hx1.trans k.ext
  have := hx1.throws
  have := hx1.gaveUps
  have := k.ext.throws
  have := k.ext.gaveUps
  obtain ⟨l1, hl1, _⟩ := post.ext.trace
  have hmine : w2.mine = w.mine := k.mine.trans (hm.trans post.mine)
  have hcan2 : w2.cancelled = true → w.cancelled = true ∨ w.throws < w2.throws := by
    rw [k.cancelled]
    intro h
    rcases hcan h with h | h
    · rw [post.cancelled] at h; exact .inl h
    · exact .inr (by omega)
  have sigs : ∃ s, libSigs w2.trace = libSigs w.trace ++ s ∧
      (s = [] ∨ s = [cfg.opts.cancelSignal] ∨ s = [cfg.opts.cancelSignal, none]) ∧
      (w.rcKnown = true → s = []) := by
    have hs := post.sigs
    by_cases hk : w1'.rcKnown = true
    · rw [(k.known hk).2, htr]
      split at hs
      · exact ⟨[], by simp [hs], .inl rfl, fun _ => rfl⟩
      · rename_i hn
        obtain ⟨l, h1, h2⟩ := hs
        exact ⟨_, by rw [h1, libSigs_append]; simp [libSigs] at h2 ⊢; exact h2, .inr (.inl rfl),
          fun h => absurd h hn⟩
    · obtain ⟨l', h3, h4⟩ := k.sigs (by simpa using hk)
      have hn : ¬ w.rcKnown = true := fun h => hk (hx1.rcKnown h)
      rw [if_neg hn] at hs
      obtain ⟨l, h1, h2⟩ := hs
      refine ⟨[cfg.opts.cancelSignal, none], ?_, .inr (.inr rfl), fun h => absurd h hn⟩
      rw [h3, htr, h1]
      have e1 : libSigs (.auditSignal false cfg.opts.cancelSignal :: l) = [cfg.opts.cancelSignal] := by
        rw [show (Obs.auditSignal false cfg.opts.cancelSignal :: l) = [Obs.auditSignal false cfg.opts.cancelSignal] ++ l
          from rfl, libSigs_append, h2]; rfl
      have e2 : libSigs (.auditSignal false none :: l') = [none] := by
        rw [show (Obs.auditSignal false none :: l') = [Obs.auditSignal false none] ++ l'
          from rfl, libSigs_append, h4]; rfl
      rw [libSigs_append, libSigs_append, e1, e2]; simp
  have calm : libSigs w2.trace ≠ libSigs w.trace ++ [cfg.opts.cancelSignal, none] ∨ cfg.cancelTimed = true ∨
      w.throws < w2.throws ∨ w.gaveUps < w2.gaveUps ∨ ∃ e, w2.firstFailure w.mine = some e := by
    rcases post.exc e0 rfl with ⟨_, h⟩ | ⟨_, h⟩ | ⟨_, h⟩ | ⟨h, h'⟩
    · exact .inr (.inr (.inl (by omega)))
    · exact .inr (.inl h)
    · exact .inr (.inr (.inr (.inl (by omega))))
    · refine .inr (.inr (.inr (.inr ⟨e0, ?_⟩)))
      rw [(hx.trans k.ext).firstFailure h, h']
  have done : o ≠ .blocked → Few w w2 → w.Owned → w2.AllTasksDone := by
    intro hb hf ho
    obtain ⟨f1, f2⟩ := hf.split post.ext (hx.trans k.ext)
    have h1 := post.done (by simp) f1 ho
    have h1' : w1'.AllTasksDone := by
      intro i hi; rw [hta] at hi; unfold W.isDone; rw [hta]; exact h1 i hi
    exact k.done hb (f2.split hx k.ext).2 h1'
  cases o with
  | blocked =>
    exact ⟨hx2, k.good, hmine, hcan2, by simp, sigs, calm, by simp, by simp, by simp⟩
  | exc e =>
    obtain ⟨hr, l2, hl2, hwhy⟩ := k.exc e rfl
    have hkl := k.killed hr
    refine ⟨hx2, k.good, hmine, hcan2, by simp, sigs, calm, ?_, ?_, fun _ => done (by simp)⟩
    · intro e' he; cases he
      refine .inr ⟨⟨l1, l2, by rw [hl2, htr, hl1], ?_⟩, hkl⟩
      rcases hwhy with ⟨_, h, _⟩ | ⟨h', h | h⟩
      · exact .inl h
      · exact .inr (.inr ⟨h, h'⟩)
      · exact .inr (.inl h)
    · intro e' he; cases he
      rcases hwhy with ⟨h, _, h'⟩ | ⟨h', h | h⟩
      · exact .inl ⟨h, by omega⟩
      · exact .inr (.inl ⟨h', .inr (by rw [hl2]; simp [h])⟩)
      · refine .inr (.inl ⟨h', .inl ?_⟩)
        have : w1'.gaveUps < w2.gaveUps := by
          unfold W.gaveUps
          rw [hl2, List.count_append]
          have : 0 < List.count Obs.gaveUp (Obs.auditSignal false none :: l2) :=
            List.count_pos_iff.2 (by simp [h])
          omega
        omega
  | ok _ =>
    have hk := k.ok rfl
    intro evs
    change KPost cfg w (c () w2 evs).1 (c () w2 evs).2.1
    rw [congrFun (hc w2) evs]
    change KPost cfg w o' w2
    refine ⟨hx2, k.good, hmine, hcan2, fun _ => hk, sigs, calm, fun _ _ => .inl hk, ?_, fun _ => done (by simp)⟩
    intro e he
    rcases ho' with h | ⟨h, h'⟩
    · rw [h] at he; cases he
    · rw [h] at he; cases he
      rcases h' with ⟨h1, h2⟩ | ⟨h1, h2⟩
      · exact .inr (.inl ⟨h1, .inl (by omega)⟩)
      · exact .inr (.inr ⟨(hx.trans k.ext).allDone h1, by rw [(hx.trans k.ext).firstFailure h1, h2]⟩)

theorem bind_pure_unit (c : Coro Unit) : (c >>= fun _ => Coro.pure ()) = c := by
  funext w evs
  change Coro.bind c _ w evs = _
  unfold Coro.bind
  rcases c w evs with ⟨o, w', evs'⟩
  cases o <;> rfl

theorem kill_spec (cfg : RCfg) (w : W) (hok : w.Ok) (hp : ∃ p, w.proc = some p) :
    wp (kill cfg) (KPost cfg w) w := by
  unfold kill
  refine wp_catch (wp_mono (killTry_spec cfg w hok hp) ?_)
  intro o w1 post
  have base : ∃ s, libSigs w1.trace = libSigs w.trace ++ s ∧
      (s = [] ∨ s = [cfg.opts.cancelSignal]) ∧ (w.rcKnown = true → s = []) := by
    have hs := post.sigs
    split at hs
    · exact ⟨[], by simp [hs], .inl rfl, fun _ => rfl⟩
    · rename_i hn
      obtain ⟨l, h1, h2⟩ := hs
      exact ⟨_, by rw [h1, libSigs_append]; simp [libSigs] at h2 ⊢; exact h2, .inr rfl,
        fun h => absurd h hn⟩
  have sigs : ∃ s, libSigs w1.trace = libSigs w.trace ++ s ∧
      (s = [] ∨ s = [cfg.opts.cancelSignal] ∨ s = [cfg.opts.cancelSignal, none]) ∧
      (w.rcKnown = true → s = []) := by
    obtain ⟨s, h1, h2, h3⟩ := base
    exact ⟨s, h1, h2.imp_right .inl, h3⟩
  have calm : libSigs w1.trace ≠ libSigs w.trace ++ [cfg.opts.cancelSignal, none] ∨ cfg.cancelTimed = true ∨
      w.throws < w1.throws ∨ w.gaveUps < w1.gaveUps ∨ ∃ e, w1.firstFailure w.mine = some e := by
    left
    obtain ⟨s, h1, h2, h3⟩ := base
    rw [h1]
    intro h
    have := List.append_cancel_left h
    rcases h2 with h2 | h2 <;> rw [h2] at this <;> simp at this
  have hcan : w1.cancelled = true → w.cancelled = true ∨ w.throws < w1.throws := by
    rw [post.cancelled]; exact .inl
  cases o with
  | blocked => exact ⟨post.ext, post.good, post.mine, hcan, by simp, sigs, calm, by simp, by simp, by simp⟩
  | ok _ =>
    exact ⟨post.ext, post.good, post.mine, hcan, fun _ => post.ok rfl, sigs, calm, by simp, by simp,
      fun _ => post.done (by simp)⟩
  | exc e =>
    simp only []
    split
    · rename_i he
      rw [← bind_pure_unit killWait]
      refine wp_bind (wp_when (fun h => wp_upd ?_) (fun h => ?_))
      · have h : e = .cancelled := of_decide_eq_true h
        have hx := setCancelled_ext w1
        refine killAfter_spec cfg w w1 w1.setCancelled e _ (.ok ()) hp post hx (post.good.same rfl rfl rfl)
          rfl rfl rfl rfl ?_ (fun w2 => rfl) (.inl rfl)
        intro _
        refine .inr ?_
        subst h
        rcases post.exc .cancelled rfl with ⟨_, h⟩ | ⟨h, _⟩ | ⟨h, _⟩ | ⟨hd, h⟩
        · exact h
        · cases h
        · cases h
        · exfalso
          -- no task fails with CancelledError
          obtain ⟨l, i, l', _, hi, _⟩ := firstFailure_some.1 h
          unfold W.outOf at hi
          split at hi
          · rename_i t ht
            have := post.good.task _ _ ht
            unfold TaskOk at this
            rw [hi] at this
            exact this.1 rfl
          · cases hi
      · refine killAfter_spec cfg w w1 w1 e _ (.ok ()) hp post (.refl _) post.good
          rfl rfl rfl rfl .inl (fun w2 => rfl) (.inl rfl)
    · rename_i he
      refine killAfter_spec cfg w w1 w1 e _ (.exc e) hp post (.refl _) post.good
          rfl rfl rfl rfl .inl (fun w2 => rfl) (.inr ⟨rfl, ?_⟩)
      rcases post.exc e rfl with ⟨h, _⟩ | ⟨h, _⟩ | h | h
      · exact absurd (.inl h) he
      · exact absurd (.inr h) he
      · exact .inl h
      · exact .inr h

end Shellous
