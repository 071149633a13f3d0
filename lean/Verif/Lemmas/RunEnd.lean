import Verif.Lemmas.Run
import Verif.Spec.Run

/-!
# The end of a run: `_wait`, `_close`, `_finish`, `__aexit__`
-/

namespace Shellous

variable {α β : Type}

/-- Among the tasks of the runner there is a waiter nobody has cancelled. -/
def W.HasWaiter (w : W) : Prop :=
  ∃ i ∈ w.mine, ∃ t, w.tasks[i]? = some t ∧ t.kind = .waiter ∧ t.cancels = 0

theorem HasWaiter.quiet {w w' : W} (h : w.HasWaiter) (q : Quiet w w') : w'.HasWaiter := by
  obtain ⟨i, hi, t, ht, hk, hc⟩ := h
  obtain ⟨t', ht', e⟩ := q.task i t ht
  obtain ⟨t'', ht'', hc'⟩ := q.same i t ht
  rw [ht'] at ht''; cases ht''
  exact ⟨i, by rw [q.mine]; exact hi, t', ht', e.kind.trans hk, hc'.trans hc⟩

theorem HasWaiter.rcKnown {w : W} (h : w.HasWaiter) (hok : w.Ok) (hd : w.mine.all w.isDone = true) :
    w.rcKnown = true := by
  obtain ⟨i, hi, t, ht, hk, hc⟩ := h
  have hd := (List.all_eq_true.1 hd) i hi
  have := hok.task i t ht
  unfold W.isDone at hd
  rw [ht] at hd
  simp only [] at hd
  unfold TaskOk at this
  rw [hk, hc] at this
  cases ho : t.out with
  | none => rw [ho] at hd; cases hd
  | some o =>
    rw [ho] at this
    cases o with
    | val r => exact this
    | err e => exact this.2.elim
    | cancelled => exact absurd this (by simp)

theorem Disturbed.right {cfg : RCfg} {w w' : W} (h : Disturbed cfg w) (hx : RExt w w') : Disturbed cfg w' := by
  obtain ⟨l, hl, _⟩ := hx.trace
  rcases h with h | h | h | ⟨i, e, h⟩
  · exact .inl h
  · exact .inr (.inl (by rw [hl]; simp [h]))
  · exact .inr (.inr (.inl (by rw [hl]; simp [h])))
  · exact .inr (.inr (.inr ⟨i, e, hx.outOf h⟩))

/-- The signals the library may send in one run. -/
def SigsOk (cfg : RCfg) (w w' : W) : Prop :=
  ∃ s, libSigs w'.trace = libSigs w.trace ++ s ∧
    (s = [] ∨ s = [cfg.opts.cancelSignal] ∨ s = [cfg.opts.cancelSignal, none]) ∧
    (w.rcKnown = true → s = []) ∧
    (s = [cfg.opts.cancelSignal, none] → Disturbed cfg w')

theorem SigsOk.left {cfg : RCfg} {w w1 w2 : W} (h : SigsOk cfg w1 w2) (hx : RExt w w1)
    (hs : libSigs w1.trace = libSigs w.trace) : SigsOk cfg w w2 := by
  obtain ⟨s, h1, h2, h3, h4⟩ := h
  exact ⟨s, by rw [h1, hs], h2, fun h => h3 (hx.rcKnown h), h4⟩

theorem SigsOk.same {cfg : RCfg} {w w1 : W} (hs : libSigs w1.trace = libSigs w.trace) : SigsOk cfg w w1 :=
  ⟨[], by simp [hs], .inl rfl, fun _ => rfl, by simp⟩

theorem SigsOk.right {cfg : RCfg} {w w1 w2 : W} (h : SigsOk cfg w w1) (hx : RExt w1 w2)
    (hs : libSigs w2.trace = libSigs w1.trace) : SigsOk cfg w w2 := by
  obtain ⟨s, h1, h2, h3, h4⟩ := h
  exact ⟨s, by rw [hs, h1], h2, h3, fun h => (h4 h).right hx⟩

theorem KPost.sigsOk {cfg : RCfg} {w w' : W} {o : Out Unit} (k : KPost cfg w o w') : SigsOk cfg w w' := by
  obtain ⟨s, h1, h2, h3⟩ := k.sigs
  refine ⟨s, h1, h2, h3, ?_⟩
  intro hs
  obtain ⟨l, hl, _⟩ := k.ext.trace
  rcases k.calm with h | h | h | h | ⟨e, h⟩
  · exact absurd (by rw [h1, hs]) h
  · exact .inl h
  · refine .inr (.inl ?_)
    rw [hl]
    exact List.mem_append_right _ (count_lt_mem (t := w.trace) (by rw [← hl]; rfl) h)
  · refine .inr (.inr (.inl ?_))
    rw [hl]
    exact List.mem_append_right _ (count_lt_mem (t := w.trace) (by rw [← hl]; rfl) h)
  · obtain ⟨_, i, _, _, hi, _⟩ := firstFailure_some.1 h
    exact .inr (.inr (.inr ⟨i, e, hi⟩))

/-- The child may still run, see `Undead`; in any case SIGKILL was sent to it. -/
def Survived (w : W) (e : Exc) (w' : W) : Prop :=
  Undead w.trace e w'.trace ∧ (w'.exitedBy = true ∨ .kill false none ∈ w'.trace)

theorem Survived.left {w w1 w2 : W} {e : Exc} (h : Survived w1 e w2) (hx : RExt w w1) : Survived w e w2 := by
  obtain ⟨l, hl, _⟩ := hx.trace
  exact ⟨h.1.left hl, h.2⟩

theorem Survived.right {w w1 w2 : W} {e : Exc} (h : Survived w e w1) (hx : RExt w1 w2) : Survived w e w2 := by
  obtain ⟨l, hl, _⟩ := hx.trace
  obtain ⟨⟨l1, l2, ht, hc⟩, hk⟩ := h
  refine ⟨⟨l1, l2 ++ l, by rw [hl, ht]; simp, ?_⟩, ?_⟩
  · rcases hc with h | h | ⟨h, h'⟩
    · exact .inl (by simp [h])
    · exact .inr (.inl (by simp [h]))
    · exact .inr (.inr ⟨by simp [h], h'⟩)
  · rcases hk with h | h
    · exact .inl (hx.exitedBy h)
    · right; rw [hl]; simp [h]

/-- Why the cleanup of a run raised `e`. -/
def Why (w : W) (ids : List Nat) (e : Exc) (w' : W) : Prop :=
  (e = .cancelled ∧ w.throws < w'.throws) ∨
    (e = .runtimeError ∧ (w.gaveUps < w'.gaveUps ∨ .unableToKill ∈ w'.trace)) ∨
    (ids.all w'.isDone = true ∧ w'.firstFailure ids = some e)

/-- `_wait` suspends at least once, or there is no request to cancel the caller that this could ignore. -/
def RCfg.Yields (cfg : RCfg) (w : W) : Prop := cfg.bsdPty = false ∨ w.mine ≠ [] ∨ w.mustCancel = false

/-- Facts about `_wait` and about the `try` block of `_finish`. -/
structure FTPost (cfg : RCfg) (ex : Option Exc) (w : W) (o : Out Bool) (w' : W) : Prop where
  ext : RExt w w'
  good : w'.Ok
  sigs : SigsOk cfg w w'
  cancelled : w'.cancelled = true → w.cancelled = true ∨ w.throws < w'.throws ∨ ex = some .cancelled
  ok : ∀ b, o = .ok b → w'.rcKnown = true ∧ (ex = none → b = false) ∧ (∀ e, ex = some e → b = w'.cancelled)
  calm : ∀ b, o = .ok b → ex = none → w'.cancelled = false → Quiet w w' ∧
    (cfg.Yields w → w'.mustCancel = false) ∧
    w'.firstFailure w.mine = none ∧ w.mine.all w'.isDone = true ∧ (cfg.bsdPty = true → w'.timer = false)
  exc : ∀ e, o = .exc e → w'.rcKnown = true ∨ Survived w e w'
  why : ∀ e, o = .exc e → Why w w.mine e w'
  done : o ≠ .blocked → Few w w' → w.Owned → w'.AllTasksDone

theorem firstFailure_not_cancelled {w : W} (hok : w.Ok) {ids : List Nat} :
    w.firstFailure ids ≠ some .cancelled := by
  intro h
  obtain ⟨l, i, l', _, hi, _⟩ := firstFailure_some.1 h
  unfold W.outOf at hi
  split at hi
  · rename_i t ht
    have := hok.task _ _ ht
    unfold TaskOk at this
    rw [hi] at this
    exact this.1 rfl
  · cases hi

/-- Facts about the `try` block of `_wait`. -/
structure TPost (cfg : RCfg) (w : W) (o : Out Unit) (w' : W) : Prop where
  ext : Ext w w'
  len : w'.tasks.length = w.tasks.length
  good : w'.Ok
  ok : o = .ok () → w.mine.all w'.isDone = true ∧ (cfg.Yields w → w'.mustCancel = false) ∧ Quiet w w' ∧
    w'.firstFailure w.mine = none ∧ w'.rcKnown = true ∧ (cfg.bsdPty = true → w'.timer = false)
  exc : ∀ e, o = .exc e →
    (e = .cancelled ∧ w.throws < w'.throws ∧ (w.mine.all w'.isDone = true ∨ w.throws + 1 < w'.throws)) ∨
    (e = .runtimeError ∧ w.gaveUps < w'.gaveUps) ∨
    (w.mine.all w'.isDone = true ∧ w'.firstFailure w.mine = some e ∧ w'.gaveUps = w.gaveUps ∧ w'.throws ≤ w.throws + 1)

theorem stopTimer_quiet (w : W) : Quiet w w.stopTimer :=
  { Quiet.refl w with timer := fun h => by simp [W.stopTimer] at h }

theorem pollOnce_quiet (w : W) : Quiet w w.pollOnce :=
  (Envs.step (fwd := none) w .reap _ (.step _ .deliver _ (.refl _))).quiet

theorem pollOnce_must (w : W) : w.pollOnce.mustCancel = w.mustCancel := by
  simp only [W.pollOnce, W.env]
  split <;> split <;> (try split) <;> (try split) <;> rfl

theorem pollOnce_cancels (w : W) : w.pollOnce.cancels = w.cancels := by
  simp only [W.pollOnce, W.env]
  split <;> split <;> (try split) <;> (try split) <;> rfl

/-- What the polling part of `_wait` does, from a state in which the other tasks have ended. -/
theorem waitPid_spec (w : W) (hok : w.Ok) :
    wp (Coro.finally_ waitPidPoll (Coro.upd W.stopTimer)) (fun o w' => Ext w w' ∧ w'.tasks.length = w.tasks.length ∧ w'.Ok ∧
      (o = .ok () → Quiet w w' ∧ w'.rcKnown = true ∧ w'.timer = false ∧ (w.mustCancel = false → w'.mustCancel = false)) ∧
      (∀ e, o = .exc e → e = .cancelled ∧ w.throws < w'.throws)) w := by
  have hq := pollOnce_quiet w
  have hok1 : w.pollOnce.Ok := stable_ok.env _ _ _ (stable_ok.env _ _ _ hok)
  refine wp_finally (wp_bind (wp_upd (wp_bind (wp_get (wp_when (fun _ => ?_) fun hn => ?_)))))
  · refine wp_wait ?_ ?_ ?_
    · intro w' e hm
      have q := hq.trans e.quiet
      have x : Ext w w'.throwCancel := q.toExt.trans (throwCancel_ext w')
      refine wp_upd ⟨x.trans (stopTimer_quiet _).toExt, q.lenEq, (stable_ok.throw _ (stable_ok.envs e hok1)).same rfl rfl rfl,
        by simp, ?_⟩
      intro e' he; cases he
      refine ⟨rfl, ?_⟩
      have := q.throws
      show w.throws < W.throws w'.throwCancel
      simp only [W.throws, W.throwCancel, W.log, List.count_append, List.count_cons] at this ⊢
      simp; omega
    · intro w' e hm hr
      have q := hq.trans e.quiet
      refine wp_upd ⟨q.toExt.trans (stopTimer_quiet _).toExt, q.lenEq, (stable_ok.envs e hok1).same rfl rfl rfl, fun _ =>
        ⟨q.trans (stopTimer_quiet _), hr.elim (fun h => h) (fun h => nomatch h), rfl, fun _ => hm⟩, by simp⟩
    · intro w' e
      have q := hq.trans e.quiet
      exact ⟨q.toExt, q.lenEq, stable_ok.envs e hok1, by simp, by simp⟩
  · refine wp_upd ⟨hq.toExt.trans (stopTimer_quiet _).toExt, hq.lenEq, hok1.same rfl rfl rfl, fun _ =>
      ⟨hq.trans (stopTimer_quiet _), (by simpa using hn : w.pollOnce.rcKnown = true), rfl, fun h => (pollOnce_must w).trans h⟩, by simp⟩

theorem waitTry_spec (cfg : RCfg) (w : W) (hok : w.Ok) (hw : cfg.bsdPty = false → w.HasWaiter) :
    wp (waitTry cfg) (TPost cfg w) w := by
  unfold waitTry
  have harv : wp (Coro.when (decide (w.mine ≠ [])) (harvest w.mine)) (fun o w' => w'.tasks.length = w.tasks.length ∧ w'.Ok ∧ Ext w w' ∧
      (o = .ok () → w.mine.all w'.isDone = true ∧ (w.mine ≠ [] ∨ w.mustCancel = false → w'.mustCancel = false) ∧ Quiet w w' ∧
        w'.firstFailure w.mine = none) ∧
      (∀ e, o = .exc e →
        (e = .cancelled ∧ w.throws < w'.throws ∧ (w.mine.all w'.isDone = true ∨ w.throws + 1 < w'.throws)) ∨
        (e = .runtimeError ∧ w.gaveUps < w'.gaveUps) ∨
        (w.mine.all w'.isDone = true ∧ w'.firstFailure w.mine = some e ∧ w'.gaveUps = w.gaveUps ∧ w'.throws ≤ w.throws + 1))) w := by
    refine wp_when (fun hne => ?_) fun hn => ?_
    · have hne : w.mine ≠ [] := of_decide_eq_true hne
      have hlen := stable_len w.tasks.length |>.harvest w.mine false true false w rfl
      refine wp_mono (wp_and (wp_and hlen (stable_ok.harvest _ _ _ _ _ hok)) (harvest_spec _ _ _ _ _)) ?_
      rintro o w1 ⟨⟨hlen, hok1⟩, post⟩
      refine ⟨hlen, hok1, post.ext, fun h => ?_, fun e he => ?_⟩
      · obtain ⟨hd, hm, q, hff⟩ := post.ok h
        exact ⟨hd, fun _ => hm, q, hff⟩
      · rcases post.exc e he with ⟨h, h1, _, h2⟩ | ⟨_, h, _⟩ | ⟨h, h', _⟩ | ⟨_, h, _⟩ | ⟨h1, h2, _, h3, h4⟩
        · exact .inl ⟨h, h1, h2⟩
        · cases h
        · exact .inr (.inl ⟨h, h'⟩)
        · exact absurd h hne
        · exact .inr (.inr ⟨h1, h2, h3, h4⟩)
    · have hn : w.mine = [] := by simpa using hn
      refine ⟨rfl, hok, .refl w, fun _ => ⟨by simp [hn], fun h => h.elim (absurd hn) id, .refl w, by simp [hn, W.firstFailure]⟩, by simp⟩
  refine wp_bind (wp_get (wp_bind (wp_mono harv ?_)))
  rintro o w1 ⟨hlen, hok1, hx, hok', hexc⟩
  cases o with
  | blocked => exact ⟨hx, hlen, hok1, by simp, by simp⟩
  | exc e => exact ⟨hx, hlen, hok1, by simp, fun e' h => by cases h; exact hexc e rfl⟩
  | ok _ =>
    obtain ⟨hd, hm, q, hff⟩ := hok' rfl
    refine wp_when (fun hb => ?_) fun hb => ?_
    · refine wp_mono (waitPid_spec w1 hok1) ?_
      rintro o w2 ⟨hx2, hlen2, hok2, h1, h2⟩
      refine ⟨hx.trans hx2, hlen2.trans hlen, hok2, fun h => ?_, fun e he => ?_⟩
      · obtain ⟨q2, hrc, ht, hmm⟩ := h1 h
        refine ⟨hx2.toRExt.allDone hd, fun h => ?_, q.trans q2, ?_, hrc, fun _ => ht⟩
        · rcases h with h | h
          · rw [hb] at h; cases h
          · exact hmm (hm h)
        · rw [hx2.toRExt.firstFailure hd, hff]
      · obtain ⟨h3, h4⟩ := h2 e he
        have := q.throws
        exact .inl ⟨h3, by omega, .inl (hx2.toRExt.allDone hd)⟩
    · have hw := hw hb
      have hne : w.mine ≠ [] := by obtain ⟨i, hi, _⟩ := hw; exact List.ne_nil_of_mem hi
      have hrc := HasWaiter.rcKnown (HasWaiter.quiet hw q) hok1 (by rw [q.mine]; exact hd)
      exact ⟨hx, hlen, hok1, fun _ => ⟨hd, fun _ => hm (.inl hne), q, hff, hrc, fun h => by rw [hb] at h; cases h⟩, by simp⟩

theorem waitRun_spec (cfg : RCfg) (w : W) (hok : w.Ok) (hp : ∃ p, w.proc = some p) (hw : cfg.bsdPty = false → w.HasWaiter) :
    wp (waitRun cfg) (fun o w' => FTPost cfg none w (match o with
      | .ok _ => .ok false
      | .exc e => .exc e
      | .blocked => .blocked) w') w := by
  unfold waitRun
  refine wp_catch (wp_mono (waitTry_spec cfg w hok hw) ?_)
  rintro o w1 post
  have hlen := post.len
  have hok1 := post.good
  have hx1 := post.ext.toRExt
  have hs1 := post.ext.libSigs
  have all : w.mine.all w1.isDone = true → w.Owned → w1.AllTasksDone := by
    intro h ho i hi
    rw [hlen] at hi
    rcases ho i hi with h' | h'
    · exact hx1.isDone h'
    · exact (List.all_eq_true.1 h) i h'
  have hcan : w1.cancelled = true → w.cancelled = true ∨ w.throws < w1.throws ∨ none = some Exc.cancelled := by
    rw [post.ext.cancelled]; exact .inl
  cases o with
  | blocked =>
    exact ⟨hx1, hok1, .same hs1, hcan, by simp, by simp, by simp, by simp, by simp⟩
  | ok _ =>
    obtain ⟨hd, hm, q, hff, hrc, hto⟩ := post.ok rfl
    exact ⟨hx1, hok1, .same hs1, hcan, fun b hb => by cases hb; simp [hrc], fun _ _ _ _ => ⟨q, hm, hff, hd, hto⟩,
      by simp, by simp, fun _ _ ho => all hd ho⟩
  | exc e =>
    simp only []
    split
    · rename_i he
      subst he
      refine wp_bind (wp_upd ?_)
      simp only []
      have hx2 : RExt w1 { w1.setCancelled with mine := [] } := (setCancelled_ext w1).trans (rmine_ext _ _)
      have hok2 : W.Ok { w1.setCancelled with mine := [] } := hok1.same rfl rfl rfl
      have hth : w.throws < w1.throws := by
        rcases post.exc _ rfl with ⟨_, h, _⟩ | ⟨h, _⟩ | ⟨_, h, _⟩
        · exact h
        · cases h
        · exact absurd h (firstFailure_not_cancelled hok1)
      refine wp_mono (kill_spec cfg _ hok2 ((hx1.trans hx2).procSome hp)) ?_
      intro o w2 k
      have hxx := (hx1.trans hx2).trans k.ext
      have hth2 : w.throws < w2.throws := Nat.lt_of_lt_of_le hth (hx2.trans k.ext).throws
      have hdone : o ≠ .blocked → Few w w2 → w.Owned → w2.AllTasksDone := by
        intro hb hf ho
        obtain ⟨f1, f2⟩ := hf.split hx1 (hx2.trans k.ext)
        refine k.done hb (f2.split hx2 k.ext).2 ?_
        refine W.AllTasksDone.owned fun i hi => ?_
        change w1.isDone i = true
        refine all ?_ ho i hi
        unfold Few at f1
        rcases post.exc _ rfl with ⟨_, _, h | h⟩ | ⟨h, _⟩ | ⟨_, h, _⟩
        · exact h
        · omega
        · cases h
        · exact absurd h (firstFailure_not_cancelled hok1)
      have hsig : SigsOk cfg w w2 := SigsOk.left (w1 := { w1.setCancelled with mine := [] }) k.sigsOk
        (hx1.trans hx2) hs1
      refine ⟨hxx, k.good, hsig, fun _ => .inr (.inl hth2), ?_, ?_, ?_, ?_, ?_⟩
      · intro b hb
        cases o with
        | ok _ => cases hb; exact ⟨k.ok rfl, fun _ => rfl, by simp⟩
        | exc e => cases hb
        | blocked => cases hb
      · intro b hb _ hc
        rw [k.ext.cancelled rfl] at hc; cases hc
      · intro e he
        cases o with
        | ok _ => cases he
        | blocked => cases he
        | exc e' =>
          cases he
          exact (k.exc e rfl).imp_right fun h => Survived.left (w1 := { w1.setCancelled with mine := [] }) h (hx1.trans hx2)
      · intro e he
        cases o with
        | ok _ => cases he
        | blocked => cases he
        | exc e' =>
          cases he
          have : w.gaveUps ≤ w1.gaveUps := hx1.gaveUps
          rcases k.why e rfl with ⟨h, _⟩ | ⟨h, h'⟩ | h
          · exact .inl ⟨h, hth2⟩
          · exact .inr (.inl ⟨h, h'.imp_left fun h => by change w1.gaveUps < _ at h; omega⟩)
          · simp [W.firstFailure] at h
      · intro hb
        refine hdone ?_
        intro h; rw [h] at hb; exact hb rfl
    · rename_i he
      refine wp_bind (wp_upd ?_)
      simp only []
      have hx2 : RExt w1 { w1 with mine := [] } := rmine_ext _ _
      have hok2 : W.Ok { w1 with mine := [] } := hok1.same rfl rfl rfl
      refine wp_bind (wp_mono (kill_spec cfg _ hok2 ((hx1.trans hx2).procSome hp)) ?_)
      intro o w2 k
      have hxx := (hx1.trans hx2).trans k.ext
      have hdone : o ≠ .blocked → Few w w2 → w.Owned → w2.AllTasksDone := by
        intro hb hf ho
        obtain ⟨f1, f2⟩ := hf.split hx1 (hx2.trans k.ext)
        refine k.done hb (f2.split hx2 k.ext).2 ?_
        refine W.AllTasksDone.owned fun i hi => ?_
        change w1.isDone i = true
        refine all ?_ ho i hi
        unfold Few at f1
        rcases post.exc _ rfl with ⟨_, _, h | h⟩ | ⟨_, h⟩ | ⟨h, _⟩
        · exact h
        · omega
        · omega
        · exact h
      have hsig : SigsOk cfg w w2 := SigsOk.left (w1 := { w1 with mine := [] }) k.sigsOk
        (hx1.trans hx2) hs1
      have hcan2 : w2.cancelled = true → w.cancelled = true ∨ w.throws < w2.throws ∨ none = some Exc.cancelled := by
        intro h
        have t1 := hx1.throws
        rcases k.cancelled h with h | h
        · exact .inl (by rw [← post.ext.cancelled]; exact h)
        · exact .inr (.inl (by change w1.throws < _ at h; omega))
      have g1 := hx1.gaveUps
      have t1 := hx1.throws
      have g2 := k.ext.gaveUps
      have t2 := k.ext.throws
      change w1.gaveUps ≤ _ at g2
      change w1.throws ≤ _ at t2
      cases o with
      | blocked => exact ⟨hxx, k.good, hsig, hcan2, by simp, by simp, by simp, by simp, by simp⟩
      | exc e' =>
        refine ⟨hxx, k.good, hsig, hcan2, by simp, by simp, ?_, ?_, fun _ => hdone (by simp)⟩
        · intro e'' he; cases he
          exact (k.exc e' rfl).imp_right fun h => Survived.left (w1 := { w1 with mine := [] }) h (hx1.trans hx2)
        · intro e'' he; cases he
          rcases k.why e' rfl with ⟨h, h'⟩ | ⟨h, h'⟩ | h
          · change w1.throws < _ at h'
            exact .inl ⟨h, by omega⟩
          · exact .inr (.inl ⟨h, h'.imp_left fun h => by change w1.gaveUps < _ at h; omega⟩)
          · simp [W.firstFailure] at h
      | ok _ =>
        refine wp_raise ⟨hxx, k.good, hsig, hcan2, by simp, by simp, ?_, ?_, fun _ => hdone (by simp)⟩
        · intro _ _; exact .inl (k.ok rfl)
        · intro e'' he; cases he
          rcases post.exc _ rfl with ⟨h, _⟩ | ⟨h, h'⟩ | ⟨h, h', _⟩
          · exact absurd h he
          · exact .inr (.inl ⟨h, .inl (by omega)⟩)
          · exact .inr (.inr ⟨(hx2.trans k.ext).allDone h, by rw [(hx2.trans k.ext).firstFailure h, h']⟩)

theorem finishTry_spec (cfg : RCfg) (ex : Option Exc) (w : W) (hok : w.Ok) (hp : ∃ p, w.proc = some p)
    (hw : cfg.bsdPty = false → w.HasWaiter) : wp (finishTry cfg ex) (FTPost cfg ex w) w := by
  cases ex with
  | none =>
    unfold finishTry
    refine wp_bind (wp_mono (waitRun_spec cfg w hok hp hw) ?_)
    intro o w' h
    cases o with
    | ok _ => exact wp_pure h
    | exc e => exact h
    | blocked => exact h
  | some e =>
    unfold finishTry
    have key : ∀ w1, RExt w w1 → w1.Ok → w1.mine = w.mine → w1.trace = w.trace → w1.tasks = w.tasks →
        (w1.cancelled = true → w.cancelled = true ∨ e = .cancelled) →
        wp (do
          kill cfg
          let w ← Coro.get
          Coro.pure w.cancelled) (FTPost cfg (some e) w) w1 := by
      intro w1 hx1 hok1 hm1 ht1 hta1 hc1
      refine wp_bind (wp_mono (kill_spec cfg w1 hok1 (hx1.procSome hp)) ?_)
      intro o w2 k
      have hx := hx1.trans k.ext
      have hth : w1.throws = w.throws := by unfold W.throws; rw [ht1]
      have hgu : w1.gaveUps = w.gaveUps := by unfold W.gaveUps; rw [ht1]
      have hsig : SigsOk cfg w w2 := SigsOk.left k.sigsOk hx1 (by rw [ht1])
      have hcan : w2.cancelled = true → w.cancelled = true ∨ w.throws < w2.throws ∨ some e = some Exc.cancelled := by
        intro h
        rcases k.cancelled h with h | h
        · exact (hc1 h).imp_right fun h => .inr (by rw [h])
        · exact .inr (.inl (by omega))
      have hdone : o ≠ .blocked → Few w w2 → w.Owned → w2.AllTasksDone := by
        intro hb hf ho
        refine k.done hb (hf.split hx1 k.ext).2 ?_
        intro i hi
        rw [hta1] at hi
        unfold W.isDone
        rw [hta1, hm1]
        exact ho i hi
      cases o with
      | blocked => exact ⟨hx, k.good, hsig, hcan, by simp, by simp, by simp, by simp, by simp⟩
      | exc e' =>
        refine ⟨hx, k.good, hsig, hcan, by simp, by simp, ?_, ?_, fun _ => hdone (by simp)⟩
        · intro e'' he; cases he
          exact (k.exc e' rfl).imp_right fun h => Survived.left (w1 := w1) h hx1
        · intro e'' he; cases he
          have := k.why e' rfl
          rw [hm1, hth, hgu] at this
          exact this
      | ok _ =>
        refine wp_bind (wp_get (wp_pure ?_))
        exact ⟨hx, k.good, hsig, hcan, fun b hb => by cases hb; exact ⟨k.ok rfl, by simp, fun _ _ => rfl⟩,
          by simp, by simp, by simp, fun _ => hdone (by simp)⟩
    refine wp_bind (wp_when (fun h => wp_upd ?_) (fun h => ?_))
    · have h : e = .cancelled := of_decide_eq_true h
      exact key _ (setCancelled_ext w) (hok.same rfl rfl rfl) rfl rfl rfl fun _ => .inr h
    · exact key w (.refl w) hok rfl rfl rfl .inl

/-! ## `_close` -/

theorem transportClose_facts (w : W) : w.transportClose.tasks = w.tasks ∧ w.transportClose.mine = w.mine ∧
    w.transportClose.cancelled = w.cancelled ∧ w.transportClose.cancels = w.cancels ∧
    w.transportClose.mustCancel = w.mustCancel ∧ w.transportClose.timedOut = w.timedOut ∧
    w.transportClose.throws = w.throws ∧ w.transportClose.gaveUps = w.gaveUps ∧
    libSigs w.transportClose.trace = libSigs w.trace ∧ w.transportClose.rcKnown = w.rcKnown ∧
    (w.rcKnown = true → w.transportClose = w) := by
  unfold W.transportClose
  cases hp : w.proc with
  | none => simp [W.rcKnown]
  | some p =>
    simp only []
    split
    · simp
    · rename_i hrc
      have hrc : p.rc = none := by simpa using hrc
      have h1 : w.rcKnown = false := by unfold W.rcKnown; rw [hp]; simp [hrc]
      have h2 : p.signalReaps.rc = none := by unfold Proc.signalReaps; split <;> exact hrc
      cases hq : p.exited.isNone <;>
        simp [h1, h2, W.rcKnown, W.log, W.throws, W.gaveUps, libSigs, hp, hrc]

/-- A `wait_closed()` of a run ended with the exception `e`. -/
def CloserFailed (w : W) (e : Exc) : Prop :=
  ∃ (i : Nat) (t : TaskSt), w.tasks[i]? = some t ∧ t.kind = .closer ∧ t.out = some (.err e)

/-- Facts about `_close`. -/
structure CPost (w : W) (o : Out Unit) (w' : W) : Prop where
  ext : RExt w w'
  good : w'.Ok
  mine : w'.mine = w.mine
  cancelled : w'.cancelled = w.cancelled
  sigs : libSigs w'.trace = libSigs w.trace
  unknown : w.rcKnown = false → o = .ok () ∧ w'.rcKnown = false
  ok : o = .ok () → (w'.cancels = w.cancels ∧ w'.timedOut = w.timedOut ∧ w'.throws = w.throws ∧
    (w.mustCancel = false → w'.mustCancel = false)) ∨ .closeTimeout ∈ w'.trace
  why : ∀ e, o = .exc e → (e = .cancelled ∧ w.throws < w'.throws) ∨
    (e = .runtimeError ∧ w.gaveUps < w'.gaveUps) ∨ CloserFailed w' e
  done : o ≠ .blocked → Few w w' → w.AllTasksDone → w'.AllTasksDone

theorem closeRun_spec (cfg : RCfg) (w : W) (hok : w.Ok) : wp (closeRun cfg) (CPost w) w := by
  unfold closeRun
  refine wp_bind (wp_upd ?_)
  obtain ⟨f1, f2, f3, f4, f5, f6, f7, f8, f9, f10, _⟩ := transportClose_facts w
  have hx0 := transportClose_ext w
  have hok0 := transportClose_ok hok
  generalize w.transportClose = w0 at *
  simp only []
  refine wp_bind (wp_get ?_)
  simp only []
  have hd0 : w.AllTasksDone → w0.AllTasksDone := by
    intro h i hi; rw [f1] at hi; unfold W.isDone; rw [f1]; exact h i hi
  split
  · rename_i hrc
    simp only [Bool.not_eq_true'] at hrc
    refine wp_upd ⟨hx0.trans (rlog_ext rfl), hok0.same rfl rfl rfl, f2, f3, ?_, fun _ => ⟨rfl, hrc⟩, ?_, by simp, ?_⟩
    · simp only [W.log, libSigs_append, f9]; simp [libSigs]
    · intro _; left
      refine ⟨f4, f6, ?_, fun h => f5.trans h⟩
      rw [throws_log _ (by simp), f7]
    · intro _ _ h; exact hd0 h
  · rename_i hrc
    have hrc : w0.rcKnown = true := by simpa using hrc
    have hunk : ∀ {P : Prop}, w.rcKnown = false → P := fun h => by rw [← f10, hrc] at h; cases h
    refine wp_when (fun _ => ?_) (fun _ => ?_)
    · refine wp_catch (wp_bind (wp_createTask ?_))
      simp only []
      have hx1 := createTask_ext w0 .closer
      have hok1 := hok0.append .closer (by simp)
      have hlen := stable_len (w0.tasks.length + 1) |>.harvest [w0.tasks.length] true true true
        { w0 with tasks := w0.tasks ++ [{ kind := .closer }] } (by simp)
      refine wp_mono (wp_and (wp_and hlen (stable_ok.harvest _ _ _ _ _ hok1)) (harvest_spec _ _ _ _ _)) ?_
      rintro o w2 ⟨⟨hlen, hok2⟩, post⟩
      have hx2 : Ext w0 w2 := hx1.trans post.ext
      have hx := hx0.trans hx2.toRExt
      have hm := hx2.mine.trans f2
      have hc := hx2.cancelled.trans f3
      have hs := hx2.libSigs.trans f9
      have hdone : w2.isDone w0.tasks.length = true → w.AllTasksDone → w2.AllTasksDone := by
        intro hd ha i hi
        rw [hlen] at hi
        by_cases hi' : i < w0.tasks.length
        · exact hx2.isDone (hd0 ha i hi')
        · have : i = w0.tasks.length := by omega
          rw [this]; exact hd
      have hthr : (⟨w0.tasks ++ [{ kind := .closer }], w0.mustCancel, w0.cancels, w0.proc, w0.attached, w0.mine,
        w0.cancelled, w0.timedOut, w0.timer, w0.lastSignal, w0.trace, w0.cli⟩ : W).throws = w.throws := f7
      have hgv : (⟨w0.tasks ++ [{ kind := .closer }], w0.mustCancel, w0.cancels, w0.proc, w0.attached, w0.mine,
        w0.cancelled, w0.timedOut, w0.timer, w0.lastSignal, w0.trace, w0.cli⟩ : W).gaveUps = w.gaveUps := f8
      cases o with
      | blocked => exact ⟨hx, hok2, hm, hc, hs, hunk, by simp, by simp, by simp⟩
      | ok _ =>
        obtain ⟨hd, hmc, q, _⟩ := post.ok rfl
        simp only [List.all_cons, List.all_nil, Bool.and_true] at hd
        have hl : w2.cancels = w0.cancels := q.lost hmc
        have ht : w2.timedOut = w0.timedOut := q.timed hl
        refine ⟨hx, hok2, hm, hc, hs, hunk, fun _ => .inl ⟨hl.trans f4, ht.trans f6, ?_, fun _ => hmc⟩,
          by simp, fun _ _ => hdone hd⟩
        rw [q.throws, hthr]
      | exc e =>
        simp only []
        split
        · rename_i he
          refine wp_upd ⟨hx.trans (rlog_ext rfl), hok2.same rfl rfl rfl, hm, hc, ?_, hunk,
            fun _ => .inr (by simp [W.log]), by simp, ?_⟩
          · simp only [W.log, libSigs_append, hs]; simp [libSigs]
          · intro _ hf ha
            have : w2.isDone w0.tasks.length = true := by
              have hf' : Few w w2 := ⟨by rw [← hf.1, gaveUps_log _ (by simp)], by
                have := hf.2; rw [throws_log _ (by simp)] at this; exact this⟩
              unfold Few at hf'
              rcases post.exc e rfl with ⟨_, _, _, h | h⟩ | ⟨_, _, h, _⟩ | ⟨_, h, _⟩ | ⟨_, h, _⟩ | ⟨h, _⟩
              · simpa using h
              · omega
              · simpa using h
              · omega
              · cases h
              · simpa using h
            exact hdone this ha
        · rename_i he
          refine wp_raise ⟨hx, hok2, hm, hc, hs, hunk, by simp, ?_, ?_⟩
          · intro e' he'; cases he'
            rcases post.exc e rfl with ⟨h, h', _⟩ | ⟨h, _⟩ | ⟨h, h', _⟩ | ⟨_, h, _⟩ | ⟨h, h', _⟩
            · exact .inl ⟨h, by omega⟩
            · exact absurd h he
            · exact .inr (.inl ⟨h, by omega⟩)
            · cases h
            · refine .inr (.inr ?_)
              obtain ⟨t', ht', hk⟩ := post.ext.task w0.tasks.length { kind := .closer } (by simp)
              refine ⟨_, t', ht', hk.kind, ?_⟩
              unfold W.firstFailure at h'
              simp only [List.findSome?_cons, List.findSome?_nil] at h'
              unfold W.outOf at h'
              rw [ht'] at h'
              simp only [] at h'
              cases hto : t'.out with
              | none => rw [hto] at h'; simp at h'
              | some out =>
                rw [hto] at h'
                cases out with
                | val r => simp at h'
                | err e' => simp only [Option.some.injEq] at h'; rw [h']
                | cancelled => simp at h'
          · intro _ hf ha
            refine hdone ?_ ha
            unfold Few at hf
            rcases post.exc e rfl with ⟨_, _, _, h | h⟩ | ⟨_, _, h, _⟩ | ⟨_, h, _⟩ | ⟨_, h, _⟩ | ⟨h, _⟩
            · simpa using h
            · omega
            · simpa using h
            · omega
            · cases h
            · simpa using h
    · exact ⟨hx0, hok0, f2, f3, f9, hunk, fun _ => .inl ⟨f4, f6, f7, fun h => f5.trans h⟩, by simp,
        fun _ _ h => hd0 h⟩

/-! ## `_finish` -/

/-- These tasks are done in `w'`, and were not asked to cancel since `w`. -/
def EndedAlone (w w' : W) (ids : List Nat) : Prop :=
  ∀ i ∈ ids, ∀ t, w.tasks[i]? = some t → ∃ t', w'.tasks[i]? = some t' ∧ t'.out.isSome = true ∧ t'.cancels = t.cancels

theorem Quiet.endedAlone {w w1 w2 : W} {ids : List Nat} (q : Quiet w w1) (hd : ids.all w1.isDone = true) (hx : RExt w1 w2) :
    EndedAlone w w2 ids := by
  intro i hi t ht
  obtain ⟨t1, ht1, hc⟩ := q.same i t ht
  have hd := (List.all_eq_true.1 hd) i hi
  unfold W.isDone at hd
  rw [ht1] at hd
  obtain ⟨t2, ht2, e⟩ := hx.task i t1 ht1
  have := e.out hd
  subst this
  exact ⟨t2, ht2, hd, hc⟩

/-- Facts about `_finish`. -/
structure FPost (cfg : RCfg) (ex : Option Exc) (w : W) (o : Out Bool) (w' : W) : Prop where
  ext : RExt w w'
  good : w'.Ok
  sigs : SigsOk cfg w w'
  cancelled : w'.cancelled = true → w.cancelled = true ∨ w.throws < w'.throws ∨ ex = some .cancelled
  ended : o ≠ .blocked → w'.rcKnown = true ∨ ∃ e, o = .exc e ∧ Survived w e w'
  ok : ∀ b, o = .ok b → (ex = none → b = false) ∧ (∀ e, ex = some e → b = w'.cancelled)
  calm : ∀ b, o = .ok b → ex = none → w'.cancelled = false →
    w'.firstFailure w.mine = none ∧ libSigs w'.trace = libSigs w.trace ∧
    (cfg.Yields w → w'.timedOut = w.timedOut ∧
    (w'.cancels = w.cancels ∧ w'.throws = w.throws ∧ w'.mustCancel = false ∨ .closeTimeout ∈ w'.trace))
  why : ∀ e, o = .exc e → Why w w.mine e w' ∨ CloserFailed w' e
  done : o ≠ .blocked → Few w w' → w.Owned → w'.AllTasksDone
  alone : ∀ b, o = .ok b → ex = none → w'.cancelled = false → EndedAlone w w' w.mine

theorem Why.right {w w1 w2 : W} {ids : List Nat} {e : Exc} (h : Why w ids e w1) (hx : RExt w1 w2) :
    Why w ids e w2 := by
  have := hx.throws
  have := hx.gaveUps
  obtain ⟨l, hl, _⟩ := hx.trace
  rcases h with ⟨h, h'⟩ | ⟨h, h'⟩ | h
  · exact .inl ⟨h, by omega⟩
  · refine .inr (.inl ⟨h, ?_⟩)
    rcases h' with h' | h'
    · exact .inl (by omega)
    · exact .inr (by rw [hl]; simp [h'])
  · refine .inr (.inr ?_)
    exact ⟨hx.allDone h.1, by rw [hx.firstFailure h.1, h.2]⟩

/-- When a waiter has returned, the timer is off. -/
def W.TimerOff (w : W) : Prop :=
  ∀ (i : Nat) (t : TaskSt) (r : Option Result), w.tasks[i]? = some t → t.kind = .waiter → t.out = some (.val r) → w.timer = false

theorem timerOff_same {w w' : W} (ht : w'.tasks = w.tasks) (hti : w'.timer = true → w.timer = true) (h : w.TimerOff) :
    w'.TimerOff := by
  intro i t r hi hk ho
  rw [ht] at hi
  have := h i t r hi hk ho
  cases hx : w'.timer with
  | false => rfl
  | true => rw [hti hx] at this; cases this

theorem timerOff_off {w : W} (h : w.timer = false) : w.TimerOff := fun _ _ _ _ _ _ => h

theorem timerOff_modify {w : W} (i : Nat) (f : TaskSt → TaskSt) (h : w.TimerOff)
    (hf : ∀ t, w.tasks[i]? = some t → (f t).kind = t.kind ∧ ∀ r, (f t).out = some (.val r) → t.kind = .waiter →
      t.out = some (.val r) ∨ w.timer = false) : W.TimerOff { w with tasks := w.tasks.modify i f } := by
  intro j t r hj hk ho
  change w.timer = false
  rw [List.getElem?_modify] at hj
  split at hj
  · rename_i hij
    subst hij
    cases hu : w.tasks[i]? with
    | none => rw [hu] at hj; cases hj
    | some u =>
      rw [hu] at hj
      cases hj
      obtain ⟨h1, h2⟩ := hf u hu
      rw [h1] at hk
      rcases h2 r ho hk with h' | h'
      · exact h i u r hu hk h'
      · exact h'
  · have hj : w.tasks[j]? = some t := by
      cases hu : w.tasks[j]? with
      | none => rw [hu] at hj; cases hj
      | some u => rw [hu] at hj; exact hj
    exact h j t r hj hk ho

theorem timerOff_cancelTask {w : W} (i : Nat) (h : w.TimerOff) : (w.cancelTask i).TimerOff := by
  refine timerOff_modify i _ h ?_
  intro t _
  unfold TaskSt.cancel
  split
  · exact ⟨rfl, fun r hr _ => .inl hr⟩
  · exact ⟨rfl, fun r hr _ => .inl hr⟩

theorem timerOff_cancelCaller {w : W} (fwd : Option Nat) (h : w.TimerOff) : (w.cancelCaller fwd).TimerOff := by
  unfold W.cancelCaller
  split
  · split
    · exact timerOff_same (w := w) rfl id h
    · exact timerOff_cancelTask _ (timerOff_same (w := w) rfl id h)
  · exact timerOff_same (w := w) rfl id h

theorem kstable_timerOff : KStable W.TimerOff where
  env fwd w ev h := by
    cases ev <;> simp only [W.env]
    case taskDone i out =>
      split
      · exact h
      · rename_i t ht
        split
        · generalize out.norm = out
          have he : (w.endEffect t.kind out).TimerOff :=
            timerOff_same (endEffect_tasks w t.kind out) (fun hh => (endEffect_ext w t.kind out).timer hh) h
          refine timerOff_modify i _ he ?_
          intro u hu
          rw [endEffect_tasks, ht] at hu
          cases hu
          refine ⟨rfl, ?_⟩
          intro r _ hk
          right
          rw [hk]; rfl
        · exact h
    case taskDrop i =>
      split
      · exact h
      · split
        · refine timerOff_modify i _ h ?_
          intro u hu
          exact ⟨rfl, (by intro r hr; simp at hr)⟩
        · exact h
    case cancel => exact timerOff_cancelCaller _ h
    case timer =>
      split
      · exact timerOff_cancelCaller _ (timerOff_off rfl)
      · exact h
    case userSignal sig =>
      split
      · exact timerOff_same (signal_tasks _ _ _) (fun hh => (rsignal_ext w true sig).timer hh) h
      · exact h
    all_goals repeat' split
    all_goals exact timerOff_same (w := w) rfl id h
  throw w h := timerOff_same (w := w) rfl id h
  log w o _ h := timerOff_same (w := w) rfl id h
  cancelTask w i h := timerOff_cancelTask i h
  create w k _ h := by
    intro i t r hi hk ho
    rw [List.getElem?_append] at hi
    split at hi
    · exact h i t r hi hk ho
    · rw [List.getElem?_singleton] at hi
      split at hi
      · cases hi; cases ho
      · cases hi
  signal w s h := timerOff_same (signal_tasks _ _ _) (fun hh => (rsignal_ext w false s).timer hh) h
  setCancelled w h := timerOff_off rfl
  stop w h := timerOff_off rfl
  mine w m h := timerOff_same (w := w) rfl id h
  poll w h := timerOff_same (w := w) (by
    unfold W.pollWaitPid
    repeat' split
    all_goals rfl) (fun hh => (poll_ext w).timer hh) h

theorem HasWaiter.timerOff {w : W} (h : w.HasWaiter) (hok : w.Ok) (ht : w.TimerOff) (hd : w.mine.all w.isDone = true) :
    w.timer = false := by
  obtain ⟨i, hi, t, hti, hk, hc⟩ := h
  have hd := (List.all_eq_true.1 hd) i hi
  have := hok.task i t hti
  unfold W.isDone at hd
  rw [hti] at hd
  simp only [] at hd
  unfold TaskOk at this
  rw [hk, hc] at this
  cases ho : t.out with
  | none => rw [ho] at hd; cases hd
  | some o =>
    rw [ho] at this
    cases o with
    | val r => exact ht i t r hti hk ho
    | err e => exact this.2.elim
    | cancelled => exact absurd this (by simp)

theorem finish_spec (cfg : RCfg) (ex : Option Exc) (w : W) (hok : w.Ok) (hp : ∃ p, w.proc = some p)
    (hw : cfg.bsdPty = false → w.HasWaiter) (hto : w.TimerOff) : wp (finish cfg ex) (FPost cfg ex w) w := by
  unfold finish
  refine wp_finally (wp_mono (wp_and (finishTry_spec cfg ex w hok hp hw) ((kstable_timerOff.finishTry cfg ex).run w hto)) ?_)
  rintro o w1 ⟨f, hto1⟩
  have common : ∀ (o1 : Out Unit) (w2 : W), CPost w1 o1 w2 → RExt w w2 ∧ SigsOk cfg w w2 ∧
      (w2.cancelled = true → w.cancelled = true ∨ w.throws < w2.throws ∨ ex = some .cancelled) := by
    intro o1 w2 c
    refine ⟨f.ext.trans c.ext, f.sigs.right c.ext c.sigs, ?_⟩
    rw [c.cancelled]
    intro h
    have := c.ext.throws
    exact (f.cancelled h).imp_right (Or.imp_left (by omega))
  have doneC : ∀ (o1 : Out Unit) (w2 : W), CPost w1 o1 w2 → o1 ≠ .blocked → o ≠ .blocked → Few w w2 →
      w.Owned → w2.AllTasksDone := by
    intro o1 w2 c hb hb' hf ho
    obtain ⟨f1, f2⟩ := hf.split f.ext c.ext
    exact c.done hb f2 (f.done hb' f1 ho)
  have whyC : ∀ (o1 : Out Unit) (w2 : W) (e : Exc), CPost w1 o1 w2 → o1 = .exc e →
      Why w w.mine e w2 ∨ CloserFailed w2 e := by
    intro o1 w2 e c h
    have := f.ext.throws
    have := f.ext.gaveUps
    rcases c.why e h with ⟨h, h'⟩ | ⟨h, h'⟩ | h
    · exact .inl (.inl ⟨h, by omega⟩)
    · exact .inl (.inr (.inl ⟨h, .inl (by omega)⟩))
    · exact .inr h
  cases o with
  | blocked =>
    exact ⟨f.ext, f.good, f.sigs, f.cancelled, by simp, by simp, by simp, by simp, by simp, by simp⟩
  | ok b =>
    simp only []
    obtain ⟨hrc, hb1, hb2⟩ := f.ok b rfl
    refine wp_mono (closeRun_spec cfg w1 f.good) ?_
    intro o1 w2 c
    obtain ⟨hx, hs, hc⟩ := common _ _ c
    have hrc2 := c.ext.rcKnown hrc
    cases o1 with
    | blocked => exact ⟨hx, c.good, hs, hc, by simp, by simp, by simp, by simp, by simp, by simp⟩
    | exc e =>
      refine ⟨hx, c.good, hs, hc, fun _ => .inl hrc2, by simp, by simp, ?_, fun _ => doneC _ _ c (by simp) (by simp), by simp⟩
      intro e' he; cases he
      exact whyC _ _ e c rfl
    | ok _ =>
      refine ⟨hx, c.good, hs, hc, fun _ => .inl hrc2, ?_, ?_, by simp, fun _ => doneC _ _ c (by simp) (by simp), ?_⟩
      · intro b' hb; cases hb
        refine ⟨hb1, fun e he => ?_⟩
        rw [c.cancelled]; exact hb2 e he
      · intro b' hb hex hcf
        rw [c.cancelled] at hcf
        obtain ⟨q, hm, hff, hall, hbt⟩ := f.calm b rfl hex hcf
        have hthr := q.throws
        have hoff : w1.timer = false := by
          cases hbsd : cfg.bsdPty with
          | true => exact hbt hbsd
          | false => exact HasWaiter.timerOff (HasWaiter.quiet (hw hbsd) q) f.good hto1 (by rw [q.mine]; exact hall)
        refine ⟨by rw [c.ext.firstFailure hall, hff], c.sigs.trans q.toExt.libSigs, fun hy => ?_⟩
        have hm := hm hy
        have hlost := q.lost hm
        have htimed := q.timed hlost
        constructor
        · rw [← htimed]
          cases h1 : w1.timedOut with
          | true => exact c.ext.timedOut h1
          | false =>
            cases h2 : w2.timedOut with
            | false => rfl
            | true =>
              rcases c.ext.timedOutBy h2 with h | h
              · rw [h1] at h; cases h
              · rw [hoff] at h; cases h
        · rcases c.ok rfl with ⟨h1, h2, h3, h4⟩ | h
          · exact .inl ⟨h1.trans hlost, h3.trans hthr, h4 hm⟩
          · exact .inr h
      · intro b' hb hex hcf
        rw [c.cancelled] at hcf
        obtain ⟨q, _, _, hall, _⟩ := f.calm b rfl hex hcf
        exact q.endedAlone hall c.ext
  | exc e =>
    simp only []
    refine wp_mono (closeRun_spec cfg w1 f.good) ?_
    intro o1 w2 c
    obtain ⟨hx, hs, hc⟩ := common _ _ c
    cases o1 with
    | blocked => exact ⟨hx, c.good, hs, hc, by simp, by simp, by simp, by simp, by simp, by simp⟩
    | exc e1 =>
      refine ⟨hx, c.good, hs, hc, fun _ => ?_, by simp, by simp, ?_, fun _ => doneC _ _ c (by simp) (by simp), by simp⟩
      · left
        cases hr : w1.rcKnown with
        | true => exact c.ext.rcKnown hr
        | false => have := (c.unknown hr).1; cases this
      · intro e' he; cases he
        exact whyC _ _ e1 c rfl
    | ok _ =>
      refine ⟨hx, c.good, hs, hc, fun _ => ?_, by simp, by simp, ?_, fun _ => doneC _ _ c (by simp) (by simp), by simp⟩
      · rcases f.exc e rfl with h | h
        · exact .inl (c.ext.rcKnown h)
        · exact .inr ⟨e, rfl, h.right c.ext⟩
      · intro e' he; cases he
        exact .inl ((f.why e rfl).right c.ext)

/-! ## `__aexit__` -/

/-- Facts about `__aexit__`: `w1` is the world just before the audit callback "stop". -/
structure XPost (cfg : RCfg) (ex : Option Exc) (w : W) (o : Out Bool) (w1 : W) : Prop where
  ext : RExt w w1
  good : w1.Ok
  sigs : SigsOk cfg w w1
  cancelled : w1.cancelled = true → w.cancelled = true ∨ w.throws < w1.throws ∨ ex = some .cancelled
  ended : o ≠ .blocked → w1.rcKnown = true ∨ ∃ e, Survived w e w1 ∧ (e ≠ .cancelled → o = .exc e)
  ok : ∀ b, o = .ok b → (ex = none → b = false) ∧ (b = true → w1.cancelled = true) ∧
    (w1.cancelled = true ∧ w1.timedOut = true → cfg.opts.catchCancelled = true)
  calm : ∀ b, o = .ok b → ex = none → w1.cancelled = false →
    w1.rcKnown = true ∧ w1.firstFailure w.mine = none ∧ libSigs w1.trace = libSigs w.trace ∧
    (cfg.Yields w → w1.timedOut = w.timedOut ∧
    (w1.cancels = w.cancels ∧ w1.throws = w.throws ∧ w1.mustCancel = false ∨ .closeTimeout ∈ w1.trace))
  why : ∀ e, o = .exc e → Why w w.mine e w1 ∨ CloserFailed w1 e ∨
    (e = .timeout ∧ w1.cancelled = true ∧ w1.timedOut = true ∧ cfg.opts.catchCancelled = false)
  done : o ≠ .blocked → Few w w1 → w.Owned → w1.AllTasksDone
  alone : ∀ b, o = .ok b → ex = none → w1.cancelled = false → EndedAlone w w1 w.mine
  supp : ex = some .cancelled → o = .ok false → w.throws < w1.throws

/-- A CancelledError of the body is suppressed, unless the cleanup raises. -/
theorem finish_cancelled (cfg : RCfg) (w : W) (hok : w.Ok) (hp : ∃ p, w.proc = some p) :
    wp (finish cfg (some .cancelled)) (fun o _ => ∀ b, o = .ok b → b = true) w := by
  unfold finish
  have ht : ∀ w' : W, wp (closeRun cfg) (fun _ _ => True) w' := fun _ _ => trivial
  refine wp_finally (wp_mono (R := fun o _ => ∀ b, o = .ok b → b = true) ?_ ?_)
  · unfold finishTry
    refine wp_bind (wp_when (fun _ => wp_upd ?_) (fun h => by simp at h))
    refine wp_bind (wp_mono (kill_spec cfg w.setCancelled (hok.same rfl rfl rfl) hp) ?_)
    intro o w2 k
    cases o with
    | blocked => simp
    | exc e => simp
    | ok _ =>
      refine wp_bind (wp_get (wp_pure ?_))
      intro b hb
      cases hb
      exact k.ext.cancelled rfl
  · intro o w' h
    cases o with
    | blocked => simp
    | exc e =>
      refine wp_mono (ht w') ?_
      intro o' _ _
      cases o' <;> simp
    | ok a =>
      refine wp_mono (ht w') ?_
      intro o' _ _
      cases o'
      · intro b hb; exact h b hb
      · simp
      · simp

theorem aexit_spec (cfg : RCfg) (ex : Option Exc) (w : W) (hok : w.Ok) (hp : ∃ p, w.proc = some p)
    (hw : cfg.bsdPty = false → w.HasWaiter) (hto : w.TimerOff) : wp (aexit cfg ex) (fun o w' => ∃ w1, XPost cfg ex w o w1 ∧
      w' = if o = .blocked then w1 else w1.stopTimer.log (.auditStop none)) w := by
  have hsup : wp (finish cfg ex) (fun o _ => ex = some .cancelled → ∀ b, o = .ok b → b = true) w := by
    intro evs he
    subst he
    exact finish_cancelled cfg w hok hp evs
  unfold aexit
  refine wp_bind (wp_finally (wp_catch (wp_mono (wp_and (finish_spec cfg ex w hok hp hw hto) hsup) ?_)))
  rintro o w1 ⟨f, fs⟩
  cases o with
  | blocked =>
    exact ⟨w1, ⟨f.ext, f.good, f.sigs, f.cancelled, by simp, by simp, by simp, by simp, by simp, by simp, by simp⟩, by simp⟩
  | ok b =>
    simp only []
    refine wp_upd ?_
    refine wp_bind (wp_get ?_)
    simp only []
    obtain ⟨hb1, hb2⟩ := f.ok b rfl
    have hend : w1.rcKnown = true := by
      rcases f.ended (by simp) with h | ⟨e, h, _⟩
      · exact h
      · cases h
    split
    · rename_i hc
      simp only [W.stopTimer, W.log, Bool.and_eq_true, Bool.not_eq_true'] at hc
      refine wp_raise ⟨w1, ⟨f.ext, f.good, f.sigs, f.cancelled, fun _ => .inl hend, by simp, by simp, ?_,
        fun _ => f.done (by simp), by simp, by simp⟩, by simp⟩
      intro e he; cases he
      exact .inr (.inr ⟨rfl, hc.1.1, hc.1.2, hc.2⟩)
    · rename_i hc
      refine wp_pure ⟨w1, ⟨f.ext, f.good, f.sigs, f.cancelled, fun _ => .inl hend, ?_, ?_, by simp,
        fun _ => f.done (by simp), fun b' hb h1 h2 => f.alone b rfl h1 h2,
        fun h1 h2 => by cases h2; cases fs h1 _ rfl⟩, by simp⟩
      · intro b' hb; cases hb
        refine ⟨hb1, ?_, ?_⟩
        · intro hb
          cases ex with
          | none => rw [hb1 rfl] at hb; cases hb
          | some e => rw [← hb2 e rfl, hb]
        · rintro ⟨h1, h2⟩
          simpa [W.stopTimer, W.log, h1, h2] using hc
      · intro b' hb h1 h2; cases hb
        exact ⟨hend, f.calm b rfl h1 h2⟩
  | exc e =>
    simp only []
    split
    · rename_i he
      subst he
      refine wp_bind (wp_upd ?_)
      simp only []
      refine wp_pure ?_
      simp only []
      refine wp_upd ?_
      refine wp_bind (wp_get ?_)
      simp only []
      have hx := setCancelled_ext w1
      have hthr : w.throws < w1.setCancelled.throws := by
        rcases f.why _ rfl with (⟨_, h⟩ | ⟨h, _⟩ | ⟨_, h⟩) | h
        · exact h
        · cases h
        · exact absurd h (firstFailure_not_cancelled f.good)
        · obtain ⟨i, t, ht, _, h⟩ := h
          have := f.good.task i t ht
          unfold TaskOk at this
          rw [h] at this
          exact absurd rfl this.1
      have hcan : w.cancelled = true ∨ w.throws < w1.setCancelled.throws ∨ ex = some .cancelled := .inr (.inl hthr)
      have hend : w1.setCancelled.rcKnown = true ∨ ∃ e, Survived w e w1.setCancelled ∧
          (e ≠ .cancelled → (False : Prop)) := by
        rcases f.ended (by simp) with h | ⟨e, h, h'⟩
        · exact .inl h
        · cases h
          exact .inr ⟨_, h'.right hx, fun h => h rfl⟩
      have hdone : Few w w1.setCancelled → w.Owned → w1.setCancelled.AllTasksDone := f.done (by simp)
      split
      · rename_i hc
        simp only [W.stopTimer, W.log, W.setCancelled, Bool.and_eq_true, Bool.not_eq_true'] at hc
        refine wp_raise ⟨w1.setCancelled, ⟨f.ext.trans hx, f.good.same rfl rfl rfl, f.sigs.right hx rfl,
          fun _ => hcan, fun _ => ?_, by simp, by simp, ?_, fun _ => hdone, by simp, by simp⟩, by simp⟩
        · exact hend.imp_right fun ⟨e, h, h'⟩ => ⟨e, h, fun hn => (h' hn).elim⟩
        · intro e he; cases he
          exact .inr (.inr ⟨rfl, rfl, hc.1.2, hc.2⟩)
      · rename_i hc
        refine wp_pure ⟨w1.setCancelled, ⟨f.ext.trans hx, f.good.same rfl rfl rfl, f.sigs.right hx rfl,
          fun _ => hcan, fun _ => ?_, ?_, ?_, by simp, fun _ => hdone,
          fun b hb _ h => by simp [W.setCancelled] at h, fun _ _ => hthr⟩, by simp⟩
        · exact hend.imp_right fun ⟨e, h, h'⟩ => ⟨e, h, fun hn => (h' hn).elim⟩
        · intro b hb; cases hb
          refine ⟨fun _ => rfl, (fun h => nomatch h), ?_⟩
          rintro ⟨h1, h2⟩
          simpa [W.stopTimer, W.log, h1, h2] using hc
        · intro b hb _ h; simp [W.setCancelled] at h
    · rename_i he
      refine wp_raise ?_
      simp only []
      refine wp_upd ?_
      refine ⟨w1, ⟨f.ext, f.good, f.sigs, f.cancelled, ?_, by simp, by simp, ?_, fun _ => f.done (by simp), by simp, by simp⟩,
        by simp⟩
      · intro _
        rcases f.ended (by simp) with h | ⟨e', h, h'⟩
        · exact .inl h
        · cases h
          exact .inr ⟨e, h', fun _ => rfl⟩
      · intro e' h; cases h
        exact (f.why e rfl).imp_right .inl

end Shellous
