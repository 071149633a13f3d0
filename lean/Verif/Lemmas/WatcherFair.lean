import Verif.Lemmas.WatcherStatus
import Verif.Spec.WatcherFair

/-!
# The child watcher: no exit is lost
-/

namespace Shellous

/-- The call whose child the thread is waiting for or reporting. -/
def TPc.handling : TPc → Option Nat
  | .waiting _ _ i _ | .calling _ _ i _ _ => some i
  | _ => none

/-- A call that has returned is reported, being handled, or in the tables. -/
def WKept (w : WW) : Prop :=
  w.left = none → ∀ i fd, w.pc i = .done fd → i ∈ w.ids ∨ w.tpc.handling = some i ∨ w.dict fd = some (w.pid i, i)

set_option maxHeartbeats 1000000 in
theorem wkept_step {w w' : WW} {ev : WatchEv} (hk : WKids w) (hl : WLive w) (ht : WTrue w) (h : WKept w) (hs : WStep w ev w') :
    WKept w' := by
  have born := hk.born
  have wt := hl.wt
  have lf := hl.lf
  have dic := hl.dic
  have opn := hl.opn
  have ins := hl.ins
  have wait := fun fd p i rest => ht.waiting hk hl (fd := fd) (p := p) (i := i) (rest := rest)
  have pidfd := ht.pidfd
  clear hk hl ht
  unfold WKept at *
  cases hs <;> first
    | exact h
    | (simp only [upd, WW.closeNum, WW.ids, List.map_cons, List.mem_cons] at *; grind [TPc.handling, TPc.final])

theorem wkept {r wr : Nat} {l : List WatchEv} {w : WW} (h : WHist r wr l w) (hst : NoOtherReaper l) (hone : WatchedOnce w) :
    WKept w := by
  induction h with
  | start hne => simp [WKept, WW.init]
  | step ev h hg hs ih =>
    have hs' := wstep_of hs
    have hone' := once_before hs' hone
    have hst' := fun pid hp => hst pid (List.mem_append_left _ hp)
    exact wkept_step (wkids h) (wlive h) (wtrue h hst' hone') (ih hst' hone') hs'

/-- The descriptor of a call that has returned and whose child has exited, not reported and not being handled, is ready. -/
theorem kept_ready {w : WW} (hl : WLive w) (ht : WTrue w) (hkept : WKept w) (hrun : w.left = none) {i fd : Nat}
    (hd : w.pc i = .done fd) (he : ChildExited w i) (hn : i ∉ w.ids) (hh : w.tpc.handling ≠ some i) :
    w.ready fd ∧ w.dict fd = some (w.pid i, i) := by
  rcases hkept hrun i fd hd with h | h | h
  · exact absurd h hn
  · exact absurd h hh
  · obtain ⟨_, ⟨c, hc⟩, hcase⟩ := hl.dic hrun fd _ _ h
    have hreg : fd ∈ w.reg := by
      rcases hcase with ⟨h1, _⟩ | ⟨_, h1, _⟩ | ⟨h1 | ⟨n, h1⟩ | h1, _⟩
      · rw [hd] at h1; cases h1
      · exact h1
      · rw [hd] at h1; cases h1
      · rw [hd] at h1; cases h1
      · rw [hd] at h1; cases h1
    refine ⟨⟨hreg, .inr ⟨c, i, ?_⟩⟩, h⟩
    have := ht.pidfd _ _ _ hc
    subst this
    cases hx : w.exited (w.target i) with
    | none => exact absurd hx he
    | some raw => exact ⟨raw, hc, rfl⟩

theorem exec_hist {r wr : Nat} {σ : Nat → WW} {ev : Nat → Option WatchEv} (h : WExec r wr σ ev)
    (hst : ∀ n pid, ev n ≠ some (.reapElsewhere pid)) (n : Nat) : ∃ l, WHist r wr l (σ n) ∧ NoOtherReaper l := by
  induction n with
  | zero => exact ⟨[], by rw [h.init]; exact .start h.pipes, by simp [NoOtherReaper]⟩
  | succ n ih =>
    obtain ⟨l, h1, h2⟩ := ih
    have hs := h.steps n
    cases he : ev n with
    | none =>
      rw [he] at hs
      exact ⟨l, by rw [hs]; exact h1, h2⟩
    | some e =>
      rw [he] at hs
      refine ⟨l ++ [e], .step e h1 hs.1 hs.2, fun pid hm => ?_⟩
      rcases List.mem_append.1 hm with hm | hm
      · exact h2 pid hm
      · simp at hm
        exact hst n pid (by rw [he, ← hm])

/-- Only the thread moves the thread. -/
theorem tpc_same {w w' : WW} {e : WatchEv} (hs : WStep w e w') (ht : e.ofThread = false) : w'.tpc = w.tpc := by
  cases hs <;> first | rfl | cases ht

/-- A bound of the steps of the thread until it polls again. -/
def TPc.toGo : TPc → Nat
  | .loop l => 1 + 5 * l.length
  | .closing _ l => 2 + 5 * l.length
  | .removing _ l => 3 + 5 * l.length
  | .calling _ _ _ _ l => 4 + 5 * l.length
  | .waiting _ _ _ l => 5 + 5 * l.length
  | _ => 0

/-- The descriptors still to be handled. -/
def TPc.pending : TPc → List Nat
  | .loop l | .closing _ l | .removing _ l | .calling _ _ _ _ l | .waiting _ _ _ l => l
  | _ => []

/-- What the thread does next, while it is in its loop. -/
theorem thread_moves {w w' : WW} {e : WatchEv} (hs : WStep w e w') (ht : e.ofThread = true) (hr : w'.left = none) (hr' : w.left = none)
    (hf : w.tpc.final = false) :
    (∃ l, e = .poll l ∧ w'.tpc = .loop l) ∨
    (w'.tpc.toGo < w.tpc.toGo ∧
      (w'.tpc.pending = w.tpc.pending ∨
        ∃ fd pid i rest, w.tpc = .loop (fd :: rest) ∧ w.dict fd = some (pid, i) ∧ w'.tpc = .waiting fd pid i rest)) := by
  cases hs <;> first
    | (cases ht; done)
    | exact .inl ⟨_, rfl, rfl⟩
    | (cases hr; done)
    | skip
  case again h1 => exact .inr ⟨by rw [h1]; simp [TPc.toGo], .inl (by rw [h1]; rfl)⟩
  case pop fd rest pid i h1 h2 h3 =>
    exact .inr ⟨by rw [h1]; simp [TPc.toGo]; omega, .inr ⟨_, _, _, _, h1, h3, rfl⟩⟩
  case waitNone h1 _ _ => exact .inr ⟨by rw [h1]; simp [TPc.toGo], .inl (by rw [h1]; rfl)⟩
  case waitGone h1 _ => exact .inr ⟨by rw [h1]; simp [TPc.toGo], .inl (by rw [h1]; rfl)⟩
  case waitOk h1 _ _ => exact .inr ⟨by rw [h1]; simp [TPc.toGo], .inl (by rw [h1]; rfl)⟩
  case callback h1 _ => exact .inr ⟨by rw [h1]; simp [TPc.toGo], .inl (by rw [h1]; rfl)⟩
  case unregister h1 _ => exact .inr ⟨by rw [h1]; simp [TPc.toGo], .inl (by rw [h1]; rfl)⟩
  case closeFd h1 _ => exact .inr ⟨by rw [h1]; simp [TPc.toGo], .inl (by rw [h1]; rfl)⟩
  all_goals first
    | (rename_i h1; rw [h1] at hf; cases hf; done)
    | (rename_i h1 _; rw [h1] at hf; cases hf; done)

/-- A step of the thread that ends the handling of a call is the call of its callback. -/
theorem handled_reported {w w' : WW} {e : WatchEv} (hk : WKids w) (hl : WLive w) (htrue : WTrue w) (hs : WStep w e w') {i : Nat}
    (hh : w.tpc.handling = some i) : w'.tpc.handling = some i ∨ i ∈ w'.ids := by
  have wait := fun fd p i rest => htrue.waiting hk hl (fd := fd) (p := p) (i := i) (rest := rest)
  have wt := hl.wt
  have pidfd := htrue.pidfd
  have lf := hl.lf
  cases hs <;> first
    | exact .inl hh
    | (simp only [upd, WW.closeNum, WW.ids, List.map_cons, List.mem_cons] at *; grind [TPc.handling])

theorem stays {w w' : WW} {e : WatchEv} (hk : WKids w) (hs : WStep w e w') {i fd : Nat} :
    (w.pc i = .done fd → w'.pc i = .done fd) ∧ (i < w.nCalls → ChildExited w i → ChildExited w' i) := by
  have born := hk.born
  unfold ChildExited
  cases hs <;> simp only [upd, WW.closeNum] <;> grind

theorem poll_step {w w' : WW} {l : List Nat} (hs : WStep w (.poll l) w') : w.tpc = .poll ∧ w'.tpc = .loop l := by
  cases hs with
  | poll _ h => exact ⟨h, rfl⟩

/-- While something is to be done, the thread can go on. -/
theorem can_go {w : WW} (hl : WLive w) (hrun : w.left = none) (h : w.tpc.handling ≠ none ∨ ∃ fd, w.ready fd) : ThreadCan w := by
  have hf : w.tpc.final = false := hl.lf.1 hrun
  cases ht : w.tpc with
  | poll =>
    rcases h with h | ⟨fd, h⟩
    · rw [ht] at h; exact absurd rfl h
    · refine ⟨.poll [fd], { w with tpc := .loop [fd] }, rfl, ?_, ?_⟩
      · intro f hf'; rw [List.mem_singleton.1 hf']; exact h
      · simp [WW.step, WW.outsideStep, WW.callStep, WW.threadStep, ht]
  | loop l =>
    cases l with
    | nil => exact ⟨.next, { w with tpc := .poll }, rfl, trivial, by simp [WW.step, WW.outsideStep, WW.callStep, WW.threadStep, ht]⟩
    | cons fd rest =>
      by_cases hp : fd = w.pipeFd
      · exact ⟨.next, { w with tpc := .fin, left := some .closed }, rfl, trivial, by
          simp [WW.step, WW.outsideStep, WW.callStep, WW.threadStep, ht, hp]⟩
      · cases hd : w.dict fd with
        | none => exact ⟨.next, { w with tpc := .fin, left := some .keyError }, rfl, trivial, by
            simp [WW.step, WW.outsideStep, WW.callStep, WW.threadStep, ht, hp, hd]⟩
        | some x => exact ⟨.next, { w with dict := upd w.dict fd none, tpc := .waiting fd x.1 x.2 rest }, rfl, trivial, by
            simp [WW.step, WW.outsideStep, WW.callStep, WW.threadStep, ht, hp, hd]⟩
  | waiting fd pid i rest =>
    cases hw : w.waitPid pid with
    | mk st w1 =>
      cases st with
      | none => exact ⟨.wait, { w1 with tpc := .removing fd rest }, rfl, trivial, by
          simp [WW.step, WW.outsideStep, WW.callStep, WW.threadStep, ht, hw]⟩
      | some st => exact ⟨.wait, { w1 with tpc := .calling fd pid i st rest }, rfl, trivial, by
          simp [WW.step, WW.outsideStep, WW.callStep, WW.threadStep, ht, hw]⟩
  | calling fd pid i st rest =>
    exact ⟨.callback .returns, { w.report i pid st with tpc := .removing fd rest }, rfl, trivial, by
      simp [WW.step, WW.outsideStep, WW.callStep, WW.threadStep, ht]⟩
  | removing fd rest =>
    have hm := (hl.rm _ _ ht).2.2.1
    exact ⟨.unregister, { w with reg := w.reg.filter (· ≠ fd), tpc := .closing fd rest }, rfl, trivial, by
      simp [WW.step, WW.outsideStep, WW.callStep, WW.threadStep, ht, hm]⟩
  | closing fd rest =>
    obtain ⟨⟨c, i, hc, _⟩, _⟩ := hl.cs _ _ ht
    exact ⟨.closeFd, { w.closeNum fd with tpc := .loop rest }, rfl, trivial, by
      simp [WW.step, WW.outsideStep, WW.callStep, WW.threadStep, ht, hc]⟩
  | fin => rw [ht] at hf; cases hf
  | finKeys => rw [ht] at hf; cases hf
  | finClose => rw [ht] at hf; cases hf
  | ended => rw [ht] at hf; cases hf

section
variable {r wr : Nat} {σ : Nat → WW} {ev : Nat → Option WatchEv} (hx : WExec r wr σ ev)
include hx

theorem exec_step {n : Nat} {e : WatchEv} (he : ev n = some e) : WStep (σ n) e (σ (n + 1)) := by
  have := hx.steps n
  rw [he] at this
  exact wstep_of this.2

/-- The next step of the thread. -/
theorem next_thread {k d : Nat} {e : WatchEv} (he : ev (k + d) = some e) (ht : e.ofThread = true) :
    ∃ m e, k ≤ m ∧ ev m = some e ∧ e.ofThread = true ∧ (σ m).tpc = (σ k).tpc := by
  induction d generalizing k with
  | zero => exact ⟨k, e, Nat.le_refl _, he, ht, rfl⟩
  | succ d ih =>
    by_cases hk : ∃ e', ev k = some e' ∧ e'.ofThread = true
    · obtain ⟨e', h1, h2⟩ := hk
      exact ⟨k, e', Nat.le_refl _, h1, h2, rfl⟩
    · have hsame : (σ (k + 1)).tpc = (σ k).tpc := by
        cases hev : ev k with
        | none =>
          have := hx.steps k
          rw [hev] at this
          rw [this]
        | some e' =>
          refine tpc_same (exec_step hx hev) ?_
          cases hb : e'.ofThread with
          | false => rfl
          | true => exact absurd ⟨e', hev, hb⟩ hk
      obtain ⟨m, e', h1, h2, h3, h4⟩ := ih (k := k + 1) (by rw [← he]; congr 1; omega)
      exact ⟨m, e', by omega, h2, h3, h4.trans hsame⟩

/-- While something is to be done for ever, the thread goes on. -/
theorem goes_on (hfair : ThreadFair σ ev) {n : Nat} (hcan : ∀ m, n ≤ m → ThreadCan (σ m)) {k : Nat} (hk : n ≤ k) :
    ∃ m e, k ≤ m ∧ ev m = some e ∧ e.ofThread = true ∧ (σ m).tpc = (σ k).tpc := by
  obtain ⟨m, e, h1, h2, h3⟩ := hfair k fun m hm => hcan m (by omega)
  exact next_thread hx (k := k) (d := m - k) (by rw [← h2]; congr 1; omega) h3

end

end Shellous
