import Verif.Props.WatcherFds

/-!
# C67: closing the child watcher
-/

namespace Shellous.Props

/-- The pipe is registered while the thread is in its loop. -/
theorem wpipe {r wr : Nat} {l : List WatchEv} {w : WW} (h : WHist r wr l w) : w.left = none → w.pipeFd ∈ w.reg := by
  induction h with
  | start hne => intro _; simp [WW.init]
  | step ev h hg hs ih =>
    rename_i l w w'
    have hl := wlive h
    have pipe := hl.pipe
    have rm := hl.rm
    have cs := hl.cs
    have lf := hl.lf
    have hs := wstep_of hs
    clear h hl hg
    cases hs <;> simp only [WW.closeNum, List.mem_cons, List.mem_filter] at * <;> grind [TPc.final]

/-- The table has finitely many entries. -/
theorem wfinite {r wr : Nat} {l : List WatchEv} {w : WW} (h : WHist r wr l w) : ∃ ks : List Nat, ks.Nodup ∧ ∀ fd, fd ∈ ks ↔ w.dict fd ≠ none := by
  induction h with
  | start hne => exact ⟨[], by simp, by simp [WW.init]⟩
  | step ev h hg hs ih =>
    rename_i l w w'
    obtain ⟨ks, h1, h2⟩ := ih
    have hs := wstep_of hs
    clear h hg
    cases hs <;> try exact ⟨ks, h1, h2⟩
    case insert i fd hpc =>
      by_cases hm : fd ∈ ks
      · refine ⟨ks, h1, fun f => ?_⟩
        show f ∈ ks ↔ upd w.dict fd _ f ≠ none
        by_cases hf : f = fd
        · rw [hf, upd_same]; simp [hm]
        · rw [upd_other _ _ hf]; exact h2 f
      · refine ⟨fd :: ks, List.nodup_cons.2 ⟨hm, h1⟩, fun f => ?_⟩
        show f ∈ fd :: ks ↔ upd w.dict fd _ f ≠ none
        by_cases hf : f = fd
        · rw [hf, upd_same]; simp
        · rw [upd_other _ _ hf, ← h2 f]; simp [hf]
    case pop fd rest pid i _ _ hd =>
      refine ⟨ks.filter (· ≠ fd), h1.sublist List.filter_sublist, fun f => ?_⟩
      show f ∈ ks.filter _ ↔ upd w.dict fd none f ≠ none
      by_cases hf : f = fd
      · rw [hf, upd_same]; simp
      · rw [upd_other _ _ hf, ← h2 f]; simp [hf]

/-- What the thread does after its loop. -/
theorem final_moves {w w' : WW} {e : WatchEv} (hs : WStep w e w') (ht : e.ofThread = true) (hf : w.tpc.final = true) :
    (w.tpc = .fin ∧ w'.tpc = .finKeys) ∨ (w.tpc = .finKeys ∧ ∃ l, w'.tpc = .finClose l) ∨
    (∃ fd l, w.tpc = .finClose (fd :: l) ∧ w'.tpc = .finClose l) ∨ (w.tpc = .finClose [] ∧ w'.tpc = .ended) := by
  cases hs <;> first
    | (cases ht; done)
    | (rename_i h1; rw [h1] at hf; cases hf; done)
    | (rename_i h1 _; rw [h1] at hf; cases hf; done)
    | (rename_i h1 _ _; rw [h1] at hf; cases hf; done)
    | skip
  case epollClose h1 => exact .inl ⟨h1, rfl⟩
  case readKeys h1 _ => exact .inr (.inl ⟨h1, _, rfl⟩)
  case closeOne h1 => exact .inr (.inr (.inl ⟨_, _, h1, rfl⟩))
  case clearPipe h1 => exact .inr (.inr (.inr ⟨h1, rfl⟩))

theorem final_can {r wr : Nat} {l : List WatchEv} {w : WW} (h : WHist r wr l w) (hf : w.tpc.final = true) (he : w.tpc ≠ .ended) :
    ThreadCan w := by
  cases ht : w.tpc <;> rw [ht] at hf <;> first | (cases hf; done) | skip
  case fin => exact ⟨.epollClose, { w with epollOpen := false, reg := [], tpc := .finKeys }, rfl, trivial, by
    simp [WW.step, WW.outsideStep, WW.callStep, WW.threadStep, ht]⟩
  case finKeys =>
    obtain ⟨ks, h1, h2⟩ := wfinite h
    cases hp : w.selfpipe with
    | none => exact absurd ((C64_pipe_cleared h).2 hp) he
    | some x => exact ⟨.readKeys ks, { w with tpc := .finClose (ks ++ [x.1, x.2]) }, rfl, ⟨h1, h2⟩, by
        simp [WW.step, WW.outsideStep, WW.callStep, WW.threadStep, ht, hp]⟩
  case finClose fds =>
    cases fds with
    | nil => exact ⟨.clearPipe, { w with selfpipe := none, tpc := .ended }, rfl, trivial, by
        simp [WW.step, WW.outsideStep, WW.callStep, WW.threadStep, ht]⟩
    | cons fd rest => exact ⟨.closeOne, { w.closeNum fd with tpc := .finClose rest }, rfl, trivial, by
        simp [WW.step, WW.outsideStep, WW.callStep, WW.threadStep, ht]⟩
  case ended => exact absurd ht he

theorem exec_hist_any {r wr : Nat} {σ : Nat → WW} {ev : Nat → Option WatchEv} (h : WExec r wr σ ev) (n : Nat) : ∃ l, WHist r wr l (σ n) := by
  induction n with
  | zero => exact ⟨[], by rw [h.init]; exact .start h.pipes⟩
  | succ n ih =>
    obtain ⟨l, h1⟩ := ih
    have hs := h.steps n
    cases he : ev n with
    | none => rw [he] at hs; exact ⟨l, by rw [hs]; exact h1⟩
    | some e => rw [he] at hs; exact ⟨l ++ [e], .step e h1 hs.1 hs.2⟩

theorem left_stays {w w' : WW} {e : WatchEv} (hl : WLive w) (hs : WStep w e w') :
    (w.left ≠ none → w'.left ≠ none) ∧ (w.pipeWritten = true → w'.pipeWritten = true) := by
  have lf := hl.lf
  clear hl
  cases hs <;> simp only [WW.closeNum] <;> grind [TPc.final]

/-- C67: once something was written to the pipe, or a callback has raised, the thread ends; so `close` (that waits for it) returns. Under every fair
schedule, whatever else happens: children that run or exit, calls of `watch_pid`, other calls of `close`, reuse of process ids and
descriptors. -/
theorem C67_thread_ends {r wr : Nat} {σ : Nat → WW} {ev : Nat → Option WatchEv} (hx : WExec r wr σ ev)
    (hfair : ThreadFair σ ev) (hepoll : EpollFair σ ev) {n : Nat} (hc : (σ n).pipeWritten = true ∨ (σ n).left ≠ none) :
    ∃ m, n ≤ m ∧ (σ m).tpc = .ended := by
  have hh := exec_hist_any hx
  have hl : ∀ m, WLive (σ m) := fun m => wlive (hh m).choose_spec
  have keep : ∀ k m, k ≤ m → ((σ k).left ≠ none → (σ m).left ≠ none) ∧ ((σ k).pipeWritten = true → (σ m).pipeWritten = true) := by
    intro k m hkm
    obtain ⟨d, rfl⟩ := Nat.exists_eq_add_of_le hkm
    clear hkm
    induction d with
    | zero => exact ⟨id, id⟩
    | succ d ih =>
      have hs := hx.steps (k + d)
      cases he : ev (k + d) with
      | none => rw [he] at hs; rw [← Nat.add_assoc, hs]; exact ih
      | some e =>
        have := left_stays (hl (k + d)) (exec_step hx he)
        exact ⟨fun h => this.1 (ih.1 h), fun h => this.2 (ih.2 h)⟩
  refine Classical.byContradiction fun hno => ?_
  have hne : ∀ m, n ≤ m → (σ m).tpc ≠ .ended := fun m hm he => hno ⟨m, hm, he⟩
  -- after the loop
  have hA : ∀ k, n ≤ k → (σ k).left = none := by
    intro k hk
    refine Classical.byContradiction fun hlf => ?_
    have hfin : ∀ m, k ≤ m → (σ m).tpc.final = true := fun m hm => by
      have h1 := (keep k m hm).1 hlf
      cases hf : (σ m).tpc.final with
      | true => rfl
      | false => exact absurd ((hl m).lf.2 hf) h1
    have hcan : ∀ m, k ≤ m → ThreadCan (σ m) := fun m hm => final_can (hh m).choose_spec (hfin m hm) (hne m (by omega))
    have go : ∀ j, k ≤ j → ∃ m, k ≤ m ∧ (((σ j).tpc = .fin ∧ (σ m).tpc = .finKeys) ∨ ((σ j).tpc = .finKeys ∧ ∃ l, (σ m).tpc = .finClose l) ∨
        (∃ fd l, (σ j).tpc = .finClose (fd :: l) ∧ (σ m).tpc = .finClose l)) := by
      intro j hj
      obtain ⟨m, e, h1, h2, h3, h4⟩ := goes_on hx hfair hcan hj
      refine ⟨m + 1, by omega, ?_⟩
      have := final_moves (exec_step hx h2) h3 (hfin m (by omega))
      rw [h4] at this
      rcases this with h | h | h | h
      · exact .inl h
      · exact .inr (.inl h)
      · exact .inr (.inr h)
      · exact absurd h.2 (hne (m + 1) (by omega))
    have c3 : ∀ N j l, k ≤ j → (σ j).tpc = .finClose l → l.length ≤ N → False := by
      intro N
      induction N with
      | zero =>
        intro j l hj ht hN
        obtain ⟨m, _, h | h | ⟨fd, l', h, _⟩⟩ := go j hj
        · rw [ht] at h; cases h.1
        · rw [ht] at h; cases h.1
        · rw [ht] at h; cases h; simp at hN
      | succ N ih =>
        intro j l hj ht hN
        obtain ⟨m, hm, h | h | ⟨fd, l', h, h'⟩⟩ := go j hj
        · rw [ht] at h; cases h.1
        · rw [ht] at h; cases h.1
        · rw [ht] at h; cases h; exact ih m l' hm h' (by simpa using hN)
    have c2 : ∀ j, k ≤ j → (σ j).tpc ≠ .finKeys := by
      intro j hj ht
      obtain ⟨m, hm, h | ⟨_, l, h⟩ | ⟨fd, l', h, _⟩⟩ := go j hj
      · rw [ht] at h; cases h.1
      · exact c3 _ m l hm h (Nat.le_refl _)
      · rw [ht] at h; cases h
    obtain ⟨m, hm, h | h | ⟨fd, l', _, h⟩⟩ := go k (Nat.le_refl _)
    · exact c2 m hm h.2
    · exact c2 k (Nat.le_refl _) h.1
    · exact c3 _ m l' hm h (Nat.le_refl _)
  -- in the loop: the pipe is ready
  have hw : ∀ m, n ≤ m → (σ m).pipeWritten = true := fun m hm => (keep n m hm).2 (hc.resolve_right (fun h => h (hA n (Nat.le_refl _))))
  have hready : ∀ m, n ≤ m → (σ m).ready (σ m).pipeFd := fun m hm =>
    ⟨wpipe (hh m).choose_spec (hA m hm), .inl ⟨(hl m).pipe (hA m hm), hw m hm⟩⟩
  have hpf : ∀ m, (σ m).pipeFd = (σ 0).pipeFd := by
    intro m
    induction m with
    | zero => rfl
    | succ m ih =>
      have hs := hx.steps m
      cases he : ev m with
      | none => rw [he] at hs; rw [hs]; exact ih
      | some e =>
        have := exec_step hx he
        rw [← ih]
        generalize σ m = a at this ⊢
        generalize σ (m + 1) = b at this ⊢
        cases this <;> rfl
  have hcan : ∀ m, n ≤ m → ThreadCan (σ m) := fun m hm => can_go (hl m) (hA m hm) (.inr ⟨_, hready m hm⟩)
  have hC : ∀ N k, n ≤ k → (σ k).tpc.toGo ≤ N → ∃ m l, k ≤ m ∧ ev m = some (.poll l) := by
    intro N
    induction N with
    | zero =>
      intro k hk' hN
      obtain ⟨m, e, h1, h2, h3, h4⟩ := goes_on hx hfair hcan hk'
      rcases thread_moves (exec_step hx h2) h3 (hA _ (by omega)) (hA _ (by omega)) ((hl m).lf.1 (hA m (by omega))) with ⟨l, rfl, _⟩ | ⟨h6, _⟩
      · exact ⟨m, l, h1, h2⟩
      · rw [h4] at h6; omega
    | succ N ih =>
      intro k hk' hN
      obtain ⟨m, e, h1, h2, h3, h4⟩ := goes_on hx hfair hcan hk'
      rcases thread_moves (exec_step hx h2) h3 (hA _ (by omega)) (hA _ (by omega)) ((hl m).lf.1 (hA m (by omega))) with ⟨l, rfl, _⟩ | ⟨h6, _⟩
      · exact ⟨m, l, h1, h2⟩
      · obtain ⟨m', l, h7, h8⟩ := ih (m + 1) (by omega) (by rw [h4] at h6; omega)
        exact ⟨m', l, by omega, h8⟩
  have hpolls : ∀ k, ∃ m l, k ≤ m ∧ ev m = some (.poll l) := by
    intro k
    obtain ⟨m, l, h1, h2⟩ := hC _ (max n k) (by omega) (Nat.le_refl _)
    exact ⟨m, l, by omega, h2⟩
  obtain ⟨m, l, h1, h2, h3⟩ := hepoll (σ 0).pipeFd n (fun m hm => hpf m ▸ hready m hm) hpolls
  -- what it has got, it handles
  have hD : ∀ N k, n ≤ k → (σ k).tpc.toGo ≤ N → (σ 0).pipeFd ∉ (σ k).tpc.pending := by
    intro N
    induction N with
    | zero =>
      intro k _ hN hh'
      cases ht : (σ k).tpc <;> rw [ht] at hh' hN <;> simp [TPc.pending, TPc.toGo] at hh' hN
      all_goals omega
    | succ N ih =>
      intro k hk' hN hh'
      obtain ⟨m, e, h1, h2, h3, h4⟩ := goes_on hx hfair hcan hk'
      rcases thread_moves (exec_step hx h2) h3 (hA _ (by omega)) (hA _ (by omega)) ((hl m).lf.1 (hA m (by omega))) with ⟨l, rfl, _⟩ | ⟨h6, h7⟩
      · have := (poll_step (exec_step hx h2)).1
        rw [h4] at this; rw [this] at hh'; cases hh'
      · refine ih (m + 1) (by omega) (by rw [h4] at h6; omega) ?_
        rcases h7 with h7 | ⟨fd, pid, i, rest, h7, h8, h9⟩
        · rw [h7, h4]; exact hh'
        · rw [h4] at h7
          rw [h7] at hh'
          rw [h9]
          rcases List.mem_cons.1 hh' with h10 | h10
          · obtain ⟨_, ⟨c, hc'⟩, _⟩ := (hl m).dic (hA m (by omega)) fd pid i h8
            have := (hl m).pipe (hA m (by omega))
            rw [hpf m, h10, hc'] at this
            cases this
          · exact h10
  have hp := poll_step (exec_step hx h2)
  exact hD _ (m + 1) (by omega) (Nat.le_refl _) (by rw [hp.2]; exact h3)

/-- C67: when `close` was called, something was written to the pipe, unless the thread has left its loop already. -/
theorem C67_close_heard {r wr : Nat} {l : List WatchEv} {w w' : WW} (h : WHist r wr l w) (hs : w.step .closeWrite = some w') :
    w'.pipeWritten = true ∨ w'.left ≠ none := by
  have hl := wlive h
  have sp := (wown h).sp
  have early : w.left = none → w.tpc.early = true := fun hx => by
    have := hl.lf.1 hx
    cases ht : w.tpc <;> rw [ht] at this <;> first | rfl | cases this
  have hp := C64_pipe_cleared h
  have hs := wstep_of hs
  generalize he : WatchEv.closeWrite = e at hs
  cases hs <;> first | (cases he; done) | skip
  case writePipe => exact .inl rfl
  case writeNone h1 h2 =>
    refine .inr fun hx => ?_
    have := hl.lf.1 hx
    rw [hp.2 h2] at this
    cases this
  case writeOther h1 h2 h3 =>
    refine .inr fun hx => ?_
    obtain ⟨wr', e1, _, e3⟩ := sp (early hx)
    rw [h2] at e1; cases e1
    rw [h3] at e3; cases e3
  case writeErr h1 h2 h3 h4 =>
    refine .inr fun hx => ?_
    obtain ⟨wr', e1, _, e3⟩ := sp (early hx)
    rw [h2] at e1; cases e1
    exact h4 e3

/-- One child is running and one has exited when the watcher is closed; epoll returns the exited child first. -/
def closedBusy : List WatchEv :=
  [.fork 10, .fork 11, .watch 10, .openPidfd 0 (some 7), .insert 0, .register 0 true, .watch 11, .openPidfd 1 (some 8), .insert 1,
   .register 1 true, .exits 10 256, .closeCall, .closeWrite, .poll [7, 3], .next, .wait, .callback .returns, .unregister, .closeFd, .next,
   .epollClose, .readKeys [8], .closeOne, .closeOne, .closeOne, .clearPipe]

/-- The hypotheses of `C67_thread_ends` hold for it, as an infinite history. -/
example : ∃ σ ev, WExec 3 4 σ ev ∧ ThreadFair σ ev ∧ EpollFair σ ev ∧ (σ 13).pipeWritten = true ∧ (σ 13).left = none ∧
    (σ 26).tpc = .ended ∧ (σ 26).reports = [(0, 10, 1)] := by
  have hg : givesAll (WW.init 3 4) closedBusy := by
    simp [closedBusy, givesAll, WW.gives, WW.step, WW.outsideStep, WW.callStep, WW.threadStep, WW.pidfdOpen, WW.waitPid, WW.report,
      WW.closeNum, WW.init, WW.ready, upd]
    intro fd
    split <;> simp_all
  have hreg : (runAll (WW.init 3 4) closedBusy).reg = [] := by decide +kernel
  obtain ⟨h1, h2, h3⟩ := exec_of_finite (r := 3) (wr := 4) (by decide) hg (.inr (by decide +kernel)) (by
    intro fd hr
    have := hr.1
    rw [hreg] at this; cases this)
  exact ⟨_, _, h1, h2, h3, by decide +kernel, by decide +kernel, by decide +kernel, by decide +kernel⟩

end Shellous.Props
