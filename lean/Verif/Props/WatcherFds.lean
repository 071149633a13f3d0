import Verif.Lemmas.WatcherFds
import Verif.Props.WatcherKill
import Verif.Lemmas.WatcherFair
import Verif.Props.Watcher

/-!
# C64: the descriptors of the child watcher; C65: children that can't be watched
-/

namespace Shellous.Props

/-- C64, "never closes a descriptor that it has not opened": in every history, also while other threads open and close
descriptors and numbers are used again. -/
theorem C64_closes_own {r wr : Nat} {l : List WatchEv} {w : WW} (h : WHist r wr l w) : w.strayCloses = 0 := (wown h).z

/-- C64, "after a child was reported its pidfd is closed": when the thread is back at `epoll.poll`, no descriptor of a call that
was reported is open. -/
theorem C64_reported_closed {r wr : Nat} {l : List WatchEv} {w : WW} (h : WHist r wr l w) (hrun : ThreadRuns w) (ht : w.tpc = .poll)
    {i : Nat} (hret : WatchReturned w i) (hrep : Reported w i) (fd c : Nat) (hfd : w.pc i = .done fd) :
    w.fds fd ≠ some (.pidfd c i) := by
  intro hf
  rcases (wown h).dn hrun fd c i hfd hf with hd | hd
  · obtain ⟨_, _, hc⟩ := (wlive h).dic hrun _ _ _ hd
    obtain ⟨p, st, hm⟩ := hrep
    rcases hc with ⟨h1, _⟩ | ⟨_, _, h1⟩ | ⟨h1 | ⟨n, h1⟩ | h1, _⟩
    · rw [hfd] at h1; cases h1
    · exact h1 (List.mem_map.2 ⟨_, hm, rfl⟩)
    · rw [hfd] at h1; cases h1
    · rw [hfd] at h1; cases h1
    · rw [hfd] at h1; cases h1
  · rw [ht] at hd; cases hd

/-- C64, "after the watcher was closed no pidfd of a completed watch is open". -/
theorem C64_all_closed {r wr : Nat} {l : List WatchEv} {w : WW} (h : WHist r wr l w) (hend : w.tpc = .ended)
    (hclosed : w.left = some .closed) {i : Nat} (fd c : Nat) (hfd : w.pc i = .done fd) : w.fds fd ≠ some (.pidfd c i) := by
  intro hf
  rcases (wown h).cl hclosed fd c i hfd hf with ⟨h1, _⟩ | h1
  · rw [hend] at h1; cases h1
  · rw [hend] at h1; cases h1

/-- C64: and the self-pipe is closed too; `_selfpipe` says so. -/
theorem C64_pipe_cleared {r wr : Nat} {l : List WatchEv} {w : WW} (h : WHist r wr l w) : w.tpc = .ended ↔ w.selfpipe = none := by
  induction h with
  | start hne => simp [WW.init]
  | step ev h hg hs ih =>
    have hs := wstep_of hs
    cases hs <;> simp only [WW.closeNum] <;> grind

/-- What `close` writes. -/
structure WWrites (n : Nat) (w : WW) : Prop where
  count : w.closers + (if w.pipeWritten then 1 else 0) ≤ n
  due : w.pipeFd ∈ w.tpc.pending → w.left = none → w.pipeWritten = true
  left : w.left = some .closed → w.pipeWritten = true
  none : n ≤ 1 → w.left ≠ some .callbackRaised → w.strayWrites = 0

theorem wwrites {r wr : Nat} {l : List WatchEv} {w : WW} (h : WHist r wr l w) : WWrites (l.filter (· = .closeCall)).length w := by
  induction h with
  | start hne => exact ⟨by simp [WW.init], by simp [WW.init, TPc.pending], by simp [WW.init], by simp [WW.init]⟩
  | step ev h hg hs ih =>
    rename_i l w w'
    obtain ⟨h1, h2, h3, h4⟩ := ih
    have hleft := wleft h
    have hl := wlive h
    have ho := wown h
    have pipe := hl.pipe
    have lf := hl.lf
    have sp := ho.sp
    have hs := wstep_of hs
    rw [List.filter_append, List.length_append]
    clear h hl ho
    cases hs
    case closeCall =>
      refine ⟨?_, h2, h3, fun hn hc => h4 (Nat.le_trans (Nat.le_add_right _ _) hn) hc⟩
      simp
      show w.closers + 1 + _ ≤ _
      omega
    case writePipe r0 wr0 a1 a2 a3 =>
      refine ⟨?_, fun _ _ => rfl, fun _ => rfl, fun hn hc => h4 (Nat.le_trans (Nat.le_add_right _ _) hn) hc⟩
      simp
      have hp : (if w.pipeWritten then 1 else 0) ≤ 1 := by split <;> omega
      show w.closers - 1 + 1 ≤ _
      omega
    case writeNone a1 a2 =>
      refine ⟨?_, h2, h3, fun hn hc => h4 (Nat.le_trans (Nat.le_add_right _ _) hn) hc⟩
      show w.closers - 1 + _ ≤ _
      simp at h1 ⊢
      omega
    case writeErr a1 a2 a3 a4 =>
      refine ⟨?_, h2, h3, fun hn hc => h4 (Nat.le_trans (Nat.le_add_right _ _) hn) hc⟩
      show w.closers - 1 + _ ≤ _
      simp at h1 ⊢
      omega
    case writeOther r0 wr0 a1 a2 a3 =>
      refine ⟨?_, h2, h3, fun hn hc => ?_⟩
      · show w.closers - 1 + _ ≤ _
        simp at h1 ⊢
        omega
      · exfalso
        rcases hleft with hx | hx | hx
        · have he : w.tpc.early = true := by
            have := lf.1 hx
            cases ht : w.tpc <;> rw [ht] at this <;> first | rfl | cases this
          obtain ⟨wr', e1, e2, e3⟩ := sp he
          rw [a2] at e1
          cases e1
          rw [a3] at e3; cases e3
        · have := h3 hx
          rw [this] at h1
          simp at h1 hn
          omega
        · exact hc hx
    case poll lst a1 a2 a3 =>
      refine ⟨by simpa using h1, fun hm hl => ?_, h3, fun hn hc => h4 (by simpa using hn) hc⟩
      obtain ⟨_, hrd⟩ := hg _ hm
      rcases hrd with ⟨_, hp⟩ | ⟨c, i, raw, hp, _⟩
      · exact hp
      · have hp : w.fds w.pipeFd = _ := hp
        rw [pipe hl] at hp; cases hp
    case leave fd rest a1 a2 =>
      refine ⟨by simpa using h1, fun hm _ => (by cases hm), fun _ => ?_, fun hn hc => h4 (by simpa using hn) ?_⟩
      · refine h2 (by rw [a1, ← a2]; exact List.mem_cons_self) (lf.2 (by rw [a1]; rfl))
      · have := lf.2 (by rw [a1]; rfl)
        rw [this]; simp
    all_goals
      refine ⟨by simpa [WW.closeNum] using h1, ?_, ?_, fun hn hc => ?_⟩ <;> simp only [WW.closeNum] at * <;> grind [TPc.pending, TPc.final]

/-- C64, "`close` writes only to the pipe of the watcher": if the strategy is closed at most once (as `DefaultChildWatcher.close` does,
C59) and no callback raises something other than RuntimeError. -/
theorem C64_writes_own {r wr : Nat} {l : List WatchEv} {w : WW} (h : WHist r wr l w) (hone : (l.filter (· = .closeCall)).length ≤ 1)
    (hcb : w.left ≠ some .callbackRaised) : w.strayWrites = 0 :=
  (wwrites h).none hone hcb

/-- Closing while the thread ends by itself (a callback has raised) can write a byte to a descriptor that is not the watcher's: the check of
`_selfpipe` (watcher.py:281) comes before the write, the pipe is closed before `_selfpipe` is cleared (watcher.py:334-335), and the number may
have been used again. -/
theorem C64_limit_stray_write : ∃ l w, WHist 3 4 l w ∧ (l.filter (· = .closeCall)).length = 1 ∧ w.strayWrites = 1 := by
  refine ⟨_, _, whist_more (l := []) (.start (by decide))
    [.fork 10, .watch 10, .openPidfd 0 (some 7), .insert 0, .register 0 true, .exits 10 0, .poll [7], .next, .wait,
      .callback .otherError, .epollClose, .readKeys [], .closeOne, .closeCall, .closeOne, .otherOpen 4, .closeWrite] ?_, by decide, by decide +kernel⟩
  simp [givesAll, WW.gives, WW.step, WW.outsideStep, WW.callStep, WW.threadStep, WW.pidfdOpen, WW.waitPid, WW.report,
      WW.closeNum, WW.init, WW.ready, upd]

/-- A call of `watch_pid` that is under way when the watcher is closed can leave its descriptor open: the keys are read before its entry is
made. (`watch_pid` raises, and the child is killed.) -/
theorem C64_limit_in_flight : ∃ l w, WHist 3 4 l w ∧ w.tpc = .ended ∧ w.left = some .closed ∧ w.fds 7 = some (.pidfd 0 0) := by
  refine ⟨_, _, whist_more (l := []) (.start (by decide))
    [.fork 10, .watch 10, .openPidfd 0 (some 7), .closeCall, .closeWrite, .poll [3], .next, .epollClose, .readKeys [], .insert 0, .closeOne,
      .closeOne, .clearPipe, .register 0 false, .kill 0] ?_, by decide +kernel, by decide +kernel, by decide +kernel⟩
  simp [givesAll, WW.gives, WW.step, WW.outsideStep, WW.callStep, WW.threadStep, WW.pidfdOpen, WW.waitPid, WW.report,
      WW.closeNum, WW.init, WW.ready, upd]

/-- In `threeChildren` the second child was killed, and the others were not. -/
example : (runAll (WW.init 3 4) threeChildren).kills = [(1, some 1)] ∧ (runAll (WW.init 3 4) threeChildren).target 1 = 1 := by decide +kernel

end Shellous.Props
