import Verif.Lemmas.WatcherFair

/-!
# C58: each watched child is reported exactly once with its status
-/

namespace Shellous.Props

/-- C58, "the callback for a watched child is called at most once": in every history, with any number of threads that watch
children, whatever fails, and even if somebody else reaps children. -/
theorem C58_at_most_once {r wr : Nat} {l : List WatchEv} {w : WW} (h : WHist r wr l w) (i : Nat) :
    (w.reports.filter fun x => x.1 = i).length ≤ 1 := by
  have hnd := (wlive h).nd
  unfold WW.ids at hnd
  generalize w.reports = rs at hnd
  induction rs with
  | nil => simp
  | cons x rs ih =>
    rw [List.map_cons, List.nodup_cons] at hnd
    rw [List.filter_cons]
    split
    · rename_i hx
      have : rs.filter (fun y => y.1 = i) = [] := by
        rw [List.filter_eq_nil_iff]
        intro y hy he
        have hx : x.1 = i := by simpa using hx
        have he : y.1 = i := by simpa using he
        exact hnd.1 (List.mem_map.2 ⟨y, hy, by rw [he, hx]⟩)
      rw [this]; simp
    · exact ih hnd.2

/-- C58, "only after the child exited": in every history, a callback is called only for a call of `watch_pid` that was made, with
the process id it was given, and after the child that had this process id then has exited. -/
theorem C58_after_exit {r wr : Nat} {l : List WatchEv} {w : WW} (h : WHist r wr l w) {i p : Nat} {st : Int}
    (hr : (i, p, st) ∈ w.reports) : i < w.nCalls ∧ p = w.pid i ∧ ChildExited w i :=
  wreports h i p st hr

/-- C58, "with its decoded exit status": unless somebody else reaps children or a child is watched twice. -/
theorem C58_status {r wr : Nat} {l : List WatchEv} {w : WW} (h : WHist r wr l w) (hreap : NoOtherReaper l) (hone : WatchedOnce w)
    {i p : Nat} {st : Int} (hr : (i, p, st) ∈ w.reports) :
    ∃ raw, w.exited (w.target i) = some raw ∧ st = exitStatus raw :=
  (wtrue h hreap hone).reported i p st hr

/-- C58, what "decoded" means: the exit code of a child that has exited is 0 to 255 (Linux: the wait status is 256 times it). -/
theorem C58_decode_exited (code : Nat) (h : code < 256) : exitStatus (code * 256) = code := by
  have h1 : code * 256 % 128 = 0 := by omega
  have h2 : code * 256 / 256 % 256 = code := by omega
  simp only [exitStatus, waitPid, waitstatusToExitcode]
  rw [if_pos h1, h2]
  rfl

/-- C58: a child ended by a signal (wait status: the signal, plus 128 if there was a core dump) is reported as minus the signal. -/
theorem C58_decode_signaled (sig : Nat) (core : Bool) (h1 : 1 ≤ sig) (h2 : sig ≤ 64) :
    exitStatus (sig + if core then 128 else 0) = -(sig : Int) := by
  simp only [exitStatus, waitPid, waitstatusToExitcode]
  have h3 : (sig + if core then 128 else 0) % 128 = sig := by cases core <;> simp <;> omega
  rw [h3, if_neg (by omega), if_neg (by omega)]
  rfl

/-- The children and the process table. -/
structure WGone (w : WW) : Prop where
  inj : ∀ p q c, w.proc p = some c → w.proc q = some c → p = q
  held : ∀ i p, i < w.nCalls → w.proc p = some (w.target i) → p = w.pid i
  calling : ∀ fd p i st rest q, w.tpc = .calling fd p i st rest → w.proc q ≠ some (w.target i)
  reported : ∀ i q, i ∈ w.ids → w.proc q ≠ some (w.target i)

set_option maxHeartbeats 2000000 in
theorem wgone {r wr : Nat} {l : List WatchEv} {w : WW} (h : WHist r wr l w) : WGone w := by
  induction h with
  | start hne => constructor <;> simp [WW.init, WW.ids]
  | step ev h hg hs ih =>
    rename_i l w w'
    have hk := wkids h
    have born := hk.born
    have kid := hk.kid
    have tgt := hk.tgt
    have lt : ∀ i, i ∈ w.ids → i < w.nCalls := fun i hi => by
      obtain ⟨⟨j, p, st⟩, h1, rfl⟩ := List.mem_map.1 hi
      exact (wreports h j p st h1).1
    have wt : ∀ fd p i rest, w.tpc = .waiting fd p i rest → p = w.pid i ∧ i < w.nCalls := fun fd p i rest ht => by
      obtain ⟨h1, h2, _⟩ := (wlive h).wt fd p i rest ht
      exact ⟨h1, Nat.lt_of_not_ge fun hx => by rw [(born i).2 hx] at h2; cases h2⟩
    have cl : ∀ fd p i st rest, w.tpc = .calling fd p i st rest → i < w.nCalls := fun fd p i st rest ht => by
      obtain ⟨h1, h2, _⟩ := (wlive h).cl fd p i st rest ht
      exact Nat.lt_of_not_ge fun hx => by rw [(born i).2 hx] at h2; cases h2
    obtain ⟨h1, h2, h3, h4⟩ := ih
    have hs := wstep_of hs
    clear h hk hg
    cases hs <;> refine ⟨?_, ?_, ?_, ?_⟩ <;> simp only [upd, WW.closeNum, WW.ids, List.map_cons, List.mem_cons] at * <;> grind

/-- C58, "and it is reaped": no child that was reported is left as a zombie. -/
theorem C58_reaped {r wr : Nat} {l : List WatchEv} {w : WW} (h : WHist r wr l w) {i p : Nat} {st : Int} (hr : (i, p, st) ∈ w.reports)
    (q : Nat) : w.proc q ≠ some (w.target i) :=
  (wgone h).reported i q (List.mem_map.2 ⟨_, hr, rfl⟩)

/-- The events that the thread has not yet handled. -/
def TPc.unhandled : TPc → List Nat
  | .loop l | .waiting _ _ _ l | .calling _ _ _ _ l | .removing _ l | .closing _ l => l
  | _ => []

/-- Why the thread leaves its loop. -/
structure WWhy (l : List WatchEv) (w : WW) : Prop where
  pend : w.pipeFd ∈ TPc.unhandled w.tpc → w.pipeWritten = true
  written : w.pipeWritten = true → .closeWrite ∈ l
  closed : w.left = some .closed → .closeWrite ∈ l
  raised : w.left = some .callbackRaised → .callback .otherError ∈ l

theorem wwhy {r wr : Nat} {l : List WatchEv} {w : WW} (h : WHist r wr l w) : WWhy l w := by
  induction h with
  | start hne => constructor <;> simp [WW.init, TPc.unhandled]
  | step ev h hg hs ih =>
    rename_i l w w'
    have hpoll : w.tpc = .poll → w.fds w.pipeFd = some .pipeR := fun ht => (wlive h).pipe ((wlive h).lf.2 (by rw [ht]; rfl))
    obtain ⟨h1, h2, h3, h4⟩ := ih
    have hst := wstep_of hs
    clear h hs
    cases hst
    case' poll l ht _ _ =>
      have hfire : w.pipeFd ∈ l → w.pipeWritten = true := fun hp => by
        rcases (hg _ hp).2 with ⟨_, h⟩ | ⟨c, i, raw, h, _⟩
        · exact h
        · rw [hpoll ht] at h; cases h
      clear hg
    all_goals
      refine ⟨?_, ?_, ?_, ?_⟩ <;>
        simp only [List.mem_append, List.mem_singleton, WW.closeNum] at * <;>
        grind [TPc.unhandled]

/-- C58: the thread of the watcher leaves its loop only when `close` was called, or when a callback raised something other than
RuntimeError: no history makes it stop by itself (`KeyError` for an event without an entry, or an error from epoll or `close`). -/
theorem C58_thread_lives {r wr : Nat} {l : List WatchEv} {w : WW} (h : WHist r wr l w) :
    ThreadRuns w ∨ (w.left = some .closed ∧ .closeWrite ∈ l) ∨ (w.left = some .callbackRaised ∧ .callback .otherError ∈ l) := by
  rcases wleft h with h1 | h1 | h1
  · exact .inl h1
  · exact .inr (.inl ⟨h1, (wwhy h).closed h1⟩)
  · exact .inr (.inr ⟨h1, (wwhy h).raised h1⟩)

/-- C58, "it is called for every watched child that exits": at every moment, when a call of `watch_pid` has returned and its child
has exited, then the callback was called, or the thread is about to call it, or the next `epoll.poll` can return its
descriptor. -/
theorem C58_not_lost {r wr : Nat} {l : List WatchEv} {w : WW} (h : WHist r wr l w) (hreap : NoOtherReaper l) (hone : WatchedOnce w)
    (hrun : ThreadRuns w) {i : Nat} (hret : WatchReturned w i) (hex : ChildExited w i) :
    Reported w i ∨ (∃ fd p rest, w.tpc = .waiting fd p i rest) ∨ (∃ fd p st rest, w.tpc = .calling fd p i st rest) ∨
      ∃ fd, w.pc i = .done fd ∧ w.ready fd := by
  obtain ⟨fd, hd⟩ := hret
  by_cases hm : i ∈ w.ids
  · obtain ⟨⟨j, p, st⟩, h1, rfl⟩ := List.mem_map.1 hm
    exact .inl ⟨p, st, h1⟩
  · by_cases hh : w.tpc.handling = some i
    · unfold TPc.handling at hh
      split at hh
      · rename_i ht; cases hh; exact .inr (.inl ⟨_, _, _, ht⟩)
      · rename_i ht; cases hh; exact .inr (.inr (.inl ⟨_, _, _, _, ht⟩))
      · cases hh
    · exact .inr (.inr (.inr ⟨fd, hd, (kept_ready (wlive h) (wtrue h hreap hone) (wkept h hreap hone) hrun hd hex hm hh).1⟩))

/-- C58, "when the watcher keeps running it is called for every watched child that exits": in every infinite history in which
the thread keeps running and is scheduled fairly, and epoll is fair, the callback is called at some time after `watch_pid` has
returned and the child has exited. -/
theorem C58_eventually {r wr : Nat} {σ : Nat → WW} {ev : Nat → Option WatchEv} (hx : WExec r wr σ ev)
    (hreap : ∀ n pid, ev n ≠ some (.reapElsewhere pid)) (hone : ∀ n, WatchedOnce (σ n))
    (hfair : ThreadFair σ ev) (hepoll : EpollFair σ ev) (hrun : ∀ n, ThreadRuns (σ n))
    {n i : Nat} (hret : WatchReturned (σ n) i) (hex : ChildExited (σ n) i) : ∃ m, n ≤ m ∧ Reported (σ m) i := by
  obtain ⟨fd, hd0⟩ := hret
  have hk : ∀ m, WKids (σ m) := fun m => by
    obtain ⟨l, h1, _⟩ := exec_hist hx hreap m
    exact wkids h1
  have hl : ∀ m, WLive (σ m) := fun m => by
    obtain ⟨l, h1, _⟩ := exec_hist hx hreap m
    exact wlive h1
  have htr : ∀ m, WTrue (σ m) := fun m => by
    obtain ⟨l, h1, h2⟩ := exec_hist hx hreap m
    exact wtrue h1 h2 (hone m)
  have hkept : ∀ m, WKept (σ m) := fun m => by
    obtain ⟨l, h1, h2⟩ := exec_hist hx hreap m
    exact wkept h1 h2 (hone m)
  -- what stays
  have hst : ∀ d, (σ (n + d)).pc i = .done fd ∧ ChildExited (σ (n + d)) i := by
    intro d
    induction d with
    | zero => exact ⟨hd0, hex⟩
    | succ d ih =>
      have hs := hx.steps (n + d)
      cases he : ev (n + d) with
      | none =>
        rw [he] at hs
        show (σ (n + d + 1)).pc i = _ ∧ ChildExited (σ (n + d + 1)) i
        rw [hs]; exact ih
      | some e =>
        have hst := stays (hk (n + d)) (exec_step hx he) (i := i) (fd := fd)
        refine ⟨hst.1 ih.1, hst.2 ?_ ih.2⟩
        refine Nat.lt_of_not_le fun hle => ?_
        have := ((hk (n + d)).born i).2 hle
        rw [ih.1] at this; cases this
  have hd : ∀ m, n ≤ m → (σ m).pc i = .done fd := fun m hm => by
    have := (hst (m - n)).1
    rwa [show n + (m - n) = m by omega] at this
  have hx' : ∀ m, n ≤ m → ChildExited (σ m) i := fun m hm => by
    have := (hst (m - n)).2
    rwa [show n + (m - n) = m by omega] at this
  refine Classical.byContradiction fun hno => ?_
  have hnid : ∀ m, n ≤ m → i ∉ (σ m).ids := by
    intro m hm hmem
    obtain ⟨⟨j, p, st⟩, h1, rfl⟩ := List.mem_map.1 hmem
    exact hno ⟨m, hm, p, st, h1⟩
  have hcan : ∀ m, n ≤ m → ThreadCan (σ m) := by
    intro m hm
    by_cases hh : (σ m).tpc.handling = some i
    · exact can_go (hl m) (hrun m) (.inl (by rw [hh]; simp))
    · exact can_go (hl m) (hrun m) (.inr ⟨fd, (kept_ready (hl m) (htr m) (hkept m) (hrun m) (hd m hm) (hx' m hm) (hnid m hm) hh).1⟩)
  -- the thread is never at the call
  have hA : ∀ N k, n ≤ k → (σ k).tpc.toGo ≤ N → (σ k).tpc.handling ≠ some i := by
    intro N
    induction N with
    | zero =>
      intro k _ hN hh
      cases ht : (σ k).tpc <;> rw [ht] at hh hN <;> simp [TPc.handling, TPc.toGo] at hh hN
      all_goals omega
    | succ N ih =>
      intro k hk' hN hh
      obtain ⟨m, e, h1, h2, h3, h4⟩ := goes_on hx hfair hcan hk'
      have hstep := exec_step hx h2
      rcases handled_reported (hk m) (hl m) (htr m) hstep (by rw [h4]; exact hh) with h5 | h5
      · rcases thread_moves hstep h3 (hrun _) (hrun _) ((hl m).lf.1 (hrun m)) with ⟨l, rfl, h6⟩ | ⟨h6, _⟩
        · rw [h6] at h5; cases h5
        · refine ih (m + 1) (by omega) ?_ h5
          rw [h4] at h6; omega
      · exact hnid (m + 1) (by omega) h5
  have hB : ∀ k, n ≤ k → (σ k).tpc.handling ≠ some i := fun k hk' => hA _ k hk' (Nat.le_refl _)
  have hready : ∀ m, n ≤ m → (σ m).ready fd ∧ (σ m).dict fd = some ((σ m).pid i, i) := fun m hm =>
    kept_ready (hl m) (htr m) (hkept m) (hrun m) (hd m hm) (hx' m hm) (hnid m hm) (hB m hm)
  -- the thread polls again and again
  have hC : ∀ N k, n ≤ k → (σ k).tpc.toGo ≤ N → ∃ m l, k ≤ m ∧ ev m = some (.poll l) := by
    intro N
    induction N with
    | zero =>
      intro k hk' hN
      obtain ⟨m, e, h1, h2, h3, h4⟩ := goes_on hx hfair hcan hk'
      rcases thread_moves (exec_step hx h2) h3 (hrun _) (hrun _) ((hl m).lf.1 (hrun m)) with ⟨l, rfl, _⟩ | ⟨h6, _⟩
      · exact ⟨m, l, h1, h2⟩
      · rw [h4] at h6; omega
    | succ N ih =>
      intro k hk' hN
      obtain ⟨m, e, h1, h2, h3, h4⟩ := goes_on hx hfair hcan hk'
      rcases thread_moves (exec_step hx h2) h3 (hrun _) (hrun _) ((hl m).lf.1 (hrun m)) with ⟨l, rfl, _⟩ | ⟨h6, _⟩
      · exact ⟨m, l, h1, h2⟩
      · obtain ⟨m', l, h7, h8⟩ := ih (m + 1) (by omega) (by rw [h4] at h6; omega)
        exact ⟨m', l, by omega, h8⟩
  have hpolls : ∀ k, ∃ m l, k ≤ m ∧ ev m = some (.poll l) := by
    intro k
    obtain ⟨m, l, h1, h2⟩ := hC _ (max n k) (by omega) (Nat.le_refl _)
    exact ⟨m, l, by omega, h2⟩
  obtain ⟨m, l, h1, h2, h3⟩ := hepoll fd n (fun m hm => (hready m hm).1) hpolls
  -- what it has got, it handles
  have hD : ∀ N k, n ≤ k → (σ k).tpc.toGo ≤ N → fd ∉ (σ k).tpc.pending := by
    intro N
    induction N with
    | zero =>
      intro k _ hN hh
      cases ht : (σ k).tpc <;> rw [ht] at hh hN <;> simp [TPc.pending, TPc.toGo] at hh hN
      all_goals omega
    | succ N ih =>
      intro k hk' hN hh
      obtain ⟨m, e, h1, h2, h3, h4⟩ := goes_on hx hfair hcan hk'
      have hstep := exec_step hx h2
      rcases thread_moves hstep h3 (hrun _) (hrun _) ((hl m).lf.1 (hrun m)) with ⟨l, rfl, h6⟩ | ⟨h6, h7⟩
      · rw [← h4, (poll_step hstep).1] at hh; cases hh
      · rcases h7 with h7 | ⟨fd', pid', i', rest, h7, h8, h9⟩
        · exact ih (m + 1) (by omega) (by rw [h4] at h6; omega) (by rw [h7, h4]; exact hh)
        · rw [← h4, h7] at hh
          rcases List.mem_cons.1 hh with rfl | hh
          · rw [(hready m (by omega)).2] at h8
            cases h8
            exact hB (m + 1) (by omega) (by rw [h9]; rfl)
          · exact ih (m + 1) (by omega) (by rw [h4] at h6; omega) (by rw [h9]; exact hh)
  have hstep := exec_step hx h2
  refine hD _ (m + 1) (by omega) (Nat.le_refl _) ?_
  rw [(poll_step hstep).2]
  exact h3

/-- A history given by its events. -/
def givesAll : WW → List WatchEv → Prop
  | _, [] => True
  | w, ev :: l => w.gives ev ∧ match w.step ev with
    | some w' => givesAll w' l
    | none => False

def runAll (w : WW) (l : List WatchEv) : WW := l.foldl (fun w ev => (w.step ev).getD w) w

theorem whist_more {r wr : Nat} {l : List WatchEv} {w : WW} (h : WHist r wr l w) : ∀ l', givesAll w l' → WHist r wr (l ++ l') (runAll w l') := by
  intro l'
  induction l' generalizing l w with
  | nil => intro _; rw [List.append_nil]; exact h
  | cons ev l' ih =>
    intro hg
    obtain ⟨h1, h2⟩ := hg
    cases hs : w.step ev with
    | none => rw [hs] at h2; exact h2.elim
    | some w' =>
      rw [hs] at h2
      have := ih (.step ev h h1 hs) h2
      rw [List.append_assoc] at this
      unfold runAll at this ⊢
      rw [List.foldl_cons, hs]
      exact this

/-- Two children are watched; the descriptor for the second can't be opened, so that it is killed and polled; both are
reported; then a third one gets the process id of the first, is watched and exits. -/
def threeChildren : List WatchEv :=
  [.fork 10, .watch 10, .openPidfd 0 (some 7), .insert 0, .register 0 true, .fork 11, .watch 11, .openPidfd 1 none,
   .exits 10 768, .poll [7], .next, .wait, .kill 1, .pollTry 1, .fork 10, .watch 10, .callback .runtimeError, .exits 11 9,
   .openPidfd 2 (some 8), .insert 2, .pollTry 1, .register 2 true, .exits 10 0, .unregister, .closeFd, .next, .poll [8], .next,
   .wait, .callback .returns, .unregister, .closeFd, .next]

theorem threeChildren_possible : WHist 3 4 threeChildren (runAll (WW.init 3 4) threeChildren) := by
  refine whist_more (l := []) (.start (by decide)) _ ?_
  simp [threeChildren, givesAll, WW.gives, WW.step, WW.outsideStep, WW.callStep, WW.threadStep, WW.pidfdOpen, WW.waitPid, WW.report,
    WW.closeNum, WW.init, WW.ready, upd]

example : (runAll (WW.init 3 4) threeChildren).reports = [(2, 10, 0), (1, 11, -9), (0, 10, 3)] := by decide +kernel
theorem threeChildren_reaper : NoOtherReaper threeChildren := by simp [NoOtherReaper, threeChildren]

theorem threeChildren_once : WatchedOnce (runAll (WW.init 3 4) threeChildren) := by
  have h3 : (runAll (WW.init 3 4) threeChildren).nCalls = 3 := by decide +kernel
  intro i j hi hj
  rw [h3] at hi hj
  have h1 : i = 0 ∨ i = 1 ∨ i = 2 := by omega
  have h2 : j = 0 ∨ j = 1 ∨ j = 2 := by omega
  rcases h1 with rfl | rfl | rfl <;> rcases h2 with rfl | rfl | rfl <;> decide +kernel

/-- A finite history that ends with the thread blocked in `epoll.poll`, or ended, is an infinite one in which nothing happens any more; it is
fair. -/
theorem exec_of_finite {r wr : Nat} (hne : r ≠ wr) {evs : List WatchEv} (hg : givesAll (WW.init r wr) evs)
    (hq : (runAll (WW.init r wr) evs).tpc = .poll ∨ (runAll (WW.init r wr) evs).tpc = .ended) (hq' : ∀ fd, ¬ (runAll (WW.init r wr) evs).ready fd) :
    let σ := fun n => runAll (WW.init r wr) (evs.take n)
    WExec r wr σ (evs[·]?) ∧ ThreadFair σ (evs[·]?) ∧ EpollFair σ (evs[·]?) := by
  have hend : ∀ n, evs.length ≤ n → runAll (WW.init r wr) (evs.take n) = runAll (WW.init r wr) evs := by
    intro n hn; rw [List.take_of_length_le hn]
  have hstep : ∀ (evs : List WatchEv) (w : WW), givesAll w evs → ∀ n, match evs[n]? with
      | none => runAll w (evs.take (n + 1)) = runAll w (evs.take n)
      | some e => (runAll w (evs.take n)).gives e ∧ (runAll w (evs.take n)).step e = some (runAll w (evs.take (n + 1))) := by
    intro evs
    induction evs with
    | nil => intro w _ n; simp
    | cons ev evs ih =>
      intro w hg n
      obtain ⟨h1, h2⟩ := hg
      cases hs : w.step ev with
      | none => rw [hs] at h2; exact h2.elim
      | some w' =>
        rw [hs] at h2
        cases n with
        | zero => exact ⟨h1, by simp [runAll, hs]⟩
        | succ n =>
          have := ih w' h2 n
          have he : ∀ k, runAll w ((ev :: evs).take (k + 1)) = runAll w' (evs.take k) := by
            intro k; simp [runAll, hs]
          rw [he, he, List.getElem?_cons_succ]
          exact this
  refine ⟨⟨hne, by simp [runAll], fun n => hstep evs _ hg n⟩, ?_, ?_⟩
  · intro n hcan
    have hc := hcan (max n evs.length) (by omega)
    dsimp only at hc
    rw [hend _ (by omega)] at hc
    obtain ⟨e, w', h1, h2, h3⟩ := hc
    exfalso
    have h3 := wstep_of h3
    cases h3 <;> first
      | (cases h1; done)
      | skip
    case poll l h4 h5 h6 =>
      cases l with
      | nil => exact h5 rfl
      | cons fd l => exact hq' fd (h2 fd (by simp))
    all_goals rcases hq with hq | hq <;> simp_all
  · intro fd n hr
    have := hr (max n evs.length) (by omega)
    dsimp only at this
    rw [hend _ (by omega)] at this
    exact absurd this (hq' fd)

/-- `C58_eventually` is not void: `threeChildren` as an infinite history meets its hypotheses (with the call 0, after 9 events). -/
example : ∃ σ ev, WExec 3 4 σ ev ∧ (∀ n pid, ev n ≠ some (.reapElsewhere pid)) ∧ (∀ n, WatchedOnce (σ n)) ∧ ThreadFair σ ev ∧
    EpollFair σ ev ∧ (∀ n, ThreadRuns (σ n)) ∧ WatchReturned (σ 9) 0 ∧ ChildExited (σ 9) 0 ∧ ¬ Reported (σ 9) 0 := by
  have hg : givesAll (WW.init 3 4) threeChildren := by
    simp [threeChildren, givesAll, WW.gives, WW.step, WW.outsideStep, WW.callStep, WW.threadStep, WW.pidfdOpen, WW.waitPid, WW.report,
      WW.closeNum, WW.init, WW.ready, upd]
  have hreg : (runAll (WW.init 3 4) threeChildren).reg = [3] := by decide +kernel
  have hfd : (runAll (WW.init 3 4) threeChildren).fds 3 = some .pipeR := by decide +kernel
  have hpw : (runAll (WW.init 3 4) threeChildren).pipeWritten = false := by decide +kernel
  obtain ⟨h1, h2, h3⟩ := exec_of_finite (r := 3) (wr := 4) (by decide) hg (.inl (by decide +kernel)) (by
    intro fd hr
    obtain ⟨h1, h2⟩ := hr
    rw [hreg, List.mem_singleton] at h1
    subst h1
    rcases h2 with ⟨_, h2⟩ | ⟨c, i, raw, h2, _⟩
    · rw [hpw] at h2; cases h2
    · rw [hfd] at h2; cases h2)
  have hno : ∀ (n pid : Nat), threeChildren[n]? ≠ some (WatchEv.reapElsewhere pid) := by
    intro n pid he
    exact threeChildren_reaper pid (List.mem_of_getElem? he)
  have hlen : threeChildren.length = 33 := rfl
  have hsmall : ∀ n, ∃ m, m ≤ 33 ∧ runAll (WW.init 3 4) (threeChildren.take n) = runAll (WW.init 3 4) (threeChildren.take m) := by
    intro n
    by_cases hn : n ≤ 33
    · exact ⟨n, hn, rfl⟩
    · exact ⟨33, Nat.le_refl _, by rw [List.take_of_length_le (by rw [hlen]; omega), List.take_of_length_le (by rw [hlen]; omega)]⟩
  refine ⟨_, _, h1, hno, ?_, h2, h3, ?_, ⟨7, by decide +kernel⟩, ?_, ?_⟩
  · intro n
    -- once at the end, once before
    have : ∀ d n, n + d = 33 → WatchedOnce (runAll (WW.init 3 4) (threeChildren.take n)) := by
      intro d
      induction d with
      | zero =>
        intro n hn
        rw [List.take_of_length_le (by rw [hlen]; omega)]
        exact threeChildren_once
      | succ d ih =>
        intro n hn
        have hs := h1.steps n
        cases he : threeChildren[n]? with
        | none =>
          rw [List.getElem?_eq_none_iff, hlen] at he
          omega
        | some e =>
          rw [he] at hs
          exact once_before (wstep_of hs.2) (ih (n + 1) (by omega))
    obtain ⟨m, hm, he⟩ := hsmall n
    show WatchedOnce (runAll _ _)
    rw [he]
    exact this (33 - m) m (by omega)
  · intro n
    obtain ⟨m, hm, he⟩ := hsmall n
    show (runAll _ _).left = none
    rw [he]
    have : ∀ m, m < 34 → (runAll (WW.init 3 4) (threeChildren.take m)).left = none := by decide +kernel
    exact this m (by omega)
  · have : (runAll (WW.init 3 4) (threeChildren.take 9)).exited ((runAll (WW.init 3 4) (threeChildren.take 9)).target 0) = some 768 := by
      decide +kernel
    show _ ≠ none
    rw [this]; simp
  · rintro ⟨p, st, hm⟩
    have : (runAll (WW.init 3 4) (threeChildren.take 9)).reports = [] := by decide +kernel
    rw [this] at hm
    cases hm

/-- The hypothesis `NoOtherReaper` of `C58_status` is needed: when somebody else has reaped the child (as `Runner` does when it has
waited for long after a kill, util.py:120-138), the status that is reported is 255. -/
theorem C58_limit_reaped_elsewhere : ∃ l w, WHist 3 4 l w ∧ WatchedOnce w ∧ w.exited (w.target 0) = some 9 ∧
    exitStatus 9 = -9 ∧ w.reports = [(0, 10, 255)] := by
  refine ⟨_, _, whist_more (l := []) (.start (by decide))
    [.fork 10, .watch 10, .openPidfd 0 (some 7), .insert 0, .register 0 true, .exits 10 9, .poll [7], .reapElsewhere 10, .next, .wait,
      .callback .returns] ?_, ?_, by decide +kernel, by decide, by decide +kernel⟩
  · simp [givesAll, WW.gives, WW.step, WW.outsideStep, WW.callStep, WW.threadStep, WW.pidfdOpen, WW.waitPid, WW.report,
      WW.closeNum, WW.init, WW.ready, upd]
  · intro i j hi hj _
    have : ∀ n, n < 1 → n = 0 := by omega
    rw [this i hi, this j hj]

/-- ... and when the process id has been given to a new child by then, the callback is called with the status of that child, or (when it is
still running) never: nothing is left of the call in the tables. -/
theorem C58_limit_reused_pid : ∃ l w, WHist 3 4 l w ∧ WatchedOnce w ∧ w.pc 0 = .done 7 ∧ w.exited (w.target 0) = some 9 ∧
    w.reports = [] ∧ w.tpc = .poll ∧ w.dict 7 = none ∧ w.reg = [3] := by
  refine ⟨_, _, whist_more (l := []) (.start (by decide))
    [.fork 10, .watch 10, .openPidfd 0 (some 7), .insert 0, .register 0 true, .exits 10 9, .reapElsewhere 10, .fork 10, .poll [7],
      .next, .wait, .unregister, .closeFd, .next] ?_, ?_, by decide +kernel, by decide +kernel, by decide +kernel, by decide +kernel,
      by decide +kernel, by decide +kernel⟩
  · simp [givesAll, WW.gives, WW.step, WW.outsideStep, WW.callStep, WW.threadStep, WW.pidfdOpen, WW.waitPid, WW.report,
      WW.closeNum, WW.init, WW.ready, upd]
  · intro i j hi hj _
    have : ∀ n, n < 1 → n = 0 := by omega
    rw [this i hi, this j hj]

/-- A callback that raises anything but RuntimeError ends the thread; children watched before are not reported any more. -/
theorem C58_limit_callback_raises : ∃ l w, WHist 3 4 l w ∧ w.tpc = .ended ∧ w.left = some .callbackRaised ∧ WatchReturned w 1 ∧ ChildExited w 1 ∧
    ¬ Reported w 1 := by
  refine ⟨_, _, whist_more (l := []) (.start (by decide))
    [.fork 10, .watch 10, .openPidfd 0 (some 7), .insert 0, .register 0 true, .fork 11, .watch 11, .openPidfd 1 (some 8), .insert 1,
      .register 1 true, .exits 10 0, .exits 11 0, .poll [7, 8], .next, .wait, .callback .otherError, .epollClose, .readKeys [8],
      .closeOne, .closeOne, .closeOne, .clearPipe] ?_, by decide +kernel, by decide +kernel, ⟨8, by decide +kernel⟩, ?_, ?_⟩
  · simp [givesAll, WW.gives, WW.step, WW.outsideStep, WW.callStep, WW.threadStep, WW.pidfdOpen, WW.waitPid, WW.report,
      WW.closeNum, WW.init, WW.ready, upd]
    intro fd
    split <;> simp_all
  · unfold ChildExited; decide +kernel
  · rintro ⟨p, st, hm⟩
    exact absurd (List.mem_map.2 ⟨_, hm, rfl⟩ : (1 : Nat) ∈ List.map (·.1) (runAll (WW.init 3 4) _).reports) (by decide +kernel)

end Shellous.Props
