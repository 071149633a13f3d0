import Verif.Lemmas.Watcher

/-!
# Invariants of the child watcher: the thread
-/

namespace Shellous

/-- The calls of `watch_pid` whose callback was called. -/
def WW.ids (w : WW) : List Nat := w.reports.map (·.1)

/-- The descriptor whose entry the thread has taken out, and that it has not taken off epoll. -/
def TPc.busyFd : TPc → Option Nat
  | .waiting fd _ _ _ | .calling fd _ _ _ _ | .removing fd _ => some fd
  | _ => none

def WW.busy (w : WW) (fd : Nat) : Prop := w.tpc.busyFd = some fd

/-- A descriptor that `epoll.poll` has returned. -/
def WW.due (w : WW) (fd : Nat) : Prop :=
  fd = w.pipeFd ∨ ∃ c i, w.fds fd = some (.pidfd c i) ∧ w.exited c ≠ none ∧ w.dict fd = some (w.pid i, i) ∧ fd ∈ w.reg

def TPc.final : TPc → Bool
  | .fin | .finKeys | .finClose _ | .ended => true
  | _ => false

/-- While the thread is in its loop. -/
structure WLive (w : WW) : Prop where
  lf : w.left = none ↔ w.tpc.final = false
  ep : w.left = none → w.epollOpen = true
  pipe : w.left = none → w.fds w.pipeFd = some .pipeR
  dic : w.left = none → ∀ fd p i, w.dict fd = some (p, i) → p = w.pid i ∧ (∃ c, w.fds fd = some (.pidfd c i)) ∧
    (w.pc i = .inserted fd ∧ fd ∉ w.reg ∨ w.pc i = .done fd ∧ fd ∈ w.reg ∧ i ∉ w.ids ∨
      (w.pc i = .err ∨ (∃ n, w.pc i = .polling n) ∨ w.pc i = .finished) ∧ fd ∉ w.reg)
  opn : w.left = none → ∀ fd i, w.pc i = .opened fd → (∃ c, w.fds fd = some (.pidfd c i)) ∧ fd ∉ w.reg ∧ w.dict fd = none
  ins : w.left = none → ∀ fd i, w.pc i = .inserted fd → w.dict fd = some (w.pid i, i)
  rg : w.left = none → ∀ fd, fd ∈ w.reg → fd = w.pipeFd ∨
    ∃ c i, w.fds fd = some (.pidfd c i) ∧ w.pc i = .done fd ∧ (w.dict fd = some (w.pid i, i) ∨ w.busy fd)
  lp : ∀ rest, w.tpc = .loop rest → rest.Nodup ∧ ∀ f ∈ rest, w.due f
  wt : ∀ fd p i rest, w.tpc = .waiting fd p i rest → p = w.pid i ∧ w.pc i = .done fd ∧
    (∃ c, w.fds fd = some (.pidfd c i) ∧ w.exited c ≠ none) ∧ w.dict fd = none ∧ fd ∈ w.reg ∧ i ∉ w.ids ∧ fd ∉ rest ∧ rest.Nodup ∧
    ∀ f ∈ rest, w.due f
  cl : ∀ fd p i st rest, w.tpc = .calling fd p i st rest → p = w.pid i ∧ w.pc i = .done fd ∧
    (∃ c, w.fds fd = some (.pidfd c i) ∧ w.exited c ≠ none) ∧ w.dict fd = none ∧ fd ∈ w.reg ∧ i ∉ w.ids ∧ fd ∉ rest ∧ rest.Nodup ∧
    ∀ f ∈ rest, w.due f
  rm : ∀ fd rest, w.tpc = .removing fd rest → (∃ c i, w.fds fd = some (.pidfd c i) ∧ w.pc i = .done fd) ∧ w.dict fd = none ∧
    fd ∈ w.reg ∧ fd ∉ rest ∧ rest.Nodup ∧ ∀ f ∈ rest, w.due f
  cs : ∀ fd rest, w.tpc = .closing fd rest → (∃ c i, w.fds fd = some (.pidfd c i) ∧ w.pc i = .done fd) ∧ w.dict fd = none ∧
    fd ∉ w.reg ∧ fd ∉ rest ∧ rest.Nodup ∧ ∀ f ∈ rest, w.due f
  /-- the calls that are over when the callback was called -/
  rp : ∀ i, i ∈ w.ids → (∃ fd, w.pc i = .done fd) ∨ w.pc i = .finished
  nd : w.ids.Nodup

/-- A descriptor that is not open is in no table. -/
theorem WLive.free {w : WW} (h : WLive w) : w.left = none → ∀ fd, w.fds fd = none → fd ∉ w.reg ∧ w.dict fd = none := by
  intro hl fd hf
  constructor
  · intro hr
    rcases h.rg hl fd hr with rfl | ⟨c, i, h1, _⟩
    · rw [h.pipe hl] at hf; cases hf
    · rw [h1] at hf; cases hf
  · cases hd : w.dict fd with
    | none => rfl
    | some x =>
      obtain ⟨_, ⟨c, h1⟩, _⟩ := h.dic hl fd x.1 x.2 hd
      rw [h1] at hf; cases hf

/-- The next event to be handled. -/
theorem WLive.head {w : WW} (h : WLive w) : ∀ fd rest, w.tpc = .loop (fd :: rest) →
    w.due fd ∧ fd ∉ rest ∧ rest.Nodup ∧ ∀ f ∈ rest, w.due f := by
  intro fd rest ht
  obtain ⟨h1, h2⟩ := h.lp _ ht
  rw [List.nodup_cons] at h1
  exact ⟨h2 fd (by simp), h1.1, h1.2, fun f hf => h2 f (by simp [hf])⟩

set_option maxHeartbeats 4000000 in
theorem wlive_lf {w w' : WW} {ev : WatchEv} (hk : WKids w) (h : WLive w) (hg : w.gives ev) (hs : WStep w ev w') :
    w'.left = none ↔ w'.tpc.final = false := by
  have lf := h.lf
  have born := hk.born
  clear hk h
  cases hs <;> first
    | exact lf
    | (simp only [upd, WW.closeNum, WW.ids, WW.busy, WW.due, WW.gives, WW.ready, List.map_cons, List.mem_cons, List.nodup_cons, List.mem_filter] at *; grind [TPc.final, TPc.busyFd])

set_option maxHeartbeats 4000000 in
theorem wlive_ep {w w' : WW} {ev : WatchEv} (hk : WKids w) (h : WLive w) (hg : w.gives ev) (hs : WStep w ev w') :
    w'.left = none → w'.epollOpen = true := by
  have lf := h.lf
  have ep := h.ep
  have born := hk.born
  clear hk h
  cases hs <;> first
    | exact ep
    | (simp only [upd, WW.closeNum, WW.ids, WW.busy, WW.due, WW.gives, WW.ready, List.map_cons, List.mem_cons, List.nodup_cons, List.mem_filter] at *; grind [TPc.final, TPc.busyFd])

set_option maxHeartbeats 4000000 in
theorem wlive_pipe {w w' : WW} {ev : WatchEv} (hk : WKids w) (h : WLive w) (hg : w.gives ev) (hs : WStep w ev w') :
    w'.left = none → w'.fds w'.pipeFd = some .pipeR := by
  have lf := h.lf
  have pipe := h.pipe
  have cs := h.cs
  have born := hk.born
  clear hk h
  cases hs <;> first
    | exact pipe
    | (simp only [upd, WW.closeNum, WW.ids, WW.busy, WW.due, WW.gives, WW.ready, List.map_cons, List.mem_cons, List.nodup_cons, List.mem_filter] at *; grind [TPc.final, TPc.busyFd])

set_option maxHeartbeats 4000000 in
theorem wlive_dic {w w' : WW} {ev : WatchEv} (hk : WKids w) (h : WLive w) (hg : w.gives ev) (hs : WStep w ev w') :
    w'.left = none → ∀ fd p i, w'.dict fd = some (p, i) → p = w'.pid i ∧ (∃ c, w'.fds fd = some (.pidfd c i)) ∧
      (w'.pc i = .inserted fd ∧ fd ∉ w'.reg ∨ w'.pc i = .done fd ∧ fd ∈ w'.reg ∧ i ∉ w'.ids ∨
      (w'.pc i = .err ∨ (∃ n, w'.pc i = .polling n) ∨ w'.pc i = .finished) ∧ fd ∉ w'.reg) := by
  have lf := h.lf
  have pipe := h.pipe
  have dic := h.dic
  have opn := h.opn
  have ins := h.ins
  have rg := h.rg
  have wt := h.wt
  have cl := h.cl
  have cs := h.cs
  have rp := h.rp
  have lp := h.lp
  have rm := h.rm
  have born := hk.born
  clear hk h
  cases hs <;> first
    | exact dic
    | (clear rm; (simp only [upd, WW.closeNum, WW.ids, WW.busy, WW.due, WW.gives, WW.ready, List.map_cons, List.mem_cons, List.nodup_cons, List.mem_filter] at *; grind [TPc.final, TPc.busyFd]))
    | (clear pipe opn ins rg wt cl cs rp lp; (simp only [upd, WW.closeNum, WW.ids, WW.busy, WW.due, WW.gives, WW.ready, List.map_cons, List.mem_cons, List.nodup_cons, List.mem_filter] at *; grind [TPc.final, TPc.busyFd]))
    | (simp only [upd, WW.closeNum, WW.ids, WW.busy, WW.due, WW.gives, WW.ready, List.map_cons, List.mem_cons, List.nodup_cons, List.mem_filter] at *; grind [TPc.final, TPc.busyFd])

set_option maxHeartbeats 4000000 in
theorem wlive_opn {w w' : WW} {ev : WatchEv} (hk : WKids w) (h : WLive w) (hg : w.gives ev) (hs : WStep w ev w') :
    w'.left = none → ∀ fd i, w'.pc i = .opened fd → (∃ c, w'.fds fd = some (.pidfd c i)) ∧ fd ∉ w'.reg ∧ w'.dict fd = none := by
  have lf := h.lf
  have pipe := h.pipe
  have dic := h.dic
  have opn := h.opn
  have ins := h.ins
  have rg := h.rg
  have wt := h.wt
  have cl := h.cl
  have cs := h.cs
  have free := h.free
  have born := hk.born
  clear hk h
  cases hs <;> first
    | exact opn
    | (clear free; (simp only [upd, WW.closeNum, WW.ids, WW.busy, WW.due, WW.gives, WW.ready, List.map_cons, List.mem_cons, List.nodup_cons, List.mem_filter] at *; grind [TPc.final, TPc.busyFd]))
    | (clear pipe rg wt cl cs; (simp only [upd, WW.closeNum, WW.ids, WW.busy, WW.due, WW.gives, WW.ready, List.map_cons, List.mem_cons, List.nodup_cons, List.mem_filter] at *; grind [TPc.final, TPc.busyFd]))
    | (simp only [upd, WW.closeNum, WW.ids, WW.busy, WW.due, WW.gives, WW.ready, List.map_cons, List.mem_cons, List.nodup_cons, List.mem_filter] at *; grind [TPc.final, TPc.busyFd])
    | skip
  rename_i i0 fd0 c0 a1 a2 a3
  intro hl fd i hp
  change w.left = none at hl
  change upd w.pc i0 (.opened fd0) i = .opened fd at hp
  show (∃ c, upd w.fds fd0 (some (.pidfd c0 i0)) fd = some (.pidfd c i)) ∧ fd ∉ w.reg ∧ w.dict fd = none
  by_cases hi : i = i0
  · subst hi
    rw [upd_same] at hp
    cases hp
    exact ⟨⟨c0, upd_same _ _ _⟩, free hl _ a2⟩
  · rw [upd_other _ _ hi] at hp
    obtain ⟨⟨c, h1⟩, h2, h3⟩ := opn hl fd i hp
    refine ⟨⟨c, ?_⟩, h2, h3⟩
    rw [upd_other _ _ ?_]
    · exact h1
    · rintro rfl; rw [h1] at a2; cases a2

set_option maxHeartbeats 4000000 in
theorem wlive_ins {w w' : WW} {ev : WatchEv} (hk : WKids w) (h : WLive w) (hg : w.gives ev) (hs : WStep w ev w') :
    w'.left = none → ∀ fd i, w'.pc i = .inserted fd → w'.dict fd = some (w'.pid i, i) := by
  have lf := h.lf
  have dic := h.dic
  have opn := h.opn
  have ins := h.ins
  have head := h.head
  have born := hk.born
  clear hk h
  cases hs <;> first
    | exact ins
    | (simp only [upd, WW.closeNum, WW.ids, WW.busy, WW.due, WW.gives, WW.ready, List.map_cons, List.mem_cons, List.nodup_cons, List.mem_filter] at *; grind [TPc.final, TPc.busyFd])

set_option maxHeartbeats 4000000 in
theorem wlive_rg {w w' : WW} {ev : WatchEv} (hk : WKids w) (h : WLive w) (hg : w.gives ev) (hs : WStep w ev w') :
    w'.left = none → ∀ fd, fd ∈ w'.reg → fd = w'.pipeFd ∨
      ∃ c i, w'.fds fd = some (.pidfd c i) ∧ w'.pc i = .done fd ∧ (w'.dict fd = some (w'.pid i, i) ∨ w'.busy fd) := by
  have lf := h.lf
  have pipe := h.pipe
  have dic := h.dic
  have opn := h.opn
  have ins := h.ins
  have rg := h.rg
  have head := h.head
  have wt := h.wt
  have cl := h.cl
  have rm := h.rm
  have cs := h.cs
  have born := hk.born
  clear hk h
  cases hs <;> first
    | exact rg
    | (simp only [upd, WW.closeNum, WW.ids, WW.busy, WW.due, WW.gives, WW.ready, List.map_cons, List.mem_cons, List.nodup_cons, List.mem_filter] at *; grind [TPc.final, TPc.busyFd])

set_option maxHeartbeats 4000000 in
theorem wlive_lp {w w' : WW} {ev : WatchEv} (hk : WKids w) (h : WLive w) (hg : w.gives ev) (hs : WStep w ev w') :
    ∀ rest, w'.tpc = .loop rest → rest.Nodup ∧ ∀ f ∈ rest, w'.due f := by
  have lf := h.lf
  have pipe := h.pipe
  have dic := h.dic
  have opn := h.opn
  have ins := h.ins
  have rg := h.rg
  have lp := h.lp
  have cs := h.cs
  have wt := h.wt
  have cl := h.cl
  have rm := h.rm
  have born := hk.born
  clear hk h
  cases hs <;> first
    | exact lp
    | (simp only [upd, WW.closeNum, WW.ids, WW.busy, WW.due, WW.gives, WW.ready, List.map_cons, List.mem_cons, List.nodup_cons, List.mem_filter] at *; grind [TPc.final, TPc.busyFd])

set_option maxHeartbeats 4000000 in
theorem wlive_wt {w w' : WW} {ev : WatchEv} (hk : WKids w) (h : WLive w) (hg : w.gives ev) (hs : WStep w ev w') :
    ∀ fd p i rest, w'.tpc = .waiting fd p i rest → p = w'.pid i ∧ w'.pc i = .done fd ∧
      (∃ c, w'.fds fd = some (.pidfd c i) ∧ w'.exited c ≠ none) ∧ w'.dict fd = none ∧ fd ∈ w'.reg ∧ i ∉ w'.ids ∧ fd ∉ rest ∧ rest.Nodup ∧
      ∀ f ∈ rest, w'.due f := by
  have lf := h.lf
  have pipe := h.pipe
  have dic := h.dic
  have opn := h.opn
  have ins := h.ins
  have head := h.head
  have wt := h.wt
  have rp := h.rp
  have born := hk.born
  clear hk h
  cases hs <;> first
    | exact wt
    | (simp only [upd, WW.closeNum, WW.ids, WW.busy, WW.due, WW.gives, WW.ready, List.map_cons, List.mem_cons, List.nodup_cons, List.mem_filter] at *; grind [TPc.final, TPc.busyFd])

set_option maxHeartbeats 4000000 in
theorem wlive_cl {w w' : WW} {ev : WatchEv} (hk : WKids w) (h : WLive w) (hg : w.gives ev) (hs : WStep w ev w') :
    ∀ fd p i st rest, w'.tpc = .calling fd p i st rest → p = w'.pid i ∧ w'.pc i = .done fd ∧
      (∃ c, w'.fds fd = some (.pidfd c i) ∧ w'.exited c ≠ none) ∧ w'.dict fd = none ∧ fd ∈ w'.reg ∧ i ∉ w'.ids ∧ fd ∉ rest ∧ rest.Nodup ∧
      ∀ f ∈ rest, w'.due f := by
  have lf := h.lf
  have pipe := h.pipe
  have dic := h.dic
  have opn := h.opn
  have ins := h.ins
  have wt := h.wt
  have cl := h.cl
  have rp := h.rp
  have born := hk.born
  clear hk h
  cases hs <;> first
    | exact cl
    | (simp only [upd, WW.closeNum, WW.ids, WW.busy, WW.due, WW.gives, WW.ready, List.map_cons, List.mem_cons, List.nodup_cons, List.mem_filter] at *; grind [TPc.final, TPc.busyFd])

set_option maxHeartbeats 4000000 in
theorem wlive_rm {w w' : WW} {ev : WatchEv} (hk : WKids w) (h : WLive w) (hg : w.gives ev) (hs : WStep w ev w') :
    ∀ fd rest, w'.tpc = .removing fd rest → (∃ c i, w'.fds fd = some (.pidfd c i) ∧ w'.pc i = .done fd) ∧ w'.dict fd = none ∧
      fd ∈ w'.reg ∧ fd ∉ rest ∧ rest.Nodup ∧ ∀ f ∈ rest, w'.due f := by
  have lf := h.lf
  have dic := h.dic
  have opn := h.opn
  have ins := h.ins
  have wt := h.wt
  have cl := h.cl
  have rm := h.rm
  have born := hk.born
  clear hk h
  cases hs <;> first
    | exact rm
    | (simp only [upd, WW.closeNum, WW.ids, WW.busy, WW.due, WW.gives, WW.ready, List.map_cons, List.mem_cons, List.nodup_cons, List.mem_filter] at *; grind [TPc.final, TPc.busyFd])

set_option maxHeartbeats 4000000 in
theorem wlive_cs {w w' : WW} {ev : WatchEv} (hk : WKids w) (h : WLive w) (hg : w.gives ev) (hs : WStep w ev w') :
    ∀ fd rest, w'.tpc = .closing fd rest → (∃ c i, w'.fds fd = some (.pidfd c i) ∧ w'.pc i = .done fd) ∧ w'.dict fd = none ∧
      fd ∉ w'.reg ∧ fd ∉ rest ∧ rest.Nodup ∧ ∀ f ∈ rest, w'.due f := by
  have lf := h.lf
  have dic := h.dic
  have opn := h.opn
  have ins := h.ins
  have rm := h.rm
  have cs := h.cs
  have born := hk.born
  clear hk h
  cases hs <;> first
    | exact cs
    | (simp only [upd, WW.closeNum, WW.ids, WW.busy, WW.due, WW.gives, WW.ready, List.map_cons, List.mem_cons, List.nodup_cons, List.mem_filter] at *; grind [TPc.final, TPc.busyFd])

set_option maxHeartbeats 4000000 in
theorem wlive_rp {w w' : WW} {ev : WatchEv} (hk : WKids w) (h : WLive w) (hg : w.gives ev) (hs : WStep w ev w') :
    ∀ i, i ∈ w'.ids → (∃ fd, w'.pc i = .done fd) ∨ w'.pc i = .finished := by
  have rp := h.rp
  have cl := h.cl
  have born := hk.born
  clear hk h
  cases hs <;> first
    | exact rp
    | (simp only [upd, WW.closeNum, WW.ids, WW.busy, WW.due, WW.gives, WW.ready, List.map_cons, List.mem_cons, List.nodup_cons, List.mem_filter] at *; grind [TPc.final, TPc.busyFd])

set_option maxHeartbeats 4000000 in
theorem wlive_nd {w w' : WW} {ev : WatchEv} (hk : WKids w) (h : WLive w) (hg : w.gives ev) (hs : WStep w ev w') :
    w'.ids.Nodup := by
  have rp := h.rp
  have nd := h.nd
  have cl := h.cl
  have born := hk.born
  clear hk h
  cases hs <;> first
    | exact nd
    | (simp only [upd, WW.closeNum, WW.ids, WW.busy, WW.due, WW.gives, WW.ready, List.map_cons, List.mem_cons, List.nodup_cons, List.mem_filter] at *; grind [TPc.final, TPc.busyFd])

theorem wlive_step {w w' : WW} {ev : WatchEv} (hk : WKids w) (h : WLive w) (hg : w.gives ev) (hs : WStep w ev w') : WLive w' :=
  ⟨wlive_lf hk h hg hs, wlive_ep hk h hg hs, wlive_pipe hk h hg hs, wlive_dic hk h hg hs, wlive_opn hk h hg hs, wlive_ins hk h hg hs, wlive_rg hk h hg hs, wlive_lp hk h hg hs, wlive_wt hk h hg hs, wlive_cl hk h hg hs, wlive_rm hk h hg hs, wlive_cs hk h hg hs, wlive_rp hk h hg hs, wlive_nd hk h hg hs⟩

end Shellous
