import Verif.Lemmas.WatcherStatus

/-!
# The descriptors of the child watcher
-/

namespace Shellous

/-- Before the thread closes what is left. -/
def TPc.early : TPc → Bool
  | .finClose _ | .ended => false
  | _ => true

/-- The thread is between taking this descriptor's entry out and closing it. -/
def TPc.inHand : TPc → Option Nat
  | .waiting fd _ _ _ | .calling fd _ _ _ _ | .removing fd _ | .closing fd _ => some fd
  | _ => none

/-- What is to be closed at the end. -/
def TPc.closeList : TPc → List Nat
  | .finClose l => l
  | _ => []

structure WOwn (w : WW) : Prop where
  sp : w.tpc.early = true → ∃ wr, w.selfpipe = some (w.pipeFd, wr) ∧ w.fds w.pipeFd = some .pipeR ∧ w.fds wr = some .pipeW
  dk : w.tpc.early = true → ∀ fd p i, w.dict fd = some (p, i) → ∃ c, w.fds fd = some (.pidfd c i)
  op : w.tpc.early = true → ∀ fd i, w.pc i = .opened fd → (∃ c, w.fds fd = some (.pidfd c i)) ∧ w.dict fd = none
  ins : w.tpc.early = true → ∀ fd i, w.pc i = .inserted fd → w.dict fd = some (w.pid i, i)
  ec : w.epollOpen = true → w.tpc.early = true ∧ w.tpc ≠ .finKeys
  dn : w.left = none → ∀ fd c i, w.pc i = .done fd → w.fds fd = some (.pidfd c i) →
    w.dict fd = some (w.pid i, i) ∨ w.tpc.inHand = some fd
  cl : w.left = some .closed → ∀ fd c i, w.pc i = .done fd → w.fds fd = some (.pidfd c i) →
    (w.tpc.early = true ∧ w.dict fd = some (w.pid i, i)) ∨ fd ∈ w.tpc.closeList
  fc : ∀ l, w.tpc = .finClose l → l.Nodup ∧ ∀ fd ∈ l, w.fds fd ≠ none ∧ w.fds fd ≠ some .other
  z : w.strayCloses = 0

set_option maxHeartbeats 1000000 in
theorem wown_sp {w w' : WW} {ev : WatchEv} (hk : WKids w) (hl : WLive w) (h : WOwn w) (hg : w.gives ev) (hs : WStep w ev w') :
    w'.tpc.early = true → ∃ wr, w'.selfpipe = some (w'.pipeFd, wr) ∧ w'.fds w'.pipeFd = some .pipeR ∧ w'.fds wr = some .pipeW := by
  have sp := h.sp
  have lcs := hl.cs
  have llf := hl.lf
  have born := hk.born
  have kp := hk.pidfd
  clear hk h hl
  cases hs <;> first
    | exact sp
    | (simp only [upd, WW.closeNum, WW.due, WW.gives, List.mem_cons, List.nodup_cons, List.mem_append] at *; grind [TPc.final, TPc.early, TPc.inHand, TPc.closeList])

set_option maxHeartbeats 1000000 in
theorem wown_dk {w w' : WW} {ev : WatchEv} (hk : WKids w) (hl : WLive w) (h : WOwn w) (hg : w.gives ev) (hs : WStep w ev w') :
    w'.tpc.early = true → ∀ fd p i, w'.dict fd = some (p, i) → ∃ c, w'.fds fd = some (.pidfd c i) := by
  have dk := h.dk
  have op := h.op
  have lcs := hl.cs
  have llf := hl.lf
  have born := hk.born
  have kp := hk.pidfd
  clear hk h hl
  cases hs <;> first
    | exact dk
    | (simp only [upd, WW.closeNum, WW.due, WW.gives, List.mem_cons, List.nodup_cons, List.mem_append] at *; grind [TPc.final, TPc.early, TPc.inHand, TPc.closeList])

set_option maxHeartbeats 1000000 in
theorem wown_op {w w' : WW} {ev : WatchEv} (hk : WKids w) (hl : WLive w) (h : WOwn w) (hg : w.gives ev) (hs : WStep w ev w') :
    w'.tpc.early = true → ∀ fd i, w'.pc i = .opened fd → (∃ c, w'.fds fd = some (.pidfd c i)) ∧ w'.dict fd = none := by
  have op := h.op
  have dk := h.dk
  have lcs := hl.cs
  have llf := hl.lf
  have ins := h.ins
  have born := hk.born
  have kp := hk.pidfd
  clear hk h hl
  cases hs <;> first
    | exact op
    | (simp only [upd, WW.closeNum, WW.due, WW.gives, List.mem_cons, List.nodup_cons, List.mem_append] at *; grind [TPc.final, TPc.early, TPc.inHand, TPc.closeList])
    | skip
  rename_i i0 fd0 c0 a1 a2 a3
  intro he fd i hp
  change w.tpc.early = true at he
  change upd w.pc i0 (.opened fd0) i = .opened fd at hp
  show (∃ c, upd w.fds fd0 (some (.pidfd c0 i0)) fd = some (.pidfd c i)) ∧ w.dict fd = none
  by_cases hi : i = i0
  · subst hi
    rw [upd_same] at hp
    cases hp
    refine ⟨⟨c0, upd_same _ _ _⟩, ?_⟩
    cases hd : w.dict fd0 with
    | none => rfl
    | some x =>
      obtain ⟨c, h1⟩ := dk he fd0 x.1 x.2 hd
      rw [h1] at a2; cases a2
  · rw [upd_other _ _ hi] at hp
    obtain ⟨⟨c, h1⟩, h3⟩ := op he fd i hp
    refine ⟨⟨c, ?_⟩, h3⟩
    rw [upd_other _ _ ?_]
    · exact h1
    · rintro rfl; rw [h1] at a2; cases a2

set_option maxHeartbeats 1000000 in
theorem wown_ins {w w' : WW} {ev : WatchEv} (hk : WKids w) (hl : WLive w) (h : WOwn w) (hg : w.gives ev) (hs : WStep w ev w') :
    w'.tpc.early = true → ∀ fd i, w'.pc i = .inserted fd → w'.dict fd = some (w'.pid i, i) := by
  have ins := h.ins
  have op := h.op
  have dk := h.dk
  have lhead := hl.head
  have ldic := hl.dic
  have llf := hl.lf
  have born := hk.born
  have kp := hk.pidfd
  clear hk h hl
  cases hs <;> first
    | exact ins
    | (simp only [upd, WW.closeNum, WW.due, WW.gives, List.mem_cons, List.nodup_cons, List.mem_append] at *; grind [TPc.final, TPc.early, TPc.inHand, TPc.closeList])

set_option maxHeartbeats 1000000 in
theorem wown_ec {w w' : WW} {ev : WatchEv} (hk : WKids w) (hl : WLive w) (h : WOwn w) (hg : w.gives ev) (hs : WStep w ev w') :
    w'.epollOpen = true → w'.tpc.early = true ∧ w'.tpc ≠ .finKeys := by
  have ec := h.ec
  have llf := hl.lf
  have born := hk.born
  have kp := hk.pidfd
  clear hk h hl
  cases hs <;> first
    | exact ec
    | (simp only [upd, WW.closeNum, WW.due, WW.gives, List.mem_cons, List.nodup_cons, List.mem_append] at *; grind [TPc.final, TPc.early, TPc.inHand, TPc.closeList])

set_option maxHeartbeats 1000000 in
theorem wown_dn {w w' : WW} {ev : WatchEv} (hk : WKids w) (hl : WLive w) (h : WOwn w) (hg : w.gives ev) (hs : WStep w ev w') :
    w'.left = none → ∀ fd c i, w'.pc i = .done fd → w'.fds fd = some (.pidfd c i) →
      w'.dict fd = some (w'.pid i, i) ∨ w'.tpc.inHand = some fd := by
  have dn := h.dn
  have ins := h.ins
  have dk := h.dk
  have op := h.op
  have ec := h.ec
  have lhead := hl.head
  have lcs := hl.cs
  have lwt := hl.wt
  have lcl := hl.cl
  have lrm := hl.rm
  have llf := hl.lf
  have lopn := hl.opn
  have born := hk.born
  have kp := hk.pidfd
  clear hk h hl
  cases hs <;> first
    | exact dn
    | (simp only [upd, WW.closeNum, WW.due, WW.gives, List.mem_cons, List.nodup_cons, List.mem_append] at *; grind [TPc.final, TPc.early, TPc.inHand, TPc.closeList])

set_option maxHeartbeats 1000000 in
theorem wown_cl {w w' : WW} {ev : WatchEv} (hk : WKids w) (hl : WLive w) (h : WOwn w) (hg : w.gives ev) (hs : WStep w ev w') :
    w'.left = some .closed → ∀ fd c i, w'.pc i = .done fd → w'.fds fd = some (.pidfd c i) →
      (w'.tpc.early = true ∧ w'.dict fd = some (w'.pid i, i)) ∨ fd ∈ w'.tpc.closeList := by
  have cl := h.cl
  have dn := h.dn
  have ins := h.ins
  have dk := h.dk
  have op := h.op
  have ec := h.ec
  have llf := hl.lf
  have fc := h.fc
  have born := hk.born
  have kp := hk.pidfd
  clear hk h hl
  cases hs <;> first
    | exact cl
    | (simp only [upd, WW.closeNum, WW.due, WW.gives, List.mem_cons, List.nodup_cons, List.mem_append] at *; grind [TPc.final, TPc.early, TPc.inHand, TPc.closeList])

set_option maxHeartbeats 1000000 in
theorem wown_fc {w w' : WW} {ev : WatchEv} (hk : WKids w) (hl : WLive w) (h : WOwn w) (hg : w.gives ev) (hs : WStep w ev w') :
    ∀ l, w'.tpc = .finClose l → l.Nodup ∧ ∀ fd ∈ l, w'.fds fd ≠ none ∧ w'.fds fd ≠ some .other := by
  have fc := h.fc
  have sp := h.sp
  have dk := h.dk
  have born := hk.born
  have kp := hk.pidfd
  clear hk h hl
  cases hs <;> first
    | exact fc
    | (simp only [upd, WW.closeNum, WW.due, WW.gives, List.mem_cons, List.nodup_cons, List.mem_append] at *; grind [TPc.final, TPc.early, TPc.inHand, TPc.closeList])
    | skip
  rename_i ks r0 wr0 a1 a2
  intro l hl
  cases hl
  have he : w.tpc.early = true := by rw [a1]; rfl
  obtain ⟨wr, h1, h2, h3⟩ := sp he
  rw [a2] at h1
  cases h1
  have hkey : ∀ fd ∈ ks, ∃ c i, w.fds fd = some (.pidfd c i) := by
    intro fd hm
    cases hd : w.dict fd with
    | none => exact absurd hd ((hg.2 fd).1 hm)
    | some x =>
      obtain ⟨c, hc⟩ := dk he fd x.1 x.2 hd
      exact ⟨c, x.2, hc⟩
  constructor
  · rw [List.nodup_append]
    refine ⟨hg.1, ?_, ?_⟩
    · simp
      intro h; rw [h, h3] at h2; cases h2
    · intro a ha b hb hab
      subst hab
      obtain ⟨c, i, hc⟩ := hkey a ha
      simp at hb
      rcases hb with rfl | rfl
      · rw [hc] at h2; cases h2
      · rw [hc] at h3; cases h3
  · intro fd hm
    show w.fds fd ≠ none ∧ w.fds fd ≠ some .other
    rcases List.mem_append.1 hm with hm | hm
    · obtain ⟨c, i, hc⟩ := hkey fd hm
      rw [hc]; simp
    · simp at hm
      rcases hm with rfl | rfl
      · rw [h2]; simp
      · rw [h3]; simp

set_option maxHeartbeats 1000000 in
theorem wown_z {w w' : WW} {ev : WatchEv} (hk : WKids w) (hl : WLive w) (h : WOwn w) (hg : w.gives ev) (hs : WStep w ev w') :
    w'.strayCloses = 0 := by
  have z := h.z
  have fc := h.fc
  have lcs := hl.cs
  have born := hk.born
  have kp := hk.pidfd
  clear hk h hl
  cases hs <;> first
    | exact z
    | (simp only [upd, WW.closeNum, WW.due, WW.gives, List.mem_cons, List.nodup_cons, List.mem_append] at *; grind [TPc.final, TPc.early, TPc.inHand, TPc.closeList])
    | skip
  rename_i fd rest a1
  show w.strayCloses + (if w.fds fd = some .other then 1 else 0) = 0
  rw [if_neg ((fc _ a1).2 fd (by simp)).2, z]

theorem wown_step {w w' : WW} {ev : WatchEv} (hk : WKids w) (hl : WLive w) (h : WOwn w) (hg : w.gives ev) (hs : WStep w ev w') : WOwn w' :=
  ⟨wown_sp hk hl h hg hs, wown_dk hk hl h hg hs, wown_op hk hl h hg hs, wown_ins hk hl h hg hs, wown_ec hk hl h hg hs, wown_dn hk hl h hg hs, wown_cl hk hl h hg hs, wown_fc hk hl h hg hs, wown_z hk hl h hg hs⟩

theorem wown {r wr : Nat} {l : List WatchEv} {w : WW} (h : WHist r wr l w) : WOwn w := by
  induction h with
  | start hne =>
    refine ⟨?_, ?_, ?_, ?_, ?_, ?_, ?_, ?_, ?_⟩ <;> simp [WW.init, upd, TPc.early]
    exact hne
  | step ev h hg hs ih => exact wown_step (wkids h) (wlive h) ih hg (wstep_of hs)

end Shellous
