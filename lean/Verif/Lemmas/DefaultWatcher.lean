import Verif.Spec.DefaultWatcher
import Verif.Lemmas.Upd

/-!
# The steps of `DefaultChildWatcher` and its invariant
-/

namespace Shellous

/-- The steps, one constructor per case. -/
inductive DwStep (w : DW) : DwEv → DW → Prop
  | add : DwStep w .add { w.at w.nCalls .check with nCalls := w.nCalls + 1, began := upd w.began w.nCalls w.clears }
  | close : DwStep w .close { w.at w.nCalls .closeWant with nCalls := w.nCalls + 1, began := upd w.began w.nCalls w.clears }
  | checkSome (i ok s) : w.pc i = .check → w.strategy = some s → DwStep w (.go i ok) (w.at i .read)
  | checkNone (i ok) : w.pc i = .check → w.strategy = none → DwStep w (.go i ok) (w.at i .wantLock)
  | lock (i ok) : w.pc i = .wantLock → w.lock = none → DwStep w (.go i ok) { w.at i .recheck with lock := some i }
  | recheckSome (i ok s) : w.pc i = .recheck → w.strategy = some s → DwStep w (.go i ok) (w.at i .release)
  | recheckNone (i ok) : w.pc i = .recheck → w.strategy = none → DwStep w (.go i ok) (w.at i .build)
  | built (i) : w.pc i = .build → DwStep w (.go i true) { w.at i (.assign w.made) with made := w.made + 1 }
  | buildFailed (i) : w.pc i = .build → DwStep w (.go i false) (w.at i .releaseFailed)
  | assign (i ok s) : w.pc i = .assign s → DwStep w (.go i ok) { w.at i .release with strategy := some s }
  | release (i ok) : w.pc i = .release → DwStep w (.go i ok) { w.at i .assertion with lock := none }
  | releaseFailed (i ok) : w.pc i = .releaseFailed → DwStep w (.go i ok) { w.at i (.raised .constructor) with lock := none }
  | assertSome (i ok s) : w.pc i = .assertion → w.strategy = some s → DwStep w (.go i ok) (w.at i .read)
  | assertNone (i ok) : w.pc i = .assertion → w.strategy = none → DwStep w (.go i ok) (w.at i (.raised .assertionError))
  | readSome (i ok s) : w.pc i = .read → w.strategy = some s → DwStep w (.go i ok) (w.at i (.call s))
  | readNone (i ok) : w.pc i = .read → w.strategy = none → DwStep w (.go i ok) (w.at i (.raised .attributeError))
  | call (i ok s) : w.pc i = .call s → DwStep w (.go i ok) { w.at i (.watched s) with watches := (i, s) :: w.watches }
  | closeLock (i ok) : w.pc i = .closeWant → w.lock = none → DwStep w (.go i ok) { w.at i .closeRead with lock := some i }
  | closeRead (i ok) : w.pc i = .closeRead → DwStep w (.go i ok) (w.at i (.closeClear w.strategy))
  | closeClear (i ok s) : w.pc i = .closeClear s →
      DwStep w (.go i ok) { w.at i (.closeRelease s) with strategy := none, clears := w.clears + 1 }
  | closeRelease (i ok s) : w.pc i = .closeRelease s → DwStep w (.go i ok) { w.at i (.closeCall s) with lock := none }
  | closeSome (i ok s) : w.pc i = .closeCall (some s) → DwStep w (.go i ok) { w.at i .closed with closes := s :: w.closes }
  | closeNone (i ok) : w.pc i = .closeCall none → DwStep w (.go i ok) (w.at i .closed)

theorem dwstep_of {w w' : DW} {ev : DwEv} (h : w.step ev = some w') : DwStep w ev w' := by
  cases ev with
  | add => simp only [DW.step, Option.some.injEq] at h; subst h; exact .add
  | close => simp only [DW.step, Option.some.injEq] at h; subst h; exact .close
  | go i ok =>
    simp only [DW.step, DW.goOn] at h
    cases hpc : w.pc i <;> rw [hpc] at h <;> try simp only [Option.some.injEq, reduceCtorEq] at h
    case check =>
      subst h
      cases hs : w.strategy
      · exact .checkNone i ok hpc hs
      · exact .checkSome i ok _ hpc hs
    case wantLock =>
      cases hl : w.lock <;> rw [hl] at h <;> simp only [Option.some.injEq, reduceCtorEq] at h
      subst h; exact .lock i ok hpc hl
    case recheck =>
      subst h
      cases hs : w.strategy
      · exact .recheckNone i ok hpc hs
      · exact .recheckSome i ok _ hpc hs
    case build =>
      subst h
      cases ok
      · exact .buildFailed i hpc
      · exact .built i hpc
    case assign s => subst h; exact .assign i ok s hpc
    case release => subst h; exact .release i ok hpc
    case releaseFailed => subst h; exact .releaseFailed i ok hpc
    case assertion =>
      subst h
      cases hs : w.strategy
      · exact .assertNone i ok hpc hs
      · exact .assertSome i ok _ hpc hs
    case read =>
      subst h
      cases hs : w.strategy
      · exact .readNone i ok hpc hs
      · exact .readSome i ok _ hpc hs
    case call s => subst h; exact .call i ok s hpc
    case closeWant =>
      cases hl : w.lock <;> rw [hl] at h <;> simp only [Option.some.injEq, reduceCtorEq] at h
      subst h; exact .closeLock i ok hpc hl
    case closeRead => subst h; exact .closeRead i ok hpc
    case closeClear s => subst h; exact .closeClear i ok s hpc
    case closeRelease s => subst h; exact .closeRelease i ok s hpc
    case closeCall s =>
      cases s <;> simp only [Option.some.injEq] at h <;> subst h
      · exact .closeNone i ok hpc
      · exact .closeSome i ok _ hpc

/-- The call holds the lock. -/
def DwPc.holds : DwPc → Bool
  | .recheck | .build | .assign _ | .release | .releaseFailed | .closeRead | .closeClear _ | .closeRelease _ => true
  | _ => false

/-- The strategy that a call has taken away, to close it. -/
def DwPc.taken : DwPc → Option Nat
  | .closeRelease s | .closeCall s => s
  | _ => none

/-- The call has made a strategy and not yet assigned it. -/
def DwPc.making : DwPc → Option Nat
  | .assign s => some s
  | _ => none

/-- The call knows that there is a strategy, unless somebody has closed the watcher. -/
def DwPc.sure : DwPc → Bool
  | .assertion | .read => true
  | _ => false

theorem making_holds {pc : DwPc} (h : pc.making ≠ none) : pc.holds = true := by
  cases pc <;> simp_all [DwPc.making, DwPc.holds]

structure DwInv (w : DW) : Prop where
  born : ∀ i, w.nCalls ≤ i → w.pc i = .unborn
  held : ∀ i, (w.pc i).holds = true → w.lock = some i
  holder : ∀ i, w.lock = some i → (w.pc i).holds = true
  building : ∀ i, w.pc i = .build ∨ (w.pc i).making ≠ none → w.strategy = none
  making : ∀ i s, (w.pc i).making = some s → s < w.made ∧ s ∉ w.closes
  makingUniq : ∀ i j s, (w.pc i).making = some s → (w.pc j).taken ≠ some s
  have_ : ∀ i, w.pc i = .release → w.strategy ≠ none
  read : ∀ i s, w.pc i = .closeClear s → w.strategy = s
  cleared : ∀ i s, w.pc i = .closeRelease s → w.strategy = none
  cur : ∀ s, w.strategy = some s → s < w.made ∧ s ∉ w.closes
  curUniq : ∀ j s, w.strategy = some s → (w.pc j).taken ≠ some s
  taken : ∀ i s, (w.pc i).taken = some s → s < w.made ∧ s ∉ w.closes
  uniq : ∀ i j s, (w.pc i).taken = some s → (w.pc j).taken = some s → i = j
  closes : w.closes.Nodup ∧ ∀ s ∈ w.closes, s < w.made

set_option maxHeartbeats 2000000 in
theorem dwinv {f : Bool} {l : List DwEv} {w : DW} (h : DwHist f l w) : DwInv w := by
  induction h with
  | start => cases f <;> constructor <;> simp [DW.init, DwPc.holds, DwPc.making, DwPc.taken]
  | step ev h hs ih =>
    obtain ⟨h1, h2, h3, h4, h5, h5', h6, h7, h8, h9, h9', h10, h10', h11⟩ := ih
    have hst := dwstep_of hs
    clear h hs
    rename_i w w'
    have hm := fun i => @making_holds (w.pc i)
    cases hst <;> refine ⟨?_, ?_, ?_, ?_, ?_, ?_, ?_, ?_, ?_, ?_, ?_, ?_, ?_, ?_⟩ <;> simp only [DW.at, upd, apply_ite DwPc.holds, apply_ite DwPc.making, apply_ite DwPc.taken, DwPc.holds, DwPc.making, DwPc.taken] <;>
      grind [DwPc.holds, DwPc.making, DwPc.taken]

end Shellous
