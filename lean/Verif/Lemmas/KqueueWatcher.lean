import Verif.Spec.KqueueWatcher
import Verif.Lemmas.Upd

/-!
# The steps of `KQueueStrategy` and their invariants
-/

namespace Shellous

/-- The places from which `wait_pid` is called, in the calls: with whose callback, and where it goes if the process is still running. -/
def KqPc.waits : KqPc → Option (Nat × KqPc)
  | .failWait k => some (k, .polling k 5)
  | .polling k (n + 1) => some (k, .polling k n)
  | _ => none

inductive KqStep (w : KqW) : KqEv → KqW → Prop
  | fork (pid) : w.proc pid = none →
      KqStep w (.fork pid) { w with proc := upd w.proc pid (some w.nChildren), nChildren := w.nChildren + 1 }
  | dies (pid c) : w.proc pid = some c → KqStep w (.dies pid) { w with dying := upd w.dying c true }
  | exits (pid raw c) : w.proc pid = some c → w.exited c = none →
      KqStep w (.exits pid raw) { w with dying := upd w.dying c true, exited := upd w.exited c (some raw) }
  | reapElsewhere (pid c raw) : w.proc pid = some c → w.exited c = some raw →
      KqStep w (.reapElsewhere pid) { w with proc := upd w.proc pid none }
  | close : w.open_ = true → KqStep w .close { w with timer := true }
  | closeLate : w.open_ = false → KqStep w .close w
  | watch (pid c) : w.proc pid = some c →
      KqStep w (.watch pid) { w with nCalls := w.nCalls + 1, pc := upd w.pc w.nCalls .check, pid := upd w.pid w.nCalls pid,
                                     target := upd w.target w.nCalls c, live := upd w.live w.nCalls true }
  | registered (i c) : w.pc i = .add → w.open_ = true → w.note (w.pid i) = none → w.proc (w.pid i) = some c →
      KqStep w (.register i (some true)) { w with pc := upd w.pc i .done, note := upd w.note (w.pid i) (some c) }
  | registeredAgain (i c d) : w.pc i = .add → w.open_ = true → w.note (w.pid i) = some d → w.proc (w.pid i) = some c →
      KqStep w (.register i (some true)) { w with pc := upd w.pc i .done }
  | noProcess (i) : w.pc i = .add → w.proc (w.pid i) = none → KqStep w (.register i (some false)) { w with pc := upd w.pc i .failed }
  | isDying (i c) : w.pc i = .add → w.proc (w.pid i) = some c → w.dying c = true →
      KqStep w (.register i (some false)) { w with pc := upd w.pc i .failed }
  | registerRaised (i) : w.pc i = .add → KqStep w (.register i none) { w with pc := upd w.pc i .raised }
  | checked (i) : w.pc i = .check → w.pids (w.pid i) = none → KqStep w (.go i) { w with pc := upd w.pc i .insert }
  | refused (i k) : w.pc i = .check → w.pids (w.pid i) = some k → KqStep w (.go i) { w with pc := upd w.pc i .assertionError }
  | insert (i) : w.pc i = .insert → KqStep w (.go i) { w with pc := upd w.pc i .add, pids := upd w.pids (w.pid i) (some i) }
  | take (i k) : w.pc i = .failed → w.pids (w.pid i) = some k →
      KqStep w (.go i) { w with pc := upd w.pc i (.failWait k), pids := upd w.pids (w.pid i) none }
  | keyError (i) : w.pc i = .failed → w.pids (w.pid i) = none → KqStep w (.go i) { w with pc := upd w.pc i .keyError }
  | goGone (i k pc) : (w.pc i).waits = some (k, pc) → w.proc (w.pid i) = none →
      KqStep w (.go i) { w with pc := upd w.pc i (.failCall k 255), live := upd w.live k false }
  | goRuns (i k pc c) : (w.pc i).waits = some (k, pc) → w.proc (w.pid i) = some c → w.exited c = none →
      KqStep w (.go i) { w with pc := upd w.pc i pc }
  | goReap (i k pc c raw) : (w.pc i).waits = some (k, pc) → w.proc (w.pid i) = some c → w.exited c = some raw →
      KqStep w (.go i) { w with pc := upd w.pc i (.failCall k (exitStatus raw)), proc := upd w.proc (w.pid i) none, live := upd w.live k false }
  | exhausted (i k) : w.pc i = .polling k 0 → KqStep w (.go i) { w with pc := upd w.pc i .finished, critical := k :: w.critical }
  | goCall (i e k st) : w.pc i = .failCall k st →
      KqStep w (.goCall i e) { w with pc := upd w.pc i .finished, reports := (k, w.pid i, st) :: w.reports }
  | giveUp (i k n) : w.pc i = .polling k n → KqStep w (.giveUp i) { w with pc := upd w.pc i .finished }
  | control (l) : w.tpc = .control → l.Nodup → l.length ≤ 10 →
      KqStep w (.control l) { w with tpc := .loop l, note := fun pid => if .exit pid ∈ l then none else w.note pid,
                                     timer := if .timer ∈ l then false else w.timer }
  | loopEnd : w.tpc = .loop [] → KqStep w .next { w with tpc := .control }
  | leave (l) : w.tpc = .loop (.timer :: l) → KqStep w .next { w with tpc := .fin, left := some .closed }
  | pop (pid i l) : w.tpc = .loop (.exit pid :: l) → w.pids pid = some i →
      KqStep w .next { w with tpc := .wait pid i l, pids := upd w.pids pid none }
  | popFails (pid l) : w.tpc = .loop (.exit pid :: l) → w.pids pid = none → KqStep w .next { w with tpc := .fin, left := some .keyError }
  | waitGone (pid i l) : w.tpc = .wait pid i l ∨ w.tpc = .again pid i l → w.proc pid = none →
      KqStep w .threadWait { w with tpc := .call pid i 255 l, live := upd w.live i false }
  | waitReap (pid i l c raw) : w.tpc = .wait pid i l ∨ w.tpc = .again pid i l → w.proc pid = some c → w.exited c = some raw →
      KqStep w .threadWait { w with tpc := .call pid i (exitStatus raw) l, proc := upd w.proc pid none, live := upd w.live i false }
  | waitRuns (pid i l c) : w.tpc = .wait pid i l → w.proc pid = some c → w.exited c = none →
      KqStep w .threadWait { w with tpc := .again pid i l }
  | againRuns (pid i l c) : w.tpc = .again pid i l → w.proc pid = some c → w.exited c = none →
      KqStep w .threadWait { w with tpc := .loop l, critical := i :: w.critical }
  | callback (e pid i st l) : w.tpc = .call pid i st l → e ≠ .otherError →
      KqStep w (.callback e) { w with tpc := .loop l, reports := (i, pid, st) :: w.reports }
  | callbackRaised (pid i st l) : w.tpc = .call pid i st l →
      KqStep w (.callback .otherError) { w with tpc := .fin, left := some .callbackRaised, reports := (i, pid, st) :: w.reports }
  | closeQueue : w.tpc = .fin → KqStep w .closeQueue { w with open_ := false, tpc := .ended }

theorem kqstep_of {w w' : KqW} {ev : KqEv} (h : w.step ev = some w') : KqStep w ev w' := by
  cases ev <;> simp only [KqW.step, KqW.outsideStep, KqW.callStep, KqW.threadStep, KqW.at] at h
  case fork pid =>
    split at h <;> cases h
    exact .fork pid (by assumption)
  case dies pid =>
    split at h <;> cases h
    exact .dies pid _ (by assumption)
  case exits pid raw =>
    split at h
    · split at h <;> cases h
      exact .exits pid raw _ (by assumption) (by assumption)
    · cases h
  case reapElsewhere pid =>
    split at h
    · rename_i c hc
      cases hx : w.exited c with
      | none => rw [if_pos hx] at h; cases h
      | some raw => rw [if_neg (by rw [hx]; simp)] at h; cases h; exact .reapElsewhere pid c raw hc hx
    · cases h
  case close =>
    split at h <;> cases h
    · exact .close (by assumption)
    · exact .closeLate (by simpa using ‹¬ w.open_ = true›)
  case watch pid =>
    split at h <;> cases h
    exact .watch pid _ (by assumption)
  case register i r =>
    split at h
    · rename_i hpc
      split at h
      · split at h <;> cases h
        · exact .registered i _ hpc (by assumption) (by assumption) (by assumption)
        · exact .registeredAgain i _ _ hpc (by assumption) (by assumption) (by assumption)
      · split at h
        · split at h <;> cases h
          exact .isDying i _ hpc (by assumption) (by assumption)
        · cases h; exact .noProcess i hpc (by assumption)
      · cases h; exact .registerRaised i hpc
    · cases h
  case go i =>
    split at h
    case h_1 hpc =>
      cases h
      cases hp : w.pids (w.pid i) with
      | none => simp only [if_true]; exact .checked i hpc hp
      | some k => simp only [reduceCtorEq, if_false]; exact .refused i k hpc hp
    case h_2 hpc => cases h; exact .insert i hpc
    case h_3 hpc =>
      split at h <;> cases h
      · exact .take i _ hpc (by assumption)
      · exact .keyError i hpc (by assumption)
    case h_4 k hpc =>
      have hw : (w.pc i).waits = some (k, .polling k 5) := by rw [hpc]; rfl
      simp only [KqW.waitPid] at h
      cases hp : w.proc (w.pid i) with
      | none => simp only [hp] at h; cases h; exact .goGone i k _ hw hp
      | some c =>
        cases he : w.exited c with
        | none => simp only [hp, he] at h; cases h; exact .goRuns i k _ c hw hp he
        | some raw => simp only [hp, he] at h; cases h; exact .goReap i k _ c raw hw hp he
    case h_5 k hpc => cases h; exact .exhausted i k hpc
    case h_6 k n hpc =>
      have hw : (w.pc i).waits = some (k, .polling k n) := by rw [hpc]; rfl
      simp only [KqW.waitPid] at h
      cases hp : w.proc (w.pid i) with
      | none => simp only [hp] at h; cases h; exact .goGone i k _ hw hp
      | some c =>
        cases he : w.exited c with
        | none => simp only [hp, he] at h; cases h; exact .goRuns i k _ c hw hp he
        | some raw => simp only [hp, he] at h; cases h; exact .goReap i k _ c raw hw hp he
    case h_7 => cases h
  case goCall i e =>
    split at h <;> cases h
    exact .goCall i e _ _ (by assumption)
  case giveUp i =>
    split at h <;> cases h
    exact .giveUp i _ _ (by assumption)
  case control l =>
    split at h <;> cases h
    rename_i hc
    exact .control l hc.1 hc.2.1 hc.2.2
  case next =>
    split at h
    · cases h; exact .loopEnd (by assumption)
    · cases h; exact .leave _ (by assumption)
    · split at h <;> cases h
      · exact .pop _ _ _ (by assumption) (by assumption)
      · exact .popFails _ _ (by assumption) (by assumption)
    · cases h
  case threadWait =>
    split at h
    · rename_i pid i l ht
      simp only [KqW.waitPid] at h
      cases hp : w.proc pid with
      | none => simp only [hp] at h; cases h; exact .waitGone pid i l (.inl ht) hp
      | some c =>
        cases he : w.exited c with
        | none => simp only [hp, he] at h; cases h; exact .waitRuns pid i l c ht hp he
        | some raw => simp only [hp, he] at h; cases h; exact .waitReap pid i l c raw (.inl ht) hp he
    · rename_i pid i l ht
      simp only [KqW.waitPid] at h
      cases hp : w.proc pid with
      | none => simp only [hp] at h; cases h; exact .waitGone pid i l (.inr ht) hp
      | some c =>
        cases he : w.exited c with
        | none => simp only [hp, he] at h; cases h; exact .againRuns pid i l c ht hp he
        | some raw => simp only [hp, he] at h; cases h; exact .waitReap pid i l c raw (.inr ht) hp he
    · cases h
  case callback e =>
    split at h
    · rename_i pid i st l ht
      by_cases he : e = .otherError
      · subst he; rw [if_pos rfl] at h; cases h; exact .callbackRaised pid i st l ht
      · rw [if_neg he] at h; cases h; exact .callback e pid i st l ht he
    · cases h
  case closeQueue =>
    split at h <;> cases h
    exact .closeQueue (by assumption)

/-- Whose callback a call has taken out of the table, and has not yet called. -/
def KqPc.holder : KqPc → Option Nat
  | .failWait k | .failCall k _ | .polling k _ => some k
  | _ => none

def KqTpc.holder : KqTpc → Option Nat
  | .wait _ i _ | .again _ i _ | .call _ i _ _ => some i
  | _ => none

/-- The process id that the thread is working on. -/
def KqTpc.onPid : KqTpc → Option Nat
  | .wait p _ _ | .again p _ _ | .call p _ _ _ => some p
  | _ => none

/-- The status that `wait_pid` has given, to be reported for which call. -/
def KqPc.got : KqPc → Option (Nat × Int)
  | .failCall k st => some (k, st)
  | _ => none

def KqTpc.got : KqTpc → Option (Nat × Int)
  | .call _ i st _ => some (i, st)
  | _ => none

/-- The call has made its entry. -/
def KqPc.entered : KqPc → Bool
  | .unborn | .check | .insert | .assertionError => false
  | _ => true

/-- The events that the thread has been given and has not yet come to. -/
def KqTpc.pending : KqTpc → List KqNote
  | .loop l | .wait _ _ l | .again _ _ l | .call _ _ _ l => l
  | _ => []

@[grind =] theorem KqPc.holder_unborn : (KqPc.unborn).holder = none := rfl
@[grind =] theorem KqPc.holder_check : (KqPc.check).holder = none := rfl
@[grind =] theorem KqPc.holder_assertionError : (KqPc.assertionError).holder = none := rfl
@[grind =] theorem KqPc.holder_insert : (KqPc.insert).holder = none := rfl
@[grind =] theorem KqPc.holder_add : (KqPc.add).holder = none := rfl
@[grind =] theorem KqPc.holder_done : (KqPc.done).holder = none := rfl
@[grind =] theorem KqPc.holder_raised : (KqPc.raised).holder = none := rfl
@[grind =] theorem KqPc.holder_failed : (KqPc.failed).holder = none := rfl
@[grind =] theorem KqPc.holder_keyError : (KqPc.keyError).holder = none := rfl
@[grind =] theorem KqPc.holder_failWait (k : Nat) : (KqPc.failWait k).holder = some k := rfl
@[grind =] theorem KqPc.holder_failCall (k : Nat) (st : Int) : (KqPc.failCall k st).holder = some k := rfl
@[grind =] theorem KqPc.holder_polling (k : Nat) (n : Nat) : (KqPc.polling k n).holder = some k := rfl
@[grind =] theorem KqPc.holder_finished : (KqPc.finished).holder = none := rfl
@[grind =] theorem KqPc.got_unborn : (KqPc.unborn).got = none := rfl
@[grind =] theorem KqPc.got_check : (KqPc.check).got = none := rfl
@[grind =] theorem KqPc.got_assertionError : (KqPc.assertionError).got = none := rfl
@[grind =] theorem KqPc.got_insert : (KqPc.insert).got = none := rfl
@[grind =] theorem KqPc.got_add : (KqPc.add).got = none := rfl
@[grind =] theorem KqPc.got_done : (KqPc.done).got = none := rfl
@[grind =] theorem KqPc.got_raised : (KqPc.raised).got = none := rfl
@[grind =] theorem KqPc.got_failed : (KqPc.failed).got = none := rfl
@[grind =] theorem KqPc.got_keyError : (KqPc.keyError).got = none := rfl
@[grind =] theorem KqPc.got_failWait (k : Nat) : (KqPc.failWait k).got = none := rfl
@[grind =] theorem KqPc.got_failCall (k : Nat) (st : Int) : (KqPc.failCall k st).got = some (k, st) := rfl
@[grind =] theorem KqPc.got_polling (k : Nat) (n : Nat) : (KqPc.polling k n).got = none := rfl
@[grind =] theorem KqPc.got_finished : (KqPc.finished).got = none := rfl
@[grind =] theorem KqPc.entered_unborn : (KqPc.unborn).entered = false := rfl
@[grind =] theorem KqPc.entered_check : (KqPc.check).entered = false := rfl
@[grind =] theorem KqPc.entered_assertionError : (KqPc.assertionError).entered = false := rfl
@[grind =] theorem KqPc.entered_insert : (KqPc.insert).entered = false := rfl
@[grind =] theorem KqPc.entered_add : (KqPc.add).entered = true := rfl
@[grind =] theorem KqPc.entered_done : (KqPc.done).entered = true := rfl
@[grind =] theorem KqPc.entered_raised : (KqPc.raised).entered = true := rfl
@[grind =] theorem KqPc.entered_failed : (KqPc.failed).entered = true := rfl
@[grind =] theorem KqPc.entered_keyError : (KqPc.keyError).entered = true := rfl
@[grind =] theorem KqPc.entered_failWait (k : Nat) : (KqPc.failWait k).entered = true := rfl
@[grind =] theorem KqPc.entered_failCall (k : Nat) (st : Int) : (KqPc.failCall k st).entered = true := rfl
@[grind =] theorem KqPc.entered_polling (k : Nat) (n : Nat) : (KqPc.polling k n).entered = true := rfl
@[grind =] theorem KqPc.entered_finished : (KqPc.finished).entered = true := rfl
@[grind =] theorem KqTpc.holder_control : (KqTpc.control).holder = none := rfl
@[grind =] theorem KqTpc.holder_loop (l : List KqNote) : (KqTpc.loop l).holder = none := rfl
@[grind =] theorem KqTpc.holder_wait (p : Nat) (i : Nat) (l : List KqNote) : (KqTpc.wait p i l).holder = some i := rfl
@[grind =] theorem KqTpc.holder_again (p : Nat) (i : Nat) (l : List KqNote) : (KqTpc.again p i l).holder = some i := rfl
@[grind =] theorem KqTpc.holder_call (p : Nat) (i : Nat) (st : Int) (l : List KqNote) : (KqTpc.call p i st l).holder = some i := rfl
@[grind =] theorem KqTpc.holder_fin : (KqTpc.fin).holder = none := rfl
@[grind =] theorem KqTpc.holder_ended : (KqTpc.ended).holder = none := rfl
@[grind =] theorem KqTpc.onPid_control : (KqTpc.control).onPid = none := rfl
@[grind =] theorem KqTpc.onPid_loop (l : List KqNote) : (KqTpc.loop l).onPid = none := rfl
@[grind =] theorem KqTpc.onPid_wait (p : Nat) (i : Nat) (l : List KqNote) : (KqTpc.wait p i l).onPid = some p := rfl
@[grind =] theorem KqTpc.onPid_again (p : Nat) (i : Nat) (l : List KqNote) : (KqTpc.again p i l).onPid = some p := rfl
@[grind =] theorem KqTpc.onPid_call (p : Nat) (i : Nat) (st : Int) (l : List KqNote) : (KqTpc.call p i st l).onPid = some p := rfl
@[grind =] theorem KqTpc.onPid_fin : (KqTpc.fin).onPid = none := rfl
@[grind =] theorem KqTpc.onPid_ended : (KqTpc.ended).onPid = none := rfl
@[grind =] theorem KqTpc.got_control : (KqTpc.control).got = none := rfl
@[grind =] theorem KqTpc.got_loop (l : List KqNote) : (KqTpc.loop l).got = none := rfl
@[grind =] theorem KqTpc.got_wait (p : Nat) (i : Nat) (l : List KqNote) : (KqTpc.wait p i l).got = none := rfl
@[grind =] theorem KqTpc.got_again (p : Nat) (i : Nat) (l : List KqNote) : (KqTpc.again p i l).got = none := rfl
@[grind =] theorem KqTpc.got_call (p : Nat) (i : Nat) (st : Int) (l : List KqNote) : (KqTpc.call p i st l).got = some (i, st) := rfl
@[grind =] theorem KqTpc.got_fin : (KqTpc.fin).got = none := rfl
@[grind =] theorem KqTpc.got_ended : (KqTpc.ended).got = none := rfl
@[grind =] theorem KqTpc.pending_control : (KqTpc.control).pending = [] := rfl
@[grind =] theorem KqTpc.pending_loop (l : List KqNote) : (KqTpc.loop l).pending = l := rfl
@[grind =] theorem KqTpc.pending_wait (p : Nat) (i : Nat) (l : List KqNote) : (KqTpc.wait p i l).pending = l := rfl
@[grind =] theorem KqTpc.pending_again (p : Nat) (i : Nat) (l : List KqNote) : (KqTpc.again p i l).pending = l := rfl
@[grind =] theorem KqTpc.pending_call (p : Nat) (i : Nat) (st : Int) (l : List KqNote) : (KqTpc.call p i st l).pending = l := rfl
@[grind =] theorem KqTpc.pending_fin : (KqTpc.fin).pending = [] := rfl
@[grind =] theorem KqTpc.pending_ended : (KqTpc.ended).pending = [] := rfl

/-- There is a report for this call. -/
def kqTold (r : List (Nat × Nat × Int)) (k : Nat) : Prop := k ∈ r.map (·.1)

@[grind =] theorem kqTold_nil (k : Nat) : kqTold [] k = False := by simp [kqTold]
@[grind =] theorem kqTold_cons (x : Nat × Nat × Int) (r : List (Nat × Nat × Int)) (k : Nat) : kqTold (x :: r) k = (x.1 = k ∨ kqTold r k) := by
  simp [kqTold, eq_comm]

theorem waits_holder {pc pc' : KqPc} {k : Nat} (h : pc.waits = some (k, pc')) :
    pc.holder = some k ∧ pc'.holder = some k ∧ pc'.got = none ∧ pc'.entered = true ∧ pc.entered = true := by
  cases pc <;> simp only [KqPc.waits, Option.some.injEq, Prod.mk.injEq, reduceCtorEq] at h
  case failWait j => obtain ⟨rfl, rfl⟩ := h; exact ⟨rfl, rfl, rfl, rfl, rfl⟩
  case polling j n =>
    cases n <;> simp only [Option.some.injEq, Prod.mk.injEq, reduceCtorEq] at h
    obtain ⟨rfl, rfl⟩ := h; exact ⟨rfl, rfl, rfl, rfl, rfl⟩

/-- The process table, the children and the calls. -/
structure KqBase (w : KqW) : Prop where
  born : ∀ i, w.nCalls ≤ i → w.pc i = .unborn
  kids : ∀ p c, w.proc p = some c → c < w.nChildren
  kidInj : ∀ p q c, w.proc p = some c → w.proc q = some c → p = q
  fresh : ∀ c, w.nChildren ≤ c → w.exited c = none
  aim : ∀ i, i < w.nCalls → w.target i < w.nChildren
  held : ∀ i, i < w.nCalls → w.proc (w.pid i) = some (w.target i) ∨ w.exited (w.target i) ≠ none

set_option maxHeartbeats 4000000 in
theorem kqbase {l : List KqEv} {w : KqW} (h : KqHist l w) : KqBase w := by
  induction h with
  | start => constructor <;> simp
  | step ev h hg hs ih =>
    rename_i w w'
    obtain ⟨h1, h2, h3, h4, h5, h6⟩ := ih
    have hst := kqstep_of hs
    clear h hs hg
    cases hst
    case closeLate => exact ⟨h1, h2, h3, h4, h5, h6⟩
    case goGone i k pc hw hp | goRuns i k pc c hw hp _ | goReap i k pc c raw hw hp _ =>
      have := waits_holder hw
      have : i < w.nCalls := Nat.lt_of_not_ge fun hge => by rw [h1 i hge] at hw; cases hw
      clear hw
      refine ⟨?_, ?_, ?_, ?_, ?_, ?_⟩ <;> simp only [upd] <;> grind
    all_goals refine ⟨?_, ?_, ?_, ?_, ?_, ?_⟩ <;> simp only [upd] <;> grind

/-- Where the callbacks are: each at one place. -/
structure KqTokens (w : KqW) : Prop where
  tab : ∀ p k, w.pids p = some k → w.pid k = p ∧ (w.pc k).entered = true
  hold : ∀ i k, (w.pc i).holder = some k → w.pid k = w.pid i ∧ (w.pc k).entered = true
  thold : ∀ p k, w.tpc.onPid = some p → w.tpc.holder = some k → w.pid k = p
  tentered : ∀ k, w.tpc.holder = some k → (w.pc k).entered = true
  holdTab : ∀ i k p, (w.pc i).holder = some k → w.pids p ≠ some k
  holdOne : ∀ i j k, (w.pc i).holder = some k → (w.pc j).holder = some k → i = j
  holdThread : ∀ i k, (w.pc i).holder = some k → w.tpc.holder ≠ some k
  tholdTab : ∀ k p, w.tpc.holder = some k → w.pids p ≠ some k
  rep : ∀ k, kqTold w.reports k → (w.pc k).entered = true
  repTab : ∀ k p, kqTold w.reports k → w.pids p ≠ some k
  repHold : ∀ k i, kqTold w.reports k → (w.pc i).holder ≠ some k
  repThread : ∀ k, kqTold w.reports k → w.tpc.holder ≠ some k

set_option maxHeartbeats 4000000 in
theorem kqtokens {l : List KqEv} {w : KqW} (h : KqHist l w) : KqTokens w := by
  induction h with
  | start => constructor <;> simp [KqPc.holder, KqTpc.holder, KqTpc.onPid, kqTold]
  | step ev h hg hs ih =>
    rename_i w w'
    obtain ⟨h1, h2, h3, h4, h5, h6, h7, h8, h9, h10, h11, h12⟩ := ih
    have hst := kqstep_of hs
    have fresh : w.pc w.nCalls = .unborn := (kqbase h).born _ (Nat.le_refl _)
    clear h hs hg
    cases hst
    case closeLate => exact ⟨h1, h2, h3, h4, h5, h6, h7, h8, h9, h10, h11, h12⟩
    case' goGone i k pc hw _ | goRuns i k pc c hw _ _ | goReap i k pc c raw hw _ _ => have := waits_holder hw; clear hw
    all_goals
      refine ⟨?_, ?_, ?_, ?_, ?_, ?_, ?_, ?_, ?_, ?_, ?_, ?_⟩ <;>
        simp only [upd, apply_ite KqPc.holder, apply_ite KqPc.entered, kqTold_cons] <;> grind

theorem kq_at_most_once {l : List KqEv} {w : KqW} (h : KqHist l w) : (w.reports.map (·.1)).Nodup := by
  induction h with
  | start => exact List.nodup_nil
  | step ev h hg hs ih =>
    rename_i w w'
    have t := kqtokens h
    have hst := kqstep_of hs
    cases hst <;> try exact ih
    case goCall i e k st hpc => exact List.nodup_cons.2 ⟨fun hm => t.repHold k i hm (by rw [hpc]; rfl), ih⟩
    case callback e p i st l ht _ => exact List.nodup_cons.2 ⟨fun hm => t.repThread i hm (by rw [ht]; rfl), ih⟩
    case callbackRaised p i st l ht => exact List.nodup_cons.2 ⟨fun hm => t.repThread i hm (by rw [ht]; rfl), ih⟩

/-- What is reported has happened. -/
structure KqAfter (w : KqW) : Prop where
  gotC : ∀ i k st, (w.pc i).got = some (k, st) → w.exited (w.target k) ≠ none
  gotT : ∀ k st, w.tpc.got = some (k, st) → w.exited (w.target k) ≠ none
  rep : ∀ k p st, (k, p, st) ∈ w.reports → k < w.nCalls ∧ p = w.pid k ∧ w.exited (w.target k) ≠ none

theorem KqPc.got_holder {pc : KqPc} {k : Nat} {st : Int} (h : pc.got = some (k, st)) : pc.holder = some k := by
  cases pc <;> simp [KqPc.got] at h
  simp [KqPc.holder, h.1]

theorem KqTpc.got_holder {t : KqTpc} {k : Nat} {st : Int} (h : t.got = some (k, st)) : t.holder = some k := by
  cases t <;> simp [KqTpc.got] at h
  simp [KqTpc.holder, h.1]

set_option maxHeartbeats 4000000 in
theorem kqafter {l : List KqEv} {w : KqW} (h : KqHist l w) : KqAfter w := by
  induction h with
  | start => constructor <;> simp [KqPc.got, KqTpc.got]
  | step ev h hg hs ih =>
    rename_i w w'
    obtain ⟨h1, h2, h3⟩ := ih
    obtain ⟨b1, -, -, -, -, b6⟩ := kqbase h
    obtain ⟨-, t2, t3, t4, -, -, -, -, -, -, -, -⟩ := kqtokens h
    have hst := kqstep_of hs
    have ent : ∀ i, (w.pc i).entered = true → i < w.nCalls := fun i hi =>
      Nat.lt_of_not_ge fun hge => by rw [b1 i hge] at hi; cases hi
    have gone : ∀ k, (w.pc k).entered = true → w.proc (w.pid k) = none → w.exited (w.target k) ≠ none := fun k hk hp =>
      (b6 k (ent k hk)).resolve_left (by rw [hp]; simp)
    have dead : ∀ k c, (w.pc k).entered = true → w.proc (w.pid k) = some c → w.exited c ≠ none → w.exited (w.target k) ≠ none :=
      fun k c hk hp hx => (b6 k (ent k hk)).elim (fun h => by rw [hp] at h; cases h; exact hx) id
    have fresh : w.pc w.nCalls = .unborn := b1 _ (Nat.le_refl _)
    have g1 : ∀ i k st, (w.pc i).got = some (k, st) → (w.pc i).holder = some k := fun i k st => KqPc.got_holder
    have g2 : ∀ k st, w.tpc.got = some (k, st) → w.tpc.holder = some k := fun k st => KqTpc.got_holder
    clear h hs hg b1 b6
    cases hst
    case closeLate => exact ⟨h1, h2, h3⟩
    case' goGone i k pc hw _ | goRuns i k pc c hw _ _ | goReap i k pc c raw hw _ _ => have := waits_holder hw; clear hw
    all_goals
      refine ⟨?_, ?_, ?_⟩ <;> simp only [upd, apply_ite KqPc.got, List.mem_cons, Prod.mk.injEq] <;> grind

theorem kq_once_before {w w' : KqW} {ev : KqEv} (hs : KqStep w ev w') (h : KqOnce w') : KqOnce w := by
  cases hs <;> try exact h
  intro i j hi hj he
  have h1 : i ≠ w.nCalls := by omega
  have h2 : j ≠ w.nCalls := by omega
  refine h i j (Nat.lt_succ_of_lt hi) (Nat.lt_succ_of_lt hj) ?_
  show upd w.target _ _ i = upd w.target _ _ j
  rw [upd_other _ _ h1, upd_other _ _ h2, he]

end Shellous
