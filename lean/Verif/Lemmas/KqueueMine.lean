import Verif.Lemmas.KqueueWatcher

/-!
# `KQueueStrategy`: what is true if nobody else reaps children and no child is watched twice
-/

namespace Shellous

/-- `wait_pid` has not yet given a status for this call. -/
def KqPc.pre : KqPc → Bool
  | .check | .insert | .add | .raised | .failed | .failWait _ | .polling _ _ | .assertionError | .keyError => true
  | _ => false

/-- The call may have an entry in the table. -/
def KqPc.listed : KqPc → Bool
  | .add | .failed | .done | .raised => true
  | _ => false

/-- The call has its entry in the table. -/
def KqPc.own : KqPc → Bool
  | .add | .failed => true
  | _ => false

def KqPc.isDone : KqPc → Bool
  | .done => true
  | _ => false

/-- AssertionError or KeyError was raised. -/
def KqPc.bad : KqPc → Bool
  | .assertionError | .keyError => true
  | _ => false

/-- Whose process the thread is about to wait for. -/
def KqTpc.asks : KqTpc → Option Nat
  | .wait _ i _ | .again _ i _ => some i
  | _ => none

@[grind =] theorem KqPc.pre_unborn : (KqPc.unborn).pre = false := rfl
@[grind =] theorem KqPc.pre_check : (KqPc.check).pre = true := rfl
@[grind =] theorem KqPc.pre_assertionError : (KqPc.assertionError).pre = true := rfl
@[grind =] theorem KqPc.pre_insert : (KqPc.insert).pre = true := rfl
@[grind =] theorem KqPc.pre_add : (KqPc.add).pre = true := rfl
@[grind =] theorem KqPc.pre_done : (KqPc.done).pre = false := rfl
@[grind =] theorem KqPc.pre_raised : (KqPc.raised).pre = true := rfl
@[grind =] theorem KqPc.pre_failed : (KqPc.failed).pre = true := rfl
@[grind =] theorem KqPc.pre_keyError : (KqPc.keyError).pre = true := rfl
@[grind =] theorem KqPc.pre_failWait (k : Nat) : (KqPc.failWait k).pre = true := rfl
@[grind =] theorem KqPc.pre_failCall (k : Nat) (st : Int) : (KqPc.failCall k st).pre = false := rfl
@[grind =] theorem KqPc.pre_polling (k : Nat) (n : Nat) : (KqPc.polling k n).pre = true := rfl
@[grind =] theorem KqPc.pre_finished : (KqPc.finished).pre = false := rfl
@[grind =] theorem KqPc.listed_unborn : (KqPc.unborn).listed = false := rfl
@[grind =] theorem KqPc.listed_check : (KqPc.check).listed = false := rfl
@[grind =] theorem KqPc.listed_assertionError : (KqPc.assertionError).listed = false := rfl
@[grind =] theorem KqPc.listed_insert : (KqPc.insert).listed = false := rfl
@[grind =] theorem KqPc.listed_add : (KqPc.add).listed = true := rfl
@[grind =] theorem KqPc.listed_done : (KqPc.done).listed = true := rfl
@[grind =] theorem KqPc.listed_raised : (KqPc.raised).listed = true := rfl
@[grind =] theorem KqPc.listed_failed : (KqPc.failed).listed = true := rfl
@[grind =] theorem KqPc.listed_keyError : (KqPc.keyError).listed = false := rfl
@[grind =] theorem KqPc.listed_failWait (k : Nat) : (KqPc.failWait k).listed = false := rfl
@[grind =] theorem KqPc.listed_failCall (k : Nat) (st : Int) : (KqPc.failCall k st).listed = false := rfl
@[grind =] theorem KqPc.listed_polling (k : Nat) (n : Nat) : (KqPc.polling k n).listed = false := rfl
@[grind =] theorem KqPc.listed_finished : (KqPc.finished).listed = false := rfl
@[grind =] theorem KqPc.own_unborn : (KqPc.unborn).own = false := rfl
@[grind =] theorem KqPc.own_check : (KqPc.check).own = false := rfl
@[grind =] theorem KqPc.own_assertionError : (KqPc.assertionError).own = false := rfl
@[grind =] theorem KqPc.own_insert : (KqPc.insert).own = false := rfl
@[grind =] theorem KqPc.own_add : (KqPc.add).own = true := rfl
@[grind =] theorem KqPc.own_done : (KqPc.done).own = false := rfl
@[grind =] theorem KqPc.own_raised : (KqPc.raised).own = false := rfl
@[grind =] theorem KqPc.own_failed : (KqPc.failed).own = true := rfl
@[grind =] theorem KqPc.own_keyError : (KqPc.keyError).own = false := rfl
@[grind =] theorem KqPc.own_failWait (k : Nat) : (KqPc.failWait k).own = false := rfl
@[grind =] theorem KqPc.own_failCall (k : Nat) (st : Int) : (KqPc.failCall k st).own = false := rfl
@[grind =] theorem KqPc.own_polling (k : Nat) (n : Nat) : (KqPc.polling k n).own = false := rfl
@[grind =] theorem KqPc.own_finished : (KqPc.finished).own = false := rfl
@[grind =] theorem KqPc.isDone_unborn : (KqPc.unborn).isDone = false := rfl
@[grind =] theorem KqPc.isDone_check : (KqPc.check).isDone = false := rfl
@[grind =] theorem KqPc.isDone_assertionError : (KqPc.assertionError).isDone = false := rfl
@[grind =] theorem KqPc.isDone_insert : (KqPc.insert).isDone = false := rfl
@[grind =] theorem KqPc.isDone_add : (KqPc.add).isDone = false := rfl
@[grind =] theorem KqPc.isDone_done : (KqPc.done).isDone = true := rfl
@[grind =] theorem KqPc.isDone_raised : (KqPc.raised).isDone = false := rfl
@[grind =] theorem KqPc.isDone_failed : (KqPc.failed).isDone = false := rfl
@[grind =] theorem KqPc.isDone_keyError : (KqPc.keyError).isDone = false := rfl
@[grind =] theorem KqPc.isDone_failWait (k : Nat) : (KqPc.failWait k).isDone = false := rfl
@[grind =] theorem KqPc.isDone_failCall (k : Nat) (st : Int) : (KqPc.failCall k st).isDone = false := rfl
@[grind =] theorem KqPc.isDone_polling (k : Nat) (n : Nat) : (KqPc.polling k n).isDone = false := rfl
@[grind =] theorem KqPc.isDone_finished : (KqPc.finished).isDone = false := rfl
@[grind =] theorem KqPc.bad_unborn : (KqPc.unborn).bad = false := rfl
@[grind =] theorem KqPc.bad_check : (KqPc.check).bad = false := rfl
@[grind =] theorem KqPc.bad_assertionError : (KqPc.assertionError).bad = true := rfl
@[grind =] theorem KqPc.bad_insert : (KqPc.insert).bad = false := rfl
@[grind =] theorem KqPc.bad_add : (KqPc.add).bad = false := rfl
@[grind =] theorem KqPc.bad_done : (KqPc.done).bad = false := rfl
@[grind =] theorem KqPc.bad_raised : (KqPc.raised).bad = false := rfl
@[grind =] theorem KqPc.bad_failed : (KqPc.failed).bad = false := rfl
@[grind =] theorem KqPc.bad_keyError : (KqPc.keyError).bad = true := rfl
@[grind =] theorem KqPc.bad_failWait (k : Nat) : (KqPc.failWait k).bad = false := rfl
@[grind =] theorem KqPc.bad_failCall (k : Nat) (st : Int) : (KqPc.failCall k st).bad = false := rfl
@[grind =] theorem KqPc.bad_polling (k : Nat) (n : Nat) : (KqPc.polling k n).bad = false := rfl
@[grind =] theorem KqPc.bad_finished : (KqPc.finished).bad = false := rfl
@[grind =] theorem KqTpc.asks_control : (KqTpc.control).asks = none := rfl
@[grind =] theorem KqTpc.asks_loop (l : List KqNote) : (KqTpc.loop l).asks = none := rfl
@[grind =] theorem KqTpc.asks_wait (p : Nat) (i : Nat) (l : List KqNote) : (KqTpc.wait p i l).asks = some i := rfl
@[grind =] theorem KqTpc.asks_again (p : Nat) (i : Nat) (l : List KqNote) : (KqTpc.again p i l).asks = some i := rfl
@[grind =] theorem KqTpc.asks_call (p : Nat) (i : Nat) (st : Int) (l : List KqNote) : (KqTpc.call p i st l).asks = none := rfl
@[grind =] theorem KqTpc.asks_fin : (KqTpc.fin).asks = none := rfl
@[grind =] theorem KqTpc.asks_ended : (KqTpc.ended).asks = none := rfl

theorem waits_pre {pc pc' : KqPc} {k : Nat} (h : pc.waits = some (k, pc')) :
    pc.pre = true ∧ pc'.pre = true ∧ pc'.listed = false ∧ pc.listed = false ∧ pc'.own = false ∧ pc.isDone = false ∧ pc'.isDone = false ∧
      pc'.bad = false := by
  cases pc <;> simp only [KqPc.waits, Option.some.injEq, Prod.mk.injEq, reduceCtorEq] at h
  case failWait j => obtain ⟨rfl, rfl⟩ := h; exact ⟨rfl, rfl, rfl, rfl, rfl, rfl, rfl, rfl⟩
  case polling j n =>
    cases n <;> simp only [Option.some.injEq, Prod.mk.injEq, reduceCtorEq] at h
    obtain ⟨rfl, rfl⟩ := h; exact ⟨rfl, rfl, rfl, rfl, rfl, rfl, rfl, rfl⟩

structure KqMine (w : KqW) : Prop where
  u0 : ∀ i, w.live i = true → i < w.nCalls
  u1 : ∀ i, w.live i = true → w.proc (w.pid i) = some (w.target i)
  u2 : ∀ p k, w.pids p = some k → w.live k = true
  u3 : ∀ i k, (w.pc i).holder = some k → k = i
  u4 : ∀ i, (w.pc i).pre = true → w.live i = true
  u5 : ∀ i, w.tpc.asks = some i → w.live i = true
  u6 : ∀ k, w.tpc.holder = some k → (w.pc k).isDone = true
  u7 : ∀ p k, w.pids p = some k → (w.pc k).listed = true
  u8 : ∀ i, (w.pc i).own = true → w.pids (w.pid i) = some i
  u9 : ∀ i, (w.pc i).bad = false
  n1 : ∀ p c, w.note p = some c → w.pids p ≠ none
  n2 : ∀ p c k, w.note p = some c → w.pids p = some k → (w.pc k).isDone = true
  n3 : ∀ p, .exit p ∈ w.tpc.pending → w.pids p ≠ none
  n4 : ∀ p k, .exit p ∈ w.tpc.pending → w.pids p = some k → (w.pc k).isDone = true
  n5 : ∀ p, .exit p ∈ w.tpc.pending → w.note p = none
  n6 : w.tpc.pending.Nodup
  n7 : w.left ≠ some .keyError

set_option maxHeartbeats 8000000 in
theorem kqmine {l : List KqEv} {w : KqW} (h : KqHist l w) (ha : KqAlone l) (ho : KqOnce w) : KqMine w := by
  induction h with
  | start => constructor <;> simp [KqPc.holder, KqTpc.holder, KqPc.pre, KqPc.own, KqPc.bad, KqTpc.asks, KqTpc.pending]
  | step ev h hg hs ih =>
    rename_i l w w'
    have hst := kqstep_of hs
    have ho' := kq_once_before hst ho
    obtain ⟨u0, u1, u2, u3, u4, u5, u6, u7, u8, u9, n1, n2, n3, n4, n5, n6, n7⟩ := ih (fun p hp => ha p (List.mem_append_left _ hp)) ho'
    have hev : ∀ pid, ev ≠ .reapElsewhere pid := fun pid he => ha pid (he ▸ List.mem_append_right _ List.mem_cons_self)
    obtain ⟨b1, -, -, -, -, -⟩ := kqbase h
    obtain ⟨t1, t2, t3, t4, t5, -, t7, t8, -, -, -, -⟩ := kqtokens h
    have uniq : ∀ i j, w.live i = true → w.live j = true → w.pid i = w.pid j → i = j := by
      intro i j hi hj he
      have h1 := u1 i hi
      have h2 := u1 j hj
      rw [he, h2] at h1
      exact ho' i j (u0 i hi) (u0 j hj) (Option.some.inj h1).symm
    have free : ∀ i, w.live i = true → (w.pc i).listed = false → w.pids (w.pid i) = none := by
      intro i hi hl
      cases hp : w.pids (w.pid i) with
      | none => rfl
      | some j =>
        have := uniq j i (u2 _ _ hp) hi (t1 _ _ hp).1
        rw [← this, u7 _ _ hp] at hl
        cases hl
    have done1 : ∀ i, (w.pc i).isDone = true → (w.pc i).pre = false := fun i hi => by
      cases hpc : w.pc i <;> rw [hpc] at hi <;> first | rfl | cases hi
    have done2 : ∀ i, (w.pc i).isDone = true → (w.pc i).own = false := fun i hi => by
      cases hpc : w.pc i <;> rw [hpc] at hi <;> first | rfl | cases hi
    have nt : ∀ p, w.pids p ≠ some w.nCalls := fun p hp => by
      have := (t1 _ _ hp).2; rw [b1 _ (Nat.le_refl _)] at this; cases this
    have nh : ∀ i, (w.pc i).holder ≠ some w.nCalls := fun p hp => by
      have := (t2 _ _ hp).2; rw [b1 _ (Nat.le_refl _)] at this; cases this
    have fresh : w.pc w.nCalls = .unborn := b1 _ (Nat.le_refl _)
    have frw : w.live w.nCalls = false := by
      cases hx : w.live w.nCalls with
      | false => rfl
      | true => exact absurd (u0 _ hx) (Nat.lt_irrefl _)
    clear h hs ho ho' b1 ha
    cases hst
    case closeLate => exact ⟨u0, u1, u2, u3, u4, u5, u6, u7, u8, u9, n1, n2, n3, n4, n5, n6, n7⟩
    case reapElsewhere pid _ _ _ _ => exact absurd rfl (hev pid)
    case watch pid c hp =>
      clear hg hev ih uniq free t2 t3 t4 t5 t7 t8 done1 done2
      refine ⟨?_, ?_, ?_, ?_, ?_, ?_, ?_, ?_, ?_, ?_, ?_, ?_, ?_, ?_, ?_, ?_, ?_⟩ <;>
        simp only [upd, apply_ite KqPc.holder, apply_ite KqPc.pre, apply_ite KqPc.own, apply_ite KqPc.listed, apply_ite KqPc.isDone, KqPc.holder_failCall, KqPc.own_failCall,
          apply_ite KqPc.bad, KqTpc.pending_loop, KqTpc.pending_wait, KqTpc.pending_again, KqTpc.pending_call, KqTpc.pending_fin,
          KqTpc.pending_ended, KqTpc.pending_control] <;>
        first | assumption | (clear n1 n2 n3 n4 n5 n6 n7; grind) | grind (instances := 3000)
    all_goals clear fresh frw ih nt nh
    case' control l ht hl hlen =>
      have hfire : ∀ p, .exit p ∈ l → w.note p ≠ none := fun p hp hn => by
        obtain ⟨c, hc, _⟩ := hg _ hp
        rw [hn] at hc; cases hc
      have hfire' : ∀ p, .exit p ∈ l → w.pids p ≠ none := fun p hp => by
        obtain ⟨c, hc, _⟩ := hg _ hp
        exact n1 _ _ hc
      have hfire'' : ∀ p k, .exit p ∈ l → w.pids p = some k → (w.pc k).isDone = true := fun p k hp hk => by
        obtain ⟨c, hc, _⟩ := hg _ hp
        exact n2 _ _ _ hc hk
      clear n3 n4 n5 t1 t2 t3 t4 t5 t7 t8 uniq free
    case' waitReap pid i l c raw ht hp hx =>
      have htp : w.pid i = pid := t3 pid i (by rcases ht with h | h <;> rw [h] <;> rfl) (by rcases ht with h | h <;> rw [h] <;> rfl)
      have hth : w.tpc.holder = some i := by rcases ht with h | h <;> rw [h] <;> rfl
      have hta : w.tpc.asks = some i := by rcases ht with h | h <;> rw [h] <;> rfl
      have htl : w.tpc.pending = l := by rcases ht with h | h <;> rw [h] <;> rfl
      clear ht hx
    case' waitGone pid i l ht hp =>
      have htp : w.pid i = pid := t3 pid i (by rcases ht with h | h <;> rw [h] <;> rfl) (by rcases ht with h | h <;> rw [h] <;> rfl)
      have hth : w.tpc.holder = some i := by rcases ht with h | h <;> rw [h] <;> rfl
      have hta : w.tpc.asks = some i := by rcases ht with h | h <;> rw [h] <;> rfl
      have htl : w.tpc.pending = l := by rcases ht with h | h <;> rw [h] <;> rfl
      clear ht
    case' goReap i k pc c raw hw hp hx => clear hx
    case' goGone i k pc hw hp => skip
    case' goGone | goReap =>
      have := waits_holder hw
      have := waits_pre hw
      have hki := u3 i k (waits_holder hw).1; subst hki
      have hka : w.tpc.asks ≠ some k := fun ha => by
        cases ht : w.tpc <;> rw [ht] at ha <;> simp only [KqTpc.asks, Option.some.injEq, reduceCtorEq] at ha <;>
          exact t7 k k (waits_holder hw).1 (by rw [ht, ← ha]; rfl)
      clear hw
    case' goRuns i k pc c hw hp hx =>
      have := waits_holder hw
      have := waits_pre hw
      have hki := u3 i k (waits_holder hw).1; subst hki
      clear hw hp hx t1 t2 t3 t4 t5 t7 t8 uniq free
    all_goals
      clear hg hev
      refine ⟨?_, ?_, ?_, ?_, ?_, ?_, ?_, ?_, ?_, ?_, ?_, ?_, ?_, ?_, ?_, ?_, ?_⟩ <;>
        simp only [upd, apply_ite KqPc.holder, apply_ite KqPc.pre, apply_ite KqPc.own, apply_ite KqPc.listed, apply_ite KqPc.isDone, KqPc.holder_failCall, KqPc.own_failCall,
          apply_ite KqPc.bad, KqTpc.pending_loop, KqTpc.pending_wait, KqTpc.pending_again, KqTpc.pending_call, KqTpc.pending_fin,
          KqTpc.pending_ended, KqTpc.pending_control] <;>
        first | assumption | (clear n1 n2 n3 n4 n5 n6 n7; grind) | grind (instances := 3000)

end Shellous
