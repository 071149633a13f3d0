import Verif.Spec.Watcher

/-!
# Vocabulary for statements about infinite histories of the child watcher
-/

namespace Shellous

/-- A step of the thread of the watcher. -/
def WatchEv.ofThread : WatchEv → Bool
  | .poll _ | .next | .wait | .callback _ | .unregister | .closeFd | .epollClose | .readKeys _ | .closeOne | .clearPipe => true
  | _ => false

/-- An infinite history: the worlds, and what happens between one and the next (`none`: nothing). -/
structure WExec (r wr : Nat) (σ : Nat → WW) (ev : Nat → Option WatchEv) : Prop where
  pipes : r ≠ wr
  init : σ 0 = WW.init r wr
  steps : ∀ n, match ev n with
    | none => σ (n + 1) = σ n
    | some e => (σ n).gives e ∧ (σ n).step e = some (σ (n + 1))

/-- The thread can do something (it is not blocked in `epoll.poll`, and has not ended). -/
def ThreadCan (w : WW) : Prop := ∃ e w', e.ofThread = true ∧ w.gives e ∧ w.step e = some w'

/-- The threads are scheduled fairly: a thread that can go on, goes on. -/
def ThreadFair (σ : Nat → WW) (ev : Nat → Option WatchEv) : Prop :=
  ∀ n, (∀ m, n ≤ m → ThreadCan (σ m)) → ∃ m e, n ≤ m ∧ ev m = some e ∧ e.ofThread = true

/-- epoll is fair: when it is polled again and again, a descriptor that stays ready is returned. (When there are more than
`maxevents` descriptors that are ready, Linux returns them in turn.) -/
def EpollFair (σ : Nat → WW) (ev : Nat → Option WatchEv) : Prop :=
  ∀ fd n, (∀ m, n ≤ m → (σ m).ready fd) → (∀ k, ∃ m l, k ≤ m ∧ ev m = some (.poll l)) →
    ∃ m l, n ≤ m ∧ ev m = some (.poll l) ∧ fd ∈ l

end Shellous
