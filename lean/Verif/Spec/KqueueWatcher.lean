import Verif.Model.KqueueWatcher

/-!
# Vocabulary for statements about `KQueueStrategy`
-/

namespace Shellous

/-- `w` is the state after the history `l`: any interleaving of the calls, their tasks, the thread and the children. -/
inductive KqHist : List KqEv → KqW → Prop
  | start : KqHist [] {}
  | step {l : List KqEv} {w w' : KqW} (ev : KqEv) : KqHist l w → w.gives ev → w.step ev = some w' → KqHist (l ++ [ev]) w'

/-- Nobody else reaps children. -/
def KqAlone (l : List KqEv) : Prop := ∀ pid, .reapElsewhere pid ∉ l

/-- No child is watched twice. -/
def KqOnce (w : KqW) : Prop := ∀ i j, i < w.nCalls → j < w.nCalls → w.target i = w.target j → i = j

/-- The callback of call `i` was called. -/
def KqReported (w : KqW) (i : Nat) : Prop := ∃ p st, (i, p, st) ∈ w.reports

/-- An infinite history (`none`: nothing happens). -/
structure KqExec (σ : Nat → KqW) (ev : Nat → Option KqEv) : Prop where
  init : σ 0 = {}
  steps : ∀ n, match ev n with
    | none => σ (n + 1) = σ n
    | some e => (σ n).gives e ∧ (σ n).step e = some (σ (n + 1))

/-- A step of the thread. -/
def KqEv.ofThread : KqEv → Bool
  | .control _ | .next | .threadWait | .callback _ | .closeQueue => true
  | _ => false

/-- A step of call `i` or of its task. -/
def KqEv.of (i : Nat) : KqEv → Bool
  | .go j | .register j _ | .goCall j _ => j == i
  | _ => false

/-- Fair scheduling: what can always go on, goes on. -/
structure KqFair (σ : Nat → KqW) (ev : Nat → Option KqEv) : Prop where
  thread : ∀ n, (∀ m, n ≤ m → ∃ e w', e.ofThread = true ∧ (σ m).gives e ∧ (σ m).step e = some w') →
    ∃ m e, n ≤ m ∧ ev m = some e ∧ e.ofThread = true
  calls : ∀ i n, (∀ m, n ≤ m → ∃ e w', e.of i = true ∧ (σ m).gives e ∧ (σ m).step e = some w') → ∃ m e, n ≤ m ∧ ev m = some e ∧ e.of i = true
  /-- the kqueue is fair: when `control` is called again and again, an event that has happened is returned -/
  kqueue : ∀ x n, (∀ m, n ≤ m → (σ m).fires x) → (∀ k, ∃ m l, k ≤ m ∧ ev m = some (.control l)) → ∃ m l, n ≤ m ∧ ev m = some (.control l) ∧ x ∈ l

end Shellous
