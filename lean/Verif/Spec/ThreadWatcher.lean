import Verif.Model.ThreadWatcher

/-!
# Vocabulary for statements about `ThreadStrategy`
-/

namespace Shellous

/-- `w` is the state after the history `l`: any interleaving of the calls, their threads and the children. -/
inductive TsHist : List TsEv → TsW → Prop
  | start : TsHist [] {}
  | step {l : List TsEv} {w w' : TsW} (ev : TsEv) : TsHist l w → w.step ev = some w' → TsHist (l ++ [ev]) w'

/-- Nobody else reaps children. -/
def TsAlone (l : List TsEv) : Prop := ∀ pid, .reapElsewhere pid ∉ l

/-- No child is watched twice. -/
def TsOnce (w : TsW) : Prop := ∀ i j, i < w.nCalls → j < w.nCalls → w.target i = w.target j → i = j

/-- The callback of call `i` was called. -/
def TsReported (w : TsW) (i : Nat) : Prop := ∃ p st, (i, p, st) ∈ w.reports

/-- The call `i` has started its thread, which has not yet come to the callback. -/
def TsPc.watching : TsPc → Bool
  | .waiting | .calling _ => true
  | _ => false

/-- The call, or its thread, has an entry in the table. -/
def TsPc.listed : TsPc → Bool
  | .start | .startFailed | .waiting | .calling _ | .popping | .callbackRaised => true
  | _ => false

/-- An infinite history (`none`: nothing happens). -/
structure TsExec (σ : Nat → TsW) (ev : Nat → Option TsEv) : Prop where
  init : σ 0 = {}
  steps : ∀ n, match ev n with
    | none => σ (n + 1) = σ n
    | some e => (σ n).step e = some (σ (n + 1))

/-- A step of call `i` or of its thread. -/
def TsEv.of (i : Nat) : TsEv → Bool
  | .go j _ | .callback j _ => j == i
  | _ => false

/-- Fair scheduling: what can always go on, goes on. -/
def TsFair (σ : Nat → TsW) (ev : Nat → Option TsEv) : Prop :=
  ∀ i n, (∀ m, n ≤ m → ∃ e w', e.of i = true ∧ (σ m).step e = some w') → ∃ m e, n ≤ m ∧ ev m = some e ∧ e.of i = true

end Shellous
