import Verif.Model.Iter
import Verif.Spec.Session
import Verif.Spec.Live

/-!
# Vocabulary for statements about `async for line in cmd` (C70, C79)
-/

namespace Shellous

/-- What the reader had seen when the generator had tried to read `n` times. -/
def GenCfg.seen (gc : GenCfg) (n : Nat) : List SEv :=
  (List.range n).flatMap fun k => (gc.arrive k).map Arrival.ev ++ [.go]

/-- How the loop ended, as an outcome of a statement. -/
def Out.asLoop : Out (Option Exc × GenSt) → Out (Option Returned)
  | .ok (none, _) => .ok none
  | .ok (some e, _) => .exc e
  | .blocked => .blocked
  | .exc e => .exc e

/-- A loop `async for line in cmd` over a command: how it ended (`blocked`: it has not ended), and the world then. -/
def iterExecute (cfg : RCfg) (gc : GenCfg) (w : W) (evs : List Ev) : Out (Option Exc × GenSt) × W :=
  ((iterate cfg gc w evs).1, (iterate cfg gc w evs).2.1)

/-- The same over a pipeline. -/
def pipeIterExecute (cfg : PRCfg) (gc : GenCfg) (w : W) (evs : List Ev) : Out (Option Exc × GenSt) × W :=
  ((pipeIterate cfg gc w evs).1, (pipeIterate cfg gc w evs).2.1)

/-- The stream comes to its end, some time: end of file, or an exception set by the transport. -/
def GenCfg.Ends (gc : GenCfg) : Prop := ∃ k, Arrival.eof ∈ gc.arrive k ∨ ∃ e, Arrival.failed e ∈ gc.arrive k

/-- From some time on nothing arrives any more. (The stream may stay open for ever.) -/
def GenCfg.Silent (gc : GenCfg) : Prop := ∃ k, ∀ n, k ≤ n → gc.arrive n = []

/-- A loop over a command comes to an end on a schedule. -/
def IterEndsOn (cfg : RCfg) (gc : GenCfg) (w : W) (σ : Sched) : Prop := ∃ n, (iterExecute cfg gc w (σ.upto n)).1 ≠ .blocked

/-- A loop over a pipeline comes to an end on a schedule. -/
def PIterEndsOn (cfg : PRCfg) (gc : GenCfg) (w : W) (σ : Sched) : Prop :=
  ∃ n, (pipeIterExecute cfg gc w (σ.upto n)).1 ≠ .blocked

end Shellous
