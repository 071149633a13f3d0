import Verif.Model.AuditRun
import Verif.Spec.Run

/-!
# Vocabulary for statements about runs whose `audit_callback` may raise
-/

namespace Shellous

/-- Run a command with this callback: what the statement gave or raised, and the world then. -/
def executeA (cb : Callback) (how : How) (cfg : RCfg) (w : W) (evs : List Ev) : Out (Option Returned) × W :=
  match how with
  | .await f => match runCommandA cb cfg f w evs with
    | (.ok r, w', _) => (.ok (some r), w')
    | (.exc e, w', _) => (.exc e, w')
    | (.blocked, w', _) => (.blocked, w')
  | .block => match withRunA cb cfg userBody w evs with
    | (.ok _, w', _) => (.ok none, w')
    | (.exc e, w', _) => (.exc e, w')
    | (.blocked, w', _) => (.blocked, w')

/-- The callback is given the phase "stop". -/
def Obs.isStop : Obs → Bool
  | .auditStop _ => true
  | _ => false

/-- The callback raises in the phase "stop", and only there. -/
structure RaisesAtStop (cb : Callback) : Prop where
  stop : ∀ t f, (cb (t ++ [.auditStop f])).isSome = true
  other : ∀ t o, o.isStop = false → cb (t ++ [o]) = none

end Shellous
