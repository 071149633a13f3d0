import Verif.Model.SendFlow

/-!
# What C95 says
-/

namespace Shellous.SendFlow

open Shellous.Flow

variable {S : Type}

/-- The sizes are what they always are: pipes have room for something, a chunk is not empty, `low` is at most `high`. (A pipe or buffer may hold as
little as a single byte.) -/
structure SCfg.Ok (cfg : SCfg S) : Prop where
  inCap : 0 < cfg.inCap
  outCap : 0 < cfg.outCap
  chunk : 0 < cfg.chunk
  low : cfg.low ≤ cfg.high

/-- All that the child writes can be decoded. -/
def SCfg.Decodable (cfg : SCfg S) : Prop := ∀ l, cfg.decodes l = true

/-- A session has come to this state. -/
def SCfg.Reachable (cfg : SCfg S) (n : SNet S) : Prop := ∃ ts, cfg.run cfg.init ts = some n

/-- A program in this state comes to reading its input again (or closes it, or exits), however much it writes before. -/
inductive Settles (act : S → Act S) : S → Prop where
  | read {s : S} (k) (h : act s = .read k) : Settles act s
  | exit {s : S} (c) (h : act s = .exit c) : Settles act s
  | closeIn {s : S} (s') (h : act s = .closeIn s') : Settles act s
  | closeOut {s : S} (s') (h : act s = .closeOut s') (hs : Settles act s') : Settles act s
  | out {s : S} (b) (s') (h : act s = .out b s') (hs : Settles act s') : Settles act s
  | err {s : S} (b) (s') (h : act s = .err b s') (hs : Settles act s') : Settles act s

/-- The user does not call `send` in these steps. -/
def NoCall (ts : List Turn) : Prop := ∀ t ∈ ts, ∀ data k, t ≠ .call data k

end Shellous.SendFlow
