import Verif.Props.Subst

namespace Shellous.Subst

/-! ## Examples -/

/-- `zero | tee >(cat) | paste <(one | two)`. -/
def line : List Link :=
  build (.mk [.reads (.mk []) [.mk []]]) [.mk [.writes (.mk []) []], .mk []]

/-- Node 1 is `paste`, 3 is `two`, 5 is `one` (fed by 7), 8 is `tee`, 10 is `cat` (whose output 12 reads), 13 is `zero` (fed by 15); 2, 4, 6, 9, 11, 14 read the
standard errors. -/
example : line = [⟨0, false⟩, ⟨0, true⟩, ⟨1, false⟩, ⟨1, true⟩, ⟨3, false⟩, ⟨3, true⟩, ⟨5, false⟩, ⟨5, true⟩, ⟨1, true⟩, ⟨8, false⟩, ⟨8, false⟩, ⟨10, false⟩,
    ⟨10, false⟩, ⟨8, true⟩, ⟨13, false⟩, ⟨13, true⟩] := by rfl

/-- Programs: a list of things to do. -/
inductive P where
  | do (l : List (Nat × Option Byte))
  | copy (v : Nat)

def P.act : P → Act P
  | .do [] => .exit
  | .do ((v, none) :: l) => .read v fun _ => .do l
  | .do ((v, some b) :: l) => .write v b (.do l)
  | .copy v => .read v fun | some _ => .copy v | none => .do []

/-- Here `tee` (8) writes to `cat` (10), which does not read, and then to `paste` (1), which first reads from `two` (3). -/
def cfg : Cfg P where
  links := line
  act := P.act
  prog u := match u with
    | 1 => .do [(3, none), (8, none), (1, some 7)]
    | 3 => .do [(3, some 1), (3, some 2)]
    | 8 => .do [(10, some 1), (10, some 2), (8, some 3), (8, some 4)]
    | 0 => .copy 1
    | _ => .do []
  cap _ := 1

example : ∀ v, 0 < cfg.cap v := fun _ => Nat.one_pos

/-- With pipes of one byte, some have to wait: `tee` for `cat`, until `cat` exits and `tee` is killed; then `paste` finds the end of the file. -/
example : ((cfg.run cfg.init [8, 3, 1]).bind fun n => cfg.step n 8).isNone = true := by rfl
example : ((cfg.run cfg.init [8, 3, 1]).bind fun n => cfg.step n 1).isNone = true := by rfl
example : ((cfg.run cfg.init [8, 3, 1, 10, 8, 1, 1, 1, 0, 3, 0, 0]).map fun n => (List.range 4).map n.ended) = some [true, true, false, true] := by rfl

end Shellous.Subst
