import Verif.Props.Codec
import Verif.Model.Prompt

/-!
# Specification of the prompt API: vocabulary for C48-C51, C54, C55
-/

namespace Shellous.Props

open Shellous

/-- A carriage return at the very end is held back until it is known whether a line feed follows. -/
def withoutFinalCR (t : Text) : Text := if t.getLast? = some '\r' then t.dropLast else t

/-- The text of an output of which `bytes` have arrived; `ended`: that is all of it. Until the end an
incomplete character, and with newline normalisation a final carriage return, does not count yet. -/
def receivedText (d : Decoder) (bytes : Bytes) (ended : Bool) : Except Exc Text :=
  (decodeLoop d.step d.errors ended bytes).map fun r =>
    if d.normalize then normalizeNewlines (if ended then r.1 else withoutFinalCR r.1) else r.1

/-- The text taken out of the output by a call that ended this way, with the prompt put back in its
place. For a call that raised this is the text that was lost. -/
def taken : POut → Text
  | .matched t m => t ++ m
  | .text t => t
  | .done => []
  | .exc _ d => d
  | .blocked h => h

/-- The call lost no text. -/
def Lossless : POut → Prop
  | .exc _ d => d = []
  | .blocked h => h = []
  | _ => True

/-- A pattern reports spans. -/
def SpanPattern (p : Pattern) : Prop := ∀ t i j, p t = some (i, j) → i ≤ j ∧ j ≤ t.length

/-- All patterns of a session come from a regular expression engine that reports spans. -/
def SpanArg : PromptArg → Prop
  | .regex p => SpanPattern p
  | _ => True

/-- See `SpanArg`. -/
def SpanOp : POp → Prop
  | .expect arg _ => SpanArg arg
  | .command _ _ _ arg _ _ => SpanArg arg
  | _ => True

/-- `s` occurs in `t` at position `i`. -/
def OccursAt (s t : Text) (i : Nat) : Prop := s <+: t.drop i

/-- `i` is the position of the first occurrence of `s` in `t`. -/
def FirstOccurrence (s t : Text) (i : Nat) : Prop :=
  OccursAt s t i ∧ ∀ k, k < i → ¬ OccursAt s t k

/-- `a` is the string to report for the prompts `ss` in `t`, at position `i`: no string of the list
occurs further left, and no string listed before `a` occurs at `i`. -/
def FirstOfList (ss : List Text) (t : Text) (i : Nat) (a : Text) : Prop :=
  (∀ k, k < i → ∀ b ∈ ss, ¬ OccursAt b t k) ∧
  ∃ n, ss[n]? = some a ∧ OccursAt a t i ∧ ∀ (m : Nat) (b : Text), m < n → ss[m]? = some b → ¬ OccursAt b t i

/-- No string of the list ends inside another one that it could be confused with: if `a` occurs in `b`
and ends before `b` does, then `a` is a prefix of `b` and is listed first. -/
def ChunkSafe (ss : List Text) : Prop :=
  ∀ (j k : Nat) (a b : Text) (o : Nat), ss[j]? = some a → ss[k]? = some b →
    OccursAt a b o → o + a.length < b.length → o = 0 ∧ j < k

/-- A fresh prompt with the given decoder (shellous/prompt.py:59-92). -/
def freshPrompt (d : Decoder) : PS := { dec := { d with buffer := [], pendingcr := false } }

end Shellous.Props
