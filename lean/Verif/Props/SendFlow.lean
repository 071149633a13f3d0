import Verif.Spec.SendFlow

/-!
# C95: `send` cannot deadlock with the child
-/

namespace Shellous.Props.SendFlow

open Shellous.Flow Shellous.SendFlow

variable {S : Type} {cfg : SCfg S}

/-- What holds at every time. -/
structure SInv (cfg : SCfg S) (n : SNet S) : Prop where
  wPaused : n.wPaused = true → cfg.low < n.wbuf.length
  rPaused : n.rPaused = true → cfg.limit < n.stream.length
  eof : n.eof = true → n.writes = false
  atEof : n.atEof = true → n.eof = true
  input : n.sent = n.taken ++ n.inPipe ++ n.wbuf
  output : n.loc.wrote = n.got ++ n.stream ++ n.outPipe
  finished : cfg.Decodable → n.sending = some .finished → n.atEof = true

theorem init_inv (cfg : SCfg S) : SInv cfg cfg.init := by
  constructor <;> simp [SCfg.init]

theorem readChunk_inv {n m : SNet S} {r : Bool} (h : SInv cfg n) (hr : cfg.readChunk n = some (r, m)) :
    SInv cfg m ∧ (cfg.Decodable → r = false) := by
  unfold SCfg.readChunk at hr
  split at hr
  · split at hr
    · rename_i he
      cases hr
      exact ⟨⟨h.wPaused, h.rPaused, h.eof, fun _ => he, h.input, h.output, fun _ _ => rfl⟩, fun _ => rfl⟩
    · cases hr
  · simp only [Option.some.injEq, Prod.mk.injEq] at hr
    obtain ⟨rfl, rfl⟩ := hr
    refine ⟨⟨h.wPaused, ?_, h.eof, h.atEof, h.input, ?_, h.finished⟩, fun hd => by simp [hd _]⟩
    · simp
    · simp [h.output]

theorem childStep_inv {n m : SNet S} (h : SInv cfg n) (hc : n.loc.code = none) (hr : cfg.childStep n = some m) : SInv cfg m := by
  obtain ⟨h1, h2, h3, h4, h5, h6, h7⟩ := h
  unfold SCfg.childStep at hr
  cases ha : cfg.act n.loc.st with
  | read k =>
    simp only [ha] at hr
    split at hr
    · split at hr
      · cases hr
        refine ⟨h1, h2, ?_, h4, ?_, ?_, h7⟩
        · simp_all [SNet.writes, lstep]
        · simp_all
        · simp_all [lstep]
      · cases hr
    · cases hr
      refine ⟨h1, h2, ?_, h4, h5, ?_, h7⟩
      · simp_all [SNet.writes, lstep]
      · simp_all [lstep]
  | out b s =>
    simp only [ha] at hr
    split at hr
    · split at hr
      · cases hr
        refine ⟨h1, h2, ?_, h4, h5, ?_, h7⟩
        · simp_all [SNet.writes, lstep]
        · simp_all [lstep]
      · cases hr
    · cases hr
      refine ⟨h1, h2, ?_, h4, h5, ?_, h7⟩
      · simp_all [SNet.writes, lstep]
      · simp_all [lstep]
  | err b s => simp only [ha] at hr; cases hr; exact ⟨h1, h2, by simp_all [SNet.writes, lstep], h4, h5, by simp_all [lstep], h7⟩
  | closeIn s => simp only [ha] at hr; cases hr; exact ⟨h1, h2, by simp_all [SNet.writes, lstep], h4, h5, by simp_all [lstep], h7⟩
  | closeOut s => simp only [ha] at hr; cases hr; exact ⟨h1, h2, by simp_all [SNet.writes, lstep], h4, h5, by simp_all [lstep], h7⟩
  | exit c => simp only [ha] at hr; cases hr; exact ⟨h1, h2, by simp_all [SNet.writes, lstep], h4, h5, by simp_all [lstep], h7⟩

theorem step_inv (hok : cfg.Ok) {n m : SNet S} {t : Turn} (h : SInv cfg n) (hs : cfg.step n t = some m) : SInv cfg m := by
  have hh := h
  obtain ⟨h1, h2, h3, h4, h5, h6, h7⟩ := h
  cases t with
  | call data now =>
    simp only [SCfg.step] at hs
    split at hs
    · rename_i hc
      cases hs
      refine ⟨?_, h2, h3, h4, ?_, h6, by simp⟩
      · have := hok.low
        simp only [Bool.or_eq_true, decide_eq_true_eq, List.length_append]
        rintro (hw | hw)
        · have := h1 hw; omega
        · omega
      · rcases hc.2.2 with rfl | ⟨hw, -⟩
        · simp [h5]
        · simp [h5, hw]
    · cases hs
  | look =>
    simp only [SCfg.step] at hs
    split at hs
    · rw [Option.map_eq_some_iff] at hs
      obtain ⟨⟨r, x⟩, hx, rfl⟩ := hs
      exact (readChunk_inv hh hx).1
    · cases hs
  | child =>
    simp only [SCfg.step] at hs
    split at hs
    · exact childStep_inv hh (by assumption) hs
    · cases hs
  | flush k =>
    simp only [SCfg.step] at hs
    split at hs
    · cases hs
      refine ⟨?_, h2, h3, h4, ?_, h6, h7⟩
      · simp [SCfg.flushed]
      · simp [SCfg.flushed, h5]
    · cases hs
  | breaks =>
    simp only [SCfg.step] at hs
    split at hs
    · cases hs; exact ⟨h1, h2, h3, h4, h5, h6, h7⟩
    · cases hs
  | recv k =>
    simp only [SCfg.step] at hs
    split at hs
    · cases hs
      refine ⟨h1, ?_, h3, h4, h5, ?_, h7⟩
      · simp only [decide_eq_true_eq]; omega
      · simp [h6]
    · cases hs
  | recvEof =>
    simp only [SCfg.step] at hs
    split at hs
    · rename_i hc
      cases hs
      exact ⟨h1, h2, fun _ => hc.2.1, fun _ => rfl, h5, h6, h7⟩
    · cases hs
  | start =>
    simp only [SCfg.step] at hs
    split at hs
    · cases hs
      refine ⟨h1, h2, h3, h4, h5, h6, fun _ h => ?_⟩
      simp only [Option.some.injEq] at h
      split at h
      · assumption
      · cases h
    · cases hs
  | readSome =>
    simp only [SCfg.step] at hs
    split at hs
    · rw [Option.map_eq_some_iff] at hs
      obtain ⟨⟨r, x⟩, hx, rfl⟩ := hs
      obtain ⟨hi, hr⟩ := readChunk_inv hh hx
      refine ⟨hi.wPaused, hi.rPaused, hi.eof, hi.atEof, hi.input, hi.output, fun hd h => ?_⟩
      have := hr hd
      subst this
      simp only [Bool.false_or, Option.some.injEq] at h
      split at h
      · assumption
      · cases h
    · cases hs
  | drained =>
    simp only [SCfg.step] at hs
    split at hs
    · cases hs; exact ⟨h1, h2, h3, h4, h5, h6, by simp⟩
    · cases hs

theorem run_inv (hok : cfg.Ok) {ts : List Turn} {n m : SNet S} (h : SInv cfg n) (hs : cfg.run n ts = some m) : SInv cfg m := by
  induction ts generalizing n with
  | nil => cases hs; exact h
  | cons t ts ih =>
    simp only [SCfg.run] at hs
    split at hs
    · rename_i x hx; exact ih (step_inv hok h hx) hs
    · cases hs

/-- **C95** The child reads what was sent and the session reads what the child wrote: in order, nothing lost, nothing twice, whatever the schedule. -/
theorem C95_intact (cfg : SCfg S) (hok : cfg.Ok) (n : SNet S) (h : cfg.Reachable n) :
    n.taken <+: n.sent ∧ n.got <+: n.loc.wrote := by
  obtain ⟨ts, h⟩ := h
  have hi := run_inv hok (init_inv cfg) h
  exact ⟨⟨_, by rw [hi.input, List.append_assoc]⟩, ⟨_, by rw [hi.output, List.append_assoc]⟩⟩

/-- **C95** While a `send` waits, somebody can do a step: `send`, the event loop, or the child. -/
theorem C95_no_deadlock (cfg : SCfg S) (hok : cfg.Ok) (hd : cfg.Decodable) (n : SNet S) (h : cfg.Reachable n) (hs : n.sending ≠ none) :
    ∃ t, (∀ data k, t ≠ .call data k) ∧ (cfg.step n t).isSome := by
  obtain ⟨ts, h⟩ := h
  have hi := run_inv hok (init_inv cfg) h
  cases hw : n.wPaused with
  | false => exact ⟨.drained, by simp, by simp [SCfg.step, hs, hw]⟩
  | true =>
    cases hb : n.broken with
    | true => exact ⟨.drained, by simp, by simp [SCfg.step, hs, hb]⟩
    | false =>
      cases hr : n.reads with
      | false => exact ⟨.breaks, by simp, by simp [SCfg.step, hr, hb]⟩
      | true =>
        have hlow := hi.wPaused hw
        rcases Nat.lt_or_ge n.inPipe.length cfg.inCap with hroom | hfull
        · exact ⟨.flush 1, by simp, by simp [SCfg.step, hr]; omega⟩
        · have hr' := hr
          simp only [SNet.reads, Bool.and_eq_true, Option.isNone_iff_eq_none] at hr
          by_cases hc : (cfg.childStep n).isSome
          · exact ⟨.child, by simp, by simp [SCfg.step, hr.1, hc]⟩
          · have hin := hok.inCap
            have hout := hok.outCap
            unfold SCfg.childStep at hc
            cases ha : cfg.act n.loc.st with
            | read k =>
              simp only [ha, hr.2] at hc
              cases hp : n.inPipe with
              | nil => simp [hp] at hfull; omega
              | cons b r => simp [hp] at hc
            | out b s =>
              simp only [ha] at hc
              split at hc
              · rename_i ho
                split at hc
                · simp at hc
                · rename_i hfo
                  cases hp : n.rPaused with
                  | false => exact ⟨.recv 1, by simp, by simp [SCfg.step, hp]; omega⟩
                  | true =>
                    have hlim := hi.rPaused hp
                    have hwr : n.writes = true := by simp [SNet.writes, hr.1, ho]
                    have hne : n.atEof = false := by
                      cases hae : n.atEof with
                      | false => rfl
                      | true => have := hi.eof (hi.atEof hae); rw [hwr] at this; cases this
                    cases hsd : n.sending with
                    | none => exact absurd hsd hs
                    | some x =>
                      cases x with
                      | notStarted => exact ⟨.start, by simp, by simp [SCfg.step, hsd]⟩
                      | running =>
                        refine ⟨.readSome, by simp, ?_⟩
                        have : n.stream ≠ [] := by intro h0; simp [h0] at hlim
                        simp [SCfg.step, hsd, SCfg.readChunk, this]
                      | finished =>
                        have := hi.finished hd hsd
                        rw [hne] at this; cases this
              · simp at hc
            | err b s => simp [ha] at hc
            | closeIn s => simp [ha] at hc
            | closeOut s => simp [ha] at hc
            | exit c => simp [ha] at hc

/-! ## The end of a `send` -/

/-- The program does at most `N` steps on this input before it waits for more (or closes its input, or exits). -/
inductive Bounded (act : S → Act S) : S → List Byte → Nat → Prop where
  | wait {s k} (h : act s = .read k) : Bounded act s [] 0
  | read {s k b r N} (h : act s = .read k) (hs : Bounded act (k (some b)) r N) : Bounded act s (b :: r) (N + 1)
  | exit {s c l} (h : act s = .exit c) : Bounded act s l 1
  | closeIn {s s' l} (h : act s = .closeIn s') : Bounded act s l 1
  | closeOut {s s' l N} (h : act s = .closeOut s') (hs : Bounded act s' l N) : Bounded act s l (N + 1)
  | out {s b s' l N} (h : act s = .out b s') (hs : Bounded act s' l N) : Bounded act s l (N + 1)
  | err {s b s' l N} (h : act s = .err b s') (hs : Bounded act s' l N) : Bounded act s l (N + 1)

theorem bounded_exists {act : S → Act S} (hset : ∀ s, Settles act s) (l : List Byte) (s : S) : ∃ N, Bounded act s l N := by
  induction l generalizing s with
  | nil =>
    induction hset s with
    | read k h => exact ⟨_, .wait h⟩
    | exit c h => exact ⟨_, .exit h⟩
    | closeIn s' h => exact ⟨_, .closeIn h⟩
    | closeOut s' h _ ih => exact ih.imp' (· + 1) fun _ h' => .closeOut h h'
    | out b s' h _ ih => exact ih.imp' (· + 1) fun _ h' => .out h h'
    | err b s' h _ ih => exact ih.imp' (· + 1) fun _ h' => .err h h'
  | cons b r ihl =>
    induction hset s with
    | read k h => exact (ihl (k (some b))).imp' (· + 1) fun _ h' => .read h h'
    | exit c h => exact ⟨_, .exit h⟩
    | closeIn s' h => exact ⟨_, .closeIn h⟩
    | closeOut s' h _ ih => exact ih.imp' (· + 1) fun _ h' => .closeOut h h'
    | out b s' h _ ih => exact ih.imp' (· + 1) fun _ h' => .out h h'
    | err b s' h _ ih => exact ih.imp' (· + 1) fun _ h' => .err h h'

theorem bounded_read {act : S → Act S} {s k b r N} (ha : act s = .read k) (h : Bounded act s (b :: r) N) :
    ∃ N', N = N' + 1 ∧ Bounded act (k (some b)) r N' := by
  cases h <;> grind

theorem bounded_out {act : S → Act S} {s b s' l N} (ha : act s = .out b s') (h : Bounded act s l N) :
    ∃ N', N = N' + 1 ∧ Bounded act s' l N' := by
  cases h <;> grind

theorem bounded_err {act : S → Act S} {s b s' l N} (ha : act s = .err b s') (h : Bounded act s l N) :
    ∃ N', N = N' + 1 ∧ Bounded act s' l N' := by
  cases h <;> grind

theorem bounded_closeOut {act : S → Act S} {s s' l N} (ha : act s = .closeOut s') (h : Bounded act s l N) :
    ∃ N', N = N' + 1 ∧ Bounded act s' l N' := by
  cases h <;> grind

/-- What there is still to do, apart from the steps of the child. -/
def work (n : SNet S) : Nat :=
  n.wbuf.length + 2 * n.outPipe.length + n.stream.length + (if n.eof then 0 else 1) + (if n.atEof then 0 else 1) +
    match n.sending with
    | some .notStarted => 3
    | some .running => 2
    | some .finished => 1
    | none => 0

/-- While the child reads, every step brings the end nearer. -/
structure Nearer (cfg : SCfg S) (n : SNet S) (B : Nat) : Prop where
  reads : n.reads = true
  bounded : ∃ N, Bounded cfg.act n.loc.st (n.inPipe ++ n.wbuf) N ∧ 4 * N + work n ≤ B

theorem reads_back {n m : SNet S} {t : Turn} (hs : cfg.step n t = some m) (hr : m.reads = true) : n.reads = true := by
  cases t with
  | child =>
    simp only [SCfg.step] at hs
    split at hs
    · rename_i hc
      unfold SCfg.childStep at hs
      cases ha : cfg.act n.loc.st <;> simp only [ha] at hs <;> (repeat' split at hs) <;> cases hs <;>
        simp_all [SNet.reads, lstep]
    · cases hs
  | look =>
    simp only [SCfg.step, SCfg.readChunk] at hs
    (repeat' split at hs) <;> simp at hs <;> (try subst hs) <;> exact hr
  | readSome =>
    simp only [SCfg.step, SCfg.readChunk] at hs
    (repeat' split at hs) <;> simp at hs <;> (try subst hs) <;> exact hr
  | _ =>
    simp only [SCfg.step] at hs
    split at hs <;> cases hs <;> exact hr

theorem nearer_step (hok : cfg.Ok) {n m : SNet S} {t : Turn} {B : Nat} (h : Nearer cfg n B) (ht : ∀ data k, t ≠ .call data k)
    (hs : cfg.step n t = some m) (hr : m.reads = true) : 0 < B ∧ Nearer cfg m (B - 1) := by
  obtain ⟨hrd, N, hN, hB⟩ := h
  suffices ∃ N', Bounded cfg.act m.loc.st (m.inPipe ++ m.wbuf) N' ∧ 4 * N' + work m < 4 * N + work n by
    obtain ⟨N', h1, h2⟩ := this
    exact ⟨by omega, hr, N', h1, by omega⟩
  cases t with
  | call data k => exact absurd rfl (ht data k)
  | look =>
    simp only [SCfg.step] at hs
    split at hs
    · rename_i hc
      rw [Option.map_eq_some_iff] at hs
      obtain ⟨⟨r, x⟩, hx, rfl⟩ := hs
      unfold SCfg.readChunk at hx
      have hch := hok.chunk
      split at hx
      · split at hx
        · rename_i hst he
          cases hx
          refine ⟨N, hN, ?_⟩
          simp [work, hc.1, hc.2]
        · cases hx
      · rename_i hst
        cases hx
        refine ⟨N, hN, ?_⟩
        have hl : 0 < n.stream.length := List.length_pos_iff.2 hst
        simp only [work, List.length_drop]
        omega
    · cases hs
  | drained =>
    simp only [SCfg.step] at hs
    split at hs
    · rename_i hc
      cases hs
      refine ⟨N, hN, ?_⟩
      simp only [work]
      cases hsd : n.sending with
      | none => exact absurd hsd hc.1
      | some x => cases x <;> simp
    · cases hs
  | breaks => simp [SCfg.step, hrd] at hs
  | child =>
    simp only [SCfg.step] at hs
    have hrd' := hrd
    simp only [SNet.reads, Bool.and_eq_true, Option.isNone_iff_eq_none] at hrd
    rw [if_pos hrd.1] at hs
    unfold SCfg.childStep at hs
    cases ha : cfg.act n.loc.st with
    | read k =>
      simp only [ha, hrd.2, if_true] at hs
      split at hs
      · rename_i b r hp
        cases hs
        rw [hp] at hN
        obtain ⟨N', rfl, hN'⟩ := bounded_read ha hN
        refine ⟨N', ?_, ?_⟩
        · simpa [lstep, ha, hrd] using hN'
        · simp only [work]; omega
      · cases hs
    | out b s =>
      simp only [ha] at hs
      obtain ⟨N', rfl, hN'⟩ := bounded_out ha hN
      have hst : (lstep cfg.act (fun _ => none) n.loc).st = s := by simp only [lstep, hrd.1, ha]; split <;> rfl
      refine ⟨N', ?_⟩
      split at hs
      · split at hs
        case isFalse => cases hs
        cases hs
        refine ⟨by simpa [hst] using hN', ?_⟩
        simp only [work, List.length_append, List.length_singleton]; omega
      · cases hs
        refine ⟨by simpa [hst] using hN', ?_⟩
        simp only [work]; omega
    | err b s =>
      simp only [ha] at hs
      cases hs
      obtain ⟨N', rfl, hN'⟩ := bounded_err ha hN
      exact ⟨N', by simpa [lstep, ha, hrd] using hN', by simp only [work]; omega⟩
    | closeOut s =>
      simp only [ha] at hs
      cases hs
      obtain ⟨N', rfl, hN'⟩ := bounded_closeOut ha hN
      exact ⟨N', by simpa [lstep, ha, hrd] using hN', by simp only [work]; omega⟩
    | closeIn s =>
      simp only [ha] at hs
      cases hs
      simp [SNet.reads, lstep, ha, hrd] at hr
    | exit c =>
      simp only [ha] at hs
      cases hs
      simp [SNet.reads, lstep, ha, hrd] at hr
  | flush k =>
    simp only [SCfg.step] at hs
    split at hs
    · rename_i hc
      cases hs
      refine ⟨N, by simpa [SCfg.flushed] using hN, ?_⟩
      simp only [work, SCfg.flushed, List.length_drop]; omega
    · cases hs
  | recv k =>
    simp only [SCfg.step] at hs
    split at hs
    · rename_i hc
      cases hs
      refine ⟨N, hN, ?_⟩
      simp only [work, List.length_append, List.length_drop, List.length_take]; omega
    · cases hs
  | recvEof =>
    simp only [SCfg.step] at hs
    split at hs
    · rename_i hc
      cases hs
      refine ⟨N, hN, ?_⟩
      simp only [work, hc.2.2.2]; simp
    · cases hs
  | start =>
    simp only [SCfg.step] at hs
    split at hs
    · rename_i hc
      cases hs
      refine ⟨N, hN, ?_⟩
      simp only [work, hc]
      cases n.atEof <;> simp
    · cases hs
  | readSome =>
    simp only [SCfg.step] at hs
    split at hs
    · rename_i hc
      rw [Option.map_eq_some_iff] at hs
      obtain ⟨⟨r, x⟩, hx, rfl⟩ := hs
      unfold SCfg.readChunk at hx
      have hch := hok.chunk
      split at hx
      · split at hx
        · rename_i hst he
          cases hx
          refine ⟨N, hN, ?_⟩
          simp only [work, hc, if_true, Bool.or_true]
          split <;> omega
        · cases hx
      · rename_i hst
        cases hx
        refine ⟨N, hN, ?_⟩
        have hl : 0 < n.stream.length := List.length_pos_iff.2 hst
        have hw : (match (some (if (!cfg.decodes (n.got ++ n.stream.take cfg.chunk) || n.atEof) = true then Reader.finished else .running) : Option Reader) with
            | some .notStarted => 3
            | some .running => 2
            | some .finished => 1
            | none => 0) ≤ 2 := by
          cases (!cfg.decodes (n.got ++ n.stream.take cfg.chunk) || n.atEof) <;> simp
        simp only [work, hc, List.length_drop]
        omega
    · cases hs

theorem run_append {n m k : SNet S} {ts us : List Turn} (h : cfg.run n ts = some m) (h' : cfg.run m us = some k) : cfg.run n (ts ++ us) = some k := by
  induction ts generalizing n with
  | nil => cases h; exact h'
  | cons t ts ih =>
    simp only [SCfg.run, List.cons_append] at h ⊢
    split at h
    · rename_i x hx; exact ih h
    · cases h

theorem noCall_append {ts us : List Turn} (h : NoCall ts) (h' : NoCall us) : NoCall (ts ++ us) := fun t ht =>
  (List.mem_append.1 ht).elim (h t) (h' t)

/-- **C95** As long as the child reads its input from time to time, all that follows from the calls so far is done after a bounded number of steps,
whatever the schedule: however much was sent, however much the child writes before it reads on, and however small the pipes are. -/
theorem C95_ends (cfg : SCfg S) (hok : cfg.Ok) (hset : ∀ s, Settles cfg.act s) (n : SNet S) :
    ∃ bound, ∀ ts m, NoCall ts → cfg.run n ts = some m → m.reads = true → ts.length ≤ bound := by
  obtain ⟨N, hN⟩ := bounded_exists hset (n.inPipe ++ n.wbuf) n.loc.st
  refine ⟨4 * N + work n, fun ts => ?_⟩
  have hback : ∀ (ts : List Turn) (n m : SNet S), cfg.run n ts = some m → m.reads = true → n.reads = true := by
    intro ts
    induction ts with
    | nil => intro n m h hr; cases h; exact hr
    | cons t ts ih =>
      intro n m h hr
      simp only [SCfg.run] at h
      split at h
      · rename_i x hx; exact reads_back hx (ih x m h hr)
      · cases h
  have key : ∀ (ts : List Turn) (B : Nat) (n m : SNet S), Nearer cfg n B → NoCall ts → cfg.run n ts = some m → m.reads = true → ts.length ≤ B := by
    intro ts
    induction ts with
    | nil => intros; simp
    | cons t ts ih =>
      intro B n m hn hno h hr
      simp only [SCfg.run] at h
      split at h
      · rename_i x hx
        obtain ⟨h3, h4⟩ := nearer_step hok hn (hno t (.head _)) hx (hback ts x m h hr)
        have := ih _ x m h4 (fun t' ht' => hno t' (.tail _ ht')) h hr
        simp only [List.length_cons]; omega
      · cases h
  intro m hno h hr
  exact key ts _ n m ⟨hback ts n m h hr, N, hN, Nat.le_refl _⟩ hno h hr

/-- **C95** If the child does not read any more, a waiting `send` ends at once: with an error of `drain()` if it has to wait. -/
theorem C95_gone (cfg : SCfg S) (n : SNet S) (hs : n.sending ≠ none) (hr : n.reads = false) :
    ∃ ts m, ts.length ≤ 2 ∧ NoCall ts ∧ cfg.run n ts = some m ∧ m.sending = none := by
  cases hb : n.broken with
  | true => exact ⟨[.drained], { n with sending := none }, by simp, by simp [NoCall], by simp [SCfg.run, SCfg.step, hs, hb], rfl⟩
  | false =>
    exact ⟨[.breaks, .drained], { n with broken := true, sending := none }, by simp, by simp [NoCall],
      by simp [SCfg.run, SCfg.step, hs, hb, hr], rfl⟩

/-- **C95** So from every state of every session a waiting `send` comes to its end. -/
theorem C95_completes (cfg : SCfg S) (hok : cfg.Ok) (hd : cfg.Decodable) (hset : ∀ s, Settles cfg.act s) (n : SNet S) (h : cfg.Reachable n)
    (hs : n.sending ≠ none) : ∃ ts m, NoCall ts ∧ cfg.run n ts = some m ∧ m.sending = none := by
  obtain ⟨B, hB⟩ := C95_ends cfg hok hset n
  have key : ∀ k ts m, NoCall ts → cfg.run n ts = some m → B < ts.length + k → ∃ vs m', NoCall vs ∧ cfg.run n vs = some m' ∧ m'.sending = none := by
    intro k
    induction k with
    | zero =>
      intro ts m hno hrun hk
      by_cases hm : m.sending = none
      · exact ⟨ts, m, hno, hrun, hm⟩
      · cases hr : m.reads with
        | true => have := hB ts m hno hrun hr; omega
        | false =>
          obtain ⟨vs, m', -, h2, h3, h4⟩ := C95_gone cfg m hm hr
          exact ⟨ts ++ vs, m', noCall_append hno h2, run_append hrun h3, h4⟩
    | succ k ih =>
      intro ts m hno hrun hk
      by_cases hm : m.sending = none
      · exact ⟨ts, m, hno, hrun, hm⟩
      · obtain ⟨us, hus⟩ := h
        obtain ⟨t, ht, hst⟩ := C95_no_deadlock cfg hok hd m ⟨us ++ ts, run_append hus hrun⟩ hm
        obtain ⟨m', hm'⟩ := Option.isSome_iff_exists.1 hst
        refine ih (ts ++ [t]) m' (noCall_append hno (by simpa [NoCall] using ht)) (run_append hrun (by simp [SCfg.run, hm'])) ?_
        simp only [List.length_append, List.length_singleton]; omega
  exact key (B + 1) [] n (by simp [NoCall]) rfl (by simp)

/-- **C95** If `expect` or `read_all` waits and nobody can go on, then the child waits for input, although it has read all that was sent, and the
session has received all that it wrote. -/
theorem C95_expect (cfg : SCfg S) (hok : cfg.Ok) (n : SNet S) (h : cfg.Reachable n) (hs : n.sending = none) (he : n.atEof = false)
    (hno : ∀ t, (∀ data k, t ≠ .call data k) → cfg.step n t = none) :
    n.reads = true ∧ (∃ k, cfg.act n.loc.st = .read k) ∧ n.taken = n.sent ∧ n.got = n.loc.wrote := by
  obtain ⟨ts, h⟩ := h
  have hi := run_inv hok (init_inv cfg) h
  have hin := hok.inCap
  have hout := hok.outCap
  have h1 := hno .look (by simp)
  simp only [SCfg.step, hs, he, and_self, if_true, Option.map_eq_none_iff, SCfg.readChunk] at h1
  split at h1
  case isFalse => cases h1
  rename_i hst
  split at h1
  · cases h1
  rename_i heof
  have hrp : n.rPaused = false := by
    cases hp : n.rPaused with
    | false => rfl
    | true => have := hi.rPaused hp; simp [hst] at this
  have hop : n.outPipe = [] := by
    have h2 := hno (.recv 1) (by simp)
    cases hp : n.outPipe with
    | nil => rfl
    | cons b r => simp [SCfg.step, hp, hrp] at h2
  have hwr : n.writes = true := by
    have h2 := hno .recvEof (by simp)
    cases hw : n.writes with
    | true => rfl
    | false => simp [SCfg.step, hop, hw, hrp, heof] at h2
  simp only [SNet.writes, Bool.and_eq_true, Option.isNone_iff_eq_none] at hwr
  have h2 := hno .child (by simp)
  simp only [SCfg.step, hwr.1, if_true] at h2
  unfold SCfg.childStep at h2
  cases ha : cfg.act n.loc.st with
  | read k =>
    simp only [ha] at h2
    split at h2
    case isFalse => cases h2
    rename_i ho
    split at h2
    · cases h2
    rename_i hp
    have hr : n.reads = true := by simp [SNet.reads, hwr.1, ho]
    have hw : n.wbuf = [] := by
      have h3 := hno (.flush 1) (by simp)
      cases hp' : n.wbuf with
      | nil => rfl
      | cons b r => simp [SCfg.step, hp', hr, hp] at h3; omega
    refine ⟨hr, ⟨k, rfl⟩, ?_, ?_⟩
    · simp [hi.input, hp, hw]
    · simp [hi.output, hst, hop]
  | out b s => simp [ha, hwr.2, hop, hout] at h2
  | err b s => simp [ha] at h2
  | closeIn s => simp [ha] at h2
  | closeOut s => simp [ha] at h2
  | exit c => simp [ha] at h2

/-- **C95** From every state of every session, if the child goes on reading, there is a point where no call of `send` waits any more, the child has read all that
was sent and the session has received all that the child wrote (or the end of its output). -/
theorem C95_rests (cfg : SCfg S) (hok : cfg.Ok) (hd : cfg.Decodable) (hset : ∀ s, Settles cfg.act s) (n : SNet S) (h : cfg.Reachable n) :
    ∃ ts m, NoCall ts ∧ cfg.run n ts = some m ∧
      (m.reads = false ∨ m.sending = none ∧ (m.atEof = true ∨ m.taken = m.sent ∧ m.got = m.loc.wrote)) := by
  obtain ⟨B, hB⟩ := C95_ends cfg hok hset n
  obtain ⟨us, hus⟩ := h
  have key : ∀ k ts m, NoCall ts → cfg.run n ts = some m → B < ts.length + k → ∃ ts m, NoCall ts ∧ cfg.run n ts = some m ∧
      (m.reads = false ∨ m.sending = none ∧ (m.atEof = true ∨ m.taken = m.sent ∧ m.got = m.loc.wrote)) := by
    intro k
    induction k with
    | zero =>
      intro ts m hno hrun hk
      cases hr : m.reads with
      | true => have := hB ts m hno hrun hr; omega
      | false => exact ⟨ts, m, hno, hrun, .inl hr⟩
    | succ k ih =>
      intro ts m hno hrun hk
      have hm : cfg.Reachable m := ⟨us ++ ts, run_append hus hrun⟩
      by_cases hst : ∃ t, (∀ data k, t ≠ .call data k) ∧ (cfg.step m t).isSome
      · obtain ⟨t, ht, hst⟩ := hst
        obtain ⟨m', hm'⟩ := Option.isSome_iff_exists.1 hst
        refine ih (ts ++ [t]) m' (noCall_append hno (by simpa [NoCall] using ht)) (run_append hrun (by simp [SCfg.run, hm'])) ?_
        simp only [List.length_append, List.length_singleton]; omega
      · have hsd : m.sending = none := by
          cases hsd : m.sending with
          | none => rfl
          | some x => exact absurd (C95_no_deadlock cfg hok hd m hm (by simp [hsd])) hst
        refine ⟨ts, m, hno, hrun, .inr ⟨hsd, ?_⟩⟩
        cases he : m.atEof with
        | true => exact .inl rfl
        | false =>
          obtain ⟨-, -, h1, h2⟩ := C95_expect cfg hok m hm hsd he fun t ht => by
            cases hx : cfg.step m t with
            | none => rfl
            | some y => exact absurd ⟨t, ht, by simp [hx]⟩ hst
          exact .inr ⟨h1, h2⟩
  exact key (B + 1) [] n (by simp [NoCall]) rfl (by simp)

/-- A program that writes twenty bytes before it reads one, and so on; all buffers are tiny. -/
def chatty (decodes : List Byte → Bool) : SCfg Nat where
  act n := if n < 20 then .out 255 (n + 1) else .read fun _ => 0
  prog := 0
  inCap := 1
  outCap := 1
  high := 1
  low := 0
  limit := 1
  chunk := 1
  decodes := decodes

theorem chatty_ok (d : List Byte → Bool) : (chatty d).Ok := ⟨Nat.one_pos, Nat.one_pos, Nat.one_pos, Nat.zero_le _⟩

theorem chatty_settles (d : List Byte → Bool) (s : Nat) : Settles (chatty d).act s := by
  have key : ∀ k s, 20 ≤ s + k → Settles (chatty d).act s := by
    intro k
    induction k with
    | zero => intro s h; exact .read _ (by simp only [chatty]; rw [if_neg (by omega)])
    | succ k ih =>
      intro s h
      by_cases h20 : s < 20
      · exact .out 255 (s + 1) (by simp only [chatty]; rw [if_pos h20]) (ih _ (by omega))
      · exact .read _ (by simp only [chatty]; rw [if_neg h20])
  exact key 20 s (by omega)

/-- If the child writes something that cannot be decoded while a `send` waits, the task that reads ends by the exception of the decoder, which
nobody looks at, and `send` can hang for ever: the child cannot write on, and so does not read on. -/
theorem C95_decodable_needed : ∃ (cfg : SCfg Nat) (n : SNet Nat), cfg.Ok ∧ (∀ s, Settles cfg.act s) ∧ cfg.Reachable n ∧ n.sending ≠ none ∧
    ∀ t, cfg.step n t = none := by
  refine ⟨chatty fun l => l.isEmpty,
    { loc := { st := 5, wrote := [255, 255, 255, 255, 255] }, sent := [1, 2, 3], inPipe := [1], wbuf := [2, 3], wPaused := true, outPipe := [255],
      stream := [255, 255, 255], rPaused := true, got := [255], sending := some .finished },
    chatty_ok _, chatty_settles _,
    ⟨[.call [1, 2, 3] 0, .start, .flush 1, .child, .recv 1, .readSome, .child, .recv 1, .child, .recv 1, .child, .recv 1, .child], rfl⟩, by simp, ?_⟩
  intro t
  cases t <;> simp [SCfg.step, SCfg.childStep, chatty, SNet.reads, SNet.writes]
  omega

/-! ## The hypotheses can be met -/

/-- `C95_completes` (and so `C95_no_deadlock`, `C95_ends`) applies when the child is blocked by its output and the writer by the full pipe. -/
example : ∃ (n : SNet Nat) (ts : List Turn) (m : SNet Nat), n.sending = some .running ∧ n.wPaused = true ∧ n.rPaused = true ∧ n.inPipe = [1] ∧
    n.outPipe = [255] ∧ NoCall ts ∧ (chatty fun _ => true).run n ts = some m ∧ m.sending = none := by
  let n : SNet Nat :=
    { loc := { st := 4, wrote := [255, 255, 255, 255] }, sent := [1, 2, 3], inPipe := [1], wbuf := [2, 3], wPaused := true, outPipe := [255],
      stream := [255, 255, 255], rPaused := true, sending := some .running }
  obtain ⟨ts, m, h⟩ := C95_completes (chatty fun _ => true) (chatty_ok _) (fun _ => rfl) (chatty_settles _) n
    ⟨[.call [1, 2, 3] 0, .start, .flush 1, .child, .recv 1, .child, .recv 1, .child, .recv 1, .child], rfl⟩ (by simp [n])
  exact ⟨n, ts, m, rfl, rfl, rfl, rfl, rfl, h⟩

/-- `C95_gone` applies to a child that has exited. -/
example : ∃ ts m, ts.length ≤ 2 ∧ NoCall ts ∧ (chatty fun _ => true).run
    { loc := { st := 4, code := some 1 }, sent := [1, 2, 3], wbuf := [1, 2, 3], wPaused := true, sending := some .running } ts = some m ∧
    m.sending = none :=
  C95_gone _ _ (by simp) rfl

/-- A child that has written its greeting and waits for input. -/
def greeted : SNet Nat := { loc := { st := 20, wrote := List.replicate 20 255 }, got := List.replicate 20 255 }

/-- `C95_expect` applies to it. -/
example : greeted.taken = greeted.sent ∧ greeted.got = greeted.loc.wrote := by
  refine (C95_expect (chatty fun _ => true) (chatty_ok _) greeted ⟨(List.replicate 20 [Turn.child, .recv 1, .look]).flatten, rfl⟩ rfl rfl fun t ht => ?_).2.2
  cases t with
  | call data k => exact absurd rfl (ht data k)
  | flush k => simp [SCfg.step, greeted]; try omega
  | recv k => simp [SCfg.step, greeted]; try omega
  | _ => rfl

end Shellous.Props.SendFlow
