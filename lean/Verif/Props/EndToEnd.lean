import Verif.Spec.EndToEnd
import Verif.Props.RunLaunch
import Verif.Props.Wiring
import Verif.Props.Streams
import Verif.Props.Input
import Verif.Props.Fds

/-!
# C69: what `await cmd` returns is complete
-/

namespace Shellous.Props
open Shellous

theorem alone_copies {cfg : RCfg} {w w1 w2 w3 : W} {ob : Bool} (hl : Launched cfg w w1)
    (hbr : BodyRel (w1.log .bodyStart) w2) (x : XPost cfg none (w2.log (.bodyEnd none)) (.ok ob) w3)
    (hc : w3.cancelled = false) (i : Nat) (hi : i ∈ copies cfg) :
    ∃ t o, w3.tasks[i]? = some t ∧ t.kind = .io ∧ t.out = some o ∧ (∀ e, o ≠ .err e) ∧ t.cancels = 0 := by
  have hmine : (w2.log (.bodyEnd none)).mine = List.range' 1 (cfg.procsubs + cfg.ioTasks + cfg.waiters) := by
    rw [← hl.mine]; exact hbr.ext.mine
  have him : i ∈ (w2.log (.bodyEnd none)).mine := by
    rw [hmine]
    rw [copies] at hi
    simp only [List.mem_range'_1] at hi ⊢
    omega
  obtain ⟨t2, h2, hc2⟩ := hbr.same i _ (hl.copy i hi)
  obtain ⟨t2', h2', e2⟩ := hbr.ext.task i _ (hl.copy i hi)
  rw [h2] at h2'; cases h2'
  obtain ⟨t3, h3, ho, hc3⟩ := x.alone ob rfl rfl hc i him t2 h2
  obtain ⟨t3', h3', e3⟩ := x.ext.task i t2 h2
  rw [h3] at h3'; cases h3'
  obtain ⟨o, ho⟩ := Option.isSome_iff_exists.1 ho
  refine ⟨t3, o, h3, e3.kind.trans e2.kind, ho, ?_, hc3.trans hc2⟩
  intro e he
  obtain ⟨_, hff, _⟩ := x.calm ob rfl rfl hc
  refine noFailure_iff.1 hff i him e ?_
  unfold W.outOf
  rw [h3]
  exact ho.trans (by rw [he])

/-- C69: when `await cmd` returns, every background copy (and process substitution) has returned by itself: it did not fail
and nobody asked it to cancel. The exception is a timeout of a command with `catch_cancelled`. -/
theorem C69_copies_ended (f : Option Exc) (cfg : RCfg) (w : W) (hf : w.Fresh) (evs : List Ev) (v : Option Returned) (w' : W)
    (h : execute (.await f) cfg w evs = (.ok v, w')) (hc : cfg.opts.catchCancelled = false ∨ w'.timedOut = false) :
    ∀ i ∈ copies cfg, ∃ t o, w'.tasks[i]? = some t ∧ t.out = some o ∧ (∀ e, o ≠ .err e) ∧ t.cancels = 0 := by
  have hcan : w'.cancelled = false := by
    rcases await_ok hf h with ⟨_, h1, h2⟩ | ⟨h1, _⟩
    · rcases hc with h | h
      · rw [h1] at h; cases h
      · rw [h2] at h; cases h
    · exact h1
  cases execute_ended hf h (by simp) with
  | ended w1 w2 w3 ex ob _ hl hr hbr x ho fin =>
    obtain ⟨hcm, r, hres⟩ := fin.await_ok
    cases ob with
    | blocked => exact absurd rfl ho
    | exc e => cases hcm
    | ok b =>
      have hex : ex = none := by
        cases ex with
        | none => rfl
        | some e =>
          exfalso
          unfold combine at hcm
          simp only [] at hcm
          split at hcm
          · rename_i hb
            have := (x.ok b rfl).2.1 hb
            rw [show w3.cancelled = false from hcan] at this; cases this
          · cases hcm
      subst hex
      intro i hi
      obtain ⟨t, o, h1, _, h2, h3, h4⟩ := alone_copies hl hbr x hcan i hi
      exact ⟨t, o, h1, h2, h3, h4⟩

/-- C69, for an `async with` block: if the body ended without exception and the caller was not cancelled afterwards, every
background copy has ended by itself when the block ends. -/
theorem C69_block_copies_ended (cfg : RCfg) (w : W) (hf : w.Fresh) (evs : List Ev) (w' : W)
    (h : execute .block cfg w evs = (.ok none, w')) (hn : .bodyEnd none ∈ w'.trace) (ht : .thrown ∉ cleanupLog w'.trace) :
    ∀ i ∈ copies cfg, ∃ t o, w'.tasks[i]? = some t ∧ t.out = some o ∧ (∀ e, o ≠ .err e) ∧ t.cancels = 0 := by
  cases execute_ended hf h (by simp) with
  | ended w1 w2 w3 ex ob _ hl hr hbr x ho fin =>
    obtain ⟨l, sp⟩ := hl.split hf hbr x
    have hex : ex = none := (sp.bodyEnd hn).symm
    subst hex
    have ht0 : throwsIn (cleanupLog (w3.stopTimer.log (.auditStop none)).trace) = 0 := List.count_eq_zero.2 ht
    have hth : w3.throws = (w2.log (.bodyEnd none)).throws := by
      have := sp.throwsIn
      have := sp.throws
      omega
    have hcan := not_cancelled hl hbr x hth (by simp)
    cases ob with
    | blocked => exact absurd rfl ho
    | exc e => generalize hoc : combine none (Out.exc e) = oc at fin; cases hoc; cases fin
    | ok b =>
      intro i hi
      obtain ⟨t, o, h1, _, h2, h3, h4⟩ := alone_copies hl hbr x hcan i hi
      exact ⟨t, o, h1, h2, h3, h4⟩

theorem _root_.Shellous.Reports.done {w : W} {i : Nat} {st : Status} (h : Reports w i st)
    (he : ∃ t o, w.tasks[i]? = some t ∧ t.out = some o ∧ (∀ e, o ≠ .err e) ∧ t.cancels = 0) : st = .done := by
  obtain ⟨t, o, ht, ho, hn, hc⟩ := he
  have hout : w.outOf i = some o := by unfold W.outOf; rw [ht]; exact ho
  cases o with
  | val r => exact h.returned r hout
  | err e => exact absurd rfl (hn e)
  | cancelled =>
    obtain ⟨t', ht', h'⟩ := h.cancelled hout
    rw [ht] at ht'; cases ht'
    omega

/-- What a buffer holds when the copy to it is done. -/
theorem bufferCopy_done {limit : Option Int} {evs : List SEv} (h : (bufferCopy limit evs).2 = .done) :
    ended evs = true ∧ (bufferCopy limit evs).1 = upTo limit (written evs) := by
  unfold bufferCopy at h ⊢
  unfold upTo
  cases limit with
  | none =>
    simp only [] at h ⊢
    refine ⟨?_, by simpa using (C14_bytearray_sink [] evs).2 h⟩
    obtain ⟨_, _, _, hd⟩ := copy_plain (fun (d x : Bytes) => d ++ x) [] evs
    exact (hd h).2
  | some n =>
    simp only [] at h ⊢
    split at h
    · cases h
    · rename_i hn
      obtain ⟨h1, _, h3⟩ := (C15_error_limit n.toNat evs).2.2 h
      rw [if_neg hn]
      exact ⟨h3, h1⟩

theorem checkResult_same {r r' : Result} {o : Options} {c t : Bool} (h : checkResult r o c t = .ok r') : r' = r := by
  unfold checkResult at h
  repeat' split at h
  all_goals cases h
  all_goals rfl

theorem runResult_fields {cfg : RCfg} {w : W} {r : Result} (h : (runResult cfg true w []).1 = .ok r) :
    r.outputBytes = cfg.outBytes.getD [] ∧ r.errorBytes = cfg.errBytes.getD [] ∧ r.encoding = cfg.opts.encoding := by
  rw [runResult_out] at h
  unfold runnerResult at h
  generalize runnerReturncode _ _ _ = code at h
  cases code with
  | none => cases h
  | some code =>
    simp only [Bool.not_true, Bool.false_eq_true, if_false] at h
    generalize hk : checkResult _ _ _ _ = k at h
    cases k with
    | error e => cases h
    | ok r' =>
      cases h
      rw [checkResult_same hk]
      exact ⟨rfl, rfl, rfl⟩

theorem final_value {cfg : RCfg} {f : Option Exc} {w w' : W} {evs : List Ev} {v : Option Returned} (hf : w.Fresh)
    (h : execute (.await f) cfg w evs = (.ok v, w')) : ∃ r : Result, r.outputBytes = cfg.outBytes.getD [] ∧
      r.errorBytes = cfg.errBytes.getD [] ∧ r.encoding = cfg.opts.encoding ∧
      (cfg.opts.returnResult = true ∧ v = some (.result r) ∨
        cfg.opts.returnResult = false ∧ ∃ t, cfg.decode r.outputBytes r.encoding = .ok t ∧ v = some (.text t)) := by
  cases execute_ended hf h (by simp) with
  | ended w1 w2 w3 ex ob _ hl hr hbr x ho fin =>
    generalize hh : How.await f = how at fin
    generalize combine ex ob = oc at fin
    cases fin with
    | block h' => rw [h'] at hh; cases hh
    | result f r' v' _ hres hv =>
      obtain ⟨h1, h2, h3⟩ := runResult_fields hres
      refine ⟨r', h1, h2, h3, ?_⟩
      rcases hv with ⟨hx, rfl⟩ | ⟨hx, t, ht, rfl⟩
      · exact .inl ⟨hx, rfl⟩
      · exact .inr ⟨hx, t, ht, rfl⟩

theorem mem_readers {wd : Wired} {x : Stream} {t : IoTask} (h : wd.readers x = [t]) : ∃ k : Nat, wd.tasks[k]? = some t := by
  have : t ∈ wd.readers x := by rw [h]; simp
  exact List.getElem?_of_mem (List.mem_filter.1 this).1

theorem mem_writers {wd : Wired} {x : Stream} {t : IoTask} (h : wd.writers x = [t]) : ∃ k : Nat, wd.tasks[k]? = some t := by
  have : t ∈ wd.writers x := by rw [h]; simp
  exact List.getElem?_of_mem (List.mem_filter.1 this).1

section
variable {sys : Sys} {c : Command} {s0 s : LS} {wd : Wired} {cfg : RCfg} {f : Option Exc} {w w' : W} {evs : List Ev}
  {v : Option Returned} {seen : Stream → List SEv} {wrote : Stream → List WEv} {before after : Objects}

theorem _root_.Shellous.Awaited.done (a : Awaited sys c s0 s wd cfg f w evs v w' seen wrote before after)
    (hc : c.options.catchCancelled = false ∨ w'.timedOut = false) {k : Nat} {t : IoTask} (hk : wd.tasks[k]? = some t)
    {st : Status} (hr : Reports w' (1 + cfg.procsubs + k) st) : st = .done := by
  refine hr.done (C69_copies_ended f cfg w a.fresh evs v w' a.ended (by rw [a.opts]; exact hc) _ ?_)
  have := (List.getElem?_eq_some_iff.1 hk).1
  rw [copies, List.mem_range'_1, a.ioTasks]
  omega

theorem _root_.Shellous.Awaited.gives (a : Awaited sys c s0 s wd cfg f w evs v w' seen wrote before after) {out : Bytes}
    (ho : cfg.outBytes.getD [] = out) : Gives c cfg.decode v out := by
  obtain ⟨r, h1, _, h3, h4⟩ := final_value a.fresh a.ended
  rw [a.opts] at h3 h4
  rw [ho] at h1
  unfold Gives
  rcases h4 with ⟨h, rfl⟩ | ⟨h, t, ht, rfl⟩
  · rw [if_pos h]; exact ⟨r, rfl, h1, h3⟩
  · rw [if_neg (by rw [h]; simp)]
    rw [h1, h3] at ht
    exact ⟨t, rfl, ht⟩

/-- C69: with the output buffered (the default), `await cmd` returns only after the child's standard output has ended, and
what it returns is everything the child wrote there: the bytes of `Result.output_bytes`, or their decoding. -/
theorem C69_stdout (a : Awaited sys c s0 s wd cfg f w evs v w' seen wrote before after)
    (hc : c.options.catchCancelled = false ∨ w'.timedOut = false)
    (ho : c.options.output = .redirect .default ∨ c.options.output = .redirect .buffer) :
    s.stdout = (outEnds s.pty).child ∧ ended (seen (outEnds s.pty).lib) = true ∧
      Gives c cfg.decode v (written (seen (outEnds s.pty).lib)) := by
  have hs : OutCopied wd (outEnds s.pty) s.stdout wd.stdout .outputBytes none := by
    have := C12_stdout c s0 a.launched a.wired
    rcases ho with h | h <;> rw [h] at this <;> exact this
  obtain ⟨h1, h2, _⟩ := hs
  obtain ⟨k, hk⟩ := mem_readers h2
  obtain ⟨hb, hr⟩ := a.output k _ _ hk
  obtain ⟨he, hw⟩ := bufferCopy_done (a.done hc hk hr)
  refine ⟨h1, he, a.gives ?_⟩
  rw [hb, hw]
  rfl

/-- C69: if standard output is discarded and standard error sent there (`stdout=DEVNULL`, `stderr=STDOUT`), what is returned
is everything the child wrote to standard error. -/
theorem C69_stderr_only (a : Awaited sys c s0 s wd cfg f w evs v w' seen wrote before after)
    (hc : c.options.catchCancelled = false ∨ w'.timedOut = false)
    (h1 : c.options.output.eqR .devnull = true) (h2 : c.options.error.eqR .stdout = true) :
    s.stderr = PIPE ∧ ended (seen .procStderr) = true ∧ Gives c cfg.decode v (written (seen .procStderr)) := by
  obtain ⟨_, ⟨hs1, hs2, _⟩, _⟩ := C12_stderr_only c s0 a.launched a.wired h1 h2
  obtain ⟨k, hk⟩ := mem_readers hs2
  obtain ⟨hb, hr⟩ := a.output k _ _ hk
  obtain ⟨he, hw⟩ := bufferCopy_done (a.done hc hk hr)
  refine ⟨hs1, he, a.gives ?_⟩
  rw [hb, hw]
  rfl

/-- C69: with standard error buffered (the default without a terminal), it has ended, and `Result.error_bytes` is what the
child wrote there, up to `error_limit` bytes. -/
theorem C69_stderr (hs : sys.Ok) (a : Awaited sys c s0 s wd cfg f w evs v w' seen wrote before after)
    (hc : c.options.catchCancelled = false ∨ w'.timedOut = false)
    (ho : (c.options.error = .redirect .default ∧ s.pty = none) ∨ c.options.error = .redirect .buffer) (r : Result)
    (hv : v = some (.result r)) :
    s.stderr = PIPE ∧ ended (seen .procStderr) = true ∧
      r.errorBytes = upTo c.options.errorLimit (written (seen .procStderr)) := by
  have hno : ¬ (c.options.output.eqR .devnull = true ∧ c.options.error.eqR .stdout = true) := by
    rintro ⟨_, h⟩
    rcases ho with ⟨h', _⟩ | h' <;> rw [h'] at h <;> cases h
  have hs : OutCopied wd errEnds s.stderr wd.stderr .errorBytes c.options.errorLimit := by
    have := C12_stderr hs c s0 a.launched a.wired hno
    rcases ho with ⟨h, h'⟩ | h <;> rw [h] at this
    · simpa [StderrSpec, h'] using this
    · exact this
  obtain ⟨h1, h2, _⟩ := hs
  obtain ⟨k, hk⟩ := mem_readers h2
  obtain ⟨hb, hr⟩ := a.error k _ _ hk
  obtain ⟨he, hw⟩ := bufferCopy_done (a.done hc hk hr)
  refine ⟨h1, he, ?_⟩
  obtain ⟨r', _, h5, _, h7⟩ := final_value a.fresh a.ended
  rw [hv] at h7
  rcases h7 with ⟨_, h⟩ | ⟨_, t, _, h⟩
  · cases h
    rw [h5, hb]
    exact hw
  · cases h

/-- C69: a command whose input is given as bytes or text returns only after all of it was written to the child's standard
input, and the pipe closed. (The child may have stopped reading: C16.) -/
theorem C69_stdin (a : Awaited sys c s0 s wd cfg f w evs v w' seen wrote before after)
    (hc : c.options.catchCancelled = false ∨ w'.timedOut = false) (hp : s.pty = none) (b : Bytes)
    (hi : sys.inputIs c.options.input b) :
    s.stdin = PIPE ∧ (writeStream b none (wrote .procStdin)).w.closed = true ∧
      (writeStream b none (wrote .procStdin)).w.accepted = b := by
  have hs : InFed s wd (.writeStream b) := by
    have := C11_stdin c s0 a.launched a.wired
    generalize c.options.input = t at hi this
    cases t with
    | redirect q => cases q <;> simp_all [Sys.inputIs, StdinSpec]
    | bytes x => simp only [Sys.inputIs] at hi; subst hi; exact this
    | bytearray id => simp only [Sys.inputIs] at hi; subst hi; exact this
    | bytesIO id => simp only [Sys.inputIs] at hi; subst hi; exact this
    | str x =>
      obtain ⟨b', h1, h2⟩ := this
      simp only [Sys.inputIs, h1, Except.ok.injEq] at hi; subst hi; exact h2
    | stringIO id =>
      obtain ⟨b', h1, h2⟩ := this
      simp only [Sys.inputIs, h1, Except.ok.injEq] at hi; subst hi; exact h2
    | _ => exact hi.elim
  obtain ⟨h1, h2, _⟩ := hs
  rw [hp] at h1 h2
  obtain ⟨k, hk⟩ := mem_writers h2
  have hd := a.done hc hk (a.input k _ _ _ hk)
  obtain ⟨_, _, _, h4, _⟩ := C16_bytes b (wrote .procStdin)
  refine ⟨h1, h4 ?_⟩
  change (writeStream b none (wrote .procStdin)).pc.status = _ at hd
  cases hpc : (writeStream b none (wrote .procStdin)).pc <;> rw [hpc] at hd <;> simp [WPc.status] at hd ⊢

/-- The stream from which a user's object is filled, if it is `t`. -/
theorem user_sink (hs : sys.Ok) (a : Awaited sys c s0 s wd cfg f w evs v w' seen wrote before after) (t : Target)
    (ht : (∃ id, t = .bytesIO id) ∨ (∃ id, t = .bytearray id) ∨ ∃ id, t = .stringIO id) :
    (c.options.output = t → ∃ k : Nat, wd.tasks[k]? = some (.copy (outEnds s.pty).lib (.user t) none)) ∧
    (c.options.error = t → ∃ k : Nat, wd.tasks[k]? = some (.copy .procStderr (.user t) none)) := by
  constructor
  · intro ho
    have := C12_stdout c s0 a.launched a.wired
    rw [ho] at this
    rcases ht with ⟨id, rfl⟩ | ⟨id, rfl⟩ | ⟨id, rfl⟩ <;> exact mem_readers this.2.1
  · intro ho
    have hno : ¬ (c.options.output.eqR .devnull = true ∧ c.options.error.eqR .stdout = true) := by
      rintro ⟨_, h⟩
      rw [ho] at h
      rcases ht with ⟨id, rfl⟩ | ⟨id, rfl⟩ | ⟨id, rfl⟩ <;> cases h
    have := C12_stderr hs c s0 a.launched a.wired hno
    rw [ho] at this
    rcases ht with ⟨id, rfl⟩ | ⟨id, rfl⟩ | ⟨id, rfl⟩ <;> exact mem_readers this.2.1

/-- The streams that are copied to `t`: standard output, or standard error. -/
def _root_.Shellous.Command.copiesTo (c : Command) (s : LS) (t : Target) (x : Stream) : Prop :=
  (c.options.output = t ∧ x = (outEnds s.pty).lib) ∨ (c.options.error = t ∧ x = .procStderr)

theorem user_copy (hs : sys.Ok) (a : Awaited sys c s0 s wd cfg f w evs v w' seen wrote before after) {t : Target}
    (ht : (∃ id, t = .bytesIO id) ∨ (∃ id, t = .bytearray id) ∨ ∃ id, t = .stringIO id) {x : Stream}
    (hx : c.copiesTo s t x) : ∃ k : Nat, wd.tasks[k]? = some (.copy x (.user t) none) := by
  rcases hx with ⟨h, rfl⟩ | ⟨h, rfl⟩
  · exact (user_sink hs a t ht).1 h
  · exact (user_sink hs a t ht).2 h

/-- C69: an output copied to a `BytesIO` has ended when `await cmd` returns, and is in it completely, after the previous
contents if it is appended. -/
theorem C69_bytesIO (hs : sys.Ok) (a : Awaited sys c s0 s wd cfg f w evs v w' seen wrote before after)
    (hc : c.options.catchCancelled = false ∨ w'.timedOut = false) (id : Nat) (x : Stream)
    (hx : c.copiesTo s (.bytesIO id) x) (hk : (before.bytesIO id).seekable = true) :
    ended (seen x) = true ∧ (after.bytesIO id).buf =
      (if c.options.appends x then (before.bytesIO id).buf else []) ++ written (seen x) := by
  obtain ⟨k, h⟩ := user_copy hs a (.inl ⟨id, rfl⟩) hx
  obtain ⟨h1, h2⟩ := a.bytesIO k x id none h
  have hd := a.done hc h h2
  refine ⟨?_, ?_⟩
  · obtain ⟨_, _, _, h4⟩ := copy_plain (fun (d : MemIO UInt8) x => d.write 0 x)
      ((before.bytesIO id).setPosition (c.options.appends x)) (seen x)
    exact (h4 hd).2
  · rw [h1]
    exact (C20_append_overwrite (seen x) (fun _ => .ok []) (c.options.appends x)).1 _ hk hd

/-- C69: the same for a `bytearray`. -/
theorem C69_bytearray (hs : sys.Ok) (a : Awaited sys c s0 s wd cfg f w evs v w' seen wrote before after)
    (hc : c.options.catchCancelled = false ∨ w'.timedOut = false) (id : Nat) (x : Stream)
    (hx : c.copiesTo s (.bytearray id) x) :
    ended (seen x) = true ∧ after.bytearray id =
      (if c.options.appends x then before.bytearray id else []) ++ written (seen x) := by
  obtain ⟨k, h⟩ := user_copy hs a (.inr (.inl ⟨id, rfl⟩)) hx
  obtain ⟨h1, h2⟩ := a.bytearray k x id none h
  have hd := a.done hc h h2
  refine ⟨?_, ?_⟩
  · obtain ⟨_, _, _, h4⟩ := copy_plain (fun (d x : Bytes) => d ++ x)
      (setPositionBytearray (before.bytearray id) (c.options.appends x)) (seen x)
    exact (h4 hd).2
  · rw [h1]
    exact (C20_append_overwrite (seen x) (fun _ => .ok []) (c.options.appends x)).2.2 _ hd

theorem copyStringio_done {decode : Bytes → Except Exc Text} {dest : MemIO Char} (hpos : dest.pos = dest.buf.length)
    {evs : List SEv} (hd : (copyStringio decode dest evs).st = .done) :
    ended evs = true ∧ ∃ t, decode (written evs) = .ok t ∧ (copyStringio decode dest evs).dest.2.buf = dest.buf ++ t := by
  have hfin : ∀ o x, (stringioFinal decode o x).2 ≠ .running := by
    intro o x; unfold stringioFinal
    split
    · simp
    · cases o <;> simp
  obtain ⟨reads, hb, he, hst⟩ := copy_inv (fun (d : Bytes × MemIO Char) x => (d.1 ++ x, d.2))
    (stringioFinal decode) ([], dest) hfin evs
  have hfold : ∀ (reads : List Bytes) (b : Bytes),
      reads.foldl (fun (d : Bytes × MemIO Char) x => (d.1 ++ x, d.2)) (b, dest) = (b ++ reads.flatten, dest) := by
    intro reads
    induction reads with
    | nil => intro b; simp
    | cons r rs ih => intro b; simp [ih]
  rw [hfold, List.nil_append] at hst
  unfold copyStringio at hd ⊢
  generalize copyRun (fun (d : Bytes × MemIO Char) x => (d.1 ++ x, d.2)) (stringioFinal decode) ([], dest) evs = m at *
  rcases hst with h | ⟨o, h1, _, h3⟩
  · rw [h.1] at hd; cases hd
  · rw [hd] at h1
    cases hdec : decode reads.flatten with
    | error e => simp [stringioFinal, hdec] at h1
    | ok t =>
      cases o with
      | some e => simp [stringioFinal, hdec] at h1
      | none =>
        obtain ⟨h4, h5⟩ := h3 rfl
        rw [h4, List.append_nil] at hb
        simp only [stringioFinal, hdec, Prod.mk.injEq] at h1
        refine ⟨h5, t, by rw [← hb, hdec], ?_⟩
        rw [← h1.1, memio_write_end _ _ _ hpos]

/-- C69: the same for a `StringIO`: it gets the decoding of the whole output. -/
theorem C69_stringIO (hs : sys.Ok) (a : Awaited sys c s0 s wd cfg f w evs v w' seen wrote before after)
    (hc : c.options.catchCancelled = false ∨ w'.timedOut = false) (id : Nat) (x : Stream)
    (hx : c.copiesTo s (.stringIO id) x) (hk : (before.stringIO id).seekable = true) :
    ended (seen x) = true ∧ ∃ t, cfg.decode (written (seen x)) c.options.encoding = .ok t ∧ (after.stringIO id).buf =
      (if c.options.appends x then (before.stringIO id).buf else []) ++ t := by
  obtain ⟨k, h⟩ := user_copy hs a (.inr (.inr ⟨id, rfl⟩)) hx
  obtain ⟨h1, h2⟩ := a.stringIO k x id none h
  have hd := a.done hc h h2
  have hpos : ((before.stringIO id).setPosition (c.options.appends x)).pos =
      ((before.stringIO id).setPosition (c.options.appends x)).buf.length := by
    unfold MemIO.setPosition
    rw [hk]
    cases c.options.appends x <;> rfl
  obtain ⟨he, t, ht, hb⟩ := copyStringio_done hpos hd
  refine ⟨he, t, ht, ?_⟩
  rw [h1, hb]
  unfold MemIO.setPosition
  rw [hk]
  cases c.options.appends x <;> rfl

/-- C69: with the output redirected elsewhere (to a file, to an object, to the parent's standard output, or with CAPTURE to a
stream which nobody reads here) `await cmd` gives the empty output. -/
theorem C69_elsewhere (a : Awaited sys c s0 s wd cfg f w evs v w' seen wrote before after)
    (ho : fromDefault c.options.output 1 c.options.pty ≠ .redirect .buffer)
    (hno : ¬ (c.options.output.eqR .devnull = true ∧ c.options.error.eqR .stdout = true)) :
    Gives c cfg.decode v [] := by
  obtain ⟨_, hso, _, _, hns, _⟩ := launch_res a.launched
  have hso' : s.stderrOnly = false := by
    rw [hso]
    cases h1 : c.options.output.eqR .devnull <;> cases h2 : c.options.error.eqR .stdout <;> simp_all
  refine a.gives ?_
  rw [a.noOutput]
  · rfl
  · rw [(hns hso').2.1]; exact decide_eq_false ho

end

/-! ## An execution -/

/-- `echo hi`, with all its options as they are by default, except that a `Result` is returned. -/
def echoHi : Command := exCmd "echo" [.str "hi".toList] { returnResult := true }

/-- The state after its launch. -/
def echoLaunched : LS := (launch (exSys []) echoHi { tab := [0, 1, 2] }).2

/-- Its background copies: stderr, stdout, and the empty stdin. -/
def echoWired : Wired :=
  { tasks := [.copy .procStderr .errorBytes (some 1024), .copy .procStdout .outputBytes none,
      .writeStream [] .procStdin none] }

/-- Its run. -/
def echoCfg : RCfg := { opts := { returnResult := true }, ioTasks := 3, outBytes := some [104, 105, 10], errBytes := some [] }

/-- All goes well. -/
def echoEvents : List Ev :=
  [.resume, .fork, .taskDone 0 (.val none), .resume, .taskDone 3 (.val none), .taskDone 1 (.val none), .exit 0, .reap,
    .taskDone 2 (.val none), .deliver, .taskDone 4 (.val none), .resume, .taskDone 5 (.val none), .resume]

/-- What its streams see: "hi\n" arrives in two pieces. -/
def echoSeen : Stream → List SEv
  | .procStdout => [.feed [104], .go, .go, .feed [105, 10], .eof, .go, .go]
  | _ => [.go, .eof, .go]

/-- Some contents. -/
def noObjects : Objects := ⟨fun _ => ⟨[], 0, true⟩, fun _ => ⟨[], 0, true⟩, fun _ => []⟩

/-- What `echo hi` gives. -/
def hiResult : Result := { exitCode := 0, outputBytes := [104, 105, 10], errorBytes := [], cancelled := false, encoding := "utf-8".toList }

theorem reports_done (w : W) (i : Nat) (h : ∃ r, w.outOf i = some (.val r)) : Reports w i .done :=
  ⟨fun _ _ => rfl, fun hc => by obtain ⟨r, h⟩ := h; rw [h] at hc; cases hc⟩

/-- C69: there are executions as in the theorems. -/
theorem echo_awaited : Awaited (exSys []) echoHi { tab := [0, 1, 2] } echoLaunched echoWired echoCfg none {} echoEvents
    (some (.result hiResult)) (execute (.await none) echoCfg {} echoEvents).2 echoSeen (fun _ => [.go]) noObjects noObjects where
  launched := by
    have : (launch (exSys []) echoHi { tab := [0, 1, 2] }).1 = .ok () := rfl
    unfold echoLaunched
    rw [← this]
  wired := rfl
  opts := rfl
  ioTasks := rfl
  fresh := fresh_default false 0
  ended := by
    have : (execute (.await none) echoCfg {} echoEvents).1 = .ok (some (.result hiResult)) := by decide +kernel
    rw [← this]
  output k src limit h := by
    rcases k with _ | _ | _ | k <;> simp [echoWired] at h
    obtain ⟨rfl, rfl⟩ := h
    refine ⟨by decide +kernel, ?_⟩
    have : (bufferCopy none (echoSeen .procStdout)).2 = .done := by decide +kernel
    rw [this]
    exact reports_done _ _ ⟨none, by decide +kernel⟩
  error k src limit h := by
    rcases k with _ | _ | _ | k <;> simp [echoWired] at h
    obtain ⟨rfl, rfl⟩ := h
    refine ⟨by decide +kernel, ?_⟩
    have : (bufferCopy (some 1024) (echoSeen .procStderr)).2 = .done := by decide +kernel
    rw [this]
    exact reports_done _ _ ⟨none, by decide +kernel⟩
  noOutput h := by cases h
  noError h := by cases h
  bytesIO k src id limit h := by rcases k with _ | _ | _ | k <;> simp [echoWired] at h
  bytearray k src id limit h := by rcases k with _ | _ | _ | k <;> simp [echoWired] at h
  stringIO k src id limit h := by rcases k with _ | _ | _ | k <;> simp [echoWired] at h
  input k b dst eof h := by
    rcases k with _ | _ | _ | k <;> simp [echoWired] at h
    obtain ⟨rfl, rfl, rfl⟩ := h
    have : (writeStream [] none [.go]).pc.status = .done := by decide +kernel
    rw [this]
    exact reports_done _ _ ⟨none, by decide +kernel⟩

/-- The theorems above, for it. -/
example : written (echoSeen .procStdout) = [104, 105, 10] ∧ ended (echoSeen .procStdout) = true := by decide

/-- `echo hi`, with a timeout and `catch_cancelled`, when only "h" has been copied. -/
def timedEcho : RCfg :=
  { ioTasks := 3, outBytes := some [104], decode := fun b _ => .ok (b.map fun x => Char.ofNat x.toNat)
    opts := { catchCancelled := true, timeout := some 1 } }

/-- C69 is false of a command with `catch_cancelled` and a `timeout`, if the child ends with exit code 0 after the signal:
`await` returns normally, with the part of the output that had been copied when the timer went off. The copy of stdout
(task 2) was cancelled. -/
theorem C69_timeout_false :
    ∃ evs, (execute (.await none) timedEcho {} evs).1 = .ok (some (.text ['h'])) ∧
      (execute (.await none) timedEcho {} evs).2.outOf 2 = some .cancelled :=
  ⟨[.resume, .fork, .taskDone 0 (.val none), .resume, .taskDone 3 (.val none), .timer, .resume, .taskDone 1 .cancelled,
    .taskDone 2 .cancelled, .taskDone 4 .cancelled, .resume, .exit 0, .reap, .deliver, .taskDone 5 (.val none), .resume,
    .taskDone 6 (.val none), .resume], by decide +kernel⟩

end Shellous.Props
