import Verif.Spec.Watcher
import Verif.Lemmas.Upd

/-!
# Invariants of the child watcher
-/

namespace Shellous

/-- The steps, case by case. -/
inductive WStep (w : WW) : WatchEv → WW → Prop
  | fork (pid) : w.proc pid = none →
      WStep w (.fork pid) { w with proc := upd w.proc pid (some w.nChildren), nChildren := w.nChildren + 1 }
  | exits (pid raw c) : w.proc pid = some c → w.exited c = none →
      WStep w (.exits pid raw) { w with exited := upd w.exited c (some raw) }
  | reapElsewhere (pid c) : w.proc pid = some c → w.exited c ≠ none →
      WStep w (.reapElsewhere pid) { w with proc := upd w.proc pid none, stolen := true }
  | otherOpen (fd) : w.fds fd = none → WStep w (.otherOpen fd) { w with fds := upd w.fds fd (some .other) }
  | otherClose (fd) : w.fds fd = some .other → WStep w (.otherClose fd) { w with fds := upd w.fds fd none }
  | watch (pid c) : w.proc pid = some c →
      WStep w (.watch pid) { w with nCalls := w.nCalls + 1, pc := upd w.pc w.nCalls .start, pid := upd w.pid w.nCalls pid,
                                    target := upd w.target w.nCalls c }
  | openOk (i fd c) : w.pc i = .start → w.fds fd = none → w.proc (w.pid i) = some c →
      WStep w (.openPidfd i (some fd)) { w with fds := upd w.fds fd (some (.pidfd c i)), pc := upd w.pc i (.opened fd) }
  | openFail (i) : w.pc i = .start → WStep w (.openPidfd i none) { w with pc := upd w.pc i .err }
  | insert (i fd) : w.pc i = .opened fd →
      WStep w (.insert i) { w with dict := upd w.dict fd (some (w.pid i, i)), pc := upd w.pc i (.inserted fd) }
  | registerOk (i fd) : w.pc i = .inserted fd → w.epollOpen = true → w.fds fd ≠ none → fd ∉ w.reg →
      WStep w (.register i true) { w with reg := fd :: w.reg, pc := upd w.pc i (.done fd) }
  | registerFail (i fd) : w.pc i = .inserted fd → WStep w (.register i false) { w with pc := upd w.pc i .err }
  | kill (i) : w.pc i = .err →
      WStep w (.kill i) { w with kills := (i, w.proc (w.pid i)) :: w.kills, pc := upd w.pc i (.polling 5) }
  | tryNone (i n c) : w.pc i = .polling (n + 1) → w.proc (w.pid i) = some c → w.exited c = none →
      WStep w (.pollTry i) { w with pc := upd w.pc i (.polling n) }
  | tryGone (i n) : w.pc i = .polling (n + 1) → w.proc (w.pid i) = none →
      WStep w (.pollTry i) { w with reports := (i, w.pid i, 255) :: w.reports, pc := upd w.pc i .finished }
  | tryOk (i n c raw) : w.pc i = .polling (n + 1) → w.proc (w.pid i) = some c → w.exited c = some raw →
      WStep w (.pollTry i) { w with proc := upd w.proc (w.pid i) none, reports := (i, w.pid i, exitStatus raw) :: w.reports,
                                    pc := upd w.pc i .finished }
  | pollStop (i n) : w.pc i = .polling n → WStep w (.pollStop i) { w with pc := upd w.pc i .finished }
  | closeCall : w.selfpipe ≠ none → WStep w .closeCall { w with closers := w.closers + 1 }
  | writeNone : w.closers ≠ 0 → w.selfpipe = none → WStep w .closeWrite { w with closers := w.closers - 1 }
  | writePipe (r wr) : w.closers ≠ 0 → w.selfpipe = some (r, wr) → w.fds wr = some .pipeW →
      WStep w .closeWrite { w with closers := w.closers - 1, pipeWritten := true }
  | writeOther (r wr) : w.closers ≠ 0 → w.selfpipe = some (r, wr) → w.fds wr = some .other →
      WStep w .closeWrite { w with closers := w.closers - 1, strayWrites := w.strayWrites + 1 }
  | writeErr (r wr) : w.closers ≠ 0 → w.selfpipe = some (r, wr) → w.fds wr ≠ some .other → w.fds wr ≠ some .pipeW →
      WStep w .closeWrite { w with closers := w.closers - 1 }
  | poll (l) : w.tpc = .poll → l ≠ [] → l.Nodup → WStep w (.poll l) { w with tpc := .loop l }
  | again : w.tpc = .loop [] → WStep w .next { w with tpc := .poll }
  | leave (fd rest) : w.tpc = .loop (fd :: rest) → fd = w.pipeFd →
      WStep w .next { w with tpc := .fin, left := some .closed }
  | pop (fd rest pid i) : w.tpc = .loop (fd :: rest) → fd ≠ w.pipeFd → w.dict fd = some (pid, i) →
      WStep w .next { w with dict := upd w.dict fd none, tpc := .waiting fd pid i rest }
  | popFail (fd rest) : w.tpc = .loop (fd :: rest) → fd ≠ w.pipeFd → w.dict fd = none →
      WStep w .next { w with tpc := .fin, left := some .keyError }
  | waitNone (fd pid i rest c) : w.tpc = .waiting fd pid i rest → w.proc pid = some c → w.exited c = none →
      WStep w .wait { w with tpc := .removing fd rest }
  | waitGone (fd pid i rest) : w.tpc = .waiting fd pid i rest → w.proc pid = none →
      WStep w .wait { w with tpc := .calling fd pid i 255 rest }
  | waitOk (fd pid i rest c raw) : w.tpc = .waiting fd pid i rest → w.proc pid = some c → w.exited c = some raw →
      WStep w .wait { w with proc := upd w.proc pid none, tpc := .calling fd pid i (exitStatus raw) rest }
  | callbackRaised (fd pid i st rest) : w.tpc = .calling fd pid i st rest →
      WStep w (.callback .otherError)
        { w with reports := (i, pid, st) :: w.reports, tpc := .fin, left := some .callbackRaised }
  | callback (e fd pid i st rest) : w.tpc = .calling fd pid i st rest → e ≠ .otherError →
      WStep w (.callback e) { w with reports := (i, pid, st) :: w.reports, tpc := .removing fd rest }
  | unregister (fd rest) : w.tpc = .removing fd rest → fd ∈ w.reg →
      WStep w .unregister { w with reg := w.reg.filter (· ≠ fd), tpc := .closing fd rest }
  | unregisterFail (fd rest) : w.tpc = .removing fd rest → fd ∉ w.reg →
      WStep w .unregister { w with tpc := .fin, left := some .osError }
  | closeFd (fd rest) : w.tpc = .closing fd rest → w.fds fd ≠ none →
      WStep w .closeFd { w.closeNum fd with tpc := .loop rest }
  | closeFdFail (fd rest) : w.tpc = .closing fd rest → w.fds fd = none →
      WStep w .closeFd { w with tpc := .fin, left := some .osError }
  | epollClose : w.tpc = .fin → WStep w .epollClose { w with epollOpen := false, reg := [], tpc := .finKeys }
  | readKeys (ks r wr) : w.tpc = .finKeys → w.selfpipe = some (r, wr) →
      WStep w (.readKeys ks) { w with tpc := .finClose (ks ++ [r, wr]) }
  | closeOne (fd rest) : w.tpc = .finClose (fd :: rest) → WStep w .closeOne { w.closeNum fd with tpc := .finClose rest }
  | clearPipe : w.tpc = .finClose [] → WStep w .clearPipe { w with selfpipe := none, tpc := .ended }

theorem wstep_of {w w' : WW} {ev : WatchEv} (h : w.step ev = some w') : WStep w ev w' := by
  cases ev with
  | fork pid =>
    simp only [WW.step, WW.outsideStep, WW.callStep, WW.threadStep] at h
    by_cases hp : w.proc pid = none
    · simp only [hp, if_true] at h; cases h; exact .fork pid hp
    · simp [hp] at h
  | exits pid raw =>
    simp only [WW.step, WW.outsideStep, WW.callStep, WW.threadStep] at h
    cases hp : w.proc pid with
    | none => simp [hp] at h
    | some c =>
      by_cases he : w.exited c = none
      · simp [hp, he] at h; cases h; exact .exits pid raw c hp he
      · simp [hp, he] at h
  | reapElsewhere pid =>
    simp only [WW.step, WW.outsideStep, WW.callStep, WW.threadStep] at h
    cases hp : w.proc pid with
    | none => simp [hp] at h
    | some c =>
      by_cases he : w.exited c = none
      · simp [hp, he] at h
      · simp [hp, he] at h; cases h; exact .reapElsewhere pid c hp he
  | otherOpen fd =>
    simp only [WW.step, WW.outsideStep, WW.callStep, WW.threadStep] at h
    by_cases hp : w.fds fd = none
    · simp [hp] at h; cases h; exact .otherOpen fd hp
    · simp [hp] at h
  | otherClose fd =>
    simp only [WW.step, WW.outsideStep, WW.callStep, WW.threadStep] at h
    by_cases hp : w.fds fd = some .other
    · simp [hp] at h; cases h; exact .otherClose fd hp
    · simp [hp] at h
  | watch pid =>
    simp only [WW.step, WW.outsideStep, WW.callStep, WW.threadStep] at h
    cases hp : w.proc pid with
    | none => simp [hp] at h
    | some c => simp [hp] at h; cases h; exact .watch pid c hp
  | openPidfd i res =>
    by_cases hs : w.pc i = .start
    · cases res with
      | none => simp [WW.step, WW.outsideStep, WW.callStep, WW.threadStep, hs] at h; cases h; exact .openFail i hs
      | some fd =>
        simp only [WW.step, WW.outsideStep, WW.callStep, WW.threadStep, WW.pidfdOpen, hs, if_true] at h
        cases hf : w.fds fd with
        | some x => simp [hf] at h
        | none =>
          cases hp : w.proc (w.pid i) with
          | none => simp [hf, hp] at h
          | some c => simp [hf, hp] at h; cases h; exact .openOk i fd c hs hf hp
    · cases res <;> simp [WW.step, WW.outsideStep, WW.callStep, WW.threadStep, hs] at h
  | insert i =>
    simp only [WW.step, WW.outsideStep, WW.callStep, WW.threadStep] at h
    cases hs : w.pc i <;> simp [hs] at h
    cases h; exact .insert i _ hs
  | register i ok =>
    cases ok with
    | false =>
      simp only [WW.step, WW.outsideStep, WW.callStep, WW.threadStep] at h
      cases hs : w.pc i <;> simp [hs] at h
      cases h; exact .registerFail i _ hs
    | true =>
      simp only [WW.step, WW.outsideStep, WW.callStep, WW.threadStep] at h
      cases hs : w.pc i with
      | inserted fd =>
        simp only [hs] at h
        by_cases hc : w.epollOpen = true ∧ w.fds fd ≠ none ∧ fd ∉ w.reg
        · rw [if_pos hc] at h; cases h; exact .registerOk i fd hs hc.1 hc.2.1 hc.2.2
        · rw [if_neg hc] at h; cases h
      | _ => simp [hs] at h
  | kill i =>
    simp only [WW.step, WW.outsideStep, WW.callStep, WW.threadStep] at h
    cases hs : w.pc i <;> simp [hs] at h
    cases h; exact .kill i hs
  | pollTry i =>
    simp only [WW.step, WW.outsideStep, WW.callStep, WW.threadStep, WW.waitPid] at h
    cases hs : w.pc i with
    | polling n =>
      cases n with
      | zero => simp [hs] at h
      | succ n =>
        cases hp : w.proc (w.pid i) with
        | none => simp [hs, hp] at h; cases h; exact .tryGone i n hs hp
        | some c =>
          cases he : w.exited c with
          | none => simp [hs, hp, he] at h; cases h; exact .tryNone i n c hs hp he
          | some raw => simp [hs, hp, he] at h; cases h; exact .tryOk i n c raw hs hp he
    | _ => simp [hs] at h
  | pollStop i =>
    simp only [WW.step, WW.outsideStep, WW.callStep, WW.threadStep] at h
    cases hs : w.pc i <;> simp [hs] at h
    cases h; exact .pollStop i _ hs
  | closeCall =>
    simp only [WW.step, WW.outsideStep, WW.callStep, WW.threadStep] at h
    by_cases hp : w.selfpipe = none
    · simp [hp] at h
    · simp [hp] at h; cases h; exact .closeCall hp
  | closeWrite =>
    simp only [WW.step, WW.outsideStep, WW.callStep, WW.threadStep] at h
    by_cases hc : w.closers = 0
    · simp [hc] at h
    · rw [if_neg hc] at h
      split at h
      · rename_i h'
        cases h
        split at h'
        · rename_i hp; cases h'; exact .writeNone hc hp
        · rename_i r wr hp
          split at h'
          · rename_i hf; cases h'; exact .writePipe r wr hc hp hf
          · rename_i hf; cases h'; exact .writeOther r wr hc hp hf
          · rename_i hf1 hf2; cases h'; exact .writeErr r wr hc hp hf2 hf1
      · cases h
  | poll l =>
    simp only [WW.step, WW.outsideStep, WW.callStep, WW.threadStep] at h
    by_cases hc : w.tpc = .poll ∧ l ≠ [] ∧ l.Nodup
    · rw [if_pos hc] at h; cases h; exact .poll l hc.1 hc.2.1 hc.2.2
    · rw [if_neg hc] at h; cases h
  | next =>
    simp only [WW.step, WW.outsideStep, WW.callStep, WW.threadStep] at h
    cases ht : w.tpc with
    | loop l =>
      cases l with
      | nil => simp [ht] at h; cases h; exact .again ht
      | cons fd rest =>
        by_cases hf : fd = w.pipeFd
        · simp [ht, hf] at h; cases h; exact .leave fd rest ht hf
        · cases hd : w.dict fd with
          | none => simp [ht, hf, hd] at h; cases h; exact .popFail fd rest ht hf hd
          | some x => simp [ht, hf, hd] at h; cases h; exact .pop fd rest x.1 x.2 ht hf hd
    | _ => simp [ht] at h
  | wait =>
    simp only [WW.step, WW.outsideStep, WW.callStep, WW.threadStep, WW.waitPid] at h
    cases ht : w.tpc with
    | waiting fd pid i rest =>
      cases hp : w.proc pid with
      | none => simp [ht, hp] at h; cases h; exact .waitGone fd pid i rest ht hp
      | some c =>
        cases he : w.exited c with
        | none => simp [ht, hp, he] at h; cases h; exact .waitNone fd pid i rest c ht hp he
        | some raw => simp [ht, hp, he] at h; cases h; exact .waitOk fd pid i rest c raw ht hp he
    | _ => simp [ht] at h
  | callback e =>
    simp only [WW.step, WW.outsideStep, WW.callStep, WW.threadStep] at h
    cases ht : w.tpc with
    | calling fd pid i st rest =>
      by_cases he : e = .otherError
      · subst he; simp [ht] at h; cases h; exact .callbackRaised fd pid i st rest ht
      · simp [ht, he] at h; cases h; exact .callback e fd pid i st rest ht he
    | _ => simp [ht] at h
  | unregister =>
    simp only [WW.step, WW.outsideStep, WW.callStep, WW.threadStep] at h
    cases ht : w.tpc with
    | removing fd rest =>
      simp only [ht] at h
      by_cases he : fd ∈ w.reg
      · rw [if_pos he] at h; cases h; exact .unregister fd rest ht he
      · rw [if_neg he] at h; cases h; exact .unregisterFail fd rest ht he
    | _ => simp [ht] at h
  | closeFd =>
    simp only [WW.step, WW.outsideStep, WW.callStep, WW.threadStep] at h
    cases ht : w.tpc with
    | closing fd rest =>
      simp only [ht] at h
      by_cases he : w.fds fd = none
      · rw [if_pos he] at h; cases h; exact .closeFdFail fd rest ht he
      · rw [if_neg he] at h; cases h; exact .closeFd fd rest ht he
    | _ => simp [ht] at h
  | epollClose =>
    simp only [WW.step, WW.outsideStep, WW.callStep, WW.threadStep] at h
    cases ht : w.tpc <;> simp [ht] at h
    cases h; exact .epollClose ht
  | readKeys ks =>
    simp only [WW.step, WW.outsideStep, WW.callStep, WW.threadStep] at h
    split at h
    · rename_i r wr ht hp; cases h; exact .readKeys ks r wr ht hp
    · cases h
  | closeOne =>
    simp only [WW.step, WW.outsideStep, WW.callStep, WW.threadStep] at h
    cases ht : w.tpc with
    | finClose l =>
      cases l with
      | nil => simp [ht] at h
      | cons fd rest => simp [ht] at h; cases h; exact .closeOne fd rest ht
    | _ => simp [ht] at h
  | clearPipe =>
    simp only [WW.step, WW.outsideStep, WW.callStep, WW.threadStep] at h
    cases ht : w.tpc with
    | finClose l =>
      cases l with
      | nil => simp [ht] at h; cases h; exact .clearPipe ht
      | cons fd rest => simp [ht] at h
    | _ => simp [ht] at h

theorem whist_ind {r wr : Nat} {P : WW → Prop} (h0 : r ≠ wr → P (WW.init r wr))
    (h1 : ∀ w w' ev, P w → w.gives ev → WStep w ev w' → P w') {l : List WatchEv} {w : WW} (h : WHist r wr l w) : P w := by
  induction h with
  | start hne => exact h0 hne
  | step ev _ hg hs ih => exact h1 _ _ ev ih hg (wstep_of hs)

/-- The children, and the calls of `watch_pid`. -/
structure WKids (w : WW) : Prop where
  /-- the calls are numbered -/
  born : ∀ i, w.pc i = .unborn ↔ w.nCalls ≤ i
  /-- the children are numbered -/
  kid : ∀ p c, w.proc p = some c → c < w.nChildren
  dead : ∀ c, w.exited c ≠ none → c < w.nChildren
  tgt : ∀ i, i < w.nCalls → w.target i < w.nChildren
  /-- a child keeps its process id until it is reaped, after it has exited -/
  held : ∀ i, i < w.nCalls → w.proc (w.pid i) = some (w.target i) ∨ ChildExited w i
  /-- what a pidfd refers to -/
  pidfd : ∀ fd c i, w.fds fd = some (.pidfd c i) → i < w.nCalls ∧ (c = w.target i ∨ ChildExited w i)

theorem wkids {r wr : Nat} {l : List WatchEv} {w : WW} (h : WHist r wr l w) : WKids w := by
  refine whist_ind (fun hne => ?_) (fun w w' ev ih hg hs => ?_) h
  · refine ⟨?_, ?_, ?_, ?_, ?_, ?_⟩ <;> simp [WW.init, upd] <;> grind
  · obtain ⟨i1, i2, i3, i4, i5, i6⟩ := ih
    unfold ChildExited at *
    cases hs <;> refine ⟨?_, ?_, ?_, ?_, ?_, ?_⟩ <;> simp only [upd, WW.closeNum, ChildExited] <;> grind

end Shellous
