import Verif.Props.Prompt
import Verif.Model.Term

/-!
# C54, C55, C60: sending, secrets and the echo switch
-/

namespace Shellous.Props

open Shellous

/-! ## C54 -/

theorem readChunk_written (cfg : PCfg) (p : PS) (c : Bytes) : (p.readChunk cfg c).2.written = p.written := by
  simp only [PS.readChunk]
  split <;> simp

theorem someStep_written (cfg : PCfg) (p : PS) (c : Bytes) : (someStep cfg p c).1.written = p.written := by
  have hg := readChunk_written cfg p c
  simp only [someStep]
  split <;> (rename_i hr; rw [hr] at hg; exact hg)

theorem patStep_written (cfg : PCfg) (pat : Pattern) (p : PS) (c : Bytes) :
    (patStep cfg pat p c).1.written = p.written := by
  have hg := readChunk_written cfg p c
  simp only [patStep]
  split
  · rename_i hr; rw [hr] at hg; exact hg
  · rename_i hr
    rw [hr] at hg
    split
    · exact hg
    · split
      · rename_i hs
        simp only [PS.searchPending] at hs
        split at hs
        · cases hs
        · cases hs; simpa using hg
      · split <;> exact hg

theorem expectLoop_written (cfg : PCfg) (pat : Pattern) (timer : Bool) (evs : List PEv) :
    ∀ (r : Option MatchRes) (p : PS), (expectLoop cfg pat timer evs r p).2.1.written = p.written := by
  induction evs with
  | nil => intro r p; rcases r with _ | ⟨e | ⟨t, m⟩⟩ <;> rfl
  | cons ev evs ih =>
    intro r p
    rcases r with _ | ⟨e | ⟨t, m⟩⟩ <;> cases ev <;> first
      | exact ih _ _
      | exact (ih _ _).trans (patStep_written _ _ _ _)
      | (simp only [expectLoop]; split <;> first | (simp; done) | exact ih _ _)
      | simp [expectLoop]

theorem readAllLoop_written (cfg : PCfg) (timer : Bool) (evs : List PEv) :
    ∀ (r : Option (Except Exc Unit)) (p : PS), (readAllLoop cfg timer evs r p).2.1.written = p.written := by
  induction evs with
  | nil => intro r p; rfl
  | cons ev evs ih =>
    intro r p
    rcases r with _ | ⟨e | u⟩ <;> cases ev <;> first
      | exact ih _ _
      | exact (ih _ _).trans (someStep_written _ _ _)
      | (simp only [readAllLoop]; split <;> first | rfl | exact ih _ _)
      | rfl

theorem drainLoop_written (cfg : PCfg) (timer : Bool) (evs : List PEv) :
    ∀ (r : DrainReader) (p : PS), (drainLoop cfg timer evs r p).2.1.written = p.written := by
  induction evs with
  | nil => intro r p; rfl
  | cons ev evs ih =>
    intro r p
    cases r <;> cases ev <;> first
      | exact ih _ _
      | exact (ih _ _).trans (someStep_written _ _ _)
      | (simp only [drainLoop]; split <;> first | rfl | exact ih _ _)
      | rfl

theorem expect_written (cfg : PCfg) (arg : PromptArg) (timeout : Option Nat) (evs : List PEv) (p : PS) :
    (expect cfg arg timeout evs p).2.1.written = p.written := by
  simp only [expect]
  split
  · rfl
  · simp only [expectPat]
    split
    · rename_i hs
      split at hs
      · cases hs
      · simp only [PS.searchPending] at hs
        split at hs
        · cases hs
        · cases hs; simp
    · split
      · rfl
      · exact expectLoop_written _ _ _ _ _ _

theorem readAll_written (cfg : PCfg) (timeout : Option Nat) (evs : List PEv) (p : PS) :
    (readAll cfg timeout evs p).2.1.written = p.written := by
  simp only [readAll]
  split
  · rfl
  · exact readAllLoop_written _ _ _ _ _

theorem sendNow_written (cfg : PCfg) (t : SendText) (e : Option Text) (n : Bool) (timeout : Option Nat)
    (evs : List PEv) (p : PS) (data : Bytes) (hdata : sendData cfg t e = .ok data) :
    (sendNow cfg t e n timeout evs p).2.1.written = p.written ++ data := by
  simp only [sendNow, hdata]
  rw [drainLoop_written]
  simp

/-- What `send(text, end=end)` has to write with the UTF-8 encoding. -/
def sendBytes (t : SendText) (e : Option Text) : Bytes :=
  (match t with | .bytes b => b | .str s => encodeUtf8 s) ++
  (match e with | none => [] | some e => encodeUtf8 e)

theorem sendData_utf8 (cfg : PCfg) (h : ∀ t, cfg.encode t = .ok (encodeUtf8 t)) (t : SendText)
    (e : Option Text) : sendData cfg t e = .ok (sendBytes t e) := by
  cases t with
  | bytes b =>
    simp only [sendData, h, sendBytes]
    cases e <;> rfl
  | str s =>
    simp only [sendData, h, sendBytes]
    cases e <;> simp [encodeUtf8]

/-- **C54.** `send` writes exactly the encoded text followed by the encoded line ending, once, however it
ends (drained, failed, timed out, cancelled, still waiting). -/
theorem C54_send_writes_exactly (cfg : PCfg) (h : ∀ t, cfg.encode t = .ok (encodeUtf8 t)) (t : SendText)
    (e : Option Text) (timeout : Option Nat) (polls : List Poll) (evs : List PEv) (p : PS) :
    (send cfg t e false timeout polls evs p).2.1.written = p.written ++ sendBytes t e := by
  simp only [send, Bool.false_eq_true, if_false]
  exact sendNow_written _ _ _ _ _ _ _ _ (sendData_utf8 cfg h t e)

/-- **C54** for any encoding: a string is encoded together with its line ending; raw bytes are written
unchanged, followed by the encoded line ending; what cannot be encoded raises and writes nothing. -/
theorem C54_any_encoding (cfg : PCfg) (t : SendText) (e : Option Text) (timeout : Option Nat)
    (polls : List Poll) (evs : List PEv) (p : PS) :
    match (match t with
      | .str s => cfg.encode (s ++ e.getD [])
      | .bytes b => (cfg.encode (e.getD [])).map (b ++ ·)) with
    | .ok data => (send cfg t e false timeout polls evs p).2.1.written = p.written ++ data
    | .error x => send cfg t e false timeout polls evs p = (.exc x, p, evs) := by
  simp only [send, Bool.false_eq_true, if_false]
  cases t with
  | str s =>
    simp only
    cases hx : cfg.encode (s ++ e.getD []) with
    | error x => simp [sendNow, sendData, hx]
    | ok d => exact sendNow_written _ _ _ _ _ _ _ _ hx
  | bytes b =>
    simp only
    cases hx : cfg.encode (e.getD []) with
    | error x => simp [sendNow, sendData, hx, Except.map]
    | ok d => exact sendNow_written _ _ _ _ _ _ _ _ (by simp [sendData, hx])

/-- What a call asks to be written (`command` is not covered here). -/
def asked : POp → Bytes
  | .send t e _ _ => sendBytes t e
  | _ => []

/-- **C54.** Over a session of sends and reads, the co-process gets exactly the requested bytes in order:
nothing is repeated, left out or put in between. -/
theorem C54_session_writes_in_order (cfg : PCfg) (h : ∀ t, cfg.encode t = .ok (encodeUtf8 t))
    (calls : List PCall)
    (hk : ∀ c ∈ calls, (∃ a t, c.op = .expect a t) ∨ (∃ t, c.op = .readAll t) ∨ c.op = .readPending ∨
      ∃ t e to, c.op = .send t e false to) (p : PS) :
    (session cfg calls p).2.written = p.written ++ calls.flatMap fun c => asked c.op := by
  induction calls generalizing p with
  | nil => simp [session]
  | cons c cs ih =>
    simp only [session, List.flatMap_cons]
    rw [ih (fun c hc => hk c (by simp [hc]))]
    rw [← List.append_assoc]
    congr 1
    rcases hk c (by simp) with ⟨a, t, hc⟩ | ⟨t, hc⟩ | hc | ⟨t, e, to, hc⟩
    · rw [hc]; simp [POp.run, asked, expect_written]
    · rw [hc]; simp [POp.run, asked, readAll_written]
    · rw [hc]; simp [POp.run, asked, readPending]
    · rw [hc]; exact C54_send_writes_exactly cfg h t e to c.polls c.evs p

/-- **C54.** `command` writes exactly its text too, unless the output has already ended (EOFError). -/
theorem C54_command_writes_exactly (cfg : PCfg) (h : ∀ t, cfg.encode t = .ok (encodeUtf8 t)) (t : SendText)
    (e : Option Text) (arg : PromptArg) (timeout : Option Nat) (a : Bool) (polls : List Poll)
    (evs : List PEv) (p : PS) :
    (p.atEof = false →
      (command cfg t e false arg timeout a polls evs p).2.1.written = p.written ++ sendBytes t e) ∧
    (p.atEof = true → command cfg t e false arg timeout a polls evs p = (.exc .eofError, p, evs)) := by
  refine ⟨?_, ?_⟩
  · intro he
    have hs := C54_send_writes_exactly cfg h t e timeout polls evs p
    simp only [command, he, Bool.false_eq_true, if_false]
    split
    · rename_i p' evs' heq
      rw [heq] at hs
      have hx := expect_written cfg arg timeout evs' p'
      generalize expect cfg arg timeout evs' p' = r at *
      obtain ⟨o, p2, evs2⟩ := r
      simp only [commandEnd]
      split
      · rename_i heq2
        cases heq2
        split
        · exact hx.trans hs
        · exact hx.trans hs
      · exact hx.trans hs
    · exact hs
  · intro he
    simp [command, he]

/-- **C54** (delivery): when the co-process's output has ended, so that the reader has nothing to do, a
failure of draining is reported. Missing: the usual case, `C54_drain_error_false`. -/
theorem C54_failure_reported_partial (cfg : PCfg) (t : SendText) (e : Option Text) (timeout : Option Nat)
    (polls : List Poll) (post : List PEv) (x : Exc) (p : PS) (hp : p.atEof = true)
    (hdata : ∃ d, sendData cfg t e = .ok d) :
    (send cfg t e false timeout polls (.resume :: .drainErr x :: post) p).1 = .exc x := by
  obtain ⟨d, hd⟩ := hdata
  simp [send, sendNow, hd, drainLoop, drainStart, hp]

/-- **C54** is false here: while the co-process's output is open, `send` returns normally although the
data could not be delivered (the error of draining is replaced by the cancellation of the reader). -/
theorem C54_drain_error_false (cfg : PCfg) (t : SendText) (e : Option Text) (timeout : Option Nat)
    (polls : List Poll) (post : List PEv) (x : Exc) (p : PS) (hp : p.atEof = false)
    (hdata : ∃ d, sendData cfg t e = .ok d) :
    (send cfg t e false timeout polls (.drainErr x :: post) p).1 = .done ∧
    (send cfg t e false timeout polls (.resume :: .drainErr x :: post) p).1 = .done := by
  obtain ⟨d, hd⟩ := hdata
  simp [send, sendNow, hd, drainLoop, drainStart, hp]

/-- "exit\n" and a lone interrupt character. -/
example :
    (session { encode := fun t => .ok (encodeUtf8 t) }
      [{ op := .send (.str ['h', 'é']) (some ['\n']) false none, evs := [.drained] },
       { op := .send (.bytes [3]) none false none, evs := [.cancel] }]
      (freshPrompt (utf8Prompt .strict))).2.written = [0x68, 0xC3, 0xA9, 0x0A, 3] := by
  rw [C54_session_writes_in_order _ (fun _ => rfl) _ (by simp)]
  decide +kernel

/-! ## C55 -/

/-- Echo was on at the polls before the `n`th and off there. -/
def EchoOffAt (cfg : PCfg) (polls : List Poll) (n : Nat) : Prop :=
  (∃ b, polls[n]? = some (.echo b) ∧ (cfg.pty = true → b = false)) ∧
  ∀ m, m < n → polls[m]? = some (.echo true) ∧ cfg.pty = true

theorem pollEcho_none (cfg : PCfg) (k : Nat) (polls : List Poll) (h : pollEcho cfg k polls = none) :
    ∃ n, n < k ∧ EchoOffAt cfg polls n := by
  induction k generalizing polls with
  | zero => rcases polls with _ | ⟨_ | _, _⟩ <;> cases h
  | succ k ih =>
    rcases polls with _ | ⟨on | _, ps⟩
    · cases h
    · simp only [pollEcho] at h
      split at h
      · rename_i hseen
        simp only [echoSeen, Bool.and_eq_true] at hseen
        obtain ⟨n, hn, ⟨b, hb, hbo⟩, hm⟩ := ih _ h
        refine ⟨n + 1, by omega, ⟨b, by simpa using hb, hbo⟩, ?_⟩
        intro m hmn
        cases m with
        | zero => simp [hseen.2, hseen.1]
        | succ m => simpa using hm m (by omega)
      · rename_i hseen
        refine ⟨0, by omega, ⟨on, rfl, ?_⟩, by omega⟩
        intro hp
        simpa [echoSeen, hp] using hseen
    · cases h

theorem sendNow_written_err (cfg : PCfg) (t : SendText) (e : Option Text) (n : Bool) (timeout : Option Nat)
    (evs : List PEv) (p : PS) (x : Exc) (hdata : sendData cfg t e = .error x) :
    sendNow cfg t e n timeout evs p = (.exc x, p, evs) := by
  simp [sendNow, hdata]

/-- **C55.** With `no_echo`, something is written only after a look at the terminal showed echo off (among
at most 120 looks); all the looks before showed it on. -/
theorem C55_waits_for_echo_off (cfg : PCfg) (t : SendText) (e : Option Text) (timeout : Option Nat)
    (polls : List Poll) (evs : List PEv) (p : PS)
    (hw : (send cfg t e true timeout polls evs p).2.1.written ≠ p.written) :
    ∃ n, n < 120 ∧ EchoOffAt cfg polls n := by
  simp only [send, if_true, waitNoEcho] at hw
  split at hw
  · rename_i o p' ho
    simp only [Prod.mk.injEq] at ho
    rw [← ho.2] at hw
    simp at hw
  · rename_i p' ho
    simp only [Prod.mk.injEq] at ho
    exact pollEcho_none cfg 120 polls ho.1

theorem pollEcho_on (cfg : PCfg) (hp : cfg.pty = true) (k : Nat) (post : List Poll)
    (hpost : post.head? ≠ some .cancel) :
    pollEcho cfg k (List.replicate k (.echo true) ++ post) = some (.exc .runtimeError) := by
  induction k with
  | zero => rcases post with _ | ⟨_ | _, _⟩ <;> first | rfl | exact absurd rfl hpost
  | succ k ih => simpa [List.replicate_succ, pollEcho, echoSeen, hp] using ih

/-- **C55.** If echo stays on (120 looks, about 30 seconds), `send` raises RuntimeError and has written
nothing. -/
theorem C55_echo_stays_on (cfg : PCfg) (hp : cfg.pty = true) (t : SendText) (e : Option Text)
    (timeout : Option Nat) (post : List Poll) (hpost : post.head? ≠ some .cancel) (evs : List PEv) (p : PS) :
    (send cfg t e true timeout (List.replicate 120 (.echo true) ++ post) evs p).1 = .exc .runtimeError ∧
    (send cfg t e true timeout (List.replicate 120 (.echo true) ++ post) evs p).2.1.written = p.written := by
  simp only [send, if_true, waitNoEcho, pollEcho_on cfg hp 120 post hpost]
  simp

/-- The two states differ at most in the bytes written. -/
def SameView (p q : PS) : Prop := q = { p with written := q.written }

theorem SameView.refl (p : PS) : SameView p p := rfl

theorem logMsg_setW (p : PS) (w : Bytes) (cfg : PCfg) (m : PLog) :
    ({ p with written := w } : PS).logMsg cfg m = { p.logMsg cfg m with written := w } := by
  simp only [PS.logMsg]; split <;> rfl

theorem readChunk_setW (cfg : PCfg) (p : PS) (w : Bytes) (c : Bytes) :
    ({ p with written := w } : PS).readChunk cfg c =
      ((p.readChunk cfg c).1, { (p.readChunk cfg c).2 with written := w }) := by
  have hl := logMsg_setW { p with atEof := p.atEof || c.isEmpty, got := p.got ++ [c] } w cfg (.receive c)
  simp only [PS.readChunk] at *
  rw [hl]
  simp only
  split <;> simp

theorem searchPending_setW (cfg : PCfg) (p : PS) (w : Bytes) (pat : Pattern) :
    ({ p with written := w } : PS).searchPending cfg pat =
      (p.searchPending cfg pat).map fun r => (r.1, r.2.1, { r.2.2 with written := w }) := by
  simp only [PS.searchPending]
  split
  · rfl
  · rename_i i j hp
    have hl := logMsg_setW { p with pending := p.pending.drop j } w cfg
      (.found ((p.pending.drop i).take (j - i)) (p.pending.drop j).length)
    simp only [Option.map_some, Option.some.injEq, Prod.mk.injEq, true_and]
    exact hl

theorem patStep_setW (cfg : PCfg) (pat : Pattern) (p : PS) (w : Bytes) (c : Bytes) :
    patStep cfg pat { p with written := w } c =
      ({ (patStep cfg pat p c).1 with written := w }, (patStep cfg pat p c).2) := by
  simp only [patStep, readChunk_setW]
  generalize p.readChunk cfg c = r
  obtain ⟨r1, q⟩ := r
  cases r1 with
  | error e => rfl
  | ok data =>
    simp only [searchPending_setW]
    split
    · rfl
    · cases q.searchPending cfg pat with
      | none => simp only [Option.map_none]; split <;> rfl
      | some z => rfl

theorem expectLoop_setW (cfg : PCfg) (pat : Pattern) (timer : Bool) (w : Bytes) (evs : List PEv) :
    ∀ (r : Option MatchRes) (p : PS), expectLoop cfg pat timer evs r { p with written := w } =
      ((expectLoop cfg pat timer evs r p).1, { (expectLoop cfg pat timer evs r p).2.1 with written := w },
        (expectLoop cfg pat timer evs r p).2.2) := by
  induction evs with
  | nil => intro r p; rcases r with _ | ⟨e | ⟨t, m⟩⟩ <;> rfl
  | cons ev evs ih =>
    intro r p
    rcases r with _ | ⟨e | ⟨t, m⟩⟩
    · cases ev with
      | read c => simp only [expectLoop, patStep_setW]; exact ih _ _
      | timeout =>
        simp only [expectLoop]
        split
        · rw [logMsg_setW]
        · exact ih _ _
      | cancel => simp only [expectLoop]; rw [logMsg_setW]
      | readErr e => exact ih _ _
      | resume => exact ih _ _
      | drained => exact ih _ _
      | drainErr e => exact ih _ _
    · cases ev <;> first | exact ih _ _ | rfl
    · cases ev <;> first | exact ih _ _ | rfl

theorem someStep_setW (cfg : PCfg) (p : PS) (w : Bytes) (c : Bytes) :
    someStep cfg { p with written := w } c =
      ({ (someStep cfg p c).1 with written := w }, (someStep cfg p c).2) := by
  simp only [someStep, readChunk_setW]
  generalize p.readChunk cfg c = r
  obtain ⟨r1, q⟩ := r
  cases r1 <;> rfl

theorem readAllLoop_setW (cfg : PCfg) (timer : Bool) (w : Bytes) (evs : List PEv) :
    ∀ (r : Option (Except Exc Unit)) (p : PS), readAllLoop cfg timer evs r { p with written := w } =
      ((readAllLoop cfg timer evs r p).1, { (readAllLoop cfg timer evs r p).2.1 with written := w },
        (readAllLoop cfg timer evs r p).2.2) := by
  induction evs with
  | nil => intro r p; rfl
  | cons ev evs ih =>
    intro r p
    rcases r with _ | ⟨e | u⟩
    · cases ev with
      | read c => simp only [readAllLoop, someStep_setW]; exact ih _ _
      | timeout =>
        simp only [readAllLoop]
        split
        · rfl
        · exact ih _ _
      | cancel => rfl
      | readErr e => exact ih _ _
      | resume => exact ih _ _
      | drained => exact ih _ _
      | drainErr e => exact ih _ _
    · cases ev <;> first | exact ih _ _ | rfl
    · cases ev <;> first | exact ih _ _ | rfl

theorem drainLoop_setW (cfg : PCfg) (timer : Bool) (w : Bytes) (evs : List PEv) :
    ∀ (r : DrainReader) (p : PS), drainLoop cfg timer evs r { p with written := w } =
      ((drainLoop cfg timer evs r p).1, { (drainLoop cfg timer evs r p).2.1 with written := w },
        (drainLoop cfg timer evs r p).2.2) := by
  induction evs with
  | nil => intro r p; rfl
  | cons ev evs ih =>
    intro r p
    cases ev with
    | read c =>
      cases r with
      | running => simp only [drainLoop, someStep_setW]; exact ih _ _
      | notStarted => exact ih _ _
      | finished => exact ih _ _
    | timeout =>
      simp only [drainLoop]
      split
      · rfl
      · exact ih _ _
    | resume => cases r <;> exact ih _ _
    | readErr e => cases r <;> exact ih _ _
    | cancel => rfl
    | drained => rfl
    | drainErr e => cases r <;> rfl

theorem expect_setW (cfg : PCfg) (arg : PromptArg) (timeout : Option Nat) (evs : List PEv) (p : PS)
    (w : Bytes) : expect cfg arg timeout evs { p with written := w } =
      ((expect cfg arg timeout evs p).1, { (expect cfg arg timeout evs p).2.1 with written := w },
        (expect cfg arg timeout evs p).2.2) := by
  simp only [expect]
  split
  · rfl
  · rename_i pat _
    simp only [expectPat, searchPending_setW]
    by_cases hpe : p.pending.isEmpty = true
    · simp only [hpe, if_true]
      split
      · rfl
      · exact expectLoop_setW _ _ _ _ _ _ _
    · simp only [hpe, Bool.false_eq_true, if_false]
      cases p.searchPending cfg pat with
      | some z => rfl
      | none =>
        simp only [Option.map_none]
        split
        · rfl
        · exact expectLoop_setW _ _ _ _ _ _ _

theorem readAll_setW (cfg : PCfg) (timeout : Option Nat) (evs : List PEv) (p : PS)
    (w : Bytes) : readAll cfg timeout evs { p with written := w } =
      ((readAll cfg timeout evs p).1, { (readAll cfg timeout evs p).2.1 with written := w },
        (readAll cfg timeout evs p).2.2) := by
  simp only [readAll]
  split
  · rfl
  · exact readAllLoop_setW _ _ _ _ _ _

/-- Sending a secret: outcome, log and buffers do not depend on it. -/
theorem sendNow_secret (cfg : PCfg) (t1 t2 : SendText) (e : Option Text) (timeout : Option Nat)
    (evs : List PEv) (p : PS) (w : Bytes)
    (h1 : ∃ d, sendData cfg t1 e = .ok d) (h2 : ∃ d, sendData cfg t2 e = .ok d) :
    ∃ w', sendNow cfg t2 e true timeout evs { p with written := w } =
      ((sendNow cfg t1 e true timeout evs p).1,
       { (sendNow cfg t1 e true timeout evs p).2.1 with written := w' },
       (sendNow cfg t1 e true timeout evs p).2.2) := by
  obtain ⟨d1, h1⟩ := h1
  obtain ⟨d2, h2⟩ := h2
  simp only [sendNow, h1, h2, if_true]
  rw [logMsg_setW p (p.written ++ d1), logMsg_setW p (w ++ d2)]
  refine ⟨w ++ d2, ?_⟩
  rw [drainLoop_setW, drainLoop_setW cfg _ (p.written ++ d1)]

theorem send_secret (cfg : PCfg) (t1 t2 : SendText) (e : Option Text) (timeout : Option Nat)
    (polls : List Poll) (evs : List PEv) (p : PS) (w : Bytes)
    (h1 : ∃ d, sendData cfg t1 e = .ok d) (h2 : ∃ d, sendData cfg t2 e = .ok d) :
    ∃ w', send cfg t2 e true timeout polls evs { p with written := w } =
      ((send cfg t1 e true timeout polls evs p).1,
       { (send cfg t1 e true timeout polls evs p).2.1 with written := w' },
       (send cfg t1 e true timeout polls evs p).2.2) := by
  simp only [send, if_true, waitNoEcho, logMsg_setW]
  cases pollEcho cfg 120 polls with
  | some o => exact ⟨w, rfl⟩
  | none => exact sendNow_secret cfg t1 t2 e timeout evs _ w h1 h2

/-- The same call, up to the secrets sent with `no_echo`. -/
inductive SameButSecret : POp → POp → Prop
  | refl (op : POp) : SameButSecret op op
  | send (t1 t2 : SendText) (e : Option Text) (to : Option Nat) :
      SameButSecret (.send t1 e true to) (.send t2 e true to)
  | command (t1 t2 : SendText) (e : Option Text) (arg : PromptArg) (to : Option Nat) (a : Bool) :
      SameButSecret (.command t1 e true arg to a) (.command t2 e true arg to a)

/-- Two calls, with the same events, that differ at most in a secret. -/
def SameButSecretCall (c1 c2 : PCall) : Prop :=
  SameButSecret c1.op c2.op ∧ c1.polls = c2.polls ∧ c1.evs = c2.evs

theorem commandEnd_setW (a : Bool) (o : POut) (p : PS) (evs : List PEv) (w : Bytes) :
    commandEnd a (o, { p with written := w }, evs) =
      ((commandEnd a (o, p, evs)).1, { (commandEnd a (o, p, evs)).2.1 with written := w },
       (commandEnd a (o, p, evs)).2.2) := by
  simp only [commandEnd]
  split
  · rename_i heq
    cases heq
    simp only
    split <;> rfl
  · rename_i hno
    split
    · rename_i d p' evs' heq
      cases heq
      exact absurd rfl (hno _ _ _)
    · rfl

theorem sendNow_setW (cfg : PCfg) (t : SendText) (e : Option Text) (n : Bool) (timeout : Option Nat)
    (evs : List PEv) (p : PS) (w : Bytes) :
    ∃ w', sendNow cfg t e n timeout evs { p with written := w } =
      ((sendNow cfg t e n timeout evs p).1,
       { (sendNow cfg t e n timeout evs p).2.1 with written := w' },
       (sendNow cfg t e n timeout evs p).2.2) := by
  simp only [sendNow]
  cases sendData cfg t e with
  | error x => exact ⟨w, rfl⟩
  | ok d =>
    simp only
    rw [logMsg_setW p (p.written ++ d), logMsg_setW p (w ++ d)]
    refine ⟨w ++ d, ?_⟩
    rw [drainLoop_setW, drainLoop_setW cfg _ (p.written ++ d)]

theorem send_setW (cfg : PCfg) (t : SendText) (e : Option Text) (n : Bool) (timeout : Option Nat)
    (polls : List Poll) (evs : List PEv) (p : PS) (w : Bytes) :
    ∃ w', send cfg t e n timeout polls evs { p with written := w } =
      ((send cfg t e n timeout polls evs p).1,
       { (send cfg t e n timeout polls evs p).2.1 with written := w' },
       (send cfg t e n timeout polls evs p).2.2) := by
  cases n with
  | false => simp only [send, Bool.false_eq_true, if_false]; exact sendNow_setW cfg t e false timeout evs p w
  | true =>
    simp only [send, if_true, waitNoEcho, logMsg_setW]
    cases pollEcho cfg 120 polls with
    | some o => exact ⟨w, rfl⟩
    | none => exact sendNow_setW cfg t e true timeout evs _ w

theorem command_view (cfg : PCfg) (t1 t2 : SendText) (e : Option Text) (n : Bool) (arg : PromptArg)
    (timeout : Option Nat) (a : Bool) (polls : List Poll) (evs : List PEv) (p : PS) (w : Bytes)
    (hs : ∃ w', send cfg t2 e n timeout polls evs { p with written := w } =
      ((send cfg t1 e n timeout polls evs p).1,
       { (send cfg t1 e n timeout polls evs p).2.1 with written := w' },
       (send cfg t1 e n timeout polls evs p).2.2)) :
    ∃ w', command cfg t2 e n arg timeout a polls evs { p with written := w } =
      ((command cfg t1 e n arg timeout a polls evs p).1,
       { (command cfg t1 e n arg timeout a polls evs p).2.1 with written := w' },
       (command cfg t1 e n arg timeout a polls evs p).2.2) := by
  simp only [command]
  split
  · exact ⟨w, rfl⟩
  · obtain ⟨w', hw'⟩ := hs
    rw [hw']
    generalize send cfg t1 e n timeout polls evs p = r
    obtain ⟨o, p', evs'⟩ := r
    simp only
    cases o with
    | done =>
      simp only
      rw [expect_setW]
      generalize expect cfg arg timeout evs' p' = r2
      obtain ⟨o2, p2, evs2⟩ := r2
      exact ⟨w', commandEnd_setW a o2 p2 evs2 w'⟩
    | matched t m => exact ⟨w', rfl⟩
    | text t => exact ⟨w', rfl⟩
    | exc x d => exact ⟨w', rfl⟩
    | blocked hh => exact ⟨w', rfl⟩

theorem op_view (cfg : PCfg) (henc : ∀ t, ∃ b, cfg.encode t = .ok b) (op1 op2 : POp)
    (h : SameButSecret op1 op2) (polls : List Poll) (evs : List PEv) (p : PS) (w : Bytes) :
    ∃ w', op2.run cfg polls evs { p with written := w } =
      ((op1.run cfg polls evs p).1, { (op1.run cfg polls evs p).2 with written := w' }) := by
  have hdata : ∀ t e, ∃ d, sendData cfg t e = .ok d := by
    intro t e
    cases t with
    | bytes b => obtain ⟨x, hx⟩ := henc (e.getD []); exact ⟨b ++ x, by simp [sendData, hx]⟩
    | str s => obtain ⟨x, hx⟩ := henc (s ++ e.getD []); exact ⟨x, by simp [sendData, hx]⟩
  cases h with
  | send t1 t2 e to =>
    obtain ⟨w', hw⟩ := send_secret cfg t1 t2 e to polls evs p w (hdata _ _) (hdata _ _)
    exact ⟨w', by simp only [POp.run]; rw [hw]⟩
  | command t1 t2 e arg to a =>
    obtain ⟨w', hw⟩ := command_view cfg t1 t2 e true arg to a polls evs p w
      (send_secret cfg t1 t2 e to polls evs p w (hdata _ _) (hdata _ _))
    exact ⟨w', by simp only [POp.run]; rw [hw]⟩
  | refl =>
    cases op1 with
    | expect arg t => exact ⟨w, by simp only [POp.run]; rw [expect_setW]⟩
    | readAll t => exact ⟨w, by simp only [POp.run]; rw [readAll_setW]⟩
    | readPending => exact ⟨w, rfl⟩
    | send t e n to =>
      obtain ⟨w', hw⟩ := send_setW cfg t e n to polls evs p w
      exact ⟨w', by simp only [POp.run]; rw [hw]⟩
    | command t e n arg to a =>
      obtain ⟨w', hw⟩ := command_view cfg t t e n arg to a polls evs p w (send_setW cfg t e n to polls evs p w)
      exact ⟨w', by simp only [POp.run]; rw [hw]⟩
    | close =>
      simp only [POp.run, promptClose]
      split
      · rename_i b bs _
        refine ⟨w ++ (b :: bs) ++ (b :: bs), ?_⟩
        simp only [PS.logMsg]; split <;> rfl
      · refine ⟨w, ?_⟩
        simp only [PS.logMsg]; split <;> rfl

/-- Two sessions, call by call. -/
inductive SameButSecrets : List PCall → List PCall → Prop
  | nil : SameButSecrets [] []
  | cons {c1 c2 : PCall} {l1 l2 : List PCall} : SameButSecretCall c1 c2 → SameButSecrets l1 l2 →
      SameButSecrets (c1 :: l1) (c2 :: l2)

/-- **C55.** Two sessions that differ only in secrets sent with `no_echo`, and in which the same things
happen otherwise, produce the same log, the same outcomes and the same received text: only the bytes
written to the co-process differ. -/
theorem C55_secrets_not_logged (cfg : PCfg) (henc : ∀ t, ∃ b, cfg.encode t = .ok b)
    (calls1 calls2 : List PCall) (h : SameButSecrets calls1 calls2) (p : PS) :
    (session cfg calls2 p).2.log = (session cfg calls1 p).2.log ∧
    (session cfg calls2 p).1 = (session cfg calls1 p).1 ∧
    (session cfg calls2 p).2.pending = (session cfg calls1 p).2.pending := by
  have key : ∀ (calls1 calls2 : List PCall), SameButSecrets calls1 calls2 → ∀ (p : PS) (w : Bytes),
      ∃ w', session cfg calls2 { p with written := w } =
        ((session cfg calls1 p).1, { (session cfg calls1 p).2 with written := w' }) := by
    intro calls1 calls2 h
    induction h with
    | nil => intro p w; exact ⟨w, rfl⟩
    | @cons c1 c2 l1 l2 hc _ ih =>
      intro p w
      obtain ⟨hop, hpolls, hevs⟩ := hc
      simp only [session]
      rw [← hpolls, ← hevs]
      obtain ⟨w1, h1⟩ := op_view cfg henc c1.op c2.op hop c1.polls c1.evs p w
      rw [h1]
      obtain ⟨w2, h2⟩ := ih (c1.op.run cfg c1.polls c1.evs p).2 w1
      rw [h2]
      exact ⟨w2, rfl⟩
  obtain ⟨w', hw'⟩ := key calls1 calls2 h p p.written
  have : ({ p with written := p.written } : PS) = p := rfl
  rw [this] at hw'
  rw [hw']
  exact ⟨rfl, rfl, rfl⟩

/-- Echo on twice, then off: the secret is written and the log hides it. -/
example :
    (session { encode := fun t => .ok (encodeUtf8 t), pty := true, logOn := true }
      [{ op := .send (.str ['p', 'w']) (some ['\n']) true none,
         polls := [.echo true, .echo true, .echo false], evs := [.drained] }]
      (freshPrompt (utf8Prompt .strict))).2.log = [.waitNoEcho, .sendHidden] ∧
    (session { encode := fun t => .ok (encodeUtf8 t), pty := true, logOn := true }
      [{ op := .send (.str ['p', 'w']) (some ['\n']) true none,
         polls := [.echo true, .echo true, .echo false], evs := [.drained] }]
      (freshPrompt (utf8Prompt .strict))).2.written = [0x70, 0x77, 0x0A] := by
  decide +kernel

/-! ## C60 -/

theorem echo_bit_set (x : BitVec 32) : ((x ||| ECHO) &&& ECHO) != 0#32 := by
  have : (x ||| ECHO) &&& ECHO = ECHO := by
    apply BitVec.eq_of_getLsbD_eq
    intro i hi
    simp only [BitVec.getLsbD_and, BitVec.getLsbD_or]
    cases x.getLsbD i <;> cases ECHO.getLsbD i <;> rfl
  rw [this]; decide

theorem echo_bit_clear (x : BitVec 32) : ((x &&& ~~~ECHO) &&& ECHO) = 0#32 := by
  apply BitVec.eq_of_getLsbD_eq
  intro i hi
  simp only [BitVec.getLsbD_and, BitVec.getLsbD_not, hi, decide_true, Bool.true_and, BitVec.getLsbD_zero]
  cases x.getLsbD i <;> cases ECHO.getLsbD i <;> rfl

/-- **C60.** On a terminal, setting `echo` makes it read back as set; every attribute other than the
local flags is unchanged, and so is every local flag other than ECHO; setting the value it already has
does not touch the terminal, and setting the other value makes one `tcsetattr` call. -/
theorem C60_set_echo (a : TermAttrs) (n : Nat) (v : Bool) :
    ∃ t', PromptTerm.setEcho { attrs := some a, sets := n } v = .ok t' ∧ t'.echo = v ∧
      (∃ b, t'.attrs = some b ∧ b.iflag = a.iflag ∧ b.oflag = a.oflag ∧ b.cflag = a.cflag ∧
        b.ispeed = a.ispeed ∧ b.ospeed = a.ospeed ∧ b.cc = a.cc ∧
        (∀ i, i ≠ 3 → b.lflag.getLsbD i = a.lflag.getLsbD i)) ∧
      (PromptTerm.echo { attrs := some a, sets := n } = v → t' = { attrs := some a, sets := n }) ∧
      (PromptTerm.echo { attrs := some a, sets := n } ≠ v → t'.sets = n + 1) := by
  have hbit : ∀ i, i ≠ 3 → ECHO.getLsbD i = false := by
    intro i hi
    by_cases hl : i < 32
    · have : ∀ i, i < 32 → i ≠ 3 → ECHO.getLsbD i = false := by decide
      exact this i hl hi
    · exact BitVec.getLsbD_of_ge _ _ (by omega)
  simp only [PromptTerm.setEcho, setTermEcho, PromptTerm.echo, getTermEcho]
  by_cases hc : v = ((a.lflag &&& ECHO) != 0#32)
  · refine ⟨{ attrs := some a, sets := n }, ?_, hc.symm, ⟨a, rfl, rfl, rfl, rfl, rfl, rfl, rfl, fun _ _ => rfl⟩,
      fun _ => rfl, fun h => absurd hc.symm h⟩
    rw [← hc]; simp
  · have hne : (v != ((a.lflag &&& ECHO) != 0#32)) = true := by simpa using hc
    simp only [hne, if_true]
    cases v with
    | true =>
      refine ⟨_, rfl, echo_bit_set _, ⟨_, rfl, rfl, rfl, rfl, rfl, rfl, rfl, ?_⟩, fun h => absurd h.symm hc, fun _ => rfl⟩
      intro i hi
      simp [BitVec.getLsbD_or, hbit i hi]
    | false =>
      refine ⟨_, rfl, ?_, ⟨_, rfl, rfl, rfl, rfl, rfl, rfl, rfl, ?_⟩, fun h => absurd h.symm hc, fun _ => rfl⟩
      · simp [echo_bit_clear]
      · intro i hi
        simp only [BitVec.getLsbD_and, BitVec.getLsbD_not, hbit i hi, Bool.not_false, Bool.and_true]
        by_cases hl : i < 32
        · simp [hl]
        · simp [BitVec.getLsbD_of_ge a.lflag i (by omega)]

/-- **C60.** Without a terminal `echo` reads False and setting it raises RuntimeError. -/
theorem C60_no_terminal (n : Nat) (v : Bool) :
    PromptTerm.echo { attrs := none, sets := n } = false ∧
    PromptTerm.setEcho { attrs := none, sets := n } v = .error .runtimeError := ⟨rfl, rfl⟩

/-- **C60.** Switching echo does not change the EOF character that shellous uses. -/
theorem C60_eof_unchanged (a b : TermAttrs) (v : Bool) (h : setTermEcho a v = some b) : getEof b = getEof a := by
  have hic : ∀ x : BitVec 32, (x ||| ECHO) &&& ICANON = x &&& ICANON ∧ (x &&& ~~~ECHO) &&& ICANON = x &&& ICANON := by
    intro x
    have e1 : ECHO &&& ICANON = 0#32 := by decide
    have e2 : ~~~ECHO &&& ICANON = ICANON := by decide
    refine ⟨?_, ?_⟩
    · apply BitVec.eq_of_getLsbD_eq
      intro i hi
      have := congrArg (·.getLsbD i) e1
      simp only [BitVec.getLsbD_and, BitVec.getLsbD_zero] at this
      simp only [BitVec.getLsbD_and, BitVec.getLsbD_or]
      revert this
      cases x.getLsbD i <;> cases ECHO.getLsbD i <;> cases ICANON.getLsbD i <;> simp
    · rw [BitVec.and_assoc, e2]
  simp only [setTermEcho] at h
  split at h
  · split at h <;> (cases h; simp only [getEof, hic])
  · cases h

example : PromptTerm.setEcho { attrs := some ⟨0x500, 5, 0xBF, 0x8A3B, 15, 15, [[3], [28], [127], [21], [4]]⟩ } false =
    .ok { attrs := some ⟨0x500, 5, 0xBF, 0x8A33, 15, 15, [[3], [28], [127], [21], [4]]⟩, sets := 1 } := by
  rfl

end Shellous.Props
