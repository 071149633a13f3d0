import Verif.Props.PromptTime

/-!
# C74: the log of a session is a journal
-/

namespace Shellous.Props

open Shellous

variable (l : List PLog)

/-- The same with an older log in front. -/
def older (l : List PLog) (p : PS) : PS := { p with log := l ++ p.log }

theorem older_logMsg (p : PS) (cfg : PCfg) (m : PLog) : older l (p.logMsg cfg m) = (older l p).logMsg cfg m := by
  unfold PS.logMsg older; split
  · simp only [List.append_assoc]
  · rfl

theorem readChunk_older (cfg : PCfg) (p : PS) (c : Bytes) :
    (older l p).readChunk cfg c = ((p.readChunk cfg c).1, older l (p.readChunk cfg c).2) := by
  simp only [PS.readChunk]
  have h := older_logMsg l { p with atEof := p.atEof || c.isEmpty, got := p.got ++ [c] } cfg (.receive c)
  have e : ({ older l p with atEof := (older l p).atEof || c.isEmpty, got := (older l p).got ++ [c] } : PS) =
    older l { p with atEof := p.atEof || c.isEmpty, got := p.got ++ [c] } := rfl
  rw [e, ← h]
  generalize ({ p with atEof := p.atEof || c.isEmpty, got := p.got ++ [c] } : PS).logMsg cfg (.receive c) = q
  simp only [older]
  split <;> rfl

theorem searchPending_older (cfg : PCfg) (p : PS) (pat : Pattern) :
    (older l p).searchPending cfg pat =
      (p.searchPending cfg pat).map fun r => (r.1, r.2.1, older l r.2.2) := by
  simp only [PS.searchPending]
  rw [show (older l p).pending = p.pending from rfl]
  cases pat p.pending with
  | none => rfl
  | some ij => simp only [Option.map_some, older_logMsg]; rfl

theorem patStep_older (cfg : PCfg) (pat : Pattern) (p : PS) (c : Bytes) :
    patStep cfg pat (older l p) c = (older l (patStep cfg pat p c).1, (patStep cfg pat p c).2) := by
  simp only [patStep, readChunk_older]
  generalize p.readChunk cfg c = r
  obtain ⟨r1, q⟩ := r
  cases r1 with
  | error e => rfl
  | ok data =>
    simp only [searchPending_older]
    show (if data.isEmpty && !q.atEof then _ else _) = _
    split
    · rfl
    · cases q.searchPending cfg pat with
      | none =>
        simp only [Option.map_none]
        show (if q.atEof then _ else _) = _
        split <;> rfl
      | some z => rfl

theorem someStep_older (cfg : PCfg) (p : PS) (c : Bytes) :
    someStep cfg (older l p) c = (older l (someStep cfg p c).1, (someStep cfg p c).2) := by
  simp only [someStep, readChunk_older]
  generalize p.readChunk cfg c = r
  obtain ⟨r1, q⟩ := r
  cases r1 <;> rfl

/-- The result of an operation, with an older log. -/
def aged (r : POut × PS × List PEv) : POut × PS × List PEv := (r.1, older l r.2.1, r.2.2)

theorem expectLoop_older (cfg : PCfg) (pat : Pattern) (timer : Bool) (evs : List PEv)
    (r : Option MatchRes) (p : PS) :
    expectLoop cfg pat timer evs r (older l p) = aged l (expectLoop cfg pat timer evs r p) := by
  induction evs generalizing r p with
  | nil => rcases r with _ | ⟨e | ⟨t, m⟩⟩ <;> rfl
  | cons ev evs ih =>
    rcases r with _ | ⟨e | ⟨t, m⟩⟩
    · cases ev with
      | read c => simp only [expectLoop, patStep_older]; exact ih _ _
      | timeout =>
        simp only [expectLoop]
        split
        · simp only [aged, older_logMsg]; rfl
        · exact ih _ _
      | cancel => simp only [expectLoop, aged, older_logMsg]; rfl
      | readErr e => exact ih _ _
      | resume => exact ih _ _
      | drained => exact ih _ _
      | drainErr e => exact ih _ _
    · cases ev <;> first | exact ih _ _ | rfl
    · cases ev <;> first | exact ih _ _ | rfl

theorem readAllLoop_older (cfg : PCfg) (timer : Bool) (evs : List PEv)
    (r : Option (Except Exc Unit)) (p : PS) :
    readAllLoop cfg timer evs r (older l p) = aged l (readAllLoop cfg timer evs r p) := by
  induction evs generalizing r p with
  | nil => rfl
  | cons ev evs ih =>
    rcases r with _ | ⟨e | u⟩
    · cases ev with
      | read c => simp only [readAllLoop, someStep_older]; exact ih _ _
      | timeout =>
        simp only [readAllLoop]
        split
        · rfl
        · exact ih _ _
      | cancel => rfl
      | readErr e => exact ih _ _
      | resume => exact ih _ _
      | drained => exact ih _ _
      | drainErr e => exact ih _ _
    · cases ev <;> first | exact ih _ _ | rfl
    · cases ev <;> first | exact ih _ _ | rfl

theorem drainLoop_older (cfg : PCfg) (timer : Bool) (evs : List PEv) (r : DrainReader) (p : PS) :
    drainLoop cfg timer evs r (older l p) = aged l (drainLoop cfg timer evs r p) := by
  induction evs generalizing r p with
  | nil => rfl
  | cons ev evs ih =>
    cases r <;> cases ev <;> simp only [drainLoop, someStep_older] <;>
      first
      | exact ih _ _
      | rfl
      | (split
         · rfl
         · exact ih _ _)

theorem expect_older (cfg : PCfg) (arg : PromptArg) (t : Option Nat) (evs : List PEv) (p : PS) :
    expect cfg arg t evs (older l p) = aged l (expect cfg arg t evs p) := by
  simp only [expect]
  rw [show cfg.dflt = cfg.dflt from rfl]
  cases resolvePrompt cfg.dflt arg with
  | error e => rfl
  | ok pat =>
    simp only [expectPat, searchPending_older]
    rw [show (older l p).pending = p.pending from rfl]
    by_cases hp : p.pending.isEmpty = true
    · simp only [if_pos hp]
      show (if p.atEof then _ else _) = _
      split
      · rfl
      · exact expectLoop_older _ _ _ _ _ _ _
    · simp only [if_neg hp]
      cases p.searchPending cfg _ with
      | none =>
        simp only [Option.map_none]
        show (if p.atEof then _ else _) = _
        split
        · rfl
        · exact expectLoop_older _ _ _ _ _ _ _
      | some z => rfl

theorem send_older (cfg : PCfg) (x : SendText) (e : Option Text) (n : Bool) (t : Option Nat)
    (polls : List Poll) (evs : List PEv) (p : PS) :
    send cfg x e n t polls evs (older l p) = aged l (send cfg x e n t polls evs p) := by
  have hs : ∀ p, sendNow cfg x e n t evs (older l p) = aged l (sendNow cfg x e n t evs p) := by
    intro p
    simp only [sendNow]
    rw [show sendData cfg x e = sendData cfg x e from rfl]
    cases sendData cfg x e with
    | error e => rfl
    | ok data =>
      simp only
      rw [← drainLoop_older, older_logMsg]; rfl
  simp only [send]
  split
  · simp only [waitNoEcho]
    cases pollEcho cfg 120 polls with
    | some o => simp only [aged, older_logMsg]
    | none =>
      simp only
      rw [← hs, older_logMsg]
  · exact hs p

theorem command_older (cfg : PCfg) (x : SendText) (e : Option Text) (n : Bool) (arg : PromptArg)
    (t : Option Nat) (a : Bool) (polls : List Poll) (evs : List PEv) (p : PS) :
    command cfg x e n arg t a polls evs (older l p) =
      aged l (command cfg x e n arg t a polls evs p) := by
  simp only [command]
  show (if p.atEof then _ else _) = _
  split
  · rfl
  · rw [send_older]
    generalize send cfg x e n t polls evs p = r
    obtain ⟨o, p', evs'⟩ := r
    cases o <;> try rfl
    simp only [aged, expect_older]
    generalize expect cfg arg t evs' p' = r
    obtain ⟨o, p', evs'⟩ := r
    cases o <;> try rfl
    rename_i ex d
    cases ex <;> first | rfl | (simp only [commandEnd]; split <;> rfl)

theorem promptClose_older (cfg : PCfg) (p : PS) :
    promptClose cfg (older l p) = older l (promptClose cfg p) := by
  simp only [promptClose]
  rw [show cfg.ptyEof = cfg.ptyEof from rfl]
  rcases cfg.ptyEof with _ | (_ | ⟨b, bs⟩) <;> simp only [older_logMsg] <;> rfl

/-- **C74.** The log is a journal: what a session logs comes after what was logged before, and does not depend on it. -/
theorem C74_journal (cfg : PCfg) (calls : List PCall) (p : PS) :
    (session cfg calls p).2.log = p.log ++ (session cfg calls { p with log := [] }).2.log ∧
    ∀ calls', (session cfg (calls ++ calls') p).2.log =
      (session cfg calls p).2.log ++ (session cfg calls' { (session cfg calls p).2 with log := [] }).2.log := by
  have key : ∀ (l : List PLog) (calls : List PCall) (p : PS), (session cfg calls (older l p)).2 = older l (session cfg calls p).2 := by
    intro l calls
    induction calls with
    | nil => intro p; rfl
    | cons c cs ih =>
      intro p
      have h : c.op.run cfg c.polls c.evs (older l p) =
          ((c.op.run cfg c.polls c.evs p).1, older l (c.op.run cfg c.polls c.evs p).2) := by
        cases c.op with
        | expect arg t => simp only [POp.run, expect_older]; rfl
        | readAll t =>
          simp only [POp.run, Shellous.readAll]
          show ((if p.atEof then _ else _ : POut × PS × List PEv).1, (if p.atEof then _ else _ : POut × PS × List PEv).2.1) = _
          split
          · rfl
          · simp only [readAllLoop_older]; rfl
        | readPending => rfl
        | send x e n t => simp only [POp.run, send_older]; rfl
        | command x e n arg t a => simp only [POp.run, command_older]; rfl
        | close => simp only [POp.run, promptClose_older]
      simp only [session, h]
      exact ih _
  have one : ∀ (calls : List PCall) (p : PS), (session cfg calls p).2.log = p.log ++ (session cfg calls { p with log := [] }).2.log := by
    intro calls p
    have h := key p.log calls { p with log := [] }
    have e : older p.log { p with log := [] } = p := by cases p; simp [older]
    rw [e] at h
    rw [h]; rfl
  refine ⟨one calls p, fun calls' => ?_⟩
  have app : ∀ (calls : List PCall) (p : PS), (session cfg (calls ++ calls') p).2 = (session cfg calls' (session cfg calls p).2).2 := by
    intro calls
    induction calls with
    | nil => intro p; rfl
    | cons c cs ih => intro p; simp only [List.cons_append, session]; exact ih _
  rw [app, one calls']

/-- Two calls, one after the other, on a log that is not empty. -/
example : (session { encode := fun t => .ok (encodeUtf8 t), logOn := true }
    [{ op := .send (.str ['x']) none false none, evs := [.drained] },
     { op := .expect (.str ['>']) none, evs := [.read [0x61, 0x3E], .resume] }]
    { freshPrompt (utf8Prompt .strict) with log := [.sendHidden] }).2.log =
    [.sendHidden, .send [0x78], .receive [0x61, 0x3E], .found ['>'] 0] := by
  decide +kernel

end Shellous.Props

