import Verif.Lemmas.Frame
import Verif.Lemmas.PipePhases
import Verif.Lemmas.RunCleanup

/-!
# A prompt session is an `async with` block
-/

namespace Shellous

theorem setCli_setCli (x y : Option (Option Result)) (w : W) : (w.setCli x).setCli y = w.setCli y := rfl

theorem setCli_self (w : W) : w.setCli w.cli = w := rfl

/-- A body that ends normally could as well raise. -/
theorem userBody_raise (e : Exc) (w w' : W) (evs r : List Ev) (h : userBody w evs = (.ok (), w', r)) :
    ∃ evs', userBody w evs' = (.exc e, w', r) := by
  change userBodyLoop w evs = _ at h
  change ∃ evs', userBodyLoop w evs' = _
  induction evs generalizing w with
  | nil => cases h
  | cons ev evs ih =>
    rcases userBody_step w ev with ⟨x, rfl⟩ | ⟨w1, h1⟩
    · cases x with
      | none => cases h; exact ⟨.bodyDone (some e) :: r, rfl⟩
      | some x => cases h
    · rw [h1] at h
      obtain ⟨l, hl⟩ := ih w1 h
      exact ⟨ev :: l, by rw [h1, hl]⟩

/-- What the block of a prompt session does, a block of the user's could do. -/
theorem promptBody_block (p : PromptCfg) (w : W) (evs : List Ev) :
    (∃ evs', userBody w evs' = withCli w.cli (promptBody p w evs)) ∧
      (promptBody p w evs).2.1.cli = if p.ctorErr = none then some none else w.cli := by
  unfold promptBody
  cases hc : p.ctorErr with
  | some e =>
    have : (raiseOpt (some e)) w evs = (.exc e, w, evs) := rfl
    rw [bind_exc this]
    exact ⟨⟨.bodyDone (some e) :: evs, rfl⟩, rfl⟩
  | none =>
    rw [bind_ok (show raiseOpt none w evs = (.ok (), w, evs) from rfl)]
    rw [bind_ok (a := ()) (w' := w.setCli (some none)) (evs' := evs) rfl]
    have hu := Frame.userBody.cli w (some none) evs
    rcases hr : userBody w evs with ⟨o, w', r⟩
    rw [hr] at hu
    have hcli : w'.cli = w.cli := by have := Frame.userBody.same w evs; rw [hr] at this; exact this
    have back : (w'.setCli (some none)).setCli w.cli = w' := by rw [setCli_setCli, ← hcli]; rfl
    cases o with
    | blocked =>
      rw [bind_blocked hu]
      exact ⟨⟨evs, by rw [hr]; simp only [withCli, back]⟩, rfl⟩
    | exc e =>
      rw [bind_exc hu]
      exact ⟨⟨evs, by rw [hr]; simp only [withCli, back]⟩, rfl⟩
    | ok _ =>
      rw [bind_ok hu]
      cases p.closeErr with
      | none => exact ⟨⟨evs, by rw [hr]; simp only [raiseOpt, Coro.pure, withCli, back]⟩, rfl⟩
      | some e =>
        obtain ⟨l, hl⟩ := userBody_raise e w w' evs r hr
        exact ⟨⟨l, by rw [hl]; simp only [raiseOpt, Coro.raise, withCli, back]⟩, rfl⟩

theorem withRun_enter_exc {cfg : RCfg} {body : Coro Unit} {w w1 : W} {evs r : List Ev} {e : Exc}
    (h : aenter cfg w evs = (.exc e, w1, r)) : withRun cfg body w evs = (.exc e, w1, r) := bind_exc h

theorem withRun_enter_blocked {cfg : RCfg} {body : Coro Unit} {w w1 : W} {evs r : List Ev}
    (h : aenter cfg w evs = (.blocked, w1, r)) : withRun cfg body w evs = (.blocked, w1, r) := bind_blocked h

theorem attempt_eq (c : Coro Unit) (w : W) (evs : List Ev) : attempt c w evs =
    match c w evs with
    | (.ok _, w, evs) => (.ok none, w, evs)
    | (.exc e, w, evs) => (.ok (some e), w, evs)
    | (.blocked, w, evs) => (.blocked, w, evs) := rfl

/-- The end of `async with Runner`. -/
def runTail (cfg : RCfg) (r : Option Exc) : Coro Unit := do
  let suppress ← aexit cfg r
  match r with
  | none => Coro.pure ()
  | some e => if suppress then Coro.pure () else Coro.raise e

theorem Frame.runTail (cfg : RCfg) (r : Option Exc) : Frame (runTail cfg r) :=
  .bind (.aexit cfg r) fun _ => by
    cases r with
    | none => exact .pure _
    | some e => exact .ite (.pure _) (.raise _)

theorem withRun_body {cfg : RCfg} {body : Coro Unit} {w w1 w2 : W} {evs r r2 : List Ev} {ex : Option Exc}
    (h : aenter cfg w evs = (.ok (), w1, r)) (hb : attempt body (w1.log .bodyStart) r = (.ok ex, w2, r2)) :
    withRun cfg body w evs = runTail cfg ex (w2.log (.bodyEnd ex)) r2 := by
  unfold withRun
  rw [bind_ok h, bind_ok (a := ()) (w' := w1.log .bodyStart) (evs' := r) rfl, bind_ok hb,
    bind_ok (a := ()) (w' := w2.log (.bodyEnd ex)) (evs' := r2) rfl]
  rfl

theorem withRun_body_blocked {cfg : RCfg} {body : Coro Unit} {w w1 w2 : W} {evs r r2 : List Ev}
    (h : aenter cfg w evs = (.ok (), w1, r)) (hb : attempt body (w1.log .bodyStart) r = (.blocked, w2, r2)) :
    withRun cfg body w evs = (.blocked, w2, r2) := by
  unfold withRun
  rw [bind_ok h, bind_ok (a := ()) (w' := w1.log .bodyStart) (evs' := r) rfl, bind_blocked hb]

/-- Up to its `finally` clause, a prompt session does what some `async with` block does. -/
theorem withRun_prompt (cfg : RCfg) (p : PromptCfg) (w : W) (evs : List Ev) :
    (∃ evs', withRun cfg userBody w evs' = withCli w.cli (withRun cfg (promptBody p) w evs) ∧
        ((aenter cfg w evs).1 = .ok () → ∃ w1 r, aenter cfg w evs' = (.ok (), w1, r))) ∧
      ((withRun cfg (promptBody p) w evs).2.1.cli = w.cli ∧ (p.ctorErr ≠ none ∨ (aenter cfg w evs).1 ≠ .ok () ∧
          withRun cfg (promptBody p) w evs = ((aenter cfg w evs).1, (aenter cfg w evs).2)) ∨
        (withRun cfg (promptBody p) w evs).2.1.cli = some none ∧ p.ctorErr = none ∧ (aenter cfg w evs).1 = .ok ()) := by
  have hsame := (Frame.aenter cfg).same w evs
  have hpre := (Frame.aenter cfg).pre w evs
  rcases ha : aenter cfg w evs with ⟨o, w1, r⟩
  rw [ha] at hsame hpre
  cases o with
  | blocked =>
    rw [withRun_enter_blocked ha]
    exact ⟨⟨evs, by rw [withRun_enter_blocked ha, withCli, ← hsame]; rfl, by simp⟩, .inl ⟨hsame, .inr ⟨by simp, rfl⟩⟩⟩
  | exc e =>
    rw [withRun_enter_exc ha]
    exact ⟨⟨evs, by rw [withRun_enter_exc ha, withCli, ← hsame]; rfl, by simp⟩, .inl ⟨hsame, .inr ⟨by simp, rfl⟩⟩⟩
  | ok _ =>
    obtain ⟨pre, h1, h2⟩ := hpre (by simp)
    obtain ⟨⟨l, hl⟩, hc⟩ := promptBody_block p (w1.log .bodyStart) r
    have hcl : (w1.log .bodyStart).cli = w.cli := hsame
    have ha' : aenter cfg w (pre ++ l) = (.ok (), w1, l) := h2 l
    have key : ∀ (q : Prop) (w2 : W), w2.cli = (promptBody p (w1.log .bodyStart) r).2.1.cli →
        (w2.cli = w.cli ∧ (p.ctorErr ≠ none ∨ (.ok () : Out Unit) ≠ .ok () ∧ q) ∨
          w2.cli = some none ∧ p.ctorErr = none ∧ (.ok () : Out Unit) = .ok ()) := by
      intro q w2 h
      rw [hc] at h
      cases hp : p.ctorErr with
      | none => exact .inr ⟨by simpa [hp] using h, rfl, rfl⟩
      | some e => exact .inl ⟨by simpa [hp, hcl] using h, .inl (by simp)⟩
    rcases hb : promptBody p (w1.log .bodyStart) r with ⟨o, w2, r2⟩
    rw [hb] at hl key
    rw [hcl] at hl
    have fin : ∀ ex, attempt (promptBody p) (w1.log .bodyStart) r = (.ok ex, w2, r2) →
        attempt userBody (w1.log .bodyStart) l = (.ok ex, w2.setCli w.cli, r2) →
        (∃ evs', withRun cfg userBody w evs' = withCli w.cli (withRun cfg (promptBody p) w evs) ∧
          ((.ok () : Out Unit) = .ok () → ∃ w1 r, aenter cfg w evs' = (.ok (), w1, r))) ∧
        (withRun cfg (promptBody p) w evs).2.1.cli = w2.cli := by
      intro ex q1 q2
      refine ⟨⟨pre ++ l, ?_, fun _ => ⟨_, _, ha'⟩⟩, ?_⟩
      · rw [withRun_body ha q1, withRun_body ha' q2]
        exact (Frame.runTail cfg ex).cli (w2.log (.bodyEnd ex)) w.cli r2
      · rw [withRun_body ha q1]
        exact (Frame.runTail cfg ex).same _ _
    cases o with
    | blocked =>
      have q1 : attempt (promptBody p) (w1.log .bodyStart) r = (.blocked, w2, r2) := by rw [attempt_eq, hb]
      have q2 : attempt userBody (w1.log .bodyStart) l = (.blocked, w2.setCli w.cli, r2) := by rw [attempt_eq, hl]; rfl
      refine ⟨⟨pre ++ l, ?_, fun _ => ⟨_, _, ha'⟩⟩, ?_⟩
      · rw [withRun_body_blocked ha q1, withRun_body_blocked ha' q2]; rfl
      · rw [withRun_body_blocked ha q1]
        exact key _ w2 rfl
    | ok _ =>
      obtain ⟨f1, f2⟩ := fin none (by rw [attempt_eq, hb]) (by rw [attempt_eq, hl]; rfl)
      exact ⟨f1, key _ _ f2⟩
    | exc e =>
      obtain ⟨f1, f2⟩ := fin (some e) (by rw [attempt_eq, hb]) (by rw [attempt_eq, hl]; rfl)
      exact ⟨f1, key _ _ f2⟩

/-- A block that has been entered has been entered. -/
theorem withRun_started {cfg : RCfg} {w w1 : W} {evs r : List Ev} (hf : w.Fresh)
    (h : aenter cfg w evs = (.ok (), w1, r)) : .bodyStart ∈ (withRun cfg userBody w evs).2.1.trace := by
  have ha := aenter_spec cfg w hf evs
  rw [h] at ha
  generalize hx : (Out.ok () : Out Unit) = x at ha
  cases ha with
  | launching => cases hx
  | failed => cases hx
  | ok _ hl =>
    have hb := userBody_bodyRel (w1.log .bodyStart) r
    rcases hr : userBody (w1.log .bodyStart) r with ⟨o, w2, r2⟩
    rw [hr] at hb
    dsimp only at hb
    have hs : .bodyStart ∈ w2.trace := by
      obtain ⟨l, hl, _⟩ := hb.ext.trace
      rw [hl]
      simp [W.log]
    have fin : ∀ ex, attempt userBody (w1.log .bodyStart) r = (.ok ex, w2, r2) →
        .bodyStart ∈ (withRun cfg userBody w evs).2.1.trace := by
      intro ex q
      rw [withRun_body h q]
      have ae := hl.atExit ex hb
      have := aexit_spec cfg ex _ ae.good ae.proc ae.waiter ae.timerOff
      have key : wp (runTail cfg ex) (fun _ w' => .bodyStart ∈ w'.trace) (w2.log (.bodyEnd ex)) := by
        refine wp_bind (wp_mono this ?_)
        rintro o w4 ⟨w3, x, rfl⟩
        have h3 : .bodyStart ∈ w3.trace := by
          obtain ⟨l, hl, _⟩ := x.ext.trace
          rw [hl]
          simp [W.log, hs]
        have h4 : .bodyStart ∈ (w3.stopTimer.log (.auditStop none)).trace := by
          simp [W.log, W.stopTimer, h3]
        cases o with
        | blocked => exact h3
        | exc e => exact h4
        | ok b =>
          simp only [reduceCtorEq, if_false]
          cases ex with
          | none => exact wp_pure h4
          | some e =>
            simp only []
            split
            · exact wp_pure h4
            · exact wp_raise h4
      exact key r2
    cases o with
    | blocked =>
      have q : attempt userBody (w1.log .bodyStart) r = (.blocked, w2, r2) := by rw [attempt_eq, hr]
      rw [withRun_body_blocked h q]
      exact hs
    | ok _ => exact fin none (by rw [attempt_eq, hr])
    | exc e => exact fin (some e) (by rw [attempt_eq, hr])

end Shellous
