import Verif.Lemmas.Session
import Verif.Props.PipeOutcome
import Verif.Spec.Session

/-!
# C56: the result of a prompt session of a pipeline
-/

namespace Shellous.Props

/-- Why there is no result after a prompt session of a pipeline, and the exception the session raises then. -/
inductive PromptLost (cfg : PRCfg) (w : W) : Exc → Prop
  /-- the first command, in pipeline order, that ended with an exception that carries no result -/
  | broke (pre post : List Nat) (i : Nat) (e : Exc) : commands .block cfg = pre ++ i :: post → Broke w i e →
      (∀ j ∈ pre, ∀ e, ¬ Broke w j e) → PromptLost cfg w e
  /-- a command ended without a result and without a (proper) exception: its task was cancelled. -/
  | noResult (i : Nat) : i ∈ commands .block cfg → (∀ r, ¬ Gave w i r) → (∀ e, ¬ Broke w i e) →
      (w.outOf i = some (.val none) ∨ ∀ j ∈ commands .block cfg, ∀ e, ¬ Broke w j e) → PromptLost cfg w .assertionError
  /-- an internal error of a command -/
  | serious (e : Exc) : FirstSerious w (commands .block cfg) e → PromptLost cfg w .assertionError
  /-- the library gave up on commands that did not end in time after they had been cancelled -/
  | gaveUp : .gaveUp ∈ w.trace → PromptLost cfg w .assertionError
  /-- the caller was cancelled at least twice during the cleanup -/
  | twice : 2 ≤ throwsIn (cleanupLog w.trace) → PromptLost cfg w .assertionError

/-- How the `cli` of a session of a pipeline relates to the session. -/
inductive PipeCli (cfg : PRCfg) (p : PromptCfg) (b s : Out (Option Returned)) (w : W) : Prop
  | noCli : s = b → w.cli = none → (.bodyStart ∈ w.trace → p.ctorErr ≠ none) → PipeCli cfg p b s w
  | inside : s = .blocked → b = .blocked → w.cli = some none → p.ctorErr = none → .bodyStart ∈ w.trace → PipeCli cfg p b s w
  | after (r : Result) : s = b → b ≠ .blocked → w.cli = some (some r) → p.ctorErr = none → .bodyStart ∈ w.trace →
      Combined w (commands .block cfg) w.cancelled r → PipeCli cfg p b s w
  | lost (e : Exc) : s = .exc e → b ≠ .blocked → w.cli = some none → p.ctorErr = none → .bodyStart ∈ w.trace →
      PromptLost cfg w e → PipeCli cfg p b s w

theorem finishCli_none {res : Coro Result} {w : W} {r : List Ev} (h : w.cli = none) :
    finishCli res w r = (.ok (), w, r) := by
  unfold finishCli
  rw [bind_ok (a := w) (w' := w) (evs' := r) rfl, h]
  rfl

theorem finishCli_some {res : Coro Result} {w : W} {r : List Ev} {x : Option Result} (h : w.cli = some x) :
    finishCli res w r = match res w r with
      | (.ok q, w2, r2) => (.ok (), w2.setCli (some (some q)), r2)
      | (.exc e, w2, r2) => (.exc e, w2, r2)
      | (.blocked, w2, r2) => (.blocked, w2, r2) := by
  unfold finishCli
  rw [bind_ok (a := w) (w' := w) (evs' := r) rfl]
  simp only [h, Option.isSome, Coro.when, if_true]
  change Coro.bind _ _ _ _ = _
  unfold Coro.bind
  rcases res w r with ⟨o, w2, r2⟩
  cases o <;> rfl

/-- What a pipeline session does when its block is left. -/
def pipeTail (cfg : PRCfg) (ex : Option Exc) : Coro Unit := do
  let x ← attemptValue (pipeAexit ex)
  match x with
  | .inl e => do
    finishCli (pipeRunResult cfg none false)
    Coro.raise e
  | .inr (suppress, results) => do
    finishCli (pipeRunResult cfg results false)
    match ex with
    | none => Coro.pure ()
    | some e => if suppress then Coro.pure () else Coro.raise e

/-- How a block is left. -/
def leave (ex : Option Exc) (suppress : Bool) : Out Unit :=
  match ex with
  | none => .ok ()
  | some e => if suppress then .ok () else .exc e

/-- How a block is left if the `finally` clause ends with `o`. -/
def leaveAfter (o : Out Unit) (ex : Option Exc) (suppress : Bool) : Out Unit :=
  match o with
  | .ok _ => leave ex suppress
  | o => o

theorem leave_ended (ex : Option Exc) (s : Bool) : (leave ex s).asBlock ≠ .blocked := by
  unfold leave
  cases ex with
  | none => simp [Out.asBlock]
  | some e => dsimp only; split <;> simp [Out.asBlock]

theorem withPipePrompt_body {cfg : PRCfg} {p : PromptCfg} {w w1 w2 : W} {evs r r2 : List Ev} {ex : Option Exc}
    (h : pipeAenter cfg true w evs = (.ok (), w1, r)) (hb : attempt (promptBody p) (w1.log .bodyStart) r = (.ok ex, w2, r2)) :
    withPipePrompt cfg p w evs = pipeTail cfg ex (w2.log (.bodyEnd ex)) r2 := by
  unfold withPipePrompt
  rw [bind_ok h, bind_ok (a := ()) (w' := w1.log .bodyStart) (evs' := r) rfl, bind_ok hb,
    bind_ok (a := ()) (w' := w2.log (.bodyEnd ex)) (evs' := r2) rfl]
  rfl

/-- The end of a pipeline session. -/
theorem pipeTail_spec (cfg : PRCfg) (hn : 0 < cfg.n) (p : PromptCfg) (ex : Option Exc) (w w1 w2 : W) (hf : w.Fresh) (r : List Ev)
    (x : Option (Option Result)) (hx : x = if p.ctorErr = none then some none else none)
    (q : Quiet (w.piped .block cfg) w1) (b : BodyRel (w1.log .bodyStart) w2) :
    ApartFromCli (pipeEnd .block cfg ex (harvestResults (commands .block cfg) false true ((w2.log (.bodyEnd ex)).atExit ex) r)).2
      (pipeTail cfg ex ((w2.log (.bodyEnd ex)).setCli x) r).2.1 ∧
    PipeCli cfg p (pipeEnd .block cfg ex (harvestResults (commands .block cfg) false true ((w2.log (.bodyEnd ex)).atExit ex) r)).1
      (pipeTail cfg ex ((w2.log (.bodyEnd ex)).setCli x) r).1.asBlock
      (pipeTail cfg ex ((w2.log (.bodyEnd ex)).setCli x) r).2.1 := by
  have hne : commands .block cfg ≠ [] := by
    unfold commands
    intro hz
    have := congrArg List.length hz
    simp at this
    omega
  have hm : (w2.log (.bodyEnd ex)).mine = commands .block cfg := b.ext.mine.trans q.toExt.mine
  have hexit := pipeAexit_eq ex (w2.log (.bodyEnd ex)) r
  rw [hm] at hexit
  have hframe := (Frame.pipeAexit ex).cli (w2.log (.bodyEnd ex)) x r
  have hp := harvestResults_spec (commands .block cfg) false true ((w2.log (.bodyEnd ex)).atExit ex) r
  rcases hr : harvestResults (commands .block cfg) false true ((w2.log (.bodyEnd ex)).atExit ex) r with ⟨oh, w3, r3⟩
  rw [hr] at hexit hp
  dsimp only at hp
  obtain ⟨l, hl1, hl2, hl3, hl4⟩ := exit_trace hf q b hp.ext
  have hbs : .bodyStart ∈ w3.trace := by
    obtain ⟨k, hk, _⟩ := b.ext.trace
    rw [hl1, hk]
    simp [W.log]
  have hx' : x = none ∧ p.ctorErr ≠ none ∨ x = some none ∧ p.ctorErr = none := by
    cases hc : p.ctorErr with
    | none => right; rw [hx, hc]; simp
    | some e => left; rw [hx, hc]; simp
  cases oh with
  | blocked =>
    have ht : pipeTail cfg ex ((w2.log (.bodyEnd ex)).setCli x) r = (.blocked, w3.setCli x, r3) := by
      refine bind_blocked ?_
      unfold attemptValue
      rw [hframe, hexit]
      rfl
    rw [ht]
    refine ⟨rfl, ?_⟩
    rcases hx' with ⟨rfl, hc⟩ | ⟨rfl, hc⟩
    · exact .noCli rfl rfl fun _ => hc
    · exact .inside rfl rfl rfl hc hbs
  | exc e =>
    have ha : attemptValue (pipeAexit ex) ((w2.log (.bodyEnd ex)).setCli x) r = (.ok (.inl e), w3.setCli x, r3) := by
      unfold attemptValue
      rw [hframe, hexit]
      rfl
    have ht : pipeTail cfg ex ((w2.log (.bodyEnd ex)).setCli x) r =
        (.exc (if x = none then e else .assertionError), w3.setCli x, r3) := by
      refine (bind_ok ha).trans ?_
      rcases hx' with ⟨rfl, hc⟩ | ⟨rfl, hc⟩
      · exact bind_ok (finishCli_none rfl)
      · refine bind_exc ?_
        rw [finishCli_some (x := none) rfl]
        rfl
    rw [ht]
    refine ⟨rfl, ?_⟩
    rcases hx' with ⟨rfl, hc⟩ | ⟨rfl, hc⟩
    · exact .noCli rfl rfl fun _ => hc
    · refine .lost .assertionError (by simp [Out.asBlock]) (by simp [pipeEnd]) rfl hc hbs ?_
      rcases hp.exc e rfl with ⟨_, hz, _⟩ | ⟨rfl, hg⟩ | ⟨_, hz⟩ | ⟨hz, hd | ht⟩
      · cases hz
      · refine .gaveUp ?_
        exact List.count_pos_iff.1 (show 0 < w3.gaveUps by omega)
      · exact absurd hz hne
      · exact .serious e (toResults_error (w := w3) hz (allDone_iff.1 hd))
      · refine .twice ?_
        show 2 ≤ throwsIn (cleanupLog w3.trace)
        rw [hl2]
        show 2 ≤ List.count _ _
        rw [List.count_cons]
        omega
  | ok y =>
    obtain ⟨c, rs⟩ := y
    obtain ⟨hres, _, _⟩ := hp.ok c rs rfl
    have hout : rs.map some = (commands .block cfg).map (w3.afterWait c).outOf := (toResults_ok hres).1
    have ha : attemptValue (pipeAexit ex) ((w2.log (.bodyEnd ex)).setCli x) r =
        (.ok (.inr (ex.isSome && (w3.afterWait c).cancelled, some rs)), (w3.afterWait c).setCli x, r3) := by
      unfold attemptValue
      rw [hframe, hexit]
      rfl
    have hend : pipeEnd .block cfg ex (.ok (c, rs), w3, r3) = ((leave ex (w3.cancelled || c)).asBlock, w3.afterWait c) := by
      unfold pipeEnd conclude leave
      cases ex with
      | none => rfl
      | some e => dsimp only; split <;> rfl
    have hfin : ∀ (w4 : W) (o : Out Unit), finishCli (pipeRunResult cfg (some rs) false) ((w3.afterWait c).setCli x) r3 = (o, w4, r3) →
        pipeTail cfg ex ((w2.log (.bodyEnd ex)).setCli x) r = (leaveAfter o ex (w3.cancelled || c), w4, r3) := by
      intro w4 o h
      refine (bind_ok ha).trans ?_
      cases o with
      | exc e => exact bind_exc h
      | blocked => exact bind_blocked h
      | ok _ =>
        refine (bind_ok h).trans ?_
        cases ex with
        | none => rfl
        | some e =>
          simp only [Option.isSome_some, Bool.true_and, W.afterWait, leaveAfter, leave]
          split <;> rfl
    rw [hend]
    rcases hx' with ⟨rfl, hc⟩ | ⟨rfl, hc⟩
    · rw [hfin _ _ (finishCli_none rfl)]
      exact ⟨rfl, .noCli rfl rfl fun _ => hc⟩
    · have hf2 := finishCli_some (res := pipeRunResult cfg (some rs) false) (w := (w3.afterWait c).setCli (some none)) (r := r3)
        (x := none) rfl
      have hpr : pipeRunResult cfg (some rs) false ((w3.afterWait c).setCli (some none)) r3 =
          match convertResultList (rs.map TOut.item) (w3.afterWait c).cancelled with
          | .ok z => (.ok z, (w3.afterWait c).setCli (some none), r3)
          | .error e => (.exc e, (w3.afterWait c).setCli (some none), r3) := by
        unfold pipeRunResult
        rw [bind_ok (a := (w3.afterWait c).setCli (some none)) (w' := (w3.afterWait c).setCli (some none)) (evs' := r3) rfl]
        dsimp only [pipeResult]
        rw [show ((w3.afterWait c).setCli (some none)).cancelled = (w3.afterWait c).cancelled from rfl]
        cases convertResultList (rs.map TOut.item) (w3.afterWait c).cancelled <;> rfl
      cases hcv : convertResultList (rs.map TOut.item) (w3.afterWait c).cancelled with
      | ok z =>
        rw [hcv] at hpr
        rw [hpr] at hf2
        rw [hfin _ _ hf2]
        exact ⟨rfl, .after z rfl (leave_ended _ _) rfl hc hbs
          (convert_combined (w := ((w3.afterWait c).setCli (some none)).setCli (some (some z))) hout hcv)⟩
      | error e =>
        rw [hcv] at hpr
        rw [hpr] at hf2
        rw [hfin _ _ hf2]
        refine ⟨rfl, .lost e rfl (leave_ended _ _) rfl hc hbs ?_⟩
        rcases convert_error (w := (w3.afterWait c).setCli (some none)) hout hne hcv with ⟨pre, post, i, h1, h2, h3⟩ | ⟨rfl, i, h1, h2, h3, h4⟩
        · exact .broke pre post i e h1 h2 h3
        · exact .noResult i h1 h2 h3 h4

theorem pipeEnter_noBody {cfg : PRCfg} {w : W} (hf : w.Fresh) {evs : List Ev} (hno : (pipeAenter cfg true w evs).1 ≠ .ok ()) :
    .bodyStart ∉ (pipeAenter cfg true w evs).2.1.trace := by
  have quietOnly : ∀ {w1 : W}, Quiet (w.piped .block cfg) w1 → .bodyStart ∉ w1.trace := by
    intro w1 q
    obtain ⟨l, hl, hu⟩ := q.user
    rw [hl, show (w.piped .block cfg).trace = w.trace from rfl, hf.trace, List.nil_append]
    intro hm
    exact absurd (hu _ hm) (by simp [Obs.isUser])
  cases pipeAenter_phase .block cfg w hf evs with
  | setup e hs hx =>
    have := hx []
    simp only [List.append_nil, decide_true] at this
    rw [this]
    show _ ∉ w.trace
    rw [hf.trace]
    simp
  | launching w1 hs hh q hx _ =>
    simp only [decide_true] at hx
    rw [hx]
    exact quietOnly q
  | ok w1 rest hs q ha hb hx =>
    have := hx []
    simp only [List.append_nil, decide_true] at this
    rw [this] at hno
    exact absurd rfl hno
  | interrupted w1 rest hs hh q hm hx =>
    have := hx []
    simp only [List.append_nil, decide_true] at this
    rw [this]
    have hp := harvestResults_spec (commands .block cfg) false true w1.interrupted rest
    rcases hh : harvestResults (commands .block cfg) false true w1.interrupted rest with ⟨oh, w3, r⟩
    rw [hh] at hp
    dsimp only at hp
    obtain ⟨_, hn2, _⟩ := interrupted_trace hf q hp.ext
    cases oh with
    | ok x => obtain ⟨c, l⟩ := x; exact hn2
    | exc e => exact hn2
    | blocked => exact hn2

theorem pipeSession_facts (cfg : PRCfg) (hn : 0 < cfg.n) (p : PromptCfg) (w : W) (hf : w.Fresh) (evs : List Ev) :
    ∃ evs', ApartFromCli (pipeExecute .block cfg w evs').2 (pipeSession cfg p w evs).2 ∧
      PipeCli cfg p (pipeExecute .block cfg w evs').1 (pipeSession cfg p w evs).1 (pipeSession cfg p w evs).2 := by
  have hpre := (Frame.pipeAenter cfg true).pre w evs
  have hsame := (Frame.pipeAenter cfg true).same w evs
  have hnb := @pipeEnter_noBody cfg w hf evs
  rcases ha : pipeAenter cfg true w evs with ⟨o, w1, r⟩
  rw [ha] at hpre hsame hnb
  dsimp only at hpre hsame hnb
  rw [hf.cli] at hsame
  have hexec : ∀ evs, pipeExecute .block cfg w evs = pipeOutcome .block cfg (withPipe cfg true userBody w evs) := by
    intro evs
    have := pipeExecute_eq .block cfg w evs
    simpa only [decide_true, pipeBody] using this
  cases o with
  | blocked =>
    have h1 : pipeSession cfg p w evs = (.blocked, w1) := by
      unfold pipeSession
      rw [show withPipePrompt cfg p w evs = (.blocked, w1, r) from bind_blocked ha]
      rfl
    refine ⟨evs, ?_⟩
    rw [hexec, withPipe_enter_blocked ha, h1]
    exact ⟨rfl, .noCli rfl hsame fun h => absurd h (hnb (by simp))⟩
  | exc e =>
    have h1 : pipeSession cfg p w evs = (.exc e, w1) := by
      unfold pipeSession
      rw [show withPipePrompt cfg p w evs = (.exc e, w1, r) from bind_exc ha]
      rfl
    refine ⟨evs, ?_⟩
    rw [hexec, withPipe_enter_exc ha, h1]
    exact ⟨rfl, .noCli rfl hsame fun h => absurd h (hnb (by simp))⟩
  | ok u =>
    have hq : Quiet (w.piped .block cfg) w1 := by
      cases pipeAenter_phase .block cfg w hf evs with
      | setup e hs hx =>
        have := hx []
        simp only [List.append_nil, decide_true] at this
        rw [this] at ha; cases ha
      | launching w1 hs hh q hx _ =>
        simp only [decide_true] at hx
        rw [hx] at ha; cases ha
      | ok w1 rest hs q _ _ hx =>
        have := hx []
        simp only [List.append_nil, decide_true] at this
        rw [this] at ha; cases ha
        exact q
      | interrupted w1 rest hs hh q hm hx =>
        exfalso
        have := hx []
        simp only [List.append_nil, decide_true] at this
        rw [this] at ha
        rcases hz : harvestResults (commands .block cfg) false true w1.interrupted rest with ⟨oh, w3, r⟩
        rw [hz] at ha
        cases oh with
        | ok x => obtain ⟨c, l⟩ := x; cases ha
        | exc e => cases ha
        | blocked => cases ha
    obtain ⟨pre, h1, h2⟩ := hpre (by simp)
    obtain ⟨⟨l, hl⟩, hc⟩ := promptBody_block p (w1.log .bodyStart) r
    rw [show (w1.log .bodyStart).cli = none from hsame] at hl hc
    have ha' : pipeAenter cfg true w (pre ++ l) = (.ok (), w1, l) := h2 l
    rcases hb : promptBody p (w1.log .bodyStart) r with ⟨o, w2, r2⟩
    rw [hb] at hl hc
    dsimp only at hc
    have hbr := userBody_bodyRel (w1.log .bodyStart) l
    rw [hl] at hbr
    have hbr : BodyRel (w1.log .bodyStart) (w2.setCli none) := hbr
    have hw2 : w2 = (w2.setCli none).setCli w2.cli := rfl
    refine ⟨pre ++ l, ?_⟩
    have fin : ∀ ex, attempt (promptBody p) (w1.log .bodyStart) r = (.ok ex, w2, r2) →
        attempt userBody (w1.log .bodyStart) l = (.ok ex, w2.setCli none, r2) →
        ApartFromCli (pipeExecute .block cfg w (pre ++ l)).2 (pipeSession cfg p w evs).2 ∧
        PipeCli cfg p (pipeExecute .block cfg w (pre ++ l)).1 (pipeSession cfg p w evs).1 (pipeSession cfg p w evs).2 := by
      intro ex q1 q2
      have key := pipeTail_spec cfg hn p ex w w1 (w2.setCli none) hf r2 w2.cli hc hq hbr
      rw [show (((w2.setCli none).log (.bodyEnd ex)).setCli w2.cli) = w2.log (.bodyEnd ex) from rfl,
        ← withPipePrompt_body ha q1] at key
      have hm : (w2.setCli none).mine = commands .block cfg := hbr.ext.mine.trans hq.toExt.mine
      have e2 := withPipe_body ha' q2
      rw [hm] at e2
      have : pipeExecute .block cfg w (pre ++ l) = pipeEnd .block cfg ex
          (harvestResults (commands .block cfg) false true (((w2.setCli none).log (.bodyEnd ex)).atExit ex) r2) := by
        rw [hexec, e2]
        rcases harvestResults (commands .block cfg) false true (((w2.setCli none).log (.bodyEnd ex)).atExit ex) r2 with ⟨oh, w3, r3⟩
        cases oh with
        | ok x =>
          obtain ⟨c, rs⟩ := x
          cases ex with
          | none => rfl
          | some e =>
            dsimp only [pipeEnd]
            split <;> rfl
        | exc e => rfl
        | blocked => rfl
      rw [this]
      exact key
    have hbs : .bodyStart ∈ w2.trace := by
      obtain ⟨k, hk, _⟩ := hbr.ext.trace
      have hk : w2.trace = _ := hk
      rw [hk]
      simp [W.log]
    cases o with
    | blocked =>
      have q1 : attempt (promptBody p) (w1.log .bodyStart) r = (.blocked, w2, r2) := by rw [attempt_eq, hb]
      have q2 : attempt userBody (w1.log .bodyStart) l = (.blocked, w2.setCli none, r2) := by rw [attempt_eq, hl]; rfl
      have hs : pipeSession cfg p w evs = (.blocked, w2) := by
        have : withPipePrompt cfg p w evs = (.blocked, w2, r2) := by
          unfold withPipePrompt
          rw [bind_ok ha, bind_ok (a := ()) (w' := w1.log .bodyStart) (evs' := r) rfl, bind_blocked q1]
        unfold pipeSession
        rw [this]
        rfl
      rw [hexec, withPipe_body_blocked ha' q2, hs]
      refine ⟨rfl, ?_⟩
      cases hp : p.ctorErr with
      | none => exact .inside rfl rfl (by rw [hc, hp]; rfl) hp hbs
      | some e => exact .noCli rfl (by rw [hc, hp]; rfl) fun _ => by simp [hp]
    | ok _ => exact fin none (by rw [attempt_eq, hb]) (by rw [attempt_eq, hl]; rfl)
    | exc e => exact fin (some e) (by rw [attempt_eq, hb]) (by rw [attempt_eq, hl]; rfl)

/-- **C56.** A prompt session of a pipeline is an `async with` block of the same pipeline, with some body: it leaves
the same world (but for what `cli.result` gives), and ends in the same way unless there is no result. -/
theorem C56_pipe_session (cfg : PRCfg) (hn : 0 < cfg.n) (p : PromptCfg) (w : W) (hf : w.Fresh) (evs : List Ev) :
    ∃ evs', ApartFromCli (pipeExecute .block cfg w evs').2 (pipeSession cfg p w evs).2 ∧
      ((pipeSession cfg p w evs).1 = (pipeExecute .block cfg w evs').1 ∨
        ((pipeExecute .block cfg w evs').1 ≠ .blocked ∧
          ∃ e, (pipeSession cfg p w evs).1 = .exc e ∧ PromptLost cfg (pipeSession cfg p w evs).2 e)) := by
  obtain ⟨evs', h1, h⟩ := pipeSession_facts cfg hn p w hf evs
  refine ⟨evs', h1, ?_⟩
  cases h with
  | noCli h => exact .inl h
  | inside h h' => exact .inl (h.trans h'.symm)
  | after r h => exact .inl h
  | lost e h hb _ _ _ hl => exact .inr ⟨hb, e, h, hl⟩

/-- **C56.** Before the end of a session of a pipeline `cli.result` raises RuntimeError. -/
theorem C56_pipe_inside (cfg : PRCfg) (hn : 0 < cfg.n) (p : PromptCfg) (w : W) (hf : w.Fresh) (evs : List Ev)
    (hb : (pipeSession cfg p w evs).1 = .blocked) :
    (pipeSession cfg p w evs).2.cliResult = if .bodyStart ∈ (pipeSession cfg p w evs).2.trace ∧ p.ctorErr = none
      then some (.error .runtimeError) else none := by
  obtain ⟨evs', h1, h⟩ := pipeSession_facts cfg hn p w hf evs
  cases h with
  | noCli _ hc hno => rw [if_neg (fun ⟨x, y⟩ => hno x y), W.cliResult, hc]
  | inside _ _ hc hp hs => rw [if_pos ⟨hs, hp⟩, W.cliResult, hc]
  | after r h h' => exact absurd (h.symm.trans hb) h'
  | lost e h => rw [h] at hb; cases hb

/-- **C56, partial.** After a session of a pipeline whose block was entered, however it was left, `cli.result` is the
combined result of the commands, not checked. Missing: there is none if a command ended without a result, or if the
library could not collect the results; then the session raises an exception (`C56_pipe_lost_false`). -/
theorem C56_pipe_after_partial (cfg : PRCfg) (hn : 0 < cfg.n) (p : PromptCfg) (w : W) (hf : w.Fresh) (evs : List Ev)
    (hb : (pipeSession cfg p w evs).1 ≠ .blocked) (hs : .bodyStart ∈ (pipeSession cfg p w evs).2.trace) (hc : p.ctorErr = none) :
    (∃ r, (pipeSession cfg p w evs).2.cliResult = some (.ok r) ∧
      Combined (pipeSession cfg p w evs).2 (commands .block cfg) (pipeSession cfg p w evs).2.cancelled r) ∨
    ((pipeSession cfg p w evs).2.cliResult = some (.error .runtimeError) ∧
      ∃ e, (pipeSession cfg p w evs).1 = .exc e ∧ PromptLost cfg (pipeSession cfg p w evs).2 e) := by
  obtain ⟨evs', h1, h⟩ := pipeSession_facts cfg hn p w hf evs
  cases h with
  | noCli _ _ hno => exact absurd hc (hno hs)
  | inside h => exact absurd h hb
  | after r h h' hcl _ _ hr => exact .inl ⟨r, by rw [W.cliResult, hcl], hr⟩
  | lost e h _ hcl _ _ hl => exact .inr ⟨by rw [W.cliResult, hcl], e, h, hl⟩

/-- A session of a pipeline of three commands; the second one gives `out`. -/
def threePrompt (out : TOut) (body : Option Exc) : List Ev :=
  [.taskDone 0 (.val none), .taskDone 1 (.val none), .resume, .bodyDone body,
   .taskDone 2 (.val (some ⟨1, [97], [98], false, []⟩)), .taskDone 3 out,
   .taskDone 4 (.val (some ⟨0, [99], [], false, []⟩)), .resume]

/-- The hypotheses are met: the result is that of the first command that failed, with the output of the last one, and
is not checked. -/
example : (pipeSession { n := 3 } {} {} (threePrompt (.val (some ⟨0, [], [], false, []⟩)) none)).1 = .ok none ∧
    (pipeSession { n := 3 } {} {} (threePrompt (.val (some ⟨0, [], [], false, []⟩)) none)).2.cli =
      some (some ⟨1, [99], [98], false, []⟩) ∧
    (pipeSession { n := 3 } {} {} ((threePrompt (.val (some ⟨0, [], [], false, []⟩)) none).take 3)).1 = .blocked ∧
    (pipeSession { n := 3 } {} {} ((threePrompt (.val (some ⟨0, [], [], false, []⟩)) none).take 3)).2.cli = some none := by
  decide +kernel

/-- C56 is false for a pipeline one of whose commands cannot be started: there is never a result, and the exception of
the block is replaced by that of the command. -/
theorem C56_pipe_lost_false :
    (pipeSession { n := 3 } {} {} (threePrompt (.err .fileNotFound) (some (.user 1)))).1 = .exc .fileNotFound ∧
    (pipeSession { n := 3 } {} {} (threePrompt (.err .fileNotFound) (some (.user 1)))).2.cli = some none ∧
    .bodyEnd (some (.user 1)) ∈ (pipeSession { n := 3 } {} {} (threePrompt (.err .fileNotFound) (some (.user 1)))).2.trace := by
  decide +kernel

end Shellous.Props
