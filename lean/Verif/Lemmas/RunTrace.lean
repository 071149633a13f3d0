import Verif.Lemmas.RunPres
import Verif.Spec.Run

/-!
# The two ways to run a command, and the shape of their logs
-/

namespace Shellous

variable {α β : Type}

/-- What the body did. -/
def bodyR (how : How) (w : W) (o : Out Unit) (w' : W) : Prop :=
  BodyRel w w' ∧ ∀ f, how = .await f → w' = w ∧ o = bodyOut f

/-- How the outcome of `async with` becomes the outcome of the statement. -/
inductive Final (how : How) (cfg : RCfg) (w' : W) : Out Unit → Out (Option Returned) → Prop
  | blocked : Final how cfg w' .blocked .blocked
  | exc (e : Exc) : Final how cfg w' (.exc e) (.exc e)
  | block : how = .block → Final how cfg w' (.ok ()) (.ok none)
  | result (f : Option Exc) (r : Result) (v : Returned) : how = .await f → (runResult cfg true w' []).1 = .ok r →
      (cfg.opts.returnResult = true ∧ v = .result r ∨ cfg.opts.returnResult = false ∧
        ∃ t, cfg.decode r.outputBytes r.encoding = .ok t ∧ v = .text t) →
      Final how cfg w' (.ok ()) (.ok (some v))
  | resultErr (f : Option Exc) (e : Exc) : how = .await f → (runResult cfg true w' []).1 = .exc e →
      Final how cfg w' (.ok ()) (.exc e)
  | decodeErr (f : Option Exc) (r : Result) (e : Exc) : how = .await f → (runResult cfg true w' []).1 = .ok r →
      cfg.opts.returnResult = false → cfg.decode r.outputBytes r.encoding = .error e →
      Final how cfg w' (.ok ()) (.exc e)

theorem bodyR_block (w : W) : wp userBody (bodyR .block w) w :=
  wp_mono (userBody_bodyRel w) fun _ _ h => ⟨h, fun _ h => nomatch h⟩

theorem bodyR_await (f : Option Exc) (w : W) : wp (raiseOpt f) (bodyR (.await f) w) w :=
  wp_mono (raiseOpt_bodyRel f w) fun o w' h => by
    obtain ⟨rfl, h⟩ := h
    refine ⟨.refl _, fun g hg => ⟨rfl, ?_⟩⟩
    cases hg
    cases f <;> exact h

theorem execute_spec (how : How) (cfg : RCfg) (w : W) (hf : w.Fresh) (evs : List Ev) :
    ∃ o1, RunPost cfg (bodyR how) w o1 (execute how cfg w evs).2 ∧
      Final how cfg (execute how cfg w evs).2 o1 (execute how cfg w evs).1 := by
  cases how with
  | block =>
    have h := withRun_spec cfg userBody (bodyR .block) bodyR_block (fun _ _ _ h => h.1) w hf evs
    unfold execute
    simp only []
    rcases hr : withRun cfg userBody w evs with ⟨o, w', r⟩
    rw [hr] at h
    cases o with
    | ok _ => exact ⟨.ok (), h, .block rfl⟩
    | exc e => exact ⟨.exc e, h, .exc e⟩
    | blocked => exact ⟨.blocked, h, .blocked⟩
  | await f =>
    have h := withRun_spec cfg (raiseOpt f) (bodyR (.await f)) (bodyR_await f) (fun _ _ _ h => h.1) w hf
    have key : wp (runCommand cfg f) (fun o w' => ∃ o1, RunPost cfg (bodyR (.await f)) w o1 w' ∧
        Final (.await f) cfg w' o1 (match o with
          | .ok v => .ok (some v)
          | .exc e => .exc e
          | .blocked => .blocked)) w := by
      unfold runCommand
      refine wp_bind (wp_mono h ?_)
      intro o w' rp
      cases o with
      | blocked => exact ⟨.blocked, rp, .blocked⟩
      | exc e => exact ⟨.exc e, rp, .exc e⟩
      | ok _ =>
        simp only []
        refine wp_bind (wp_runResult ?_)
        cases hr : (runResult cfg true w' []).1 with
        | blocked => exact absurd hr (runResult_not_blocked _ _ _)
        | exc e => exact ⟨.ok (), rp, .resultErr f e rfl hr⟩
        | ok r =>
          simp only []
          split
          · rename_i hrr
            exact wp_pure ⟨.ok (), rp, .result f r _ rfl hr (.inl ⟨hrr, rfl⟩)⟩
          · rename_i hrr
            have hrr : cfg.opts.returnResult = false := by simpa using hrr
            split
            · rename_i t ht
              exact wp_pure ⟨.ok (), rp, .result f r _ rfl hr (.inr ⟨hrr, t, ht, rfl⟩)⟩
            · rename_i e he
              exact wp_raise ⟨.ok (), rp, .decodeErr f r e rfl hr hrr he⟩
    have h := key evs
    unfold execute
    simp only []
    rcases hr : runCommand cfg f w evs with ⟨o, w', r⟩
    rw [hr] at h
    cases o <;> exact h

theorem execute_pres {I : W → Prop} (hI : FStable I) (how : How) (cfg : RCfg) (w : W) (evs : List Ev) (h : I w) :
    I (execute how cfg w evs).2 := by
  cases how with
  | block =>
    have := (hI.withRun cfg hI.toLStable.userBody).run w h evs
    unfold execute
    simp only []
    rcases hr : withRun cfg userBody w evs with ⟨o, w', r⟩
    rw [hr] at this
    cases o <;> exact this
  | await f =>
    have := (hI.runCommand cfg f).run w h evs
    unfold execute
    simp only []
    rcases hr : runCommand cfg f w evs with ⟨o, w', r⟩
    rw [hr] at this
    cases o <;> exact this

/-- Every suspension point: what holds there (and is stable) still holds later. -/
theorem execute_resume {I : W → Prop} (hI : FStable I) (how : How) (cfg : RCfg) (w : W) (evs more : List Ev)
    (hb : (execute how cfg w evs).1 = .blocked) (h : I (execute how cfg w evs).2) :
    I (execute how cfg w (evs ++ more)).2 := by
  cases how with
  | block =>
    have := (hI.withRun cfg hI.toLStable.userBody).resume w evs more
    unfold execute at *
    simp only [] at *
    rcases hr : withRun cfg userBody w evs with ⟨o, w', r⟩
    rcases hr2 : withRun cfg userBody w (evs ++ more) with ⟨o2, w2, r2⟩
    rw [hr, hr2] at this
    rw [hr] at hb h
    cases o with
    | ok _ => cases hb
    | exc e => cases hb
    | blocked => cases o2 <;> exact this rfl h
  | await f =>
    have := (hI.runCommand cfg f).resume w evs more
    unfold execute at *
    simp only [] at *
    rcases hr : runCommand cfg f w evs with ⟨o, w', r⟩
    rcases hr2 : runCommand cfg f w (evs ++ more) with ⟨o2, w2, r2⟩
    rw [hr, hr2] at this
    rw [hr] at hb h
    cases o with
    | ok _ => cases hb
    | exc e => cases hb
    | blocked => cases o2 <;> exact this rfl h

/-- Once a run has ended, further events do not change what it did. -/
theorem execute_det (how : How) (cfg : RCfg) (w : W) (evs more : List Ev)
    (hb : (execute how cfg w evs).1 ≠ .blocked) :
    execute how cfg w (evs ++ more) = execute how cfg w evs := by
  have triv : FStable (fun _ => True) :=
    { env := fun _ _ _ _ => trivial, throw := fun _ _ => trivial, log := fun _ _ _ _ => trivial,
      cancelTask := fun _ _ _ => trivial, create := fun _ _ _ _ => trivial, signal := fun _ _ _ => trivial,
      setCancelled := fun _ _ => trivial, mine := fun _ _ _ => trivial, poll := fun _ _ => trivial,
      stop := fun _ _ => trivial,
      spawn := fun _ _ => trivial, setTimer := fun _ _ _ => trivial, mark := fun _ _ _ _ => trivial,
      close := fun _ _ => trivial }
  cases how with
  | block =>
    have := ((triv.withRun cfg triv.toLStable.userBody).det w evs).2
    unfold execute at *
    simp only [] at *
    rcases hr : withRun cfg userBody w evs with ⟨o, w', r⟩
    rw [hr] at hb this
    cases o with
    | ok _ => rw [this (by simp) more]
    | exc e => rw [this (by simp) more]
    | blocked => exact absurd rfl hb
  | await f =>
    have := ((triv.runCommand cfg f).det w evs).2
    unfold execute at *
    simp only [] at *
    rcases hr : runCommand cfg f w evs with ⟨o, w', r⟩
    rw [hr] at hb this
    cases o with
    | ok _ => rw [this (by simp) more]
    | exc e => rw [this (by simp) more]
    | blocked => exact absurd rfl hb

/-! ## Logs -/

theorem librarySignals_eq (t : List Obs) : librarySignals t = libSigs t := by
  induction t with
  | nil => rfl
  | cons o t ih =>
    unfold libSigs at *
    cases o <;> try exact ih
    rename_i b s
    cases b
    · simp only [librarySignals, List.filterMap_cons, ih]
    · simpa only [librarySignals, List.filterMap_cons] using ih

theorem audits_append (t t' : List Obs) : audits (t ++ t') = audits t ++ audits t' := by
  induction t with
  | nil => rfl
  | cons o t ih => cases o <;> simp [audits, ih]

/-- Neither "start" nor "stop". -/
def Obs.noBracket : Obs → Bool
  | .auditStart => false
  | .auditStop _ => false
  | _ => true

theorem Obs.noBracket_of_inner {o : Obs} (h : o.inner = true) : o.noBracket = true := by
  cases o <;> simp_all [inner, noBracket]

theorem audits_noBracket {l : List Obs} (h : ∀ o ∈ l, o.noBracket = true) :
    ∃ s : List (Option Nat), audits l = s.map .signal := by
  induction l with
  | nil => exact ⟨[], rfl⟩
  | cons o l ih =>
    obtain ⟨s, hs⟩ := ih fun o ho => h o (by simp [ho])
    have := h o (by simp)
    cases o
    case auditStart => exact absurd this (by simp [Obs.noBracket])
    case auditStop => exact absurd this (by simp [Obs.noBracket])
    case auditSignal b sig => exact ⟨sig :: s, by simp [audits, hs]⟩
    all_goals exact ⟨s, by simp [audits, hs]⟩

/-- The log up to the end of the body. -/
theorem Launched.bodyTrace {cfg : RCfg} {w w1 w2 : W} (hf : w.Fresh) (h : Launched cfg (w.log .auditStart) w1)
    (b : BodyRel (w1.log .bodyStart) w2) : ∃ l1 l2, w2.trace = .auditStart :: (l1 ++ .bodyStart :: l2) ∧
      (∀ o ∈ l1, o.inner = true) ∧ ∀ o ∈ l2, o.inner = true := by
  obtain ⟨l1, h1, q1⟩ := h.quiet
  obtain ⟨l2, h2, q2⟩ := b.ext.trace
  refine ⟨l1, l2, ?_, fun o ho => Obs.inner_of_quiet (q1 o ho), fun o ho => Obs.inner_of_quiet (q2 o ho)⟩
  rw [h2, W.log, h1, W.log, hf.trace]
  simp

theorem RunPost.trace {cfg : RCfg} {R : W → Out Unit → W → Prop} {w w' : W} {o : Out Unit} (hf : w.Fresh)
    (h : RunPost cfg R w o w') : ∃ l, (∀ x ∈ l, x.noBracket = true) ∧
      ((o = .blocked ∧ w'.trace = .auditStart :: l) ∨
        (o ≠ .blocked ∧ ∃ f, w'.trace = .auditStart :: l ++ [.auditStop f])) := by
  have body : ∀ w1 w2, Launched cfg (w.log .auditStart) w1 → BodyRel (w1.log .bodyStart) w2 →
      ∃ l, (∀ x ∈ l, x.noBracket = true) ∧ w2.trace = .auditStart :: l := by
    intro w1 w2 hl hb
    obtain ⟨l1, l2, ht, h1, h2⟩ := hl.bodyTrace hf hb
    refine ⟨l1 ++ .bodyStart :: l2, ?_, ht⟩
    intro x hx
    simp only [List.mem_append, List.mem_cons] at hx
    rcases hx with hx | rfl | hx
    · exact Obs.noBracket_of_inner (h1 x hx)
    · rfl
    · exact Obs.noBracket_of_inner (h2 x hx)
  have exits : ∀ w1 w2 w3 ex o, Launched cfg (w.log .auditStart) w1 → BodyRel (w1.log .bodyStart) w2 →
      XPost cfg ex (w2.log (.bodyEnd ex)) o w3 → ∃ l, (∀ x ∈ l, x.noBracket = true) ∧ w3.trace = .auditStart :: l := by
    intro w1 w2 w3 ex o hl hb x
    obtain ⟨l, hl1, hl2⟩ := body w1 w2 hl hb
    obtain ⟨l3, h3, q3⟩ := x.ext.trace
    refine ⟨l ++ .bodyEnd ex :: l3, ?_, ?_⟩
    · intro y hy
      simp only [List.mem_append, List.mem_cons] at hy
      rcases hy with hy | rfl | hy
      · exact hl1 y hy
      · rfl
      · exact Obs.noBracket_of_inner (q3 y hy)
    · rw [h3, W.log, hl2]; simp
  cases h with
  | launching w' h =>
    obtain ⟨l, hl, q⟩ := h.ext.trace
    refine ⟨l, fun x hx => Obs.noBracket_of_inner (q x hx), .inl ⟨rfl, ?_⟩⟩
    rw [hl, W.log, hf.trace]; rfl
  | failed e1 e w1 h _ =>
    obtain ⟨l, hl, q⟩ := h.ext.trace
    refine ⟨l, fun x hx => Obs.noBracket_of_inner (q x hx), .inr ⟨by simp, some e1, ?_⟩⟩
    rw [W.log, W.stopTimer, hl, W.log, hf.trace]; rfl
  | inBody w1 w2 hl _ hb =>
    obtain ⟨l, h1, h2⟩ := body w1 _ hl hb
    exact ⟨l, h1, .inl ⟨rfl, h2⟩⟩
  | exiting w1 w2 w3 ex hl _ hb x =>
    obtain ⟨l, h1, h2⟩ := exits w1 w2 _ ex _ hl hb x
    exact ⟨l, h1, .inl ⟨rfl, h2⟩⟩
  | ended w1 w2 w3 ex o hl _ hb x ho =>
    obtain ⟨l, h1, h2⟩ := exits w1 w2 _ ex _ hl hb x
    refine ⟨l, h1, .inr ⟨?_, none, ?_⟩⟩
    · cases o with
      | blocked => exact absurd rfl ho
      | exc e => simp [combine]
      | ok b =>
        unfold combine
        cases ex with
        | none => simp
        | some e => simp only []; split <;> simp
    · rw [W.log, W.stopTimer, h2]

theorem Final.blocked_iff {how : How} {cfg : RCfg} {w : W} {o1 : Out Unit} {o : Out (Option Returned)}
    (h : Final how cfg w o1 o) : o = .blocked ↔ o1 = .blocked := by
  cases h <;> simp

theorem rcKnown_reaped {w : W} (hok : w.Ok) (h : w.rcKnown = true) : Reaped w := by
  unfold W.rcKnown at h
  split at h
  · rename_i p hp
    obtain ⟨c, hc⟩ := Option.isSome_iff_exists.1 h
    obtain ⟨h1, h2⟩ := hok.proc p hp
    have h3 := h1 h
    refine ⟨p, c, hp, hc, ?_, ?_⟩
    · intro hn; rw [hn] at h3; cases h3
    · have := h2 h3
      intro hn; rw [hn] at this; cases this
  · cases h

theorem Reaped.rcKnown {w : W} (h : Reaped w) : w.rcKnown = true := by
  obtain ⟨p, c, hp, hc, _⟩ := h
  unfold W.rcKnown
  rw [hp]
  simp [hc]

/-- The log only grows. -/
theorem fstable_trace (t : List Obs) : FStable fun w => ∃ l, w.trace = t ++ l := by
  have app : ∀ {t' t'' : List Obs} {p : Obs → Bool}, Grew p t' t'' → (∃ l, t' = t ++ l) → ∃ l, t'' = t ++ l := by
    rintro t' t'' p ⟨l, hl, _⟩ ⟨l', hl'⟩
    exact ⟨l' ++ l, by rw [hl, hl']; simp⟩
  have log : ∀ (w : W) o, (∃ l, w.trace = t ++ l) → ∃ l, (w.log o).trace = t ++ l := by
    rintro w o ⟨l, hl⟩
    exact ⟨l ++ [o], by rw [W.log, hl]; simp⟩
  exact
    { env := fun fwd w ev h => app (env_ext fwd w ev).trace h
      throw := fun w h => app (throwCancel_ext w).trace h
      log := fun w o _ h => log w o h
      cancelTask := fun w i h => app (cancelTask_ext w i).trace h
      create := fun w k _ h => h
      signal := fun w s h => app (rsignal_ext w false s).trace h
      setCancelled := fun w h => h
      stop := fun w h => h
      mine := fun w m h => h
      poll := fun w h => app (poll_ext w).trace h
      spawn := fun w h => h
      setTimer := fun w b h => h
      mark := fun w o _ h => log w o h
      close := fun w h => app (transportClose_ext w).trace h }

theorem execute_trace_prefix (how : How) (cfg : RCfg) (w : W) (evs more : List Ev) :
    ∃ l, (execute how cfg w (evs ++ more)).2.trace = (execute how cfg w evs).2.trace ++ l := by
  by_cases hb : (execute how cfg w evs).1 = .blocked
  · exact execute_resume (fstable_trace _) how cfg w evs more hb ⟨[], by simp⟩
  · rw [execute_det how cfg w evs more hb]
    exact ⟨[], by simp⟩

theorem after_ext (w : W) (evs : List Ev) : Ext w (w.after evs) := by
  unfold W.after
  induction evs generalizing w with
  | nil => exact .refl w
  | cons ev evs ih => exact (env_ext none w ev).trans (ih _)

theorem after_append (w : W) (l l' : List Ev) : w.after (l ++ l') = (w.after l).after l' := by
  unfold W.after; rw [List.foldl_append]

/-- Only a user's signal adds to the log once nothing runs any more. -/
theorem env_trace_eq (w : W) (ev : Ev) (h : w.attached = false ∨ w.rcKnown = true) :
    (w.env none ev).trace = w.trace := by
  cases ev <;> simp only [W.env]
  case userSignal sig => rcases h with h | h <;> simp [h]
  case taskDone i out =>
    split
    · rfl
    · split
      · rename_i t _ _
        cases hk : t.kind <;> cases out <;> simp [W.endEffect, W.setOut, W.stopTimer, TOut.norm] <;> (try split) <;> rfl
      · rfl
  all_goals repeat' split
  all_goals rfl

/-- A run that has ended: it failed to launch, or it went through `__aexit__`. -/
inductive Ended (how : How) (cfg : RCfg) (w : W) : Out (Option Returned) → W → Prop
  | failed (e1 e : Exc) (w1 : W) : LFail cfg (w.log .auditStart) e1 w1 →
      (e = e1 ∨ (w1.cancelled = true ∧ cfg.opts.catchCancelled = true ∧
        (runResult cfg true (w1.stopTimer.log (.auditStop (some e1))) []).1 = .exc e)) →
      Ended how cfg w (.exc e) (w1.stopTimer.log (.auditStop (some e1)))
  | ended (w1 w2 w3 : W) (ex : Option Exc) (o : Out Bool) (o' : Out (Option Returned)) :
      Launched cfg (w.log .auditStart) w1 → bodyR how (w1.log .bodyStart) (bodyOut ex) w2 →
      BodyRel (w1.log .bodyStart) w2 → XPost cfg ex (w2.log (.bodyEnd ex)) o w3 → o ≠ .blocked →
      Final how cfg (w3.stopTimer.log (.auditStop none)) (combine ex o) o' →
      Ended how cfg w o' (w3.stopTimer.log (.auditStop none))

theorem execute_ended {how : How} {cfg : RCfg} {w w' : W} {evs : List Ev} {o : Out (Option Returned)} (hf : w.Fresh)
    (h : execute how cfg w evs = (o, w')) (hb : o ≠ .blocked) : Ended how cfg w o w' := by
  obtain ⟨o1, rp, fin⟩ := execute_spec how cfg w hf evs
  rw [h] at rp fin
  have hb1 : o1 ≠ .blocked := fun h => hb (fin.blocked_iff.2 h)
  cases rp with
  | launching => exact absurd rfl hb1
  | inBody => exact absurd rfl hb1
  | exiting => exact absurd rfl hb1
  | failed e1 e w1 hl hc =>
    cases fin
    exact .failed e1 e w1 hl hc
  | ended w1 w2 w3 ex ob hl hr hbr x ho => exact .ended w1 w2 w3 ex ob o hl hr hbr x ho fin

end Shellous
