import Verif.Spec.Dialogue
import Verif.Props.Prompt

/-! # C91: each command of a dialogue gets its answer -/

namespace Shellous.Props

open Shellous

/-! ## Reading only adds -/

theorem readChunk_gotp (cfg : PCfg) (p : PS) (c : Bytes) : p.got <+: (p.readChunk cfg c).2.got := by
  rw [readChunk_got]; exact List.prefix_append _ _

theorem patStep_gotp (cfg : PCfg) (pat : Pattern) (p : PS) (c : Bytes) : p.got <+: (patStep cfg pat p c).1.got := by
  rw [patStep_got]; exact List.prefix_append _ _

theorem someStep_gotp (cfg : PCfg) (p : PS) (c : Bytes) : p.got <+: (someStep cfg p c).1.got := by
  have h := readChunk_gotp cfg p c
  simp only [someStep]
  split <;> (rename_i e; rw [e] at h; exact h)

theorem expectLoop_gotp (cfg : PCfg) (pat : Pattern) (timer : Bool) (evs : List PEv) : ∀ r p,
    p.got <+: (expectLoop cfg pat timer evs r p).2.1.got := by
  induction evs with
  | nil => intro r p; rcases r with _ | ⟨_ | _⟩ <;> exact List.prefix_refl _
  | cons ev evs ih =>
    intro r p
    rcases r with _ | ⟨e | ⟨t, m⟩⟩
    · cases ev with
      | read c => exact (patStep_gotp cfg pat p c).trans (ih _ _)
      | timeout =>
        simp only [expectLoop]
        split
        · simp only [logMsg_got]; exact List.prefix_refl _
        · exact ih _ _
      | cancel => simp only [expectLoop, logMsg_got]; exact List.prefix_refl _
      | _ => exact ih _ _
    · cases ev <;> first | exact ih _ _ | exact List.prefix_refl _
    · cases ev <;> first | exact ih _ _ | exact List.prefix_refl _

theorem searchPending_got {cfg : PCfg} {p p' : PS} {pat : Pattern} {t m : Text} (h : p.searchPending cfg pat = some (t, m, p')) :
    p'.got = p.got ∧ p'.atEof = p.atEof := by
  simp only [PS.searchPending] at h
  split at h
  · cases h
  · simp only [Option.some.injEq, Prod.mk.injEq] at h
    obtain ⟨-, -, rfl⟩ := h
    simp only [logMsg_got, logMsg_atEof, and_self]

theorem expectPat_gotp (cfg : PCfg) (pat : Pattern) (timeout : Option Nat) (evs : List PEv) (p : PS) :
    p.got <+: (expectPat cfg pat timeout evs p).2.1.got := by
  simp only [expectPat]
  split
  · rename_i h
    split at h
    · cases h
    · rw [(searchPending_got h).1]; exact List.prefix_refl _
  · split
    · exact List.prefix_refl _
    · exact expectLoop_gotp ..

theorem expectPat_eof_got (cfg : PCfg) (pat : Pattern) (timeout : Option Nat) (evs : List PEv) (p : PS) (he : p.atEof = true) :
    (expectPat cfg pat timeout evs p).2.1.got = p.got := by
  simp only [expectPat]
  split
  · rename_i h
    split at h
    · cases h
    · exact (searchPending_got h).1
  · rw [if_pos he]

/-- What `drain` leaves of the state and of the events. -/
theorem drainLoop_rel (cfg : PCfg) (timer : Bool) (evs : List PEv) : ∀ r p,
    p.got <+: (drainLoop cfg timer evs r p).2.1.got ∧
    (p.atEof = true → r ≠ .running → (drainLoop cfg timer evs r p).2.1 = p) ∧
    (drainLoop cfg timer evs r p).2.2 <:+ evs ∧
    (∀ t m, (drainLoop cfg timer evs r p).1 ≠ .matched t m) ∧
    (∀ t, (drainLoop cfg timer evs r p).1 ≠ .text t) := by
  induction evs with
  | nil =>
    intro r p
    cases r <;> exact ⟨List.prefix_refl _, fun _ _ => rfl, List.suffix_refl _, (fun _ _ h => by cases h), (fun _ h => by cases h)⟩
  | cons ev evs ih =>
    have stop : ∀ (r : DrainReader) (p : PS) (o : POut), (∀ t m, o ≠ .matched t m) → (∀ t, o ≠ .text t) →
        p.got <+: (o, p, evs).2.1.got ∧ (p.atEof = true → r ≠ .running → (o, p, evs).2.1 = p) ∧ (o, p, evs).2.2 <:+ ev :: evs ∧
        (∀ t m, (o, p, evs).1 ≠ .matched t m) ∧ (∀ t, (o, p, evs).1 ≠ .text t) := fun r p o h1 h2 =>
      ⟨List.prefix_refl _, fun _ _ => rfl, List.suffix_cons _ _, h1, h2⟩
    have go : ∀ (r r' : DrainReader) (p : PS), (p.atEof = true → r ≠ .running → r' ≠ .running) →
        p.got <+: (drainLoop cfg timer evs r' p).2.1.got ∧ (p.atEof = true → r ≠ .running → (drainLoop cfg timer evs r' p).2.1 = p) ∧
        (drainLoop cfg timer evs r' p).2.2 <:+ ev :: evs ∧ (∀ t m, (drainLoop cfg timer evs r' p).1 ≠ .matched t m) ∧
        (∀ t, (drainLoop cfg timer evs r' p).1 ≠ .text t) := fun r r' p h =>
      ⟨(ih r' p).1, fun he hr => (ih r' p).2.1 he (h he hr), (ih r' p).2.2.1.trans (List.suffix_cons _ _), (ih r' p).2.2.2.1,
        (ih r' p).2.2.2.2⟩
    have no : ∀ e, (∀ t m, POut.exc e [] ≠ .matched t m) ∧ (∀ t, POut.exc e [] ≠ .text t) :=
      fun e => ⟨(fun _ _ h => by cases h), (fun _ h => by cases h)⟩
    have nod : (∀ t m, POut.done ≠ .matched t m) ∧ (∀ t, POut.done ≠ .text t) := ⟨(fun _ _ h => by cases h), (fun _ h => by cases h)⟩
    intro r p
    cases r with
    | notStarted =>
      cases ev with
      | resume => exact go _ _ _ fun he _ => by simp [drainStart, he]
      | drained => exact stop _ _ _ nod.1 nod.2
      | drainErr e => exact stop _ _ _ nod.1 nod.2
      | cancel => exact stop _ _ _ (no _).1 (no _).2
      | timeout =>
        simp only [drainLoop]
        split
        · exact stop _ _ _ (no _).1 (no _).2
        · exact go _ _ _ fun _ h => h
      | _ => exact go _ _ _ fun _ h => h
    | finished =>
      cases ev with
      | drained => exact stop _ _ _ nod.1 nod.2
      | drainErr e => exact stop _ _ _ (no _).1 (no _).2
      | cancel => exact stop _ _ _ (no _).1 (no _).2
      | timeout =>
        simp only [drainLoop]
        split
        · exact stop _ _ _ (no _).1 (no _).2
        · exact go _ _ _ fun _ h => h
      | _ => exact go _ _ _ fun _ h => h
    | running =>
      cases ev with
      | read c =>
        have h := ih (if (someStep cfg p c).2.isSome then .finished else .running) (someStep cfg p c).1
        exact ⟨(someStep_gotp cfg p c).trans h.1, fun _ h => absurd rfl h, h.2.2.1.trans (List.suffix_cons _ _), h.2.2.2⟩
      | drained => exact stop _ _ _ nod.1 nod.2
      | drainErr e => exact stop _ _ _ nod.1 nod.2
      | cancel => exact stop _ _ _ (no _).1 (no _).2
      | timeout =>
        simp only [drainLoop]
        split
        · exact stop _ _ _ (no _).1 (no _).2
        · exact go _ _ _ fun _ h => h
      | readErr e => exact go _ _ _ fun _ h => absurd rfl h
      | _ => exact go _ _ _ fun _ h => h

/-- The same for `send`. -/
structure SendRel (p : PS) (evs : List PEv) (r : POut × PS × List PEv) : Prop where
  got : p.got <+: r.2.1.got
  eof : p.atEof = true → r.2.1.got = p.got ∧ r.2.1.pending = p.pending
  evs : r.2.2 <:+ evs
  matched : ∀ t m, r.1 ≠ .matched t m
  text : ∀ t, r.1 ≠ .text t

theorem sendNow_rel (cfg : PCfg) (t : SendText) (e : Option Text) (n : Bool) (timeout : Option Nat) (evs : List PEv) (p : PS) :
    SendRel p evs (sendNow cfg t e n timeout evs p) := by
  simp only [sendNow]
  split
  · exact ⟨List.prefix_refl _, fun _ => ⟨rfl, rfl⟩, List.suffix_refl _, (fun _ _ h => by cases h), (fun _ h => by cases h)⟩
  · rename_i data _
    have h := drainLoop_rel cfg (timerSet cfg timeout) evs .notStarted
      (PS.logMsg { p with written := p.written ++ data } cfg (if n then .sendHidden else .send data))
    refine ⟨by simpa only [logMsg_got] using h.1, fun he => ?_, h.2.2.1, h.2.2.2.1, h.2.2.2.2⟩
    have := h.2.1 (by simpa only [logMsg_atEof] using he) (by simp)
    rw [this]
    simp only [logMsg_got, logMsg_pending, and_self]

theorem pollEcho_out (cfg : PCfg) (n : Nat) (polls : List Poll) (o : POut) (h : pollEcho cfg n polls = some o) :
    (∀ t m, o ≠ .matched t m) ∧ ∀ t, o ≠ .text t := by
  induction n generalizing polls with
  | zero =>
    unfold pollEcho at h
    split at h <;> first | (cases h; exact ⟨(fun _ _ h => by cases h), (fun _ h => by cases h)⟩) | skip
    all_goals contradiction
  | succ n ih =>
    rcases polls with _ | ⟨_ | _, ps⟩
    · cases h; exact ⟨(fun _ _ h => by cases h), (fun _ h => by cases h)⟩
    · simp only [pollEcho] at h
      split at h
      · exact ih _ h
      · cases h
    · cases h; exact ⟨(fun _ _ h => by cases h), (fun _ h => by cases h)⟩

theorem send_rel (cfg : PCfg) (t : SendText) (e : Option Text) (n : Bool) (timeout : Option Nat) (polls : List Poll) (evs : List PEv)
    (p : PS) : SendRel p evs (send cfg t e n timeout polls evs p) := by
  simp only [send]
  split
  · split
    · rename_i o p' h
      simp only [waitNoEcho, Prod.mk.injEq] at h
      obtain ⟨h1, rfl⟩ := h
      have := pollEcho_out cfg _ _ _ h1
      exact ⟨by simp only [logMsg_got]; exact List.prefix_refl _, fun _ => by simp only [logMsg_got, logMsg_pending, and_self],
        List.suffix_refl _, this.1, this.2⟩
    · rename_i p' h
      simp only [waitNoEcho, Prod.mk.injEq] at h
      obtain ⟨-, rfl⟩ := h
      have := sendNow_rel cfg t e n timeout evs (p.logMsg cfg .waitNoEcho)
      exact ⟨by simpa only [logMsg_got] using this.got,
        fun he => by simpa only [logMsg_got, logMsg_pending] using this.eof (by simpa only [logMsg_atEof] using he), this.evs, this.matched,
        this.text⟩
  · exact sendNow_rel ..

/-! ## One call -/

theorem isPrompt_resolve {cfg : PCfg} {P : Text} {arg : PromptArg} (h : IsPrompt cfg P arg) :
    resolvePrompt cfg.dflt arg = .ok (exactPattern P) := by
  rcases h with rfl | ⟨rfl, h⟩
  · rfl
  · simp only [resolvePrompt, h]

/-- Reads never raise EOFError. -/
theorem noReadEof_suffix {evs evs' : List PEv} (h : evs' <:+ evs) (hn : NoReadEof evs) : NoReadEof evs' := fun hm => hn (h.subset hm)

/-- What one call of a dialogue does. -/
structure CallRel (P : Text) (p : PS) (o : POut) (p' : PS) : Prop where
  got : p.got <+: p'.got
  eof : p.atEof = true → p'.got = p.got
  matched : ∀ t m, o = .matched t m → m = P ∧ FirstOccurrence P (t ++ P ++ p'.pending) t.length
  text : ∀ t, o = .text t → p'.atEof = true ∧ p'.pending = []
  dead : p.atEof = true → p.pending = [] → (∀ t m, o ≠ .matched t m) ∧ p'.pending = []

theorem exact_nil {P : Text} (hP : P ≠ []) : exactPattern P [] = none := by
  rw [exact_eq_list]; exact list_pat_nil [P] (by simp) (by simpa using hP)

/-- What the pattern of a string reports. -/
theorem exact_first {P R t m : Text} (hP : P ≠ []) (h : exactPattern P (t ++ m ++ R) = some (t.length, t.length + m.length)) :
    m = P ∧ FirstOccurrence P (t ++ P ++ R) t.length := by
  rw [exact_eq_list] at h
  rcases list_search_result [P] (by simp) (by simpa using hP) (t ++ m ++ R) with ⟨i, a, ha, hp2, htake⟩ | ⟨-, hp2⟩
  · obtain ⟨rfl, hf⟩ := (firstOfList_one _ _ _ _).1 ha
    rw [h] at hp2
    simp only [Option.some.injEq, Prod.mk.injEq] at hp2
    obtain ⟨rfl, h2⟩ := hp2
    have hm : m = a := by
      rw [← htake]
      have : a.length = m.length := by omega
      simp [List.append_assoc, this]
    subst hm
    exact ⟨rfl, hf⟩
  · rw [h] at hp2; cases hp2

theorem expect_rel (cfg : PCfg) {P : Text} (hP : P ≠ []) {arg : PromptArg} (ha : IsPrompt cfg P arg) (timeout : Option Nat) (evs : List PEv)
    (hev : NoReadEof evs) (p : PS) :
    CallRel P p (expect cfg arg timeout evs p).1 (expect cfg arg timeout evs p).2.1 ∧
    ∀ d, (expect cfg arg timeout evs p).1 = .exc .eofError d → (expect cfg arg timeout evs p).2.1.atEof = true := by
  simp only [expect, isPrompt_resolve ha]
  have hs := expectPat_spec cfg (exactPattern P) (exactPattern_span P) (exact_nil hP) timeout evs hev p
  have ht : ∀ t, (expectPat cfg (exactPattern P) timeout evs p).1 ≠ .text t := by
    have loop : ∀ (evs : List PEv) r p t, (expectLoop cfg (exactPattern P) (timerSet cfg timeout) evs r p).1 ≠ .text t := by
      intro evs
      induction evs with
      | nil => intro r p t; rcases r with _ | ⟨_ | _⟩ <;> exact fun h => by cases h
      | cons ev evs ih =>
        intro r p t
        rcases r with _ | ⟨_ | _⟩
        · cases ev with
          | timeout =>
            simp only [expectLoop]
            split
            · exact fun h => by cases h
            · exact ih _ _ _
          | cancel => exact fun h => by cases h
          | _ => exact ih _ _ _
        · cases ev <;> first | exact ih _ _ _ | exact fun h => by cases h
        · cases ev <;> first | exact ih _ _ _ | exact fun h => by cases h
    intro t
    simp only [expectPat]
    split
    · exact fun h => by cases h
    · split
      · exact fun h => by cases h
      · exact loop _ _ _ _
  refine ⟨⟨expectPat_gotp .., fun he => expectPat_eof_got _ _ _ _ _ he, fun t m h => exact_first hP (hs.1 t m h), fun t h => absurd h (ht t), ?_⟩,
    fun d h => (hs.2 d h).1⟩
  intro he hp
  have : expectPat cfg (exactPattern P) timeout evs p = (.exc .eofError, p, evs) := by
    simp [expectPat, hp, he]
  rw [this]
  exact ⟨(fun _ _ h => by cases h), hp⟩

theorem call_rel (cfg : PCfg) {P : Text} (hP : P ≠ []) (op : POp) (h : InDialogue cfg P op) (polls : List Poll) (evs : List PEv)
    (hev : NoReadEof evs) (p : PS) : CallRel P p (op.run cfg polls evs p).1 (op.run cfg polls evs p).2 := by
  cases op with
  | expect arg t => exact (expect_rel cfg hP h t evs hev p).1
  | readAll => exact h.elim
  | readPending => exact h.elim
  | close =>
    have : (promptClose cfg p).got = p.got ∧ (promptClose cfg p).pending = p.pending := by
      simp only [promptClose]
      split <;> simp only [logMsg_got, logMsg_pending, and_self]
    exact ⟨by simp only [POp.run, this.1]; exact List.prefix_refl _, fun _ => this.1, (fun _ _ h => by cases h), (fun _ h => by cases h),
      fun _ hp => ⟨(fun _ _ h => by cases h), by simp only [POp.run, this.2, hp]⟩⟩
  | send t e n to =>
    have := send_rel cfg t e n to polls evs p
    exact ⟨this.got, fun he => (this.eof he).1, fun _ _ h => absurd h (this.matched _ _), fun _ h => absurd h (this.text _),
      fun he hp => ⟨this.matched, (this.eof he).2.trans hp⟩⟩
  | command t e n arg to a =>
    simp only [POp.run, command]
    split
    · exact ⟨List.prefix_refl _, fun _ => rfl, (fun _ _ h => by cases h), (fun _ h => by cases h), fun _ hp => ⟨(fun _ _ h => by cases h), hp⟩⟩
    · rename_i hne
      have hs := send_rel cfg t e n to polls evs p
      split
      · rename_i p' evs' hr
        rw [hr] at hs
        have hx := expect_rel cfg hP h to evs' (noReadEof_suffix hs.evs hev) p'
        generalize expect cfg arg to evs' p' = r at hx
        obtain ⟨o, p2, evs2⟩ := r
        simp only [commandEnd]
        split
        · rename_i d q evs3 heq
          simp only [Prod.mk.injEq] at heq
          obtain ⟨rfl, rfl, rfl⟩ := heq
          split
          · exact ⟨hs.got.trans hx.1.got, fun he => absurd he hne, (fun _ _ h => by cases h), fun _ _ => ⟨hx.2 _ rfl, rfl⟩,
              fun he => absurd he hne⟩
          · exact ⟨hs.got.trans hx.1.got, fun he => absurd he hne, (fun _ _ h => by cases h), (fun _ h => by cases h), fun he => absurd he hne⟩
        · exact ⟨hs.got.trans hx.1.got, fun he => absurd he hne, hx.1.matched, hx.1.text, fun he => absurd he hne⟩
      · exact ⟨hs.got, fun he => absurd he hne, fun _ _ h => absurd h (hs.matched _ _), fun _ h => absurd h (hs.text _),
          fun he => absurd he hne⟩

theorem inDialogue_span {cfg : PCfg} {P : Text} {op : POp} (h : InDialogue cfg P op) : SpanOp op := by
  cases op with
  | expect arg t => rcases h with rfl | ⟨rfl, -⟩ <;> trivial
  | command t e n arg to a => rcases h with rfl | ⟨rfl, -⟩ <;> trivial
  | _ => trivial

/-! ## The whole dialogue -/

theorem session_rel (cfg : PCfg) {P : Text} (hP : P ≠ []) : ∀ (calls : List PCall) (p : PS), (∀ c ∈ calls, InDialogue cfg P c.op) →
    (∀ c ∈ calls, NoReadEof c.evs) →
    p.got <+: (session cfg calls p).2.got ∧ (p.atEof = true → (session cfg calls p).2.got = p.got)
  | [], p, _, _ => ⟨List.prefix_refl _, fun _ => rfl⟩
  | c :: cs, p, h, hev => by
    have h1 := call_rel cfg hP c.op (h c (by simp)) c.polls c.evs (hev c (by simp)) p
    have h2 := session_rel cfg hP cs (c.op.run cfg c.polls c.evs p).2 (fun x hx => h x (by simp [hx])) (fun x hx => hev x (by simp [hx]))
    exact ⟨h1.got.trans h2.1, fun he => (h2.2 (op_atEof cfg c.op c.polls c.evs p he)).trans (h1.eof he)⟩

theorem answers_skip {o : POut} (h : ∀ t m, o ≠ .matched t m) (os : List POut) : answers (o :: os) = answers os := by
  cases o with
  | matched t m => exact absurd rfl (h t m)
  | _ => rfl

theorem session_dead (cfg : PCfg) {P : Text} (hP : P ≠ []) : ∀ (calls : List PCall) (p : PS), (∀ c ∈ calls, InDialogue cfg P c.op) →
    (∀ c ∈ calls, NoReadEof c.evs) → p.atEof = true → p.pending = [] → answers (session cfg calls p).1 = []
  | [], _, _, _, _, _ => rfl
  | c :: cs, p, h, hev, he, hp => by
    have h1 := (call_rel cfg hP c.op (h c (by simp)) c.polls c.evs (hev c (by simp)) p).dead he hp
    have h2 := session_dead cfg hP cs (c.op.run cfg c.polls c.evs p).2 (fun x hx => h x (by simp [hx])) (fun x hx => hev x (by simp [hx]))
      (op_atEof cfg c.op c.polls c.evs p he) h1.2
    simp only [session]
    rw [answers_skip h1.1]; exact h2

theorem first_unique {s t : Text} {i j : Nat} (h : FirstOccurrence s t i) (h' : FirstOccurrence s t j) : i = j := by
  rcases Nat.lt_trichotomy i j with hl | he | hl
  · exact absurd h.1 (h'.2 i hl)
  · exact he
  · exact absurd h'.1 (h.2 j hl)

theorem first_append {s t : Text} {i : Nat} (hs : s ≠ []) (h : FirstOccurrence s t i) (x : Text) : FirstOccurrence s (t ++ x) i := by
  refine ⟨occurs_append x h.1, fun k hk ho => h.2 k hk (occurs_of_append ho ?_)⟩
  have := occurs_length h.1 hs
  omega

theorem dialogue (d : Decoder) (g : GoodStep d.step) (cfg : PCfg) (hd : ∀ q, cfg.dflt = some q → SpanPattern q) {P : Text} (hP : P ≠ [])
    (rest : Bytes) (tail : Text) : ∀ (calls : List PCall) (X : Text) (p : PS) (as : List Text), PInv d X p →
    (∀ c ∈ calls, InDialogue cfg P c.op) → (∀ c ∈ calls, NoReadEof c.evs) → (∀ a ∈ as, Unambiguous P a) →
    ((session cfg calls p).2.atEof = true → rest = []) →
    receivedText d ((session cfg calls p).2.got.flatten ++ rest) true = .ok (X ++ (transcript P as ++ tail)) →
    (∀ o ∈ (session cfg calls p).1, Lossless o) →
    (answers (session cfg calls p).1).take as.length <+: as.map fun a => (a, P)
  | [], X, p, as, _, _, _, _, _, _, _ => by
    show List.take _ [] <+: _
    rw [List.take_nil]; exact List.nil_prefix
  | c :: cs, X, p, as, hI, hc, hev, hun, hr, hT, hl => by
    have hI1 := op_inv g cfg hd c.op (inDialogue_span (hc c (by simp))) c.polls c.evs hI
    have h1 := call_rel cfg hP c.op (hc c (by simp)) c.polls c.evs (hev c (by simp)) p
    have hc' : ∀ x ∈ cs, InDialogue cfg P x.op := fun x hx => hc x (by simp [hx])
    have hev' : ∀ x ∈ cs, NoReadEof x.evs := fun x hx => hev x (by simp [hx])
    have ih := dialogue d g cfg hd hP rest tail cs
    have h2 := session_rel cfg hP cs (c.op.run cfg c.polls c.evs p).2 hc' hev'
    have h3 := session_dead cfg hP cs (c.op.run cfg c.polls c.evs p).2 hc' hev'
    have h4 := session_atEof cfg cs (c.op.run cfg c.polls c.evs p).2
    simp only [session] at hr hT hl ⊢
    generalize c.op.run cfg c.polls c.evs p = r at *
    obtain ⟨o, p1⟩ := r
    simp only at hI1 h1 ih h2 h3 h4 hr hT hl ⊢
    have hlo : Lossless o := hl o (by simp)
    have hl' : ∀ x ∈ (session cfg cs p1).1, Lossless x := fun x hx => hl x (by simp [hx])
    -- calls that took nothing
    have skip : taken o = [] → (∀ t m, o ≠ .matched t m) →
        (answers (o :: (session cfg cs p1).1)).take as.length <+: as.map fun a => (a, P) := by
      intro ht hm
      rw [ht, List.append_nil] at hI1
      rw [answers_skip hm]
      exact ih X p1 as hI1 hc' hev' hun hr hT hl'
    cases o with
    | done => exact skip rfl (fun _ _ h => by cases h)
    | exc e dr => exact skip hlo (fun _ _ h => by cases h)
    | blocked hd => exact skip hlo (fun _ _ h => by cases h)
    | text t =>
      obtain ⟨he, hp⟩ := h1.text t rfl
      have := h3 he hp
      rw [answers_skip (fun _ _ h => by cases h), this, List.take_nil]; exact List.nil_prefix
    | matched t m =>
      obtain ⟨rfl, hf⟩ := h1.matched t m rfl
      cases as with
      | nil => simp
      | cons a as =>
        -- what has been received is the beginning of the whole
        obtain ⟨z, hz⟩ := h2.1
        have hw := hI1.whole g (rest := z.flatten ++ rest) (T := X ++ (transcript m (a :: as) ++ tail))
          (by rw [← hz] at hT; simpa [List.append_assoc] using hT)
          (fun he => by
            have := h2.2 he
            rw [← hz, List.append_right_eq_self] at this
            rw [this, hr (h4 he)]; rfl)
        have hpre := hw.1
        rw [List.append_assoc, List.prefix_append_right_inj] at hpre
        obtain ⟨y, hy⟩ := hpre
        simp only [taken] at hy
        have f1 := first_append hP hf y
        rw [hy] at f1
        have e : transcript m (a :: as) ++ tail = (a ++ m) ++ (transcript m as ++ tail) := by
          simp [transcript, List.append_assoc]
        have f2 := first_append hP (hun a (by simp)) (transcript m as ++ tail)
        rw [← e] at f2
        have hlen := first_unique f1 f2
        have hta : t = a := by
          rw [e] at hy
          have h5 : t ++ (m ++ p1.pending ++ y) = a ++ (m ++ (transcript m as ++ tail)) := by simpa [List.append_assoc] using hy
          exact (List.append_inj h5 hlen).1
        subst hta
        have := ih (X ++ (t ++ m)) p1 as hI1 hc' hev' (fun b hb => hun b (by simp [hb])) hr
          (by rw [hT, e]; simp [List.append_assoc]) hl'
        show List.take (as.length + 1) ((t, m) :: answers (session cfg cs p1).1) <+: (t, m) :: as.map fun a => (a, m)
        rw [List.take_succ_cons]
        exact (List.cons_prefix_cons).2 ⟨rfl, this⟩

/-- **C91** The program writes its greeting and its answers, each followed by the prompt `P`, and then anything (`as`, `tail`). Whatever the sizes
of the chunks in which this arrives, whichever calls time out, fail or are cancelled without losing text (`Lossless`; see C48), and whether output is read
while `send` drains or later: the calls that succeed return the greeting and the answers in order, none twice and none left out. -/
theorem C91_in_order (d : Decoder) (g : GoodStep d.step) (cfg : PCfg) (hd : ∀ q, cfg.dflt = some q → SpanPattern q) (P : Text) (hP : P ≠ [])
    (calls : List PCall) (hc : ∀ c ∈ calls, InDialogue cfg P c.op) (hev : ∀ c ∈ calls, NoReadEof c.evs)
    (as : List Text) (hun : ∀ a ∈ as, Unambiguous P a) (tail : Text) (rest : Bytes)
    (hr : (session cfg calls (freshPrompt d)).2.atEof = true → rest = [])
    (hT : receivedText d ((session cfg calls (freshPrompt d)).2.got.flatten ++ rest) true = .ok (transcript P as ++ tail))
    (hl : ∀ o ∈ (session cfg calls (freshPrompt d)).1, Lossless o) :
    (answers (session cfg calls (freshPrompt d)).1).take as.length <+: as.map fun a => (a, P) :=
  dialogue d g cfg hd hP rest tail calls [] (freshPrompt d) as (PInv.fresh d) hc hev hun hr (by simpa using hT) hl

theorem session_length (cfg : PCfg) : ∀ (calls : List PCall) (p : PS), (session cfg calls p).1.length = calls.length
  | [], _ => rfl
  | c :: cs, p => by simp only [session, List.length_cons, session_length cfg cs]

theorem answers_all {outs : List POut} (h : ∀ o ∈ outs, ∃ t m, o = .matched t m) :
    outs = (answers outs).map (fun x => POut.matched x.1 x.2) ∧ (answers outs).length = outs.length := by
  induction outs with
  | nil => exact ⟨rfl, rfl⟩
  | cons o os ih =>
    obtain ⟨t, m, rfl⟩ := h o (by simp)
    obtain ⟨h1, h2⟩ := ih (fun x hx => h x (by simp [hx]))
    refine ⟨?_, ?_⟩
    · show _ = POut.matched t m :: (answers os).map (fun x => POut.matched x.1 x.2)
      rw [← h1]
    · show (answers os).length + 1 = os.length + 1
      rw [h2]

/-- **C91** If no call fails, the first one gets the greeting and the `n`-th of the following ones the answer to the `n`-th line. -/
theorem C91_nth (d : Decoder) (g : GoodStep d.step) (cfg : PCfg) (hd : ∀ q, cfg.dflt = some q → SpanPattern q) (P : Text) (hP : P ≠ [])
    (calls : List PCall) (hc : ∀ c ∈ calls, InDialogue cfg P c.op) (hev : ∀ c ∈ calls, NoReadEof c.evs)
    (as : List Text) (hun : ∀ a ∈ as, Unambiguous P a) (hlen : calls.length ≤ as.length) (tail : Text) (rest : Bytes)
    (hr : (session cfg calls (freshPrompt d)).2.atEof = true → rest = [])
    (hT : receivedText d ((session cfg calls (freshPrompt d)).2.got.flatten ++ rest) true = .ok (transcript P as ++ tail))
    (hok : ∀ o ∈ (session cfg calls (freshPrompt d)).1, ∃ t m, o = .matched t m) :
    (session cfg calls (freshPrompt d)).1 = (as.take calls.length).map fun a => .matched a P := by
  have h := C91_in_order d g cfg hd P hP calls hc hev as hun tail rest hr hT
    (fun o ho => by obtain ⟨t, m, rfl⟩ := hok o ho; trivial)
  obtain ⟨h1, h2⟩ := answers_all hok
  rw [session_length] at h2
  rw [List.take_of_length_le (by omega)] at h
  rw [h1, List.prefix_iff_eq_take.1 h, h2, ← List.map_take, List.map_map]
  rfl

/-! ## A command waits only as long as it must -/

/-- `expect` goes on waiting. -/
theorem expectLoop_stuck (cfg : PCfg) (pat : Pattern) (timer : Bool) (evs : List PEv) : ∀ (r : Option MatchRes) (p : PS),
    (r = none → pat p.pending = none ∧ p.atEof = false) → ∀ h p' x, expectLoop cfg pat timer (evs ++ [.resume]) r p = (.blocked h, p', x) →
    h = [] ∧ pat p'.pending = none ∧ p'.atEof = false := by
  induction evs with
  | nil =>
    intro r p hr h p' x hx
    rcases r with _ | ⟨_ | _⟩
    · simp only [List.nil_append, expectLoop, Prod.mk.injEq, POut.blocked.injEq] at hx
      obtain ⟨rfl, rfl, -⟩ := hx
      exact ⟨rfl, hr rfl⟩
    · simp [expectLoop] at hx
    · simp [expectLoop] at hx
  | cons ev evs ih =>
    intro r p hr h p' x hx
    rcases r with _ | ⟨e | ⟨t, m⟩⟩
    · cases ev with
      | read c =>
        refine ih _ _ ?_ h p' x hx
        intro hn
        simp only [patStep] at hn ⊢
        have hA := readChunk_atEof cfg p c
        split at hn
        · cases hn
        · rename_i data p1 hrc
          rw [hrc] at hA
          simp only at hn hA ⊢
          split at hn
          · rename_i hde
            rw [if_pos hde]
            simp only [Bool.and_eq_true, Bool.not_eq_true', List.isEmpty_iff] at hde
            refine ⟨?_, hde.2⟩
            rw [readChunk_ok_pending cfg p p1 c data hrc, hde.1, List.append_nil]
            exact (hr rfl).1
          · rename_i hde
            rw [if_neg hde]
            split at hn
            · cases hn
            · rename_i hs
              split at hn
              · cases hn
              · rename_i he
                simp only [hs, if_neg he]
                exact ⟨search_none hs, by simpa using he⟩
      | timeout =>
        simp only [List.cons_append, expectLoop] at hx
        split at hx
        · simp at hx
        · exact ih _ _ hr h p' x hx
      | cancel => simp [expectLoop] at hx
      | readErr e => exact ih _ _ (fun h => by cases h) h p' x hx
      | _ => exact ih _ _ hr h p' x hx
    · cases ev with
      | cancel => simp [expectLoop] at hx
      | resume => simp [expectLoop] at hx
      | _ => exact ih _ _ hr h p' x hx
    · cases ev with
      | cancel => simp [expectLoop] at hx
      | resume => simp [expectLoop] at hx
      | _ => exact ih _ _ hr h p' x hx

/-- `send` ends with the draining of stdin at the latest. -/
theorem drainLoop_ends (cfg : PCfg) (timer : Bool) (last : PEv) (hlast : last ≠ .drained ∧ (∀ e, last ≠ .drainErr e) ∧ last ≠ .cancel ∧ last ≠ .timeout)
    (evs : List PEv) : ∀ r p, PEv.drained ∈ evs →
    (∀ h, (drainLoop cfg timer (evs ++ [last]) r p).1 ≠ .blocked h) ∧
    ∃ evs', (drainLoop cfg timer (evs ++ [last]) r p).2.2 = evs' ++ [last] := by
  induction evs with
  | nil => intro r p h; cases h
  | cons ev evs ih =>
    intro r p h
    have stop : ∀ (o : POut) (q : PS), (∀ h, o ≠ .blocked h) → (∀ h, (o, q, evs ++ [last]).1 ≠ .blocked h) ∧
        ∃ evs', (o, q, evs ++ [last]).2.2 = evs' ++ [last] := fun o q h => ⟨h, evs, rfl⟩
    by_cases hev : ev = .drained
    · subst hev
      cases r <;> exact stop _ _ (fun _ h => by cases h)
    · have hm : PEv.drained ∈ evs := by
        rcases List.mem_cons.1 h with e | h
        · exact absurd e.symm hev
        · exact h
      cases ev with
      | drained => exact absurd rfl hev
      | timeout =>
        have : drainLoop cfg timer (.timeout :: (evs ++ [last])) r p =
            if timer then (.exc .timeout, p, evs ++ [last]) else drainLoop cfg timer (evs ++ [last]) r p := by cases r <;> rfl
        rw [List.cons_append, this]
        split
        · exact stop _ _ (fun _ h => by cases h)
        · exact ih _ _ hm
      | cancel => cases r <;> exact stop _ _ (fun _ h => by cases h)
      | drainErr e => cases r <;> exact stop _ _ (fun _ h => by cases h)
      | read c => cases r <;> exact ih _ _ hm
      | readErr c => cases r <;> exact ih _ _ hm
      | resume => cases r <;> exact ih _ _ hm

/-- **C91** A command waits only as long as it must: if what it sent has been drained and the tasks have run since the last chunk arrived (the last event),
a command that has not returned has not received the prompt: it does not occur in the text received and not taken. -/
theorem C91_waits (d : Decoder) (g : GoodStep d.step) (cfg : PCfg) (hd : ∀ q, cfg.dflt = some q → SpanPattern q) (P : Text) (hP : P ≠ [])
    (calls : List PCall) (hc : ∀ c ∈ calls, SpanOp c.op) (t : SendText) (e : Option Text) (arg : PromptArg) (ha : IsPrompt cfg P arg)
    (to : Option Nat) (allow : Bool) (polls : List Poll) (evs : List PEv) (hdr : PEv.drained ∈ evs) (h : Text) (p' : PS) (x : List PEv)
    (hb : command cfg t e false arg to allow polls (evs ++ [.resume]) (session cfg calls (freshPrompt d)).2 = (.blocked h, p', x)) :
    h = [] ∧ p'.atEof = false ∧ (∀ i, ¬ OccursAt P p'.pending i) ∧
    ∀ T, receivedText d p'.got.flatten false = .ok T → (session cfg calls (freshPrompt d)).1.flatMap taken ++ p'.pending = T := by
  have hI := PInv.reach g hd hc (calls := calls)
  have hsp : SpanArg arg := by rcases ha with rfl | ⟨rfl, -⟩ <;> trivial
  have hI' := command_inv g cfg hd t e false arg hsp to allow polls (evs ++ [.resume]) hI
  rw [hb] at hI'
  generalize (session cfg calls (freshPrompt d)).1.flatMap taken = X at *
  generalize (session cfg calls (freshPrompt d)).2 = p at *
  have key : h = [] ∧ exactPattern P p'.pending = none ∧ p'.atEof = false := by
    simp only [command] at hb
    split at hb
    · simp at hb
    · split at hb
      · rename_i p1 evs1 hs
        have hend : ∃ evs', evs1 = evs' ++ [.resume] := by
          simp only [send, Bool.false_eq_true, if_false, sendNow] at hs
          split at hs
          · simp at hs
          · rename_i data _
            have := (drainLoop_ends cfg (timerSet cfg to) .resume ⟨by simp, by simp, by simp, by simp⟩ evs .notStarted
              (PS.logMsg { p with written := p.written ++ data } cfg (.send data)) hdr).2
            rw [hs] at this
            exact this
        obtain ⟨evs', rfl⟩ := hend
        have hx : expect cfg arg to (evs' ++ [.resume]) p1 = (.blocked h, p', x) := by
          unfold commandEnd at hb
          split at hb
          · split at hb <;> simp [readPending] at hb
          · exact hb
        simp only [expect, isPrompt_resolve ha, expectPat] at hx
        split at hx
        · simp at hx
        · rename_i hn
          split at hx
          · simp at hx
          · rename_i he
            refine expectLoop_stuck cfg _ _ evs' none p1 (fun _ => ⟨?_, by simpa using he⟩) h p' x hx
            split at hn
            · rename_i h0
              rw [List.isEmpty_iff.1 h0]; exact exact_nil hP
            · exact search_none hn
      · rename_i hne
        simp only [send, Bool.false_eq_true, if_false, sendNow] at hb
        split at hb
        · simp at hb
        · rename_i data _
          have := (drainLoop_ends cfg (timerSet cfg to) .resume ⟨by simp, by simp, by simp, by simp⟩ evs .notStarted
            (PS.logMsg { p with written := p.written ++ data } cfg (.send data)) hdr).1 h
          rw [hb] at this
          exact absurd rfl this
  obtain ⟨rfl, k2, k3⟩ := key
  refine ⟨rfl, k3, ?_, fun T hT => ?_⟩
  · rw [exact_eq_list, exactList_eq [P] (by simp)] at k2
    exact fun i => (searchList_none_iff [P] _).1 k2 i P (by simp)
  · have := hI'.received (T := T) (by rw [k3]; exact hT)
    simpa [taken] using this

/-! ## Examples -/

/-- A session over the prompt `"> "`: the greeting `h`, then the lines `x` and `y` with the answers `1` and `22`; the second answer comes partly while
the line is being sent, and the prompt is cut in two. -/
def exDialogue : List PCall :=
  [{ op := .expect (.str ['>', ' ']) none, evs := [.read [0x68, 0x3E, 0x20], .resume] },
   { op := .command (.str ['x']) none false (.str ['>', ' ']) none false, evs := [.resume, .drained, .read [0x31, 0x3E], .read [0x20], .resume] },
   { op := .command (.str ['y']) none false (.str ['>', ' ']) none false, evs := [.resume, .read [0x32], .drained, .read [0x32, 0x3E, 0x20], .resume] }]

/-- A decidable form. -/
theorem unambiguous_of {P a : Text} (h : ∀ k, k < a.length → P.isPrefixOf ((a ++ P).drop k) = false) : Unambiguous P a := by
  refine ⟨by simp [OccursAt], fun k hk ho => ?_⟩
  have := h k hk
  rw [List.isPrefixOf_iff_prefix.2 ho] at this
  cases this

/-- The hypotheses of `C91_nth` hold of that session. -/
example : (session { encode := fun _ => .ok [] } exDialogue (freshPrompt (utf8Prompt .strict))).1 =
    [.matched ['h'] ['>', ' '], .matched ['1'] ['>', ' '], .matched ['2', '2'] ['>', ' ']] := by
  have outs : (session { encode := fun _ => .ok [] } exDialogue (freshPrompt (utf8Prompt .strict))).1 =
      [.matched ['h'] ['>', ' '], .matched ['1'] ['>', ' '], .matched ['2', '2'] ['>', ' ']] := by decide +kernel
  refine C91_nth (utf8Prompt .strict) utf8_good { encode := fun _ => .ok [] } (by simp) ['>', ' '] (by simp) exDialogue ?_ ?_
    [['h'], ['1'], ['2', '2']] ?_ (by decide) [] [] (fun _ => rfl) ?_ ?_
  · intro c hc
    simp only [exDialogue, List.mem_cons, List.not_mem_nil, or_false] at hc
    rcases hc with rfl | rfl | rfl <;> exact .inl rfl
  · intro c hc
    simp only [exDialogue, List.mem_cons, List.not_mem_nil, or_false] at hc
    rcases hc with rfl | rfl | rfl <;> simp [NoReadEof]
  · intro a ha
    simp only [List.mem_cons, List.not_mem_nil, or_false] at ha
    rcases ha with rfl | rfl | rfl <;> exact unambiguous_of (by decide)
  · have hg : (session { encode := fun _ => .ok [] } exDialogue (freshPrompt (utf8Prompt .strict))).2.got.flatten =
        [0x68, 0x3E, 0x20, 0x31, 0x3E, 0x20, 0x32, 0x32, 0x3E, 0x20] := by decide +kernel
    rw [hg]
    simp [receivedText, utf8Prompt, decodeLoop, utf8Step, Except.map, transcript]
  · rw [outs]
    intro o ho
    simp only [List.mem_cons, List.not_mem_nil, or_false] at ho
    rcases ho with rfl | rfl | rfl <;> exact ⟨_, _, rfl⟩

/-- **C91** The condition that no call failed is needed: if a command times out, its answer comes late, and the next command returns it as its own; from then on
each command gets the answer to the line before. (`C91_in_order` holds here too: answers are neither lost nor swapped.) -/
theorem C91_late_answer :
    (session { encode := fun _ => .ok [] }
      [{ op := .expect (.str ['>']) none, evs := [.read [0x68, 0x3E], .resume] },
       { op := .command (.str ['x']) none false (.str ['>']) (some 5) false, evs := [.resume, .drained, .timeout] },
       { op := .command (.str ['y']) none false (.str ['>']) (some 5) false, evs := [.resume, .drained, .read [0x31, 0x3E], .resume] },
       { op := .command (.str ['z']) none false (.str ['>']) (some 5) false, evs := [.resume, .drained, .read [0x32, 0x3E], .resume] }]
      (freshPrompt (utf8Prompt .strict))).1 =
    [.matched ['h'] ['>'], .exc .timeout, .matched ['1'] ['>'], .matched ['2'] ['>']] := by decide +kernel

/-- The hypotheses of `C91_waits` hold of a command whose prompt has come only in part. -/
example :
    let r := command { encode := fun _ => .ok [] } (.str ['x']) none false (.str ['>', ' ']) none false [] ([.resume, .drained, .read [0x31, 0x3E]] ++ [.resume])
      (session { encode := fun _ => .ok [] } [] (freshPrompt (utf8Prompt .strict))).2
    r.1 = .blocked ∧ r.2.1.pending = ['1', '>'] ∧ r.2.1.atEof = false := by decide +kernel

end Shellous.Props
