import Verif.Props.Send

/-!
# C51, C54: how a prompt operation ends (cancellation, timeout, errors, end of the output)
-/

namespace Shellous.Props

open Shellous

/-- A timeout is in force: the caller gave one that is not zero, or the prompt has a default. -/
def TimeoutInForce (cfg : PCfg) (timeout : Option Nat) : Prop :=
  (∃ n, timeout = some n ∧ n ≠ 0) ∨ cfg.dfltTimeout ≠ none

theorem timerSet_iff (cfg : PCfg) (timeout : Option Nat) :
    timerSet cfg timeout = true ↔ TimeoutInForce cfg timeout := by
  simp only [timerSet, TimeoutInForce]
  rcases timeout with _ | _ | n <;> cases h : cfg.dfltTimeout <;> simp [effTimeout, h]

/-! ## Decoding errors -/

theorem decodeLoop_err (step : Bytes → Step) (errors : Errors) (final : Bool) (a : Bytes) (e : Exc)
    (h : decodeLoop step errors final a = .error e) : e = .unicodeError := by
  induction hn : a.length using Nat.strongRecOn generalizing a with
  | ind n ih =>
    cases a with
    | nil => simp [decodeLoop] at h
    | cons b bs =>
      rw [decodeLoop] at h
      split at h
      · split at h
        · split at h
          · cases h; rfl
          · cases h
        · cases h
      · split at h
        · cases h; rfl
        · split at h
          · rename_i hh; cases h
            exact ih _ (by simp at hn ⊢; omega) _ hh rfl
          · cases h
      · split at h
        · rename_i hh; cases h
          exact ih _ (by simp at hn ⊢; omega) _ hh rfl
        · cases h

theorem readChunk_err (cfg : PCfg) (p q : PS) (c : Bytes) (e : Exc) (h : p.readChunk cfg c = (.error e, q)) :
    e = .unicodeError := by
  simp only [PS.readChunk] at h
  split at h
  · rename_i hd
    cases h
    simp only [Decoder.decode, incDecode] at hd
    split at hd
    · rename_i hi
      split at hi
      · rename_i hl
        cases hi; cases hd
        exact decodeLoop_err _ _ _ _ _ hl
      · cases hi
    · split at hd <;> cases hd
  · cases h

theorem patStep_err (cfg : PCfg) (pat : Pattern) (p q : PS) (c : Bytes) (e : Exc)
    (h : patStep cfg pat p c = (q, some (.error e))) : e = .unicodeError ∨ (e = .eofError ∧ q.atEof = true) := by
  simp only [patStep] at h
  split at h
  · rename_i hr
    cases h
    exact .inl (readChunk_err _ _ _ _ _ hr)
  · split at h
    · cases h
    · split at h
      · cases h
      · split at h
        · rename_i ha; cases h; exact .inr ⟨rfl, ha⟩
        · cases h

theorem someStep_err (cfg : PCfg) (p q : PS) (c : Bytes) (e : Exc)
    (h : someStep cfg p c = (q, some (.error e))) : e = .unicodeError := by
  simp only [someStep] at h
  split at h
  · rename_i hr; cases h; exact readChunk_err _ _ _ _ _ hr
  · split at h <;> cases h

/-! ## expect -/

/-- Why an `expect` that has looked at the events `used` raised `e`. -/
def ExpectFailed (cfg : PCfg) (arg : PromptArg) (timeout : Option Nat) (used : List PEv) (e : Exc)
    (ended : Bool) : Prop :=
  (e = .typeError ∧ arg = .none ∧ cfg.dflt = none) ∨
  (e = .eofError ∧ ended = true) ∨
  (e = .cancelled ∧ used.getLast? = some .cancel) ∨
  (e = .timeout ∧ used.getLast? = some .timeout ∧ TimeoutInForce cfg timeout) ∨
  .readErr e ∈ used ∨
  (e = .unicodeError ∧ ∃ c, .read c ∈ used)

theorem getLast?_consume {α : Type} (a : α) (l : List α) (x : α) (h : l.getLast? = some x) :
    (a :: l).getLast? = some x := by
  cases l with
  | nil => simp at h
  | cons b l => rw [List.getLast?_cons_cons]; exact h

theorem expectLoop_why (cfg : PCfg) (pat : Pattern) (arg : PromptArg) (timeout : Option Nat) (evs : List PEv) :
    ∀ (r : Option MatchRes) (p q : PS) (e : Exc) (x : Text) (rest : List PEv),
      expectLoop cfg pat (timerSet cfg timeout) evs r p = (.exc e x, q, rest) →
      ∃ used, evs = used ++ rest ∧
        (ExpectFailed cfg arg timeout used e q.atEof ∨ (r = some (.error e) ∧ q.atEof = p.atEof)) := by
  induction evs with
  | nil => intro r p q e x rest h; rcases r with _ | ⟨_ | ⟨t, m⟩⟩ <;> simp [expectLoop] at h
  | cons ev evs ih =>
    intro r p q e x rest h
    have step : ∀ r' p', expectLoop cfg pat (timerSet cfg timeout) evs r' p' = (.exc e x, q, rest) →
        ((∀ er, r' = some (.error er) → r = some (.error er) ∧ p'.atEof = p.atEof ∨ ev = .readErr er ∨
          (∃ c, ev = .read c) ∧ (er = .unicodeError ∨ er = .eofError ∧ p'.atEof = true))) →
        ∃ used, ev :: evs = used ++ rest ∧
          (ExpectFailed cfg arg timeout used e q.atEof ∨ (r = some (.error e) ∧ q.atEof = p.atEof)) := by
      intro r' p' h' hr
      obtain ⟨used, rfl, hw⟩ := ih r' p' q e x rest h'
      refine ⟨ev :: used, by simp, ?_⟩
      rcases hw with hw | ⟨hw, ha⟩
      · left
        rcases hw with hw | hw | ⟨h1, h2⟩ | ⟨h1, h2, h3⟩ | hw | ⟨h1, c, h2⟩
        · exact .inl hw
        · exact .inr (.inl hw)
        · exact .inr (.inr (.inl ⟨h1, getLast?_consume _ _ _ h2⟩))
        · exact .inr (.inr (.inr (.inl ⟨h1, getLast?_consume _ _ _ h2, h3⟩)))
        · exact .inr (.inr (.inr (.inr (.inl (List.mem_cons_of_mem _ hw)))))
        · exact .inr (.inr (.inr (.inr (.inr ⟨h1, c, List.mem_cons_of_mem _ h2⟩))))
      · rcases hr e hw with ⟨h1, h2⟩ | rfl | ⟨⟨c, rfl⟩, rfl | ⟨rfl, h2⟩⟩
        · exact .inr ⟨h1, ha.trans h2⟩
        · exact .inl (.inr (.inr (.inr (.inr (.inl (by simp))))))
        · exact .inl (.inr (.inr (.inr (.inr (.inr ⟨rfl, c, by simp⟩)))))
        · exact .inl (.inr (.inl ⟨rfl, ha.trans h2⟩))
    have same : expectLoop cfg pat (timerSet cfg timeout) evs r p = (.exc e x, q, rest) → _ :=
      fun h' => step r p h' (fun er hr => .inl ⟨hr, rfl⟩)
    rcases r with _ | ⟨er | ⟨t, m⟩⟩
    · cases ev with
      | read c =>
        refine step _ _ h ?_
        intro er hr
        right; right
        have := patStep_err cfg pat p (patStep cfg pat p c).1 c er (Prod.ext rfl hr)
        exact ⟨⟨c, rfl⟩, this⟩
      | readErr e' => exact step _ _ h (fun er hr => by cases hr; exact .inr (.inl rfl))
      | timeout =>
        simp only [expectLoop] at h
        split at h
        · rename_i ht
          cases h
          exact ⟨[.timeout], rfl, .inl (.inr (.inr (.inr (.inl ⟨rfl, rfl, (timerSet_iff _ _).mp ht⟩))))⟩
        · exact same h
      | cancel =>
        simp only [expectLoop] at h
        cases h
        exact ⟨[.cancel], rfl, .inl (.inr (.inr (.inl ⟨rfl, rfl⟩)))⟩
      | resume => exact same h
      | drained => exact same h
      | drainErr e' => exact same h
    · cases ev with
      | cancel =>
        simp only [expectLoop] at h
        cases h
        exact ⟨[.cancel], rfl, .inl (.inr (.inr (.inl ⟨rfl, rfl⟩)))⟩
      | resume =>
        simp only [expectLoop] at h
        cases h
        exact ⟨[.resume], rfl, .inr ⟨rfl, rfl⟩⟩
      | read c => exact same h
      | readErr e' => exact same h
      | timeout => exact same h
      | drained => exact same h
      | drainErr e' => exact same h
    · cases ev with
      | cancel =>
        simp only [expectLoop] at h
        cases h
        exact ⟨[.cancel], rfl, .inl (.inr (.inr (.inl ⟨rfl, rfl⟩)))⟩
      | resume => simp [expectLoop] at h
      | read c => exact same h
      | readErr e' => exact same h
      | timeout => exact same h
      | drained => exact same h
      | drainErr e' => exact same h

/-- **C51.** An `expect` that raises says why: EOFError means that the output has ended, TimeoutError that
the timer that the caller asked for has run out, CancelledError that the caller was cancelled; otherwise it is
the error of reading, or of decoding what was read, or the missing prompt. -/
theorem C51_expect_reason (cfg : PCfg) (arg : PromptArg) (timeout : Option Nat) (evs rest : List PEv)
    (p q : PS) (e : Exc) (x : Text) (h : expect cfg arg timeout evs p = (.exc e x, q, rest)) :
    ∃ used, evs = used ++ rest ∧ ExpectFailed cfg arg timeout used e q.atEof := by
  simp only [expect] at h
  split at h
  · rename_i hr
    cases h
    refine ⟨[], rfl, .inl ?_⟩
    cases arg with
    | none =>
      simp only [resolvePrompt] at hr
      split at hr
      · rename_i hd; cases hr; exact ⟨rfl, rfl, hd⟩
      · cases hr
    | str s => cases hr
    | list s => cases hr
    | regex s => cases hr
  · simp only [expectPat] at h
    split at h
    · cases h
    · split at h
      · rename_i ha; cases h; exact ⟨[], rfl, .inr (.inl ⟨rfl, ha⟩)⟩
      · obtain ⟨used, hu, hw⟩ := expectLoop_why cfg _ arg timeout evs _ _ _ _ _ _ h
        refine ⟨used, hu, ?_⟩
        rcases hw with hw | ⟨hw, -⟩
        · exact hw
        · cases hw

theorem expectLoop_blocked (cfg : PCfg) (pat : Pattern) (timer : Bool) (pre : List PEv) :
    ∀ (r : Option MatchRes) (p q : PS) (held : Text),
      expectLoop cfg pat timer pre r p = (.blocked held, q, []) →
      ∃ r', (∀ post, expectLoop cfg pat timer (pre ++ post) r p = expectLoop cfg pat timer post r' q) ∧
        held = heldBy r' := by
  induction pre with
  | nil =>
    intro r p q held h
    rcases r with _ | ⟨er | ⟨t, m⟩⟩ <;> simp only [expectLoop] at h <;> cases h
    · exact ⟨none, fun _ => rfl, rfl⟩
    · exact ⟨some (.error er), fun _ => rfl, rfl⟩
    · exact ⟨some (.ok (t, m)), fun _ => rfl, rfl⟩
  | cons ev evs ih =>
    intro r p q held h
    rcases r with _ | ⟨er | ⟨t, m⟩⟩ <;> cases ev <;>
      simp only [expectLoop, List.cons_append] at h ⊢ <;>
      first
        | exact ih _ _ _ _ h
        | (split at h <;> rename_i ht <;> first
            | (cases h; done)
            | (simp only [if_neg ht]; exact ih _ _ _ _ h))
        | cases h

/-- **C51.** Cancelling a waiting `expect` ends it with CancelledError at once. (`held`: the text lost by
the race of `C51_cancel_race_false`.) -/
theorem C51_expect_cancelled (cfg : PCfg) (arg : PromptArg) (timeout : Option Nat) (pre post : List PEv)
    (p q : PS) (held : Text) (h : expect cfg arg timeout pre p = (.blocked held, q, [])) :
    ∃ q', expect cfg arg timeout (pre ++ .cancel :: post) p = (.exc .cancelled held, q', post) ∧
      q'.pending = q.pending := by
  simp only [expect] at h ⊢
  split at h
  · cases h
  · rename_i pat hpat
    simp only [expectPat] at h ⊢
    split at h
    · cases h
    · split at h
      · cases h
      · rename_i hs ha
        simp only [ha]
        obtain ⟨r', hr, rfl⟩ := expectLoop_blocked _ _ _ _ _ _ _ _ h
        rw [if_neg (by simp), hr]
        rcases r' with _ | ⟨er | ⟨t, m⟩⟩
        · exact ⟨_, rfl, by simp [PS.logMsg]; split <;> rfl⟩
        · exact ⟨_, rfl, rfl⟩
        · exact ⟨_, rfl, rfl⟩

/-- **C51.** When the time is up, a waiting `expect` (one that a resumption alone would not end) raises
TimeoutError at once, and keeps the text received; without a timeout it goes on waiting. -/
theorem C51_expect_times_out (cfg : PCfg) (arg : PromptArg) (timeout : Option Nat) (pre post : List PEv)
    (p q : PS) (h : expect cfg arg timeout (pre ++ [.resume]) p = (.blocked [], q, [])) :
    (TimeoutInForce cfg timeout → ∃ q', expect cfg arg timeout (pre ++ .timeout :: post) p =
        (.exc .timeout, q', post) ∧ q'.pending = q.pending) ∧
    (¬ TimeoutInForce cfg timeout → expect cfg arg timeout (pre ++ .timeout :: post) p =
        expect cfg arg timeout (pre ++ post) p) := by
  rw [← timerSet_iff]
  simp only [expect] at h ⊢
  split at h
  · cases h
  · rename_i pat hpat
    simp only [expectPat] at h ⊢
    split at h
    · cases h
    · split at h
      · cases h
      · rename_i hs ha
        simp only [ha]
        rw [if_neg (by simp), if_neg (by simp)]
        have key : ∀ (pre : List PEv) (r : Option MatchRes) (p : PS),
            expectLoop cfg pat (timerSet cfg timeout) (pre ++ [.resume]) r p = (.blocked [], q, []) →
            ∀ post, expectLoop cfg pat (timerSet cfg timeout) (pre ++ post) r p =
              expectLoop cfg pat (timerSet cfg timeout) post none q := by
          intro pre
          induction pre with
          | nil =>
            intro r p h post
            rcases r with _ | ⟨er | ⟨t, m⟩⟩ <;> simp [expectLoop] at h
            subst h; rfl
          | cons ev evs ih =>
            intro r p h post
            rcases r with _ | ⟨er | ⟨t, m⟩⟩ <;> cases ev <;>
              simp only [expectLoop, List.cons_append] at h ⊢ <;>
              first
                | exact ih _ _ h _
                | (split at h <;> rename_i ht <;> first
                    | (cases h; done)
                    | (simp only [if_neg ht]; exact ih _ _ h _))
                | cases h
        rw [key pre none p h, key pre none p h]
        constructor
        · intro ht
          simp only [expectLoop, ht, if_true]
          exact ⟨_, rfl, by simp [PS.logMsg]; split <;> rfl⟩
        · intro ht
          simp only [expectLoop, ht]
          rfl

/-- The default timeout counts, an explicit 0 does not replace it. -/
example : TimeoutInForce { encode := fun _ => .ok [], dfltTimeout := some 3 } (some 0) := by
  simp [TimeoutInForce]

example :
    (expect { encode := fun _ => .ok [], dfltTimeout := some 3 } (.str ['>']) none
      [.read [0x61], .timeout] (freshPrompt (utf8Prompt .strict))).1 = .exc .timeout := by decide +kernel

/-! ## read_all -/

theorem readAllLoop_why (cfg : PCfg) (arg : PromptArg) (timeout : Option Nat) (evs : List PEv) :
    ∀ (r : Option (Except Exc Unit)) (p q : PS) (e : Exc) (x : Text) (rest : List PEv),
      readAllLoop cfg (timerSet cfg timeout) evs r p = (.exc e x, q, rest) →
      ∃ used, evs = used ++ rest ∧
        ((e = .cancelled ∧ used.getLast? = some .cancel) ∨
         (e = .timeout ∧ used.getLast? = some .timeout ∧ TimeoutInForce cfg timeout) ∨
         .readErr e ∈ used ∨ (e = .unicodeError ∧ ∃ c, .read c ∈ used) ∨ r = some (.error e)) := by
  induction evs with
  | nil => intro r p q e x rest h; rcases r with _ | ⟨_ | u⟩ <;> simp [readAllLoop] at h
  | cons ev evs ih =>
    intro r p q e x rest h
    have step : ∀ r' p', readAllLoop cfg (timerSet cfg timeout) evs r' p' = (.exc e x, q, rest) →
        ((∀ er, r' = some (.error er) → r = some (.error er) ∨ ev = .readErr er ∨
          (∃ c, ev = .read c) ∧ er = .unicodeError)) →
        ∃ used, ev :: evs = used ++ rest ∧
        ((e = .cancelled ∧ used.getLast? = some .cancel) ∨
         (e = .timeout ∧ used.getLast? = some .timeout ∧ TimeoutInForce cfg timeout) ∨
         .readErr e ∈ used ∨ (e = .unicodeError ∧ ∃ c, .read c ∈ used) ∨ r = some (.error e)) := by
      intro r' p' h' hr
      obtain ⟨used, rfl, hw⟩ := ih r' p' q e x rest h'
      refine ⟨ev :: used, by simp, ?_⟩
      rcases hw with ⟨h1, h2⟩ | ⟨h1, h2, h3⟩ | hw | ⟨h1, c, h2⟩ | hw
      · exact .inl ⟨h1, getLast?_consume _ _ _ h2⟩
      · exact .inr (.inl ⟨h1, getLast?_consume _ _ _ h2, h3⟩)
      · exact .inr (.inr (.inl (List.mem_cons_of_mem _ hw)))
      · exact .inr (.inr (.inr (.inl ⟨h1, c, List.mem_cons_of_mem _ h2⟩)))
      · rcases hr e hw with h1 | rfl | ⟨⟨c, rfl⟩, rfl⟩
        · exact .inr (.inr (.inr (.inr h1)))
        · exact .inr (.inr (.inl (by simp)))
        · exact .inr (.inr (.inr (.inl ⟨rfl, c, by simp⟩)))
    have same : readAllLoop cfg (timerSet cfg timeout) evs r p = (.exc e x, q, rest) → _ :=
      fun h' => step r p h' (fun er hr => .inl hr)
    rcases r with _ | ⟨er | u⟩
    · cases ev with
      | read c =>
        refine step _ _ h ?_
        intro er hr
        exact .inr (.inr ⟨⟨c, rfl⟩, someStep_err cfg p (someStep cfg p c).1 c er (Prod.ext rfl hr)⟩)
      | readErr e' => exact step _ _ h (fun er hr => by cases hr; exact .inr (.inl rfl))
      | timeout =>
        simp only [readAllLoop] at h
        split at h
        · rename_i ht
          cases h
          exact ⟨[.timeout], rfl, .inr (.inl ⟨rfl, rfl, (timerSet_iff _ _).mp ht⟩)⟩
        · exact same h
      | cancel =>
        simp only [readAllLoop] at h
        cases h
        exact ⟨[.cancel], rfl, .inl ⟨rfl, rfl⟩⟩
      | resume => exact same h
      | drained => exact same h
      | drainErr e' => exact same h
    · cases ev with
      | cancel =>
        simp only [readAllLoop] at h
        cases h
        exact ⟨[.cancel], rfl, .inl ⟨rfl, rfl⟩⟩
      | resume =>
        simp only [readAllLoop] at h
        cases h
        exact ⟨[.resume], rfl, by simp⟩
      | read c => exact same h
      | readErr e' => exact same h
      | timeout => exact same h
      | drained => exact same h
      | drainErr e' => exact same h
    · cases ev with
      | cancel =>
        simp only [readAllLoop] at h
        cases h
        exact ⟨[.cancel], rfl, .inl ⟨rfl, rfl⟩⟩
      | resume => simp [readAllLoop, readPending] at h
      | read c => exact same h
      | readErr e' => exact same h
      | timeout => exact same h
      | drained => exact same h
      | drainErr e' => exact same h

/-- **C51.** `read_all` never raises EOFError, and says why it failed like `expect`. -/
theorem C51_read_all_reason (cfg : PCfg) (timeout : Option Nat) (evs rest : List PEv)
    (p q : PS) (e : Exc) (x : Text) (h : readAll cfg timeout evs p = (.exc e x, q, rest)) :
    ∃ used, evs = used ++ rest ∧
        ((e = .cancelled ∧ used.getLast? = some .cancel) ∨
         (e = .timeout ∧ used.getLast? = some .timeout ∧ TimeoutInForce cfg timeout) ∨
         .readErr e ∈ used ∨ (e = .unicodeError ∧ ∃ c, .read c ∈ used)) := by
  simp only [readAll] at h
  split at h
  · simp [readPending] at h
  · obtain ⟨used, hu, hw⟩ := readAllLoop_why cfg .none timeout evs _ _ _ _ _ _ h
    refine ⟨used, hu, ?_⟩
    rcases hw with hw | hw | hw | hw | hw
    · exact .inl hw
    · exact .inr (.inl hw)
    · exact .inr (.inr (.inl hw))
    · exact .inr (.inr (.inr hw))
    · cases hw

/-- **C51.** Cancelling a waiting `read_all` ends it with CancelledError; nothing is lost. -/
theorem C51_read_all_cancelled (cfg : PCfg) (timeout : Option Nat) (pre post : List PEv)
    (p q : PS) (held : Text) (h : readAll cfg timeout pre p = (.blocked held, q, [])) :
    readAll cfg timeout (pre ++ .cancel :: post) p = (.exc .cancelled, q, post) := by
  simp only [readAll] at h ⊢
  split at h
  · simp [readPending] at h
  · rename_i ha
    simp only [ha]
    rw [if_neg (by simp)]
    have key : ∀ (pre : List PEv) (r : Option (Except Exc Unit)) (p : PS),
        readAllLoop cfg (timerSet cfg timeout) pre r p = (.blocked held, q, []) →
        readAllLoop cfg (timerSet cfg timeout) (pre ++ .cancel :: post) r p = (.exc .cancelled, q, post) := by
      intro pre
      induction pre with
      | nil =>
        intro r p h
        rcases r with _ | ⟨er | u⟩ <;> simp only [readAllLoop] at h <;> cases h <;> rfl
      | cons ev evs ih =>
        intro r p h
        rcases r with _ | ⟨er | u⟩ <;> cases ev <;>
          simp only [readAllLoop, List.cons_append, readPending] at h ⊢ <;>
          first
            | exact ih _ _ h
            | (split at h <;> rename_i ht <;> first
                | (cases h; done)
                | (simp only [if_neg ht]; exact ih _ _ h))
            | cases h
    exact key pre none p h

/-! ## send -/

theorem drainLoop_blocked (cfg : PCfg) (timer : Bool) (pre : List PEv) :
    ∀ (r : DrainReader) (p q : PS) (held : Text),
      drainLoop cfg timer pre r p = (.blocked held, q, []) →
      ∃ r', ∀ post, drainLoop cfg timer (pre ++ post) r p = drainLoop cfg timer post r' q := by
  induction pre with
  | nil =>
    intro r p q held h
    cases r <;> simp only [drainLoop] at h <;> cases h <;> exact ⟨_, fun _ => rfl⟩
  | cons ev evs ih =>
    intro r p q held h
    cases r <;> cases ev <;>
      simp only [drainLoop, List.cons_append] at h ⊢ <;>
      first
        | exact ih _ _ _ _ h
        | (split at h <;> rename_i ht <;> first
            | (cases h; done)
            | (simp only [if_neg ht]; exact ih _ _ _ _ h))
        | cases h

theorem sendNow_interrupted (cfg : PCfg) (t : SendText) (e : Option Text) (noEcho : Bool) (timeout : Option Nat)
    (pre post : List PEv) (p q : PS) (held : Text)
    (h : sendNow cfg t e noEcho timeout pre p = (.blocked held, q, [])) :
    sendNow cfg t e noEcho timeout (pre ++ .cancel :: post) p = (.exc .cancelled, q, post) ∧
    (timerSet cfg timeout = true →
      sendNow cfg t e noEcho timeout (pre ++ .timeout :: post) p = (.exc .timeout, q, post)) := by
  simp only [sendNow] at h ⊢
  split at h
  · cases h
  · obtain ⟨r', hr⟩ := drainLoop_blocked _ _ _ _ _ _ _ h
    simp only [hr]
    constructor
    · cases r' <;> rfl
    · intro ht
      cases r' <;> simp [drainLoop, ht]

/-- **C54.** A `send` that is still waiting for its data to be taken ends with CancelledError when it is
cancelled and with TimeoutError when its time is up. -/
theorem C54_send_interrupted (cfg : PCfg) (t : SendText) (e : Option Text) (noEcho : Bool) (timeout : Option Nat)
    (polls : List Poll) (pre post : List PEv) (p q : PS) (held : Text)
    (h : send cfg t e noEcho timeout polls pre p = (.blocked held, q, []))
    (hecho : noEcho = false ∨ ∃ n, n < 120 ∧ EchoOffAt cfg polls n) :
    send cfg t e noEcho timeout polls (pre ++ .cancel :: post) p = (.exc .cancelled, q, post) ∧
    (TimeoutInForce cfg timeout →
      send cfg t e noEcho timeout polls (pre ++ .timeout :: post) p = (.exc .timeout, q, post)) := by
  rw [← timerSet_iff]
  cases noEcho with
  | false => exact sendNow_interrupted cfg t e false timeout pre post p q held h
  | true =>
    obtain ⟨n, hn, hoff⟩ := hecho.resolve_left (by simp)
    have hpoll : ∀ (k : Nat) (polls : List Poll) (n : Nat), n < k → EchoOffAt cfg polls n →
        pollEcho cfg k polls = none := by
      intro k
      induction k with
      | zero => intro polls n hn; omega
      | succ k ih =>
        intro polls n hn ho
        obtain ⟨⟨b, h1, h2⟩, h3⟩ := ho
        cases n with
        | zero =>
          cases polls with
          | nil => simp at h1
          | cons x xs =>
            simp at h1; subst h1
            have : echoSeen cfg b = false := by
              simp only [echoSeen]; cases hp : cfg.pty <;> simp_all
            simp [pollEcho, this]
        | succ n =>
          cases polls with
          | nil => simp at h1
          | cons x xs =>
            have h0 := h3 0 (by omega)
            obtain ⟨hx, hp⟩ := h0
            simp at hx; subst hx
            have : echoSeen cfg true = true := by simp [echoSeen, hp]
            simp only [pollEcho, this, if_true]
            refine ih xs n (by omega) ⟨⟨b, by simpa using h1, h2⟩, fun j hj => ?_⟩
            have := h3 (j + 1) (by omega)
            simpa using this
    have hp := hpoll 120 polls n hn hoff
    simp only [send, waitNoEcho, hp, if_true] at h ⊢
    exact sendNow_interrupted cfg t e true timeout pre post _ q held h

/-! ## The end of the output -/

theorem drainLoop_eof (cfg : PCfg) (timer : Bool) (evs : List PEv) :
    ∀ (r : DrainReader) (p : PS), p.atEof = true → r ≠ .running →
      (drainLoop cfg timer evs r p).2.1 = p ∧ taken (drainLoop cfg timer evs r p).1 = [] := by
  induction evs with
  | nil => intro r p h hr; exact ⟨rfl, rfl⟩
  | cons ev evs ih =>
    intro r p h hr
    cases r with
    | running => exact absurd rfl hr
    | notStarted =>
      cases ev <;> first
        | exact ih _ _ h (by decide)
        | exact ih _ _ h (by simp [drainStart, h])
        | exact ⟨rfl, rfl⟩
        | (simp only [drainLoop]; split <;> first | exact ⟨rfl, rfl⟩ | exact ih _ _ h (by decide))
    | finished =>
      cases ev <;> first
        | exact ih _ _ h (by decide)
        | exact ⟨rfl, rfl⟩
        | (simp only [drainLoop]; split <;> first | exact ⟨rfl, rfl⟩ | exact ih _ _ h (by decide))

/-- At the end with nothing pending, and stays there. -/
theorem op_at_end (cfg : PCfg) (c : PCall) (p : PS) (h : p.atEof = true) (hp : p.pending = []) :
    (c.op.run cfg c.polls c.evs p).2.pending = [] ∧ taken (c.op.run cfg c.polls c.evs p).1 = [] := by
  have hsend : ∀ t e n to, (send cfg t e n to c.polls c.evs p).2.1.pending = [] ∧
      taken (send cfg t e n to c.polls c.evs p).1 = [] := by
    intro t e n to
    have hnow : ∀ p : PS, p.atEof = true → p.pending = [] → (sendNow cfg t e n to c.evs p).2.1.pending = [] ∧
        taken (sendNow cfg t e n to c.evs p).1 = [] := by
      intro p h hp
      simp only [sendNow]
      split
      · exact ⟨hp, rfl⟩
      · have hk : ∀ q : PS, q.atEof = true → q.pending = [] →
            (drainLoop cfg (timerSet cfg to) c.evs .notStarted q).2.1.pending = [] ∧
            taken (drainLoop cfg (timerSet cfg to) c.evs .notStarted q).1 = [] := by
          intro q h1 h2
          have := drainLoop_eof cfg (timerSet cfg to) c.evs .notStarted q h1 (by decide)
          exact ⟨by rw [this.1]; exact h2, this.2⟩
        apply hk
        · simp only [PS.logMsg]; split <;> exact h
        · simp only [PS.logMsg]; split <;> exact hp
    simp only [send]
    split
    · have hl : (waitNoEcho cfg c.polls p).2.atEof = true ∧ (waitNoEcho cfg c.polls p).2.pending = [] := by
        simp only [waitNoEcho, PS.logMsg]; split <;> exact ⟨h, hp⟩
      split
      · rename_i o p' ho
        rw [ho] at hl
        refine ⟨hl.2, ?_⟩
        simp only [waitNoEcho, Prod.mk.injEq] at ho
        have hpe : ∀ k polls o, pollEcho cfg k polls = some o → taken o = [] := by
          intro k
          induction k with
          | zero => intro polls o ho; rcases polls with _ | ⟨_ | _, _⟩ <;> simp [pollEcho] at ho <;> subst ho <;> rfl
          | succ k ih =>
            intro polls o ho
            rcases polls with _ | ⟨b | _, ps⟩
            · simp [pollEcho] at ho; subst ho; rfl
            · simp only [pollEcho] at ho
              split at ho
              · exact ih _ _ ho
              · cases ho
            · simp [pollEcho] at ho; subst ho; rfl
        exact hpe _ _ _ ho.1
      · rename_i p' ho
        rw [ho] at hl
        exact hnow p' hl.1 hl.2
    · exact hnow p h hp
  cases hop : c.op with
  | expect arg t =>
    have : expect cfg arg t c.evs p = (.exc .eofError, p, c.evs) ∨ ∃ e, expect cfg arg t c.evs p = (.exc e, p, c.evs) := by
      simp only [expect]
      split
      · exact .inr ⟨_, rfl⟩
      · left; simp [expectPat, hp, h]
    rcases this with he | ⟨e, he⟩ <;> simp [POp.run, he, hp, taken]
  | readAll t => simp [POp.run, readAll, h, readPending, hp, taken]
  | readPending => simp [POp.run, readPending, hp, taken]
  | send t e n to => simpa [POp.run] using hsend t e n to
  | command t e n arg to a => simp [POp.run, command, h, hp, taken]
  | close =>
    simp only [POp.run, promptClose]
    refine ⟨?_, rfl⟩
    split <;> (simp only [PS.logMsg]; split <;> exact hp)

/-- **C51.** `at_eof` tells the truth: when it is true, no later operation returns any text; when it is
false, the output has not been seen to end or there is text to be returned by `read_pending`. -/
theorem C51_at_eof (cfg : PCfg) (p : PS) :
    (p.isAtEof = true → ∀ calls, (session cfg calls p).1.flatMap taken = []) ∧
    (p.isAtEof = false → p.atEof = false ∨ ∃ t, t ≠ [] ∧ (readPending p).1 = .text t) := by
  constructor
  · intro h calls
    simp only [PS.isAtEof, Bool.and_eq_true, List.isEmpty_iff] at h
    obtain ⟨h, hp⟩ := h
    induction calls generalizing p with
    | nil => rfl
    | cons c cs ih =>
      have := op_at_end cfg c p h hp
      simp only [session, List.flatMap_cons, this.2, List.nil_append]
      exact ih _ (op_atEof cfg c.op c.polls c.evs p h) this.1
  · intro h
    cases ha : p.atEof with
    | false => exact .inl rfl
    | true =>
      refine .inr ⟨p.pending, ?_, rfl⟩
      rintro hp
      simp [PS.isAtEof, ha, hp] at h

/-- **C54.** `close` always makes the co-process see the end of its input: without a terminal (or without an
EOF character) its stdin is closed, otherwise the EOF character is written twice after everything sent
before. -/
theorem C54_close (cfg : PCfg) (calls : List PCall) (p : PS) :
    let q := (session cfg calls p).2
    let q' := (session cfg (calls ++ [{ op := .close }]) p).2
    (q'.closed = true ∧ q'.written = q.written) ∨
    ∃ eof, cfg.ptyEof = some eof ∧ eof ≠ [] ∧ q'.written = q.written ++ eof ++ eof := by
  have hs : ∀ (calls : List PCall) (p : PS), (session cfg (calls ++ [{ op := .close }]) p).2 =
      promptClose cfg (session cfg calls p).2 := by
    intro calls
    induction calls with
    | nil => intro p; rfl
    | cons c cs ih => intro p; exact ih _
  simp only [hs]
  generalize (session cfg calls p).2 = q
  simp only [promptClose]
  split
  · rename_i b bs hb
    exact .inr ⟨b :: bs, hb, by simp, by simp only [PS.logMsg]; split <;> rfl⟩
  · left; simp only [PS.logMsg]; split <;> exact ⟨rfl, rfl⟩

/-- **C17/C60.** The EOF character of a terminal is the fifth control character (VEOF) in canonical mode
(bit 1 of the local flags), and there is none otherwise. -/
theorem C17_eof_character (a : TermAttrs) :
    (a.lflag.getLsbD 1 = true → getEof a = (a.cc[4]?).getD []) ∧ (a.lflag.getLsbD 1 = false → getEof a = []) := by
  have hbit : (a.lflag &&& ICANON) != 0#32 ↔ a.lflag.getLsbD 1 = true := by
    rw [bne_iff_ne]
    constructor
    · intro h
      cases hb : a.lflag.getLsbD 1 with
      | true => rfl
      | false =>
        exfalso; apply h
        apply BitVec.eq_of_getLsbD_eq
        intro i hi
        have : ICANON.getLsbD i = decide (i = 1) := by
          revert i; decide
        rw [BitVec.getLsbD_and, this]
        by_cases h1 : i = 1
        · subst h1; rw [hb]; rfl
        · simp [h1]
    · intro h he
      have := congrArg (fun x => x.getLsbD 1) he
      simp only [BitVec.getLsbD_and, h] at this
      exact absurd this (by decide)
  constructor
  · intro h
    simp only [getEof]
    rw [if_pos (hbit.mpr h)]
    simp [VEOF, List.getD_eq_getElem?_getD]
  · intro h
    simp only [getEof]
    rw [if_neg (by rw [hbit, h]; decide)]

end Shellous.Props
