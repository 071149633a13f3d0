import Verif.Props.Send

/-!
# C73, C74: timeouts of the prompt API, and tracing a session
-/

namespace Shellous.Props.Time

/-! ## C73: timeouts -/

/-- The `timeout` argument of an operation. -/
def timeoutArg : POp → Option Nat
  | .expect _ t => t
  | .readAll t => t
  | .send _ _ _ t => t
  | .command _ _ _ _ t _ => t
  | .readPending => none
  | .close => none

/-- A time limit applies to the operation: a positive `timeout`, or else the `default_timeout` of the
prompt. -/
def Limited (cfg : PCfg) (op : POp) : Prop :=
  (∃ n, n ≠ 0 ∧ timeoutArg op = some n) ∨ cfg.dfltTimeout ≠ none

/-- The same events without the expirations of timers. -/
def untimed (evs : List PEv) : List PEv := evs.filter (· ≠ .timeout)

theorem timerSet_iff (cfg : PCfg) (t : Option Nat) :
    timerSet cfg t = true ↔ (∃ n, n ≠ 0 ∧ t = some n) ∨ cfg.dfltTimeout ≠ none := by
  unfold timerSet effTimeout
  split
  · cases cfg.dfltTimeout <;> simp
  · cases cfg.dfltTimeout <;> simp
  · rename_i n hn
    simp only [Option.isSome_some, Option.some.injEq, true_iff]
    exact Or.inl ⟨n, fun h => hn h, rfl⟩

theorem expectLoop_untimed (cfg : PCfg) (pat : Pattern) (evs : List PEv) (r : Option MatchRes) (p : PS) :
    expectLoop cfg pat false (untimed evs) r p =
      ((expectLoop cfg pat false evs r p).1, (expectLoop cfg pat false evs r p).2.1,
        untimed (expectLoop cfg pat false evs r p).2.2) := by
  induction evs generalizing r p with
  | nil => rcases r with _ | ⟨e | ⟨t, m⟩⟩ <;> rfl
  | cons ev evs ih =>
    rcases r with _ | ⟨e | ⟨t, m⟩⟩ <;> cases ev <;>
      simp only [untimed, List.filter_cons, ne_eq, reduceCtorEq, not_false_eq_true, decide_true, if_true,
        not_true_eq_false, decide_false, Bool.false_eq_true, if_false, expectLoop] <;>
      first | rfl | exact ih _ _

theorem readAllLoop_untimed (cfg : PCfg) (evs : List PEv) (r : Option (Except Exc Unit)) (p : PS) :
    readAllLoop cfg false (untimed evs) r p =
      ((readAllLoop cfg false evs r p).1, (readAllLoop cfg false evs r p).2.1,
        untimed (readAllLoop cfg false evs r p).2.2) := by
  induction evs generalizing r p with
  | nil => rfl
  | cons ev evs ih =>
    rcases r with _ | ⟨e | u⟩ <;> cases ev <;>
      simp only [untimed, List.filter_cons, ne_eq, reduceCtorEq, not_false_eq_true, decide_true, if_true,
        not_true_eq_false, decide_false, Bool.false_eq_true, if_false, readAllLoop] <;>
      first | rfl | exact ih _ _

theorem drainLoop_untimed (cfg : PCfg) (evs : List PEv) (r : DrainReader) (p : PS) :
    drainLoop cfg false (untimed evs) r p =
      ((drainLoop cfg false evs r p).1, (drainLoop cfg false evs r p).2.1,
        untimed (drainLoop cfg false evs r p).2.2) := by
  induction evs generalizing r p with
  | nil => rfl
  | cons ev evs ih =>
    cases r <;> cases ev <;>
      simp only [untimed, List.filter_cons, ne_eq, reduceCtorEq, not_false_eq_true, decide_true, if_true,
        not_true_eq_false, decide_false, Bool.false_eq_true, if_false, drainLoop] <;>
      first | rfl | exact ih _ _

theorem expect_untimed (cfg : PCfg) (arg : PromptArg) (t : Option Nat) (h : timerSet cfg t = false)
    (evs : List PEv) (p : PS) :
    expect cfg arg t (untimed evs) p =
      ((expect cfg arg t evs p).1, (expect cfg arg t evs p).2.1, untimed (expect cfg arg t evs p).2.2) := by
  simp only [expect]
  split
  · rfl
  · simp only [expectPat, h]
    split
    · rfl
    · split
      · rfl
      · exact expectLoop_untimed _ _ _ _ _

theorem send_untimed (cfg : PCfg) (x : SendText) (e : Option Text) (n : Bool) (t : Option Nat)
    (h : timerSet cfg t = false) (polls : List Poll) (evs : List PEv) (p : PS) :
    send cfg x e n t polls (untimed evs) p =
      ((send cfg x e n t polls evs p).1, (send cfg x e n t polls evs p).2.1,
        untimed (send cfg x e n t polls evs p).2.2) := by
  have hs : ∀ p, sendNow cfg x e n t (untimed evs) p =
      ((sendNow cfg x e n t evs p).1, (sendNow cfg x e n t evs p).2.1,
        untimed (sendNow cfg x e n t evs p).2.2) := by
    intro p
    simp only [sendNow]
    split
    · rfl
    · rw [h]; exact drainLoop_untimed _ _ _ _
  simp only [send]
  split
  · split
    · rfl
    · exact hs _
  · exact hs _

theorem command_untimed (cfg : PCfg) (x : SendText) (e : Option Text) (n : Bool) (arg : PromptArg)
    (t : Option Nat) (a : Bool) (h : timerSet cfg t = false) (polls : List Poll) (evs : List PEv) (p : PS) :
    command cfg x e n arg t a polls (untimed evs) p =
      ((command cfg x e n arg t a polls evs p).1, (command cfg x e n arg t a polls evs p).2.1,
        untimed (command cfg x e n arg t a polls evs p).2.2) := by
  simp only [command]
  split
  · rfl
  · rw [send_untimed cfg x e n t h]
    generalize send cfg x e n t polls evs p = r
    obtain ⟨o, p', evs'⟩ := r
    cases o <;> try rfl
    simp only
    rw [expect_untimed cfg arg t h]
    generalize expect cfg arg t evs' p' = r
    obtain ⟨o, p', evs'⟩ := r
    unfold commandEnd
    split
    · rename_i heq
      simp only [Prod.mk.injEq] at heq
      obtain ⟨rfl, rfl, rfl⟩ := heq
      simp only
      split <;> rfl
    · rename_i hno
      split
      · rename_i heq
        simp only [Prod.mk.injEq] at heq
        obtain ⟨rfl, rfl, rfl⟩ := heq
        exact absurd rfl (hno _ _ _)
      · rfl

/-- **C73.** An operation without a time limit (no positive `timeout`, no default) behaves as if timers
did not exist: whatever else happens, its outcome and its effects are those without any expiration.
In particular `timeout=0` sets no limit. -/
theorem C73_no_limit (cfg : PCfg) (op : POp) (h : ¬ Limited cfg op) (polls : List Poll) (evs : List PEv)
    (p : PS) : op.run cfg polls evs p = op.run cfg polls (evs.filter (· ≠ .timeout)) p := by
  have hb : timerSet cfg (timeoutArg op) = false := by
    rw [← Bool.not_eq_true, timerSet_iff]; exact h
  cases op with
  | expect arg t => simp only [POp.run]; rw [show evs.filter (· ≠ .timeout) = untimed evs from rfl,
      expect_untimed cfg arg t hb]
  | readAll t =>
    simp only [POp.run, Shellous.readAll]
    rw [show evs.filter (· ≠ .timeout) = untimed evs from rfl, show timerSet cfg t = false from hb]
    split
    · rfl
    · rw [readAllLoop_untimed]
  | readPending => rfl
  | send x e n t => simp only [POp.run]; rw [show evs.filter (· ≠ .timeout) = untimed evs from rfl,
      send_untimed cfg x e n t hb]
  | command x e n arg t a => simp only [POp.run]; rw [show evs.filter (· ≠ .timeout) = untimed evs from rfl,
      command_untimed cfg x e n arg t a hb]
  | close => rfl

theorem expectLoop_wait (cfg : PCfg) (pat : Pattern) (timer : Bool) (pre : List PEv) (r : Option MatchRes)
    (p : PS) (h : ∃ held, (expectLoop cfg pat timer pre r p).1 = .blocked held) :
    ∃ r', ∀ post, expectLoop cfg pat timer (pre ++ post) r p =
      expectLoop cfg pat timer post r' (expectLoop cfg pat timer pre r p).2.1 := by
  induction pre generalizing r p with
  | nil => exact ⟨r, fun post => by rcases r with _ | ⟨e | ⟨t, m⟩⟩ <;> rfl⟩
  | cons ev evs ih =>
    obtain ⟨held, h⟩ := h
    rcases r with _ | ⟨e | ⟨t, m⟩⟩ <;> cases ev <;> simp only [List.cons_append, expectLoop] at h ⊢ <;>
      first
      | exact ih _ _ ⟨held, h⟩
      | (cases h; done)
      | (split at h
         · cases h
         · rename_i ht; simp only [if_neg ht]; exact ih _ _ ⟨held, h⟩)

theorem readAllLoop_wait (cfg : PCfg) (timer : Bool) (pre : List PEv) (r : Option (Except Exc Unit))
    (p : PS) (h : ∃ held, (readAllLoop cfg timer pre r p).1 = .blocked held) :
    ∃ r', ∀ post, readAllLoop cfg timer (pre ++ post) r p =
      readAllLoop cfg timer post r' (readAllLoop cfg timer pre r p).2.1 := by
  induction pre generalizing r p with
  | nil => exact ⟨r, fun post => rfl⟩
  | cons ev evs ih =>
    obtain ⟨held, h⟩ := h
    rcases r with _ | ⟨e | u⟩ <;> cases ev <;> simp only [List.cons_append, readAllLoop] at h ⊢ <;>
      first
      | exact ih _ _ ⟨held, h⟩
      | (cases h; done)
      | (split at h
         · cases h
         · rename_i ht; simp only [if_neg ht]; exact ih _ _ ⟨held, h⟩)

theorem drainLoop_wait (cfg : PCfg) (timer : Bool) (pre : List PEv) (r : DrainReader)
    (p : PS) (h : ∃ held, (drainLoop cfg timer pre r p).1 = .blocked held) :
    ∃ r', ∀ post, drainLoop cfg timer (pre ++ post) r p =
      drainLoop cfg timer post r' (drainLoop cfg timer pre r p).2.1 := by
  induction pre generalizing r p with
  | nil => exact ⟨r, fun post => rfl⟩
  | cons ev evs ih =>
    obtain ⟨held, h⟩ := h
    cases r <;> cases ev <;> simp only [List.cons_append, drainLoop] at h ⊢ <;>
      first
      | exact ih _ _ ⟨held, h⟩
      | (cases h; done)
      | (split at h
         · cases h
         · rename_i ht; simp only [if_neg ht]; exact ih _ _ ⟨held, h⟩)

/-- The operation has not ended. -/
def Waiting (o : POut) : Prop := ∃ held, o = .blocked held

theorem expectLoop_prefix (cfg : PCfg) (pat : Pattern) (timer : Bool) (pre post : List PEv)
    (r : Option MatchRes) (p : PS) (h : Waiting (expectLoop cfg pat timer (pre ++ post) r p).1) :
    Waiting (expectLoop cfg pat timer pre r p).1 := by
  induction pre generalizing r p with
  | nil => rcases r with _ | ⟨e | ⟨t, m⟩⟩ <;> exact ⟨_, rfl⟩
  | cons ev evs ih =>
    rcases r with _ | ⟨e | ⟨t, m⟩⟩ <;> cases ev <;> simp only [List.cons_append, expectLoop] at h ⊢ <;>
      first
      | exact ih _ _ h
      | (obtain ⟨_, h⟩ := h; cases h; done)
      | (split at h
         · obtain ⟨_, h⟩ := h; cases h
         · rename_i ht; simp only [if_neg ht]; exact ih _ _ h)

theorem readAllLoop_prefix (cfg : PCfg) (timer : Bool) (pre post : List PEv)
    (r : Option (Except Exc Unit)) (p : PS) (h : Waiting (readAllLoop cfg timer (pre ++ post) r p).1) :
    Waiting (readAllLoop cfg timer pre r p).1 := by
  induction pre generalizing r p with
  | nil => exact ⟨_, rfl⟩
  | cons ev evs ih =>
    rcases r with _ | ⟨e | u⟩ <;> cases ev <;> simp only [List.cons_append, readAllLoop] at h ⊢ <;>
      first
      | exact ih _ _ h
      | (obtain ⟨_, h⟩ := h; cases h; done)
      | (split at h
         · obtain ⟨_, h⟩ := h; cases h
         · rename_i ht; simp only [if_neg ht]; exact ih _ _ h)

theorem drainLoop_prefix (cfg : PCfg) (timer : Bool) (pre post : List PEv)
    (r : DrainReader) (p : PS) (h : Waiting (drainLoop cfg timer (pre ++ post) r p).1) :
    Waiting (drainLoop cfg timer pre r p).1 := by
  induction pre generalizing r p with
  | nil => exact ⟨_, rfl⟩
  | cons ev evs ih =>
    cases r <;> cases ev <;> simp only [List.cons_append, drainLoop] at h ⊢ <;>
      first
      | exact ih _ _ h
      | (obtain ⟨_, h⟩ := h; cases h; done)
      | (split at h
         · obtain ⟨_, h⟩ := h; cases h
         · rename_i ht; simp only [if_neg ht]; exact ih _ _ h)

/-- What a `TimeoutError` leaves behind: everything as it was, except the log. -/
def SameButLog (p q : PS) : Prop := { p with log := [] } = { q with log := [] }

theorem SameButLog.refl (p : PS) : SameButLog p p := rfl

theorem SameButLog.logMsg (p : PS) (cfg : PCfg) (m : PLog) : SameButLog (p.logMsg cfg m) p := by
  unfold PS.logMsg SameButLog; split <;> rfl

theorem expectLoop_limit (cfg : PCfg) (pat : Pattern) (pre post : List PEv) (p : PS)
    (h : Waiting (expectLoop cfg pat true (pre ++ [.resume]) none p).1) :
    (expectLoop cfg pat true (pre ++ .timeout :: post) none p).1 = .exc .timeout ∧
    SameButLog (expectLoop cfg pat true (pre ++ .timeout :: post) none p).2.1
      (expectLoop cfg pat true pre none p).2.1 := by
  obtain ⟨r', hr⟩ := expectLoop_wait cfg pat true pre none p (expectLoop_prefix _ _ _ _ _ _ _ h)
  rw [hr] at h
  rw [hr]
  rcases r' with _ | ⟨e | ⟨t, m⟩⟩
  · exact ⟨rfl, .logMsg _ _ _⟩
  · obtain ⟨_, h⟩ := h; cases h
  · obtain ⟨_, h⟩ := h; cases h

theorem readAllLoop_limit (cfg : PCfg) (pre post : List PEv) (p : PS)
    (h : Waiting (readAllLoop cfg true (pre ++ [.resume]) none p).1) :
    (readAllLoop cfg true (pre ++ .timeout :: post) none p).1 = .exc .timeout ∧
    SameButLog (readAllLoop cfg true (pre ++ .timeout :: post) none p).2.1
      (readAllLoop cfg true pre none p).2.1 := by
  obtain ⟨r', hr⟩ := readAllLoop_wait cfg true pre none p (readAllLoop_prefix _ _ _ _ _ _ h)
  rw [hr] at h
  rw [hr]
  rcases r' with _ | ⟨e | u⟩
  · exact ⟨rfl, .refl _⟩
  · obtain ⟨_, h⟩ := h; cases h
  · obtain ⟨_, h⟩ := h; cases h

theorem drainLoop_limit (cfg : PCfg) (pre post : List PEv) (p : PS)
    (h : Waiting (drainLoop cfg true (pre ++ [.resume]) .notStarted p).1) :
    (drainLoop cfg true (pre ++ .timeout :: post) .notStarted p).1 = .exc .timeout ∧
    SameButLog (drainLoop cfg true (pre ++ .timeout :: post) .notStarted p).2.1
      (drainLoop cfg true pre .notStarted p).2.1 := by
  obtain ⟨r', hr⟩ := drainLoop_wait cfg true pre .notStarted p (drainLoop_prefix _ _ _ _ _ _ h)
  rw [hr]
  cases r' <;> exact ⟨rfl, .refl _⟩

theorem expect_limit (cfg : PCfg) (arg : PromptArg) (t : Option Nat) (ht : timerSet cfg t = true)
    (pre post : List PEv) (p : PS) (h : Waiting (expect cfg arg t (pre ++ [.resume]) p).1) :
    (expect cfg arg t (pre ++ .timeout :: post) p).1 = .exc .timeout ∧
    SameButLog (expect cfg arg t (pre ++ .timeout :: post) p).2.1 (expect cfg arg t pre p).2.1 := by
  simp only [expect] at h ⊢
  split at h
  · obtain ⟨_, h⟩ := h; cases h
  · simp only [expectPat] at h ⊢
    split at h
    · obtain ⟨_, h⟩ := h; cases h
    · split at h
      · obtain ⟨_, h⟩ := h; cases h
      · rename_i hp
        simp only [ht] at h ⊢
        rw [if_neg hp, if_neg hp]
        exact expectLoop_limit cfg _ pre post p h

theorem pollEcho_off (cfg : PCfg) (k : Nat) (polls : List Poll) (h : ∃ n, n < k ∧ EchoOffAt cfg polls n) :
    pollEcho cfg k polls = none := by
  induction k generalizing polls with
  | zero => obtain ⟨n, hn, _⟩ := h; omega
  | succ k ih =>
    obtain ⟨n, hn, ⟨b, hb, hbo⟩, hm⟩ := h
    rcases polls with _ | ⟨on | _, ps⟩
    · simp at hb
    · simp only [pollEcho]
      split
      · rename_i hseen
        cases n with
        | zero =>
          simp only [List.getElem?_cons_zero, Option.some.injEq, Poll.echo.injEq] at hb
          subst hb
          simp only [echoSeen, Bool.and_eq_true] at hseen
          rw [hbo hseen.1] at hseen
          exact absurd hseen.2 (by simp)
        | succ n =>
          refine ih ps ⟨n, by omega, ⟨b, by simpa using hb, hbo⟩, ?_⟩
          intro m hmn
          simpa using hm (m + 1) (by omega)
      · rfl
    · cases n with
      | zero => simp at hb
      | succ n => simpa using (hm 0 (by omega)).1

theorem send_limit (cfg : PCfg) (x : SendText) (e : Option Text) (n : Bool) (t : Option Nat)
    (ht : timerSet cfg t = true) (polls : List Poll) (hpoll : n = true → pollEcho cfg 120 polls = none)
    (pre post : List PEv) (p : PS) (h : Waiting (send cfg x e n t polls (pre ++ [.resume]) p).1) :
    (send cfg x e n t polls (pre ++ .timeout :: post) p).1 = .exc .timeout ∧
    SameButLog (send cfg x e n t polls (pre ++ .timeout :: post) p).2.1 (send cfg x e n t polls pre p).2.1 := by
  have hs : ∀ p, Waiting (sendNow cfg x e n t (pre ++ [.resume]) p).1 →
      (sendNow cfg x e n t (pre ++ .timeout :: post) p).1 = .exc .timeout ∧
      SameButLog (sendNow cfg x e n t (pre ++ .timeout :: post) p).2.1 (sendNow cfg x e n t pre p).2.1 := by
    intro p h
    simp only [sendNow] at h ⊢
    split at h
    · obtain ⟨_, h⟩ := h; cases h
    · simp only [ht] at h ⊢
      exact drainLoop_limit cfg pre post _ h
  simp only [send] at h ⊢
  cases n with
  | false => exact hs _ h
  | true =>
    simp only [if_true, waitNoEcho, hpoll rfl] at h ⊢
    exact hs _ h

theorem drainLoop_done (cfg : PCfg) (timer : Bool) (pre : List PEv) (r : DrainReader) (p p' : PS)
    (rest : List PEv) (h : drainLoop cfg timer (pre ++ [.resume]) r p = (.done, p', rest)) :
    ∃ rest', rest = rest' ++ [.resume] ∧ ∀ X, drainLoop cfg timer (pre ++ X) r p = (.done, p', rest' ++ X) := by
  induction pre generalizing r p with
  | nil => cases r <;> cases h
  | cons ev evs ih =>
    cases r <;> cases ev <;> simp only [List.cons_append, drainLoop] at h ⊢ <;>
      first
      | exact ih _ _ h
      | (cases h; done)
      | (simp only [Prod.mk.injEq, true_and] at h
         obtain ⟨rfl, rfl⟩ := h
         exact ⟨evs, rfl, fun _ => rfl⟩)
      | (split at h
         · cases h
         · rename_i ht; simp only [if_neg ht]; exact ih _ _ h)

theorem send_done (cfg : PCfg) (x : SendText) (e : Option Text) (n : Bool) (t : Option Nat)
    (polls : List Poll) (pre : List PEv) (p p' : PS)
    (rest : List PEv) (h : send cfg x e n t polls (pre ++ [.resume]) p = (.done, p', rest)) :
    ∃ rest', rest = rest' ++ [.resume] ∧ ∀ X, send cfg x e n t polls (pre ++ X) p = (.done, p', rest' ++ X) := by
  have hs : ∀ p, sendNow cfg x e n t (pre ++ [.resume]) p = (.done, p', rest) →
      ∃ rest', rest = rest' ++ [.resume] ∧ ∀ X, sendNow cfg x e n t (pre ++ X) p = (.done, p', rest' ++ X) := by
    intro p h
    simp only [sendNow] at h ⊢
    split at h
    · cases h
    · exact drainLoop_done _ _ _ _ _ _ _ h
  simp only [send] at h ⊢
  split at h
  · rename_i hn
    simp only [if_pos hn]
    split at h
    · rename_i o q ho
      simp only [waitNoEcho, Prod.mk.injEq] at ho h
      obtain ⟨rfl, rfl, rfl⟩ := h
      have : ∀ (k : Nat) (ps : List Poll), pollEcho cfg k ps ≠ some .done := by
        intro k
        induction k with
        | zero => intro ps; rcases ps with _ | ⟨_ | _, _⟩ <;> simp [pollEcho]
        | succ k ih =>
          intro ps
          rcases ps with _ | ⟨_ | _, _⟩ <;> simp only [pollEcho]
          · simp
          · split
            · exact ih _
            · simp
          · simp
      exact absurd ho.1 (this _ _)
    · exact hs _ h
  · rename_i hn
    simp only [if_neg hn]
    exact hs _ h

theorem send_prefix (cfg : PCfg) (x : SendText) (e : Option Text) (n : Bool) (t : Option Nat)
    (polls : List Poll) (pre post : List PEv) (p : PS)
    (h : Waiting (send cfg x e n t polls (pre ++ post) p).1) :
    Waiting (send cfg x e n t polls pre p).1 := by
  have hs : ∀ p, Waiting (sendNow cfg x e n t (pre ++ post) p).1 →
      Waiting (sendNow cfg x e n t pre p).1 := by
    intro p h
    simp only [sendNow] at h ⊢
    split at h
    · exact h
    · exact drainLoop_prefix _ _ _ _ _ _ h
  simp only [send] at h ⊢
  split at h
  · rename_i hn
    simp only [if_pos hn]
    split at h
    · exact h
    · exact hs _ h
  · rename_i hn
    simp only [if_neg hn]
    exact hs _ h

theorem commandEnd_waiting (a : Bool) (r : POut × PS × List PEv) (h : Waiting (commandEnd a r).1) :
    Waiting r.1 := by
  unfold commandEnd at h
  split at h
  · split at h
    · obtain ⟨_, h⟩ := h; cases h
    · obtain ⟨_, h⟩ := h; cases h
  · exact h

theorem commandEnd_other (a : Bool) (r : POut × PS × List PEv) (h : ∀ d, r.1 ≠ .exc .eofError d) :
    commandEnd a r = r := by
  unfold commandEnd
  split
  · exact absurd rfl (h _)
  · rfl

theorem command_limit (cfg : PCfg) (x : SendText) (e : Option Text) (n : Bool) (arg : PromptArg)
    (t : Option Nat) (a : Bool)
    (ht : timerSet cfg t = true) (polls : List Poll) (hpoll : n = true → pollEcho cfg 120 polls = none)
    (pre post : List PEv) (p : PS) (h : Waiting (command cfg x e n arg t a polls (pre ++ [.resume]) p).1) :
    (command cfg x e n arg t a polls (pre ++ .timeout :: post) p).1 = .exc .timeout ∧
    SameButLog (command cfg x e n arg t a polls (pre ++ .timeout :: post) p).2.1
      (command cfg x e n arg t a polls pre p).2.1 := by
  by_cases hp : p.atEof = true
  · simp only [command, hp, if_true] at h; obtain ⟨_, h⟩ := h; cases h
  by_cases hd : (send cfg x e n t polls (pre ++ [.resume]) p).1 = .done
  · generalize hq : send cfg x e n t polls (pre ++ [.resume]) p = q at hd
    obtain ⟨o, p', rest⟩ := q
    simp only at hd
    subst hd
    obtain ⟨rest', rfl, hX⟩ := send_done cfg x e n t polls pre p p' rest hq
    simp only [command, if_neg hp, hX] at h ⊢
    have hpre := hX []
    rw [List.append_nil, List.append_nil] at hpre
    rw [hpre]
    have hw := commandEnd_waiting _ _ h
    have hl := expect_limit cfg arg t ht rest' post p' hw
    rw [commandEnd_other a _ (by intro d; rw [hl.1]; simp)]
    refine ⟨hl.1, ?_⟩
    have hb : Waiting (expect cfg arg t rest' p').1 := by
      have := hw
      simp only [expect] at this ⊢
      split at this
      · exact this
      · simp only [expectPat] at this ⊢
        split at this
        · obtain ⟨_, h⟩ := this; cases h
        · split at this
          · obtain ⟨_, h⟩ := this; cases h
          · rename_i hp
            rw [if_neg hp]
            exact expectLoop_prefix _ _ _ _ _ _ _ this
    simp only
    rw [commandEnd_other a (expect cfg arg t rest' p') (by
      obtain ⟨held, hb⟩ := hb
      intro d; rw [hb]; simp)]
    exact hl.2
  · have hcmd : ∀ evs, (send cfg x e n t polls evs p).1 ≠ .done →
        command cfg x e n arg t a polls evs p = send cfg x e n t polls evs p := by
      intro evs hne
      simp only [command, if_neg hp]
      split
      · rename_i heq; rw [heq] at hne; exact absurd rfl hne
      · rfl
    rw [hcmd _ hd] at h
    have hl := send_limit cfg x e n t ht polls hpoll pre post p h
    rw [hcmd _ (by rw [hl.1]; simp)]
    refine ⟨hl.1, ?_⟩
    by_cases hd' : (send cfg x e n t polls pre p).1 = .done
    · obtain ⟨held, hb⟩ := send_prefix cfg x e n t polls pre [.resume] p h
      rw [hb] at hd'; cases hd'
    · rw [hcmd _ hd']; exact hl.2

/-- The operation waits for the terminal's echo to be off before it sends. -/
def waitsForEcho : POp → Bool
  | .send _ _ n _ => n
  | .command _ _ n _ _ _ => n
  | _ => false

/-- The state in which the operation would be if nothing happened after `pre`. -/
abbrev stateAfter (cfg : PCfg) (op : POp) (polls : List Poll) (pre : List PEv) (p : PS) : PS :=
  (op.run cfg polls pre p).2

/-- **C73.** If a time limit applies and the timer expires while the operation is still waiting (it had
not ended after the events before, even if the caller had been given a turn), then it raises TimeoutError,
whatever would have happened afterwards; and nothing is lost: characters received so far, the bytes written
and the state of the decoder are as they were. (`command` applies the limit to each of its two halves. For
`no_echo` the wait for echo to be off must be over, see `C73_echo_wait_false`.) -/
theorem C73_limit_partial (cfg : PCfg) (op : POp) (hl : Limited cfg op) (polls : List Poll)
    (hpoll : waitsForEcho op = true → ∃ n, n < 120 ∧ EchoOffAt cfg polls n)
    (pre post : List PEv) (p : PS)
    (h : Waiting (op.run cfg polls (pre ++ [.resume]) p).1) :
    (op.run cfg polls (pre ++ .timeout :: post) p).1 = .exc .timeout ∧
    SameButLog (op.run cfg polls (pre ++ .timeout :: post) p).2 (stateAfter cfg op polls pre p) := by
  have ht : timerSet cfg (timeoutArg op) = true := (timerSet_iff _ _).2 hl
  cases op with
  | expect arg t => exact expect_limit cfg arg t ht pre post p h
  | readAll t =>
    simp only [stateAfter, POp.run, Shellous.readAll] at h ⊢
    split at h
    · obtain ⟨_, h⟩ := h; cases h
    · rename_i hp
      simp only [timeoutArg] at ht
      simp only [ht, if_neg hp] at h ⊢
      exact readAllLoop_limit cfg pre post p h
  | readPending => obtain ⟨_, h⟩ := h; cases h
  | send x e n t => exact send_limit cfg x e n t ht polls (fun hn => pollEcho_off _ _ _ (hpoll hn)) pre post p h
  | command x e n arg t a =>
    exact command_limit cfg x e n arg t a ht polls (fun hn => pollEcho_off _ _ _ (hpoll hn)) pre post p h
  | close => obtain ⟨_, h⟩ := h; cases h

/-- **C73** is false for the wait for echo to be off: it is not limited by `timeout` or
`default_timeout`. After any number of looks below 120 that found echo on, the call still waits, whatever
happens to the timer. -/
theorem C73_echo_wait_false (cfg : PCfg) (hp : cfg.pty = true) (x : SendText) (e : Option Text)
    (t : Option Nat) (k : Nat) (hk : k < 120) (evs : List PEv) (p : PS) :
    (send cfg x e true t (List.replicate k (.echo true)) evs p).1 = .blocked ∧
    (send cfg x e true t (List.replicate k (.echo true)) evs p).2.2 = evs := by
  have : ∀ (k m : Nat), k < m → pollEcho cfg m (List.replicate k (.echo true)) = some .blocked := by
    intro k
    induction k with
    | zero => intro m hm; cases m with
      | zero => omega
      | succ m => rfl
    | succ k ih => intro m hm; cases m with
      | zero => omega
      | succ m => simpa [List.replicate_succ, pollEcho, echoSeen, hp] using ih m (by omega)
  simp only [send, if_true, waitNoEcho, this k 120 hk, and_self]

/-- **C73** is false for `timeout=0` (and for it only): it does not make `expect` give up at once. Without
a default, the call waits for ever. -/
theorem C73_zero_false (cfg : PCfg) (hd : cfg.dfltTimeout = none) (pat : Pattern) (k : Nat) (d : Decoder) :
    (expect cfg (.regex pat) (some 0) (List.replicate k .timeout) (freshPrompt d)).1 = .blocked := by
  have h := C73_no_limit cfg (.expect (.regex pat) (some 0)) (by
    rintro (⟨n, hn, h⟩ | h)
    · simp only [timeoutArg, Option.some.injEq] at h; exact hn h.symm
    · exact h hd) [] (List.replicate k .timeout) (freshPrompt d)
  have h1 := congrArg Prod.fst h
  have hf : (List.replicate k PEv.timeout).filter (· ≠ .timeout) = [] := by
    rw [List.filter_eq_nil_iff]; intro a ha; simp [List.eq_of_mem_replicate ha]
  rw [hf] at h1
  exact h1

/-- `expect` of ">" with a limit, and half a line received when the timer expires: nothing is lost. -/
example :
    let cfg : PCfg := { encode := fun t => .ok (encodeUtf8 t), dfltTimeout := some 7 }
    let op : POp := .expect (.str ['>']) none
    Limited cfg op ∧
    Waiting (op.run cfg [] ([.read [0x61, 0x62]] ++ [.resume]) (freshPrompt (utf8Prompt .strict))).1 ∧
    (op.run cfg [] ([.read [0x61, 0x62]] ++ .timeout :: [.read [0x3E]])
      (freshPrompt (utf8Prompt .strict))).2.pending = ['a', 'b'] := by
  refine ⟨.inr (by simp), ⟨[], by decide +kernel⟩, by decide +kernel⟩

/-- `command` without a limit, during which timers of others expire. -/
example :
    let cfg : PCfg := { encode := fun t => .ok (encodeUtf8 t) }
    let op : POp := .command (.str ['x']) (some ['\n']) false (.str ['>']) (some 0) false
    ¬ Limited cfg op ∧
    (op.run cfg [] [.timeout, .drained, .timeout, .read [0x61, 0x3E], .timeout, .resume]
      (freshPrompt (utf8Prompt .strict))).1 = .matched ['a'] ['>'] := by
  refine ⟨?_, by decide +kernel⟩
  rintro (⟨n, hn, h⟩ | h)
  · simp only [timeoutArg, Option.some.injEq] at h; exact hn h.symm
  · exact h rfl

/-! ## C74: tracing -/

/-- The same settings with tracing (`SHELLOUS_TRACE=prompt`) off. -/
def untraced (cfg : PCfg) : PCfg := { cfg with logOn := false }

/-- A state without its log. -/
def noLog (p : PS) : PS := { p with log := [] }

theorem noLog_logMsg (p : PS) (cfg : PCfg) (m : PLog) : noLog (p.logMsg cfg m) = noLog p := by
  unfold PS.logMsg noLog; split <;> rfl

theorem untraced_logMsg (p : PS) (cfg : PCfg) (m : PLog) : p.logMsg (untraced cfg) m = p := rfl

theorem readChunk_noLog (cfg : PCfg) (p : PS) (c : Bytes) :
    (noLog p).readChunk (untraced cfg) c = ((p.readChunk cfg c).1, noLog (p.readChunk cfg c).2) := by
  simp only [PS.readChunk, untraced_logMsg]
  have h := noLog_logMsg { p with atEof := p.atEof || c.isEmpty, got := p.got ++ [c] } cfg (.receive c)
  generalize hq : ({ p with atEof := p.atEof || c.isEmpty, got := p.got ++ [c] } : PS).logMsg cfg (.receive c)
    = q at h
  obtain ⟨d, pe, ae, w, cl, lg, g⟩ := q
  simp only [noLog, PS.mk.injEq] at h
  obtain ⟨rfl, rfl, rfl, rfl, rfl, -, rfl⟩ := h
  simp only [noLog]
  split <;> rfl

theorem searchPending_noLog (cfg : PCfg) (p : PS) (pat : Pattern) :
    (noLog p).searchPending (untraced cfg) pat =
      (p.searchPending cfg pat).map fun r => (r.1, r.2.1, noLog r.2.2) := by
  simp only [PS.searchPending]
  rw [show (noLog p).pending = p.pending from rfl]
  cases pat p.pending with
  | none => rfl
  | some ij => simp only [Option.map_some, noLog_logMsg]; rfl

theorem patStep_noLog (cfg : PCfg) (pat : Pattern) (p : PS) (c : Bytes) :
    patStep (untraced cfg) pat (noLog p) c = (noLog (patStep cfg pat p c).1, (patStep cfg pat p c).2) := by
  simp only [patStep, readChunk_noLog]
  generalize p.readChunk cfg c = r
  obtain ⟨r1, q⟩ := r
  cases r1 with
  | error e => rfl
  | ok data =>
    simp only [searchPending_noLog]
    show (if data.isEmpty && !q.atEof then _ else _) = _
    split
    · rfl
    · cases q.searchPending cfg pat with
      | none =>
        simp only [Option.map_none]
        show (if q.atEof then _ else _) = _
        split <;> rfl
      | some z => rfl

theorem someStep_noLog (cfg : PCfg) (p : PS) (c : Bytes) :
    someStep (untraced cfg) (noLog p) c = (noLog (someStep cfg p c).1, (someStep cfg p c).2) := by
  simp only [someStep, readChunk_noLog]
  generalize p.readChunk cfg c = r
  obtain ⟨r1, q⟩ := r
  cases r1 <;> rfl

/-- The result of an operation without the log. -/
def cut (r : POut × PS × List PEv) : POut × PS × List PEv := (r.1, noLog r.2.1, r.2.2)

theorem expectLoop_noLog (cfg : PCfg) (pat : Pattern) (timer : Bool) (evs : List PEv)
    (r : Option MatchRes) (p : PS) :
    expectLoop (untraced cfg) pat timer evs r (noLog p) = cut (expectLoop cfg pat timer evs r p) := by
  induction evs generalizing r p with
  | nil => rcases r with _ | ⟨e | ⟨t, m⟩⟩ <;> rfl
  | cons ev evs ih =>
    rcases r with _ | ⟨e | ⟨t, m⟩⟩
    · cases ev with
      | read c => simp only [expectLoop, patStep_noLog]; exact ih _ _
      | timeout =>
        simp only [expectLoop]
        split
        · simp only [cut, noLog_logMsg]; rfl
        · exact ih _ _
      | cancel => simp only [expectLoop, cut, noLog_logMsg]; rfl
      | readErr e => exact ih _ _
      | resume => exact ih _ _
      | drained => exact ih _ _
      | drainErr e => exact ih _ _
    · cases ev <;> first | exact ih _ _ | rfl
    · cases ev <;> first | exact ih _ _ | rfl

theorem readAllLoop_noLog (cfg : PCfg) (timer : Bool) (evs : List PEv)
    (r : Option (Except Exc Unit)) (p : PS) :
    readAllLoop (untraced cfg) timer evs r (noLog p) = cut (readAllLoop cfg timer evs r p) := by
  induction evs generalizing r p with
  | nil => rfl
  | cons ev evs ih =>
    rcases r with _ | ⟨e | u⟩
    · cases ev with
      | read c => simp only [readAllLoop, someStep_noLog]; exact ih _ _
      | timeout =>
        simp only [readAllLoop]
        split
        · rfl
        · exact ih _ _
      | cancel => rfl
      | readErr e => exact ih _ _
      | resume => exact ih _ _
      | drained => exact ih _ _
      | drainErr e => exact ih _ _
    · cases ev <;> first | exact ih _ _ | rfl
    · cases ev <;> first | exact ih _ _ | rfl

theorem drainLoop_noLog (cfg : PCfg) (timer : Bool) (evs : List PEv) (r : DrainReader) (p : PS) :
    drainLoop (untraced cfg) timer evs r (noLog p) = cut (drainLoop cfg timer evs r p) := by
  induction evs generalizing r p with
  | nil => rfl
  | cons ev evs ih =>
    cases r <;> cases ev <;> simp only [drainLoop, someStep_noLog] <;>
      first
      | exact ih _ _
      | rfl
      | (split
         · rfl
         · exact ih _ _)

theorem expect_noLog (cfg : PCfg) (arg : PromptArg) (t : Option Nat) (evs : List PEv) (p : PS) :
    expect (untraced cfg) arg t evs (noLog p) = cut (expect cfg arg t evs p) := by
  simp only [expect]
  rw [show (untraced cfg).dflt = cfg.dflt from rfl]
  cases resolvePrompt cfg.dflt arg with
  | error e => rfl
  | ok pat =>
    simp only [expectPat, searchPending_noLog]
    rw [show (noLog p).pending = p.pending from rfl]
    by_cases hp : p.pending.isEmpty = true
    · simp only [if_pos hp]
      show (if p.atEof then _ else _) = _
      split
      · rfl
      · exact expectLoop_noLog _ _ _ _ _ _
    · simp only [if_neg hp]
      cases p.searchPending cfg _ with
      | none =>
        simp only [Option.map_none]
        show (if p.atEof then _ else _) = _
        split
        · rfl
        · exact expectLoop_noLog _ _ _ _ _ _
      | some z => rfl

theorem send_noLog (cfg : PCfg) (x : SendText) (e : Option Text) (n : Bool) (t : Option Nat)
    (polls : List Poll) (evs : List PEv) (p : PS) :
    send (untraced cfg) x e n t polls evs (noLog p) = cut (send cfg x e n t polls evs p) := by
  have hs : ∀ p, sendNow (untraced cfg) x e n t evs (noLog p) = cut (sendNow cfg x e n t evs p) := by
    intro p
    simp only [sendNow]
    rw [show sendData (untraced cfg) x e = sendData cfg x e from rfl]
    cases sendData cfg x e with
    | error e => rfl
    | ok data =>
      simp only
      rw [← drainLoop_noLog, noLog_logMsg]; rfl
  have hpe : ∀ k ps, pollEcho (untraced cfg) k ps = pollEcho cfg k ps := by
    intro k
    induction k with
    | zero => intro ps; rcases ps with _ | ⟨_ | _, _⟩ <;> rfl
    | succ k ih =>
      intro ps
      rcases ps with _ | ⟨on | _, _⟩ <;> simp only [pollEcho]
      rw [ih]; rfl
  simp only [send]
  split
  · simp only [waitNoEcho, hpe]
    cases pollEcho cfg 120 polls with
    | some o => simp only [cut, noLog_logMsg]; rfl
    | none =>
      simp only
      rw [← hs, noLog_logMsg]; rfl
  · exact hs p

theorem command_noLog (cfg : PCfg) (x : SendText) (e : Option Text) (n : Bool) (arg : PromptArg)
    (t : Option Nat) (a : Bool) (polls : List Poll) (evs : List PEv) (p : PS) :
    command (untraced cfg) x e n arg t a polls evs (noLog p) =
      cut (command cfg x e n arg t a polls evs p) := by
  simp only [command]
  show (if p.atEof then _ else _) = _
  split
  · rfl
  · rw [send_noLog]
    generalize send cfg x e n t polls evs p = r
    obtain ⟨o, p', evs'⟩ := r
    cases o <;> try rfl
    simp only [cut, expect_noLog]
    generalize expect cfg arg t evs' p' = r
    obtain ⟨o, p', evs'⟩ := r
    cases o <;> try rfl
    rename_i ex d
    cases ex <;> first | rfl | (simp only [commandEnd]; split <;> rfl)

theorem promptClose_noLog (cfg : PCfg) (p : PS) :
    promptClose (untraced cfg) (noLog p) = noLog (promptClose cfg p) := by
  simp only [promptClose]
  rw [show (untraced cfg).ptyEof = cfg.ptyEof from rfl]
  rcases cfg.ptyEof with _ | (_ | ⟨b, bs⟩) <;> simp only [noLog_logMsg] <;> rfl

/-- **C74.** Tracing a session changes nothing but the log: every call of the session has the same outcome,
and the text kept, the bytes written and everything else are the same. -/
theorem C74_transparent (cfg : PCfg) (calls : List PCall) (p : PS) :
    (session cfg calls p).1 = (session { cfg with logOn := false } calls { p with log := [] }).1 ∧
    { (session cfg calls p).2 with log := [] } =
      (session { cfg with logOn := false } calls { p with log := [] }).2 := by
  induction calls generalizing p with
  | nil => exact ⟨rfl, rfl⟩
  | cons c cs ih =>
    have h : c.op.run { cfg with logOn := false } c.polls c.evs { p with log := [] } =
        ((c.op.run cfg c.polls c.evs p).1, noLog (c.op.run cfg c.polls c.evs p).2) := by
      show c.op.run (untraced cfg) c.polls c.evs (noLog p) = _
      cases c.op with
      | expect arg t => simp only [POp.run, expect_noLog]; rfl
      | readAll t =>
        simp only [POp.run, Shellous.readAll]
        show ((if p.atEof then _ else _ : POut × PS × List PEv).1, (if p.atEof then _ else _ : POut × PS × List PEv).2.1) = _
        split
        · rfl
        · simp only [readAllLoop_noLog]; rfl
      | readPending => rfl
      | send x e n t => simp only [POp.run, send_noLog]; rfl
      | command x e n arg t a => simp only [POp.run, command_noLog]; rfl
      | close => simp only [POp.run, promptClose_noLog]
    simp only [session, h]
    obtain ⟨h1, h2⟩ := ih (c.op.run cfg c.polls c.evs p).2
    exact ⟨by rw [h1]; rfl, h2⟩

theorem session_quiet (cfg : PCfg) (hoff : cfg.logOn = false) (calls : List PCall) (p : PS)
    (hp : p.log = []) : (session cfg calls p).2.log = [] := by
  have h := (C74_transparent cfg calls p).2
  have hc : ({ cfg with logOn := false } : PCfg) = cfg := by cases cfg; simp_all
  have hq : ({ p with log := [] } : PS) = p := by cases p; simp_all
  rw [hc, hq] at h
  rw [← h]

/-- **C74.** Without tracing, nothing is logged. -/
theorem C74_off (cfg : PCfg) (hoff : cfg.logOn = false) (calls : List PCall) (d : Decoder) :
    (session cfg calls (freshPrompt d)).2.log = [] :=
  session_quiet cfg hoff calls _ rfl

/-- A traced session has a log, and the outcomes of the untraced one. -/
example :
    let cfg : PCfg := { encode := fun t => .ok (encodeUtf8 t), logOn := true }
    let calls : List PCall :=
      [{ op := .send (.str ['x']) none false none, evs := [.drained] },
       { op := .expect (.str ['>']) none, evs := [.read [0x61, 0x3E], .resume] }]
    (session cfg calls (freshPrompt (utf8Prompt .strict))).2.log =
      [.send [0x78], .receive [0x61, 0x3E], .found ['>'] 0] ∧
    (session { cfg with logOn := false } calls (freshPrompt (utf8Prompt .strict))).1 =
      [.done, .matched ['a'] ['>']] := by
  decide +kernel

end Shellous.Props.Time
