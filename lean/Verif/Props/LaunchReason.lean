import Verif.Props.FdsFail

/-!
# C80: a failed launch tells the reason
-/

namespace Shellous.Props

open Shellous

/-- A call was refused with `e` during the launch that took the state `s` to `s'`. -/
def Refused (sys : Sys) (s s' : LS) (e : Exc) : Prop := ∃ n, s.calls ≤ n ∧ n < s'.calls ∧ sys.fail n = some e

/-- What is wrong with the command itself: redirections that make no sense, an input that cannot be encoded. -/
def Unfit (sys : Sys) (e : Exc) : Prop :=
  e = .typeError ∨ e = .valueError ∨ e = .assertionError ∨ ∃ t, sys.encode t = .error e

/-- The first refusal ends the launch: its exception is raised, nothing is tried afterwards. And if an exception is raised, a call
was refused with it, or the command is at fault. -/
def Told {α : Type} (sys : Sys) (m : M α) : Prop := ∀ s r s', m s = (r, s') → s.calls ≤ s'.calls ∧
  (∀ n e, s.calls ≤ n → n < s'.calls → sys.fail n = some e → r = .error e ∧ s'.calls = n + 1) ∧
  (∀ e, r = .error e → Refused sys s s' e ∨ Unfit sys e)

section
variable {sys : Sys} {α β : Type}

theorem told_quiet {m : M α} (h : ∀ s, (m s).2.calls = s.calls) (he : ∀ s e, (m s).1 = .error e → Unfit sys e) : Told sys m := by
  intro s r s' hm
  have h1 := h s
  have h2 := he s
  rw [hm] at h1 h2
  dsimp only at h1 h2
  exact ⟨by omega, fun n e _ _ _ => by omega, fun e h => .inr (h2 e h)⟩

theorem told_pure (a : α) : Told sys (pure a : M α) := told_quiet (fun _ => rfl) fun _ _ h => by cases h
theorem told_raise {e : Exc} (he : Unfit sys e) : Told sys (raise e : M α) := told_quiet (fun _ => rfl) fun _ _ h => by cases h; exact he
theorem told_getS : Told sys getS := told_quiet (fun _ => rfl) fun _ _ h => by cases h
theorem told_modify {f : LS → LS} (h : ∀ s, (f s).calls = s.calls) : Told sys (modify f) := told_quiet h fun _ _ h => by cases h
theorem told_newFd : Told sys (newFd sys) := told_quiet (fun _ => rfl) fun _ _ h => by cases h

theorem told_call : Told sys (call sys) := by
  intro s r s' h
  unfold call at h
  cases hf : sys.fail s.calls with
  | none =>
    simp only [hf, Prod.mk.injEq] at h
    obtain ⟨rfl, rfl⟩ := h
    refine ⟨by simp, fun n e h1 h2 h3 => ?_, by simp⟩
    have : n = s.calls := by dsimp at h2; omega
    subst this
    rw [hf] at h3; cases h3
  | some x =>
    simp only [hf, Prod.mk.injEq] at h
    obtain ⟨rfl, rfl⟩ := h
    refine ⟨by simp, fun n e h1 h2 h3 => ?_, fun e he => ?_⟩
    · have : n = s.calls := by dsimp at h2; omega
      subst this
      rw [hf] at h3; cases h3
      exact ⟨rfl, rfl⟩
    · cases he
      exact .inl ⟨s.calls, Nat.le_refl _, by simp, hf⟩

theorem told_bind {m : M α} {f : α → M β} (hm : Told sys m) (hf : ∀ a, Told sys (f a)) : Told sys (m >>= f) := by
  intro s r s' h
  have h : M.bind m f s = (r, s') := h
  unfold M.bind at h
  rcases h1 : m s with ⟨r1, s1⟩
  have t1 := hm s r1 s1 h1
  rw [h1] at h
  cases r1 with
  | error e =>
    obtain ⟨rfl, rfl⟩ := Prod.mk.injEq .. ▸ h
    refine ⟨t1.1, fun n e' a b c => ?_, fun e' he => ?_⟩
    · have := t1.2.1 n e' a b c
      exact ⟨by rw [Except.error.inj this.1], this.2⟩
    · exact t1.2.2 e' (by rw [Except.error.inj he])
  | ok a =>
    have t2 := hf a s1 r s' h
    refine ⟨Nat.le_trans t1.1 t2.1, fun n e' x y z => ?_, fun e' he => ?_⟩
    · rcases Nat.lt_or_ge n s1.calls with hl | hg
      · have := (t1.2.1 n e' x hl z).1; cases this
      · exact t2.2.1 n e' hg y z
    · rcases t2.2.2 e' he with ⟨n, a1, a2, a3⟩ | hu
      · exact .inl ⟨n, Nat.le_trans t1.1 a1, a2, a3⟩
      · exact .inr hu

theorem told_ite {p : Prop} [Decidable p] {m n : M α} (hm : p → Told sys m) (hn : ¬p → Told sys n) : Told sys (if p then m else n) := by
  split
  · exact hm ‹_›
  · exact hn ‹_›

theorem told_liftE {x : Except Exc α} (h : ∀ e, x = .error e → Unfit sys e) : Told sys (liftE x) := by
  cases x with
  | ok a => exact told_pure a
  | error e => exact told_raise (h e rfl)

end

variable {sys : Sys}

theorem told_openFile : Told sys (openFile sys) := told_bind told_call fun _ => told_newFd
theorem told_openPair : Told sys (openPair sys) :=
  told_bind told_call fun _ => told_bind told_newFd fun _ => told_bind told_newFd fun _ => told_pure _
theorem told_osPipe : Told sys (osPipe sys) :=
  told_bind told_openPair fun _ => told_bind (told_modify fun _ => rfl) fun _ => told_pure _
theorem told_addFd (e : Ent) : Told sys (addFd e) := told_modify fun _ => rfl
theorem told_setPosition (t : Target) (ap : Bool) : Told sys (setPosition sys t ap) :=
  told_bind told_call fun _ => told_modify fun _ => rfl

theorem unfit_type : Unfit sys .typeError := .inl rfl
theorem unfit_value : Unfit sys .valueError := .inr (.inl rfl)
theorem unfit_assert : Unfit sys .assertionError := .inr (.inr (.inl rfl))

theorem told_setupInput (t : Target) (close : Bool) : Told sys (setupInput sys t close) := by
  have cl : ∀ (e : Ent) (r : Handle × Option Bytes), Told sys (do
      if close then addFd e
      return r) := by
    intro e r
    refine told_ite (fun _ => ?_) fun _ => ?_
    · exact told_bind (told_addFd e) fun _ => told_pure _
    · exact told_pure _
  unfold setupInput
  cases t with
  | path p => exact told_bind told_openFile fun n => told_bind (told_addFd _) fun _ => told_pure _
  | redirect r =>
    cases r with
    | buffer => exact told_raise unfit_type
    | default => exact told_raise unfit_assert
    | inherit => exact told_pure _
    | capture => exact told_pure _
    | stdout => exact cl _ _
    | devnull => exact cl _ _
  | int n => exact cl _ _
  | str x =>
    dsimp only
    split
    · rename_i e he; exact told_raise (.inr (.inr (.inr ⟨x, he⟩)))
    · exact told_pure _
  | _ => first | exact told_pure _ | exact told_raise unfit_type

theorem told_setupOutput (fd : Fin 3) (t : Target) (append close : Bool) : Told sys (setupOutput sys fd t append close) := by
  have cl : ∀ (e : Ent) (r : Handle), Told sys (do
      if close then addFd e
      return r) := by
    intro e r
    refine told_ite (fun _ => ?_) fun _ => ?_
    · exact told_bind (told_addFd e) fun _ => told_pure _
    · exact told_pure _
  have op : ∀ p, Told sys (do
      let n ← openFile sys
      addFd (.file n)
      return Handle.file n p (if append then .ab else .wb)) := fun p =>
    told_bind told_openFile fun n => told_bind (told_addFd _) fun _ => told_pure _
  have pos : ∀ t (h : Handle), Told sys (do setPosition sys t append; return h) := fun t h =>
    told_bind (told_setPosition t append) fun _ => told_pure _
  unfold setupOutput
  refine told_bind told_getS fun s => ?_
  cases t with
  | path p => exact op p
  | pathLike p => exact op p
  | redirect r =>
    dsimp only
    refine told_ite (fun _ => told_bind (told_modify fun _ => rfl) fun _ => told_pure _) fun _ => ?_
    cases r with
    | buffer => exact told_bind (told_modify fun s => by split <;> rfl) fun _ => told_pure _
    | default => exact told_raise unfit_assert
    | inherit => exact told_pure _
    | capture => exact told_pure _
    | stdout => exact cl _ _
    | devnull => exact cl _ _
  | _ =>
    dsimp only
    refine told_ite (fun _ => told_bind (told_modify fun _ => rfl) fun _ => told_pure _) fun _ => ?_
    first
      | exact told_raise unfit_type
      | exact pos _ _
      | exact cl _ _

theorem told_setupPty (o : Options) (h : Handle × Handle × Handle) : Told sys (setupPty sys o h) := by
  unfold setupPty
  refine told_ite (fun _ => told_ite (fun _ => told_raise unfit_assert) fun _ => ?_) fun _ => told_pure _
  unfold setupPty1
  refine told_bind told_openPair fun p => ?_
  exact told_bind told_call fun _ => told_bind (told_modify fun _ => rfl) fun _ => told_bind (told_addFd _) fun _ =>
    told_bind told_call fun _ => told_pure _

theorem told_setupRedirects (o : Options) : Told sys (setupRedirects sys o) := by
  unfold setupRedirects
  refine told_bind (told_setupInput _ _) fun i => ?_
  refine told_bind (told_modify fun s => by split <;> rfl) fun _ => ?_
  refine told_bind (told_setupOutput _ _ _ _) fun so => told_bind (told_setupOutput _ _ _ _) fun se => ?_
  exact told_bind (told_setupPty _ _) fun _ => told_modify fun _ => rfl

theorem told_setupPassFds (o : Options) : Told sys (setupPassFds o) := by
  unfold setupPassFds
  refine told_ite (fun _ => told_modify fun _ => rfl) fun _ => told_bind (told_modify fun _ => rfl) fun _ => ?_
  exact told_ite (fun _ => told_modify fun _ => rfl) fun _ => told_pure _

theorem make_unfit {args : List Leaf} {o : Options} {e : Exc} (h : Command.make args o = .error e) : Unfit sys e := by
  unfold Command.make at h
  split at h
  · cases h; exact unfit_value
  · cases h

theorem pmake_unfit {cs : List Command} {e : Exc} (h : Pipeline.make cs = .error e) : Unfit sys e := by
  unfold Pipeline.make at h
  split at h
  · cases h; exact unfit_value
  · cases h

theorem stdin_unfit {c : Command} {t : Target} {cl : Bool} {e : Exc} (h : c.stdin t cl = .error e) : Unfit sys e := by
  unfold Command.stdin Options.setStdin at h
  by_cases h1 : t = .none
  · simp only [h1, if_true, Bind.bind, Except.bind] at h; cases h; exact unfit_type
  · by_cases h2 : t.eqR .stdout = true
    · simp only [h1, h2, if_true, if_false, Bind.bind, Except.bind] at h; cases h; exact unfit_value
    · simp only [h1, h2, if_false, Bind.bind, Except.bind] at h; exact make_unfit h

theorem stdout_unfit {c : Command} {t : Target} {ap cl : Bool} {e : Exc} (h : c.stdout t ap cl = .error e) : Unfit sys e := by
  unfold Command.stdout Options.setStdout at h
  by_cases h1 : t = .none
  · simp only [h1, if_true, Bind.bind, Except.bind] at h; cases h; exact unfit_type
  · by_cases h2 : t.eqR .stdout = true
    · simp only [h1, h2, if_true, if_false, Bind.bind, Except.bind] at h; cases h; exact unfit_value
    · simp only [h1, h2, if_false, Bind.bind, Except.bind] at h; exact make_unfit h

theorem subIn_unfit {c : SubCmd} {n : Int} {e : Exc} (h : c.stdin n = .error e) : Unfit sys e := by
  cases c with
  | cmd c =>
    unfold SubCmd.stdin at h
    cases hx : c.stdin (.int n) true with
    | ok a => simp [hx, Except.map] at h
    | error x => simp only [hx, Except.map] at h; cases h; exact stdin_unfit hx
  | pipe p =>
    unfold SubCmd.stdin at h
    cases hx : p.stdin (.int n) true with
    | ok a => simp [hx, Except.map] at h
    | error x =>
      simp only [hx, Except.map] at h; cases h
      unfold Pipeline.stdin at hx
      split at hx
      · cases hx; exact unfit_value
      · rename_i d rest _
        cases hy : d.stdin (.int n) true with
        | error y => simp only [hy, Bind.bind, Except.bind] at hx; cases hx; exact stdin_unfit hy
        | ok y => simp only [hy, Bind.bind, Except.bind] at hx; exact pmake_unfit hx

theorem subOut_unfit {c : SubCmd} {n : Int} {e : Exc} (h : c.stdout n = .error e) : Unfit sys e := by
  cases c with
  | cmd c =>
    unfold SubCmd.stdout at h
    cases hx : c.stdout (.int n) false true with
    | ok a => simp [hx, Except.map] at h
    | error x => simp only [hx, Except.map] at h; cases h; exact stdout_unfit hx
  | pipe p =>
    unfold SubCmd.stdout at h
    cases hx : p.stdout (.int n) false true with
    | ok a => simp [hx, Except.map] at h
    | error x =>
      simp only [hx, Except.map] at h; cases h
      unfold Pipeline.stdout Pipeline.modifyLast at hx
      split at hx
      · cases hx; exact unfit_value
      · rename_i d _
        cases hy : d.stdout (.int n) false true with
        | error y => simp only [hy, Bind.bind, Except.bind] at hx; cases hx; exact stdout_unfit hy
        | ok y => simp only [hy, Bind.bind, Except.bind] at hx; exact pmake_unfit hx

theorem told_procSub : ∀ args : List Leaf, Told sys (procSubLoop sys args)
  | [] => by unfold procSubLoop; exact told_pure _
  | a :: rest => by
    unfold procSubLoop
    split
    · exact told_bind (told_procSub rest) fun _ => told_pure _
    · refine told_bind told_osPipe fun p => ?_
      refine told_ite (fun _ => ?_) fun _ => ?_
      · exact told_bind (told_liftE fun e h => subIn_unfit h) fun _ => told_bind (told_modify fun _ => rfl) fun _ =>
          told_bind (told_procSub rest) fun _ => told_pure _
      · exact told_bind (told_liftE fun e h => subOut_unfit h) fun _ => told_bind (told_modify fun _ => rfl) fun _ =>
          told_bind (told_procSub rest) fun _ => told_pure _

theorem told_enterBody (c : Command) : Told sys (enterBody sys c) := by
  unfold enterBody
  refine told_bind (told_modify fun _ => rfl) fun _ => told_bind ?_ fun _ => told_bind (told_setupRedirects _) fun _ =>
    told_bind (told_setupPassFds _) fun _ => told_call
  unfold setupArgs
  refine told_ite (fun _ => told_bind (told_procSub _) fun _ => told_modify fun _ => rfl) fun _ => told_modify fun _ => rfl

/-! ## Cleaning up makes no call that can be refused, and raises nothing -/

theorem closeAll_calls : ∀ (es : List Ent) (s : LS), (closeAll sys es s).1.calls = s.calls
  | [], s => rfl
  | e :: es, s => by
    have h1 : (closeEnt sys e s).1.calls = s.calls := by
      cases e <;> simp only [closeEnt, osClose] <;> (repeat' split) <;> rfl
    unfold closeAll
    rcases hx : closeEnt sys e s with ⟨s1, b⟩
    rw [hx] at h1
    cases b with
    | true => exact h1
    | false => exact (closeAll_calls es s1).trans h1

theorem cleanupSubs_quiet (hc : sys.closesOk) : ∀ (cs : List SubCmd) (s : LS),
    (cleanupSubs sys cs s).1.calls = s.calls ∧ (cleanupSubs sys cs s).2 = false
  | [], s => ⟨rfl, rfl⟩
  | c :: cs, s => by
    have h1 : (cleanup sys c.options s).1.calls = s.calls := closeAll_calls _ s
    have h2 : (cleanup sys c.options s).2 = false := closeAll_noerr hc _ s
    unfold cleanupSubs
    rcases hx : cleanup sys c.options s with ⟨s1, b⟩
    rw [hx] at h1 h2
    dsimp only at h2
    subst h2
    have := cleanupSubs_quiet hc cs s1
    exact ⟨this.1.trans h1, this.2⟩

theorem exit_quiet (hc : sys.closesOk) (f : Bool) (s : LS) : (exit sys f s).1.calls = s.calls ∧ (exit sys f s).2 = false := by
  have h1 := closeAll_calls (sys := sys) s.openFds s
  have h2 := closeAll_noerr hc s.openFds s
  unfold exit
  rcases hx : closeAll sys s.openFds s with ⟨s1, b⟩
  rw [hx] at h1 h2
  dsimp only at h2
  subst h2
  cases f with
  | false => exact ⟨h1, rfl⟩
  | true =>
    have := cleanupSubs_quiet hc s1.subcmds { s1 with openFds := [] }
    exact ⟨this.1.trans h1, this.2⟩

/-- Code with a clean-up that makes no call. -/
theorem told_clean {α β : Type} {m : M α} {m' : M β} (hm : Told sys m) (h : ∀ s r s1, m s = (r, s1) → ∃ s2, s2.calls = s1.calls ∧
    ((∃ e, r = .error e ∧ m' s = (.error e, s2)) ∨ (∃ a b, r = .ok a ∧ m' s = (.ok b, s2)))) : Told sys m' := by
  intro s r s' h'
  rcases h1 : m s with ⟨r1, s1⟩
  obtain ⟨t1, t2, t3⟩ := hm s r1 s1 h1
  obtain ⟨s2, hs, hx⟩ := h s r1 s1 h1
  rcases hx with ⟨e, rfl, hx⟩ | ⟨a, b, rfl, hx⟩
  · rw [h'] at hx
    obtain ⟨rfl, rfl⟩ := Prod.mk.injEq .. ▸ hx
    refine ⟨by omega, fun n e' x y z => ?_, fun e' he => ?_⟩
    · have := t2 n e' x (by omega) z
      exact ⟨by rw [Except.error.inj this.1], by omega⟩
    · rcases t3 e' (by rw [Except.error.inj he]) with ⟨n, a1, a2, a3⟩ | hu
      · exact .inl ⟨n, a1, by omega, a3⟩
      · exact .inr hu
  · rw [h'] at hx
    obtain ⟨rfl, rfl⟩ := Prod.mk.injEq .. ▸ hx
    refine ⟨by omega, fun n e' x y z => ?_, fun e' he => by cases he⟩
    have := (t2 n e' x (by omega) z).1; cases this

theorem told_enter (hc : sys.closesOk) (c : Command) : Told sys (enter sys c) := by
  refine told_clean (told_enterBody c) fun s r s1 h => ?_
  unfold enter
  rw [h]
  cases r with
  | ok u => exact ⟨s1, rfl, .inr ⟨u, (), rfl, rfl⟩⟩
  | error e =>
    have h1 : (cleanup sys c.options s1).1.calls = s1.calls := closeAll_calls _ s1
    have h2 : (cleanup sys c.options s1).2 = false := closeAll_noerr hc _ s1
    refine ⟨(cleanup sys c.options s1).1, h1, .inl ⟨e, rfl, ?_⟩⟩
    simp [h2]

/-- `with self._options: spawn`, without the clean-up. -/
def launchCore (sys : Sys) (c : Command) : M Unit := do
  enter sys c
  call sys

theorem told_launch (hc : sys.closesOk) (c : Command) : Told sys (launch sys c) := by
  refine told_clean (m := launchCore sys c) (told_bind (told_enter hc c) fun _ => told_call) fun s r s1 h => ?_
  have h : M.bind (enter sys c) (fun _ => call sys) s = (r, s1) := h
  unfold M.bind at h
  unfold launch
  rcases h1 : enter sys c s with ⟨r1, s2⟩
  rw [h1] at h
  cases r1 with
  | error e =>
    obtain ⟨rfl, rfl⟩ := Prod.mk.injEq .. ▸ h
    exact ⟨_, rfl, .inl ⟨e, rfl, rfl⟩⟩
  | ok u =>
    dsimp only at h ⊢
    rw [h]
    cases r with
    | error e =>
      have := exit_quiet hc true s1
      refine ⟨(exit sys true s1).1, this.1, .inl ⟨e, rfl, ?_⟩⟩
      simp [this.2]
    | ok u =>
      have := exit_quiet hc false s1
      refine ⟨(exit sys false s1).1, this.1, .inr ⟨u, (), rfl, ?_⟩⟩
      simp [this.2]

/-! ## Pipelines -/

theorem told_stitchFrom : ∀ (cs : List Command) (c : Command), Told sys (stitchFrom sys c cs)
  | [], c => by unfold stitchFrom; exact told_pure _
  | d :: rest, c => by
    unfold stitchFrom
    refine told_bind told_osPipe fun p => told_bind (told_modify fun _ => rfl) fun _ => ?_
    exact told_bind (told_liftE fun e h => stdout_unfit h) fun _ => told_bind (told_liftE fun e h => stdin_unfit h) fun d' =>
      told_bind (told_stitchFrom rest d') fun _ => told_pure _

theorem set_unfit {c : Command} {e : Exc} (h : c.set pipeKwds = .error e) : Unfit sys e := by
  unfold Command.set at h
  rw [show c.options.setChecked pipeKwds = .ok (c.options.set pipeKwds) from rfl] at h
  exact make_unfit h

theorem mapM_unfit : ∀ (cs : List Command) (e : Exc), cs.mapM (·.set pipeKwds) = .error e → Unfit sys e
  | [], e, h => by simp [pure, Except.pure] at h
  | c :: cs, e, h => by
    rw [List.mapM_cons] at h
    cases hx : c.set pipeKwds with
    | error x => simp only [hx, Bind.bind, Except.bind] at h; cases h; exact set_unfit hx
    | ok a =>
      simp only [hx, Bind.bind, Except.bind] at h
      cases hy : cs.mapM (·.set pipeKwds) with
      | error y => rw [hy] at h; cases h; exact mapM_unfit cs _ hy
      | ok b => rw [hy] at h; cases h

theorem told_setupPipeline (cs : List Command) : Told sys (setupPipeline sys cs) := by
  unfold setupPipeline
  refine told_bind ?_ fun cs' => told_liftE (mapM_unfit cs')
  cases cs with
  | nil => exact told_pure _
  | cons c rest => exact told_stitchFrom rest c

/-! ## The theorems -/

/-- **C80** for entering the `async with` of a command: if nothing raises when it is closed, the first call of the operating system
that is refused (opening a file or a pipe or a terminal, looking up the program, starting it) decides: the launch raises just
that exception, and makes no further call. Every other exception tells that the command itself makes no sense. -/
theorem C80_launch (hc : sys.closesOk) (c : Command) (s : LS) (r : Except Exc Unit) (s' : LS) (h : launch sys c s = (r, s')) :
    (∀ n e, s.calls ≤ n → n < s'.calls → sys.fail n = some e → r = .error e ∧ s'.calls = n + 1) ∧
    (∀ e, r = .error e → Refused sys s s' e ∨ Unfit sys e) :=
  (told_launch hc c s r s' h).2

/-- **C80** for `await cmd`: the same; capturing both streams is rejected before any call. -/
theorem C80_await (hc : sys.closesOk) (c : Command) (fut : Bool) (s : LS) (r : Except Exc Unit) (s' : LS)
    (h : runCommandStart sys c fut s = (r, s')) :
    (∀ n e, s.calls ≤ n → n < s'.calls → sys.fail n = some e → r = .error e ∧ s'.calls = n + 1) ∧
    (∀ e, r = .error e → Refused sys s s' e ∨ Unfit sys e) := by
  have : Told sys (runCommandStart sys c fut) := by
    by_cases hm : (!fut && isMultipleCapture c.options) = true
    · have h1 : ∀ s, (cleanup sys c.options s).1.calls = s.calls := closeAll_calls _
      have h2 : ∀ s, (cleanup sys c.options s).2 = false := closeAll_noerr hc _
      refine told_quiet (fun s => ?_) fun s e he => ?_
      · simp only [runCommandStart, hm, if_true]; exact h1 s
      · simp only [runCommandStart, hm, if_true, h2 s] at he
        cases he; exact unfit_value
    · intro s r s' h
      simp only [runCommandStart, hm] at h
      exact told_launch hc c s r s' h
  exact (this s r s' h).2

/-- **C80** for `async for line in cmd`: the same; two captured streams are a RuntimeError before any call. -/
theorem C80_iter (hc : sys.closesOk) (c : Command) (s : LS) (r : Except Exc Command) (s' : LS) (h : iterStart sys c s = (r, s')) :
    (∀ n e, s.calls ≤ n → n < s'.calls → sys.fail n = some e → r = .error e ∧ s'.calls = n + 1) ∧
    (∀ e, r = .error e → Refused sys s s' e ∨ Unfit sys e ∨ (s' = s ∧ aiterPreflight c = .error e)) := by
  unfold iterStart at h
  split at h
  · rename_i e he
    obtain ⟨rfl, rfl⟩ := Prod.mk.injEq .. ▸ h
    refine ⟨fun n e _ _ _ => by omega, fun e' h' => .inr (.inr ⟨rfl, ?_⟩)⟩
    rw [he, Except.error.inj h']
  · rename_i d _
    split at h
    · rename_i e s1 h1
      obtain ⟨rfl, rfl⟩ := Prod.mk.injEq .. ▸ h
      obtain ⟨_, t1, t2⟩ := told_launch hc d s _ _ h1
      refine ⟨fun n e' a b c' => ?_, fun e' he => ?_⟩
      · have := t1 n e' a b c'
        exact ⟨by rw [Except.error.inj this.1], this.2⟩
      · exact (t2 e' (by rw [Except.error.inj he])).imp_right .inl
    · rename_i s1 h1
      obtain ⟨rfl, rfl⟩ := Prod.mk.injEq .. ▸ h
      obtain ⟨_, t1, _⟩ := told_launch hc d s _ _ h1
      exact ⟨fun n e' a b c' => (by have := (t1 n e' a b c').1; cases this), fun e' he => (by cases he)⟩

/-- **C80** for a pipeline: the pipes between its commands are made first; the first pipe that is refused decides. -/
theorem C80_pipeline (hc : sys.closesOk) (cs : List Command) (s : LS) (r : Except Exc (List Command)) (s' : LS)
    (h : pipeStart sys cs s = (r, s')) :
    (∀ n e, s.calls ≤ n → n < s'.calls → sys.fail n = some e → r = .error e ∧ s'.calls = n + 1) ∧
    (∀ e, r = .error e → Refused sys s s' e ∨ Unfit sys e) := by
  have hm : Told sys (fun s => setupPipeline sys cs { s with openFds := [] }) := fun s r s' h =>
    told_setupPipeline cs { s with openFds := [] } r s' h
  have : Told sys (pipeStart sys cs) := by
    refine told_clean hm fun s r s1 h => ?_
    have h : setupPipeline sys cs { s with openFds := [] } = (r, s1) := h
    unfold pipeStart
    rw [h]
    cases r with
    | ok a => exact ⟨{ s1 with openFds := [] }, rfl, .inr ⟨a, a, rfl, rfl⟩⟩
    | error e =>
      have h1 := closeAll_calls (sys := sys) s1.openFds s1
      have h2 := closeAll_noerr hc s1.openFds s1
      refine ⟨{ (closeAll sys s1.openFds s1).1 with openFds := [] }, h1, .inl ⟨e, rfl, ?_⟩⟩
      simp [h2]
  exact (this s r s' h).2

/-- **C80** for a pipeline that is entered (`async with`, `async for`): the same reason, whatever would have happened after the pipes were made. -/
theorem C80_pipeline_captured (cs : List Command) (evs : List CaptEv) (s : LS) (e : Exc) (s' : LS) (h : pipeStart sys cs s = (.error e, s')) :
    pipeStartCancelled sys cs evs s = (.error e, s') := by
  unfold pipeStart at h
  unfold pipeStartCancelled
  split at h
  · cases h
  · rename_i e' s1 hs
    obtain ⟨h1, h2⟩ := Prod.mk.inj h
    exact Prod.ext (congrArg Except.error (Except.error.inj h1)) h2

/-! ## Examples -/

/-- A system that refuses the call `n` with an exception of its own. -/
def refuses (n : Nat) : Sys := { exSys [] with fail := fun k => if k = n then some (.user 3) else none }

theorem refuses_closesOk (n : Nat) : (refuses n).closesOk := ⟨fun _ => rfl, fun _ => rfl⟩

/-- The program cannot be started (the last of six calls), after a file and a terminal have been opened. -/
example : ∃ s', launch (refuses 5) (exCmd "a" [] { input := .path "in".toList, pty := .on }) { tab := [0, 1, 2] } = (.error (.user 3), s') ∧
    s'.calls = 6 ∧ Refused (refuses 5) { tab := [0, 1, 2] } s' (.user 3) :=
  eval_err (by decide +kernel) ⟨by decide +kernel, 5, by decide +kernel, by decide +kernel, by decide +kernel⟩

/-- The second pipe of a pipeline of three is refused. -/
example : ∃ s', pipeStart (refuses 1) [exCmd "a", exCmd "b", exCmd "c"] { tab := [0, 1, 2] } = (.error (.user 3), s') ∧ s'.calls = 2 :=
  eval_err (by decide +kernel) (by decide +kernel)

/-- Also when it is entered. -/
example : ∃ s', pipeStartCancelled (refuses 1) [exCmd "a", exCmd "b", exCmd "c"] [.opened] { tab := [0, 1, 2] } = (.error (.user 3), s') ∧ s'.calls = 2 :=
  eval_err (by decide +kernel) (by decide +kernel)

/-- Nothing is refused, but the command makes no sense. -/
example : ∃ s', launch (refuses 5) (exCmd "a" [] { input := .redirect .buffer }) { tab := [0, 1, 2] } = (.error .typeError, s') ∧
    s'.calls = 0 :=
  eval_err (by decide +kernel) (by decide +kernel)

end Shellous.Props
