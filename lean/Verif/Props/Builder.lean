import Verif.Lemmas.Builder

/-!
# C01 - C10: building commands and pipelines
-/

namespace Shellous.Props

open Shellous Shellous.Spec

/-! ## C01 -/

/-- **C01.** `sh(*args)` succeeds with argument vector `out` exactly when `out` is the list of the
values of the leaves of the (once, top-level only) `coerce_arg`-transformed arguments, depth first and
left to right. -/
theorem C01_arguments_flattened (fns : CoerceFns) (ctx : Options) (args : List Arg) (c : Command) :
    ctxCall fns ctx args = .ok c ↔
      ∃ tops, Coerced fns ctx.coerceArg args tops ∧
        (tops.flatMap leaves).map leafValue = c.args.map some ∧
        c.args ≠ [] ∧ c.options = ctx := by
  constructor
  · intro h
    simp only [ctxCall, bind, Except.bind] at h
    split at h
    · cases h
    · rename_i out ho
      obtain ⟨tops, ht⟩ := coerce_ok_coerced _ _ _ _ ho
      have hc := coerce_coerced _ _ _ _ ht
      rw [ho] at hc
      refine ⟨tops, ht, ?_, ?_⟩
      · by_cases hu : ∃ l ∈ tops.flatMap leaves, Unsupported l
        · rw [(coerceNested_spec tops).1 hu] at hc; cases hc
        · obtain ⟨o2, e2, m2⟩ := (coerceNested_spec tops).2 hu
          rw [e2] at hc; cases hc
          simp only [Command.make] at h
          split at h
          · cases h
          · cases h; simpa using m2
      · simp only [Command.make] at h
        split at h
        · cases h
        · rename_i hl; cases h
          exact ⟨by intro e; simp at e; simp [e] at hl, rfl⟩
  · rintro ⟨tops, ht, hm, hne, ho⟩
    have hc := coerce_coerced _ _ _ _ ht
    have hu : ¬ ∃ l ∈ tops.flatMap leaves, Unsupported l := by
      rintro ⟨l, hl, k, rfl⟩
      have : none ∈ c.args.map some := by
        rw [← hm]; exact List.mem_map.mpr ⟨_, hl, rfl⟩
      simp at this
    obtain ⟨o2, e2, m2⟩ := (coerceNested_spec tops).2 hu
    have : o2 = c.args := by
      have := m2.symm.trans hm
      exact List.map_inj_right (fun a b h => Option.some.inj h) |>.mp this
    subst this
    simp only [ctxCall, hc, e2, bind, Except.bind, Command.make]
    have hl : c.args.length ≠ 0 := by
      intro e; exact hne (List.length_eq_zero_iff.mp e)
    simp only [hl, if_false]
    rw [← ho, Command.eta]

/-- Non-trivial instance: nested containers, a bytearray and a number. -/
example : ∃ c, ctxCall (fun _ a => .ok a) {} [.str ['l','s'],
    .seq .list [.other ['1'], .seq .tuple [.bytearray [7]], .seq .zip []]] = .ok c ∧
    c.args = [.str ['l','s'], .str ['1'], .bytes [7]] := ⟨_, rfl, rfl⟩

/-- `coerce_arg` sees top-level arguments only: here it turns a mapping into two strings but is not
applied to the mapping nested in a list. -/
example :
    let f : CoerceFns := fun _ a => match a with
      | .bad .mapping => .ok (.seq .list [.str ['k'], .str ['v']])
      | a => .ok a
    (∃ c, ctxCall f { coerceArg := some 0 } [.str ['x'], .bad .mapping] = .ok c ∧
      c.args = [.str ['x'], .str ['k'], .str ['v']]) ∧
    ctxCall f { coerceArg := some 0 } [.str ['x'], .seq .list [.bad .mapping]] = .error .typeError :=
  ⟨⟨_, rfl, rfl⟩, rfl⟩

/-! ## C02 -/

/-- **C02.** When `coerce_arg` itself does not raise: TypeError iff an unsupported value occurs
anywhere, ValueError iff there is no leaf at all, success otherwise. -/
theorem C02_unsupported_rejected (fns : CoerceFns) (ctx : Options) (args tops : List Arg)
    (ht : Coerced fns ctx.coerceArg args tops) :
    (ctxCall fns ctx args = .error .typeError ↔ ∃ l ∈ tops.flatMap leaves, Unsupported l) ∧
    (ctxCall fns ctx args = .error .valueError ↔ tops.flatMap leaves = []) ∧
    ((∃ c, ctxCall fns ctx args = .ok c) ↔
      (tops.flatMap leaves ≠ [] ∧ ∀ l ∈ tops.flatMap leaves, ¬ Unsupported l)) := by
  have hc := coerce_coerced _ _ _ _ ht
  by_cases hu : ∃ l ∈ tops.flatMap leaves, Unsupported l
  · have he := (coerceNested_spec tops).1 hu
    have : ctxCall fns ctx args = .error .typeError := by
      simp [ctxCall, hc, he, bind, Except.bind]
    rw [this]
    refine ⟨by simpa using hu, ?_, ?_⟩
    · constructor
      · intro h; cases h
      · intro h; rw [h] at hu; simp at hu
    · constructor
      · rintro ⟨c, h⟩; cases h
      · rintro ⟨_, h⟩
        obtain ⟨l, hl, hb⟩ := hu
        exact absurd hb (h l hl)
  · obtain ⟨out, e, m⟩ := (coerceNested_spec tops).2 hu
    have hlen : (tops.flatMap leaves).length = out.length := by
      have := congrArg List.length m; simpa only [List.length_map] using this
    by_cases h0 : out = []
    · subst h0
      have hl0 : tops.flatMap leaves = [] := List.length_eq_zero_iff.mp (by simpa using hlen)
      have : ctxCall fns ctx args = .error .valueError := by
        simp [ctxCall, hc, e, bind, Except.bind, Command.make]
      rw [this]
      refine ⟨?_, by simp [hl0], ?_⟩
      · constructor
        · intro h; cases h
        · intro h; exact absurd h hu
      · constructor
        · rintro ⟨c, h⟩; cases h
        · rintro ⟨h, _⟩; exact absurd hl0 h
    · have hl0 : tops.flatMap leaves ≠ [] := by
        intro h; rw [h] at hlen; exact h0 (List.length_eq_zero_iff.mp (by simpa using hlen.symm))
      have hlen0 : out.length ≠ 0 := fun h => h0 (List.length_eq_zero_iff.mp h)
      have : ctxCall fns ctx args = .ok (.mk out ctx) := by
        simp [ctxCall, hc, e, bind, Except.bind, Command.make, h0]
      rw [this]
      refine ⟨?_, ?_, ?_⟩
      · constructor
        · intro h; cases h
        · intro h; exact absurd h hu
      · constructor
        · intro h; cases h
        · intro h; exact absurd h hl0
      · constructor
        · intro _; exact ⟨hl0, fun l hl hb => hu ⟨l, hl, hb⟩⟩
        · intro _; exact ⟨_, rfl⟩

example : ctxCall (fun _ a => .ok a) {} [.str ['e'], .seq .list [.seq .tuple [.bad .none]]]
    = .error .typeError := rfl
example : ctxCall (fun _ a => .ok a) {} [.seq .list [.seq .tuple []]] = .error .valueError := rfl

/-! ## C03 -/

/-- **C03.** Applying arguments in two steps is applying them in one (same command or same error). -/
theorem C03_incremental_application (fns : CoerceFns) (c : Command) (hc : c.args ≠ [])
    (a b : List Arg) :
    (c.call fns a >>= fun d => d.call fns b) = c.call fns (a ++ b) := by
  have hlen : c.args.length ≠ 0 := fun h => hc (List.length_eq_zero_iff.mp h)
  unfold Command.call
  cases a with
  | nil => simp [bind, Except.bind]
  | cons x xs =>
    simp only [List.isEmpty_cons, List.cons_append, if_false, Bool.false_eq_true]
    rw [← List.cons_append, coerce_append]
    cases h1 : coerce fns c.options.coerceArg (x :: xs) with
    | error e => rfl
    | ok la =>
      simp only [bind, Except.bind, Command.make, List.length_append]
      have : ¬ (c.args.length + la.length = 0) := by omega
      simp only [this, if_false, Command.args_mk, Command.options_mk]
      cases b with
      | nil =>
        simp only [coerce, List.isEmpty_nil, if_true, List.append_nil, List.length_append, this, if_false]
      | cons y ys =>
        simp only [List.isEmpty_cons, Bool.false_eq_true, if_false]
        cases coerce fns c.options.coerceArg (y :: ys) with
        | error e => rfl
        | ok lb => simp [Nat.add_assoc, List.append_assoc]

/-- **C03**, from a context: `sh(*a)(*b)` is `sh(*a, *b)`. -/
theorem C03_incremental_from_context (fns : CoerceFns) (ctx : Options) (a b : List Arg)
    (c : Command) (h : ctxCall fns ctx a = .ok c) :
    c.call fns b = ctxCall fns ctx (a ++ b) := by
  simp only [ctxCall, bind, Except.bind] at h
  split at h
  · cases h
  · rename_i la ha
    simp only [Command.make] at h
    split at h
    · cases h
    · rename_i hl
      cases h
      unfold ctxCall Command.call
      rw [coerce_append, ha]
      cases b with
      | nil => simp [coerce, bind, Except.bind, Command.make, hl]
      | cons y ys =>
        simp only [List.isEmpty_cons, Bool.false_eq_true, if_false, Command.options_mk,
          Command.args_mk]
        cases coerce fns ctx.coerceArg (y :: ys) with
        | error e => rfl
        | ok lb => rfl

/-- **C03.** No application changes the options, and the old arguments stay in front. -/
theorem C03_frame (fns : CoerceFns) (c d : Command) (a : List Arg) (h : c.call fns a = .ok d) :
    d.options = c.options ∧ c.args <+: d.args := by
  unfold Command.call at h
  split at h
  · cases h; exact ⟨rfl, List.prefix_refl _⟩
  · simp only [bind, Except.bind] at h
    split at h
    · cases h
    · simp only [Command.make] at h
      split at h
      · cases h
      · cases h; exact ⟨rfl, List.prefix_append _ _⟩

example : (Command.mk [.str ['a']] {}).call (fun _ a => .ok a) [] = .ok (.mk [.str ['a']] {}) := rfl

/-! ## C04 -/

/-- **C04.** Over any sequence of setter calls that all succeed, every option other than `env` ends
with the value given by the last call naming it, or its initial value. -/
theorem C04_last_writer_wins (calls : List SetCall) (o o' : Options)
    (h : runCalls calls o = .ok o') (n : OptName) (hn : n ≠ .env) :
    n.get o' = lastAssigned n (n.get o) calls := by
  induction calls generalizing o with
  | nil => simp only [runCalls] at h; cases h; rfl
  | cons c cs ih =>
    obtain ⟨o1, h1, h2⟩ := runCalls_cons_ok _ _ _ _ h
    rw [ih o1 h2, run_get c o o1 h1 n hn]
    unfold lastAssigned
    rw [List.filterMap_cons]
    cases hc : c.assigns n with
    | none => rfl
    | some v => simp only [Option.getD_some]; rw [getLast?_cons_getD]

/-- **C04.** `set(...)` changes exactly the options it names (this includes `env`). -/
theorem C04_set_frame (o o' : Options) (k : Kwds) (h : o.setChecked k = .ok o') (n : OptName) :
    n.get o' = (n.kw k).getD (n.get o) := by
  rw [setChecked_ok _ _ _ h]; exact set_get o k n

/-- **C04.** Two `set` calls naming disjoint options commute. -/
theorem C04_set_commute (o : Options) (k1 k2 : Kwds)
    (hd : ∀ n : OptName, n.kw k1 = none ∨ n.kw k2 = none) :
    (o.set k1).set k2 = (o.set k2).set k1 := by
  apply opt_ext
  intro n
  simp only [set_get]
  rcases hd n with h | h
  · rw [h]; rfl
  · rw [h]; rfl

/-- **C04.** What the redirect setters reject and accept, and that a rejected call changes nothing
(there is no new record at all). -/
theorem C04_rejections (o : Options) (t : Target) (a c : Bool) :
    (t = .none → o.setStdin t c = .error .typeError ∧ o.setStdout t a c = .error .typeError ∧
      o.setStderr t a c = .error .typeError) ∧
    (t = .redirect .stdout → o.setStdin t c = .error .valueError ∧
      o.setStdout t a c = .error .valueError ∧ ∃ o', o.setStderr t a c = .ok o') ∧
    (t ≠ .none → t ≠ .redirect .stdout → t ≠ .int (-2) →
      (∃ o', o.setStdin t c = .ok o') ∧ (∃ o', o.setStdout t a c = .ok o') ∧
      ∃ o', o.setStderr t a c = .ok o') := by
  refine ⟨?_, ?_, ?_⟩
  · rintro rfl; exact ⟨rfl, rfl, rfl⟩
  · rintro rfl; exact ⟨rfl, rfl, _, rfl⟩
  · intro h1 h2 h3
    have he : t.eqR .stdout = false := by
      cases t <;> simp_all [Target.eqR, Redirect.val]
    simp [Options.setStdin, Options.setStdout, Options.setStderr, h1, he]

/-- Corner case of the code (not of the documentation): the plain integer -2 is treated like STDOUT,
because `Redirect` is an `IntEnum`. -/
theorem C04_int_minus_two (o : Options) (a c : Bool) :
    o.setStdin (.int (-2)) c = .error .valueError ∧
    o.setStdout (.int (-2)) a c = .error .valueError := ⟨rfl, rfl⟩

/-- **C04**: no two of the constants STDOUT, DEVNULL, CAPTURE, INHERIT, BUFFER, DEFAULT can be taken for each other, no plain
integer can be taken for two of them, and no descriptor number (nonnegative) for any of them. STDOUT and DEVNULL have the values
that Python's `subprocess` gives them, -2 and -3. -/
theorem C04_constants (a b : Redirect) (n : Int) :
    ((Target.redirect a).eqR b = true ↔ a = b) ∧
    ((Target.int n).eqR a = true → (Target.int n).eqR b = true → a = b) ∧
    (0 ≤ n → (Target.int n).eqR a = false) ∧
    ((Target.int n).eqR .stdout = true ↔ n = -2) ∧ ((Target.int n).eqR .devnull = true ↔ n = -3) := by
  refine ⟨?_, ?_, ?_, ?_, ?_⟩
  · cases a <;> cases b <;> decide
  · intro h1 h2
    simp only [Target.eqR, beq_iff_eq] at h1 h2
    have hv : a.val = b.val := h1 ▸ h2
    revert hv; clear h1 h2
    cases a <;> cases b <;> decide
  · simp only [Target.eqR, beq_eq_false_iff_ne]
    cases a <;> simp only [Redirect.val] <;> omega
  · simp [Target.eqR, Redirect.val]
  · simp [Target.eqR, Redirect.val]

/-- **C04**: without `append=True` a setter truncates, and without `close=True` it does not make the library close the
caller's descriptor or file. -/
theorem C04_defaults (c : Command) (p : Pipeline) (t : Target) :
    c.stdin t = c.stdin t (close := false) ∧ c.stdout t = c.stdout t (append := false) (close := false) ∧
    c.stderr t = c.stderr t (append := false) (close := false) ∧
    p.stdin t = p.stdin t (close := false) ∧ p.stdout t = p.stdout t (append := false) (close := false) ∧
    p.stderr t = p.stderr t (append := false) (close := false) := ⟨rfl, rfl, rfl, rfl, rfl, rfl⟩

/-- **C04** on commands: the setter methods of a command act on its options and keep its arguments. -/
theorem C04_command_setters (c d : Command) :
    (∀ t cl, c.stdin t cl = .ok d → d.args = c.args ∧ c.options.setStdin t cl = .ok d.options) ∧
    (∀ t ap cl, c.stdout t ap cl = .ok d →
      d.args = c.args ∧ c.options.setStdout t ap cl = .ok d.options) ∧
    (∀ t ap cl, c.stderr t ap cl = .ok d →
      d.args = c.args ∧ c.options.setStderr t ap cl = .ok d.options) ∧
    (∀ k, c.set k = .ok d → d.args = c.args ∧ c.options.setChecked k = .ok d.options) ∧
    (∀ u, c.env u = .ok d → d.args = c.args ∧ d.options = c.options.addEnv u) := by
  refine ⟨?_, ?_, ?_, ?_, ?_⟩
  · intro t cl h
    simp only [Command.stdin, bind, Except.bind] at h
    split at h
    · cases h
    · simp only [Command.make] at h
      split at h
      · cases h
      · cases h; exact ⟨rfl, by assumption⟩
  · intro t ap cl h
    simp only [Command.stdout, bind, Except.bind] at h
    split at h
    · cases h
    · simp only [Command.make] at h
      split at h
      · cases h
      · cases h; exact ⟨rfl, by assumption⟩
  · intro t ap cl h
    simp only [Command.stderr, bind, Except.bind] at h
    split at h
    · cases h
    · simp only [Command.make] at h
      split at h
      · cases h
      · cases h; exact ⟨rfl, by assumption⟩
  · intro k h
    simp only [Command.set, bind, Except.bind] at h
    split at h
    · cases h
    · simp only [Command.make] at h
      split at h
      · cases h
      · cases h; exact ⟨rfl, by assumption⟩
  · intro u h
    simp only [Command.env, Command.make] at h
    split at h
    · cases h
    · cases h; exact ⟨rfl, rfl⟩

/-- A concrete call sequence meeting the hypothesis of `C04_last_writer_wins`. -/
example : ∃ o', runCalls [.stdout (.path ['f']) true false, .set { timeout := some (some 5) },
    .stdout (.redirect .capture) false true, .stdin (.bytes [1]) false] {} = .ok o' ∧
    OptName.output.get o' = .redirect .capture ∧ OptName.outputAppend.get o' = false ∧
    OptName.timeout.get o' = some 5 := ⟨_, rfl, rfl, rfl, rfl⟩

/-! ## C05 -/

/-- The invariant behind C05: stored environments have unique keys and answer as the calls said. -/
theorem env_get_calls (calls : List SetCall) (o o' : Options) (h : runCalls calls o = .ok o')
    (v : Text) :
    (o'.env.bind fun d => Dict.get d v) = envSays v (o.env.bind fun d => Dict.get d v) calls := by
  induction calls generalizing o with
  | nil => simp only [runCalls] at h; cases h; rfl
  | cons c cs ih =>
    obtain ⟨o1, h1, h2⟩ := runCalls_cons_ok _ _ _ _ h
    rw [ih o1 h2]
    cases c with
    | set k =>
      rw [setChecked_ok _ _ _ h1]
      simp only [envSays, Options.set]
      cases hk : k.env with
      | none => rfl
      | some e =>
        simp only []
        cases he : e.isEmpty with
        | true =>
          have : e = [] := List.isEmpty_iff.mp he
          subst this; rfl
        | false =>
          simp only [Bool.false_eq_true, if_false, Option.bind_some, envDict_get, Option.bind_none,
            Option.or_none]
    | stdin t cl => rw [setStdin_ok _ _ _ _ h1]; rfl
    | stdout t a cl => rw [setStdout_ok _ _ _ _ _ h1]; rfl
    | stderr t a cl => rw [setStderr_ok _ _ _ _ _ h1]; rfl
    | env u =>
      simp only [SetCall.run] at h1
      cases h1
      simp only [envSays, Options.addEnv, Option.bind_some, envDict_get]

/-- Stored environments always have unique keys. -/
theorem env_nodup_calls (calls : List SetCall) (o o' : Options) (h : runCalls calls o = .ok o')
    (hn : ∀ d, o.env = some d → (Dict.keys d).Nodup) :
    ∀ d, o'.env = some d → (Dict.keys d).Nodup := by
  induction calls generalizing o with
  | nil => simp only [runCalls] at h; cases h; exact hn
  | cons c cs ih =>
    obtain ⟨o1, h1, h2⟩ := runCalls_cons_ok _ _ _ _ h
    apply ih o1 h2
    cases c with
    | set k =>
      rw [setChecked_ok _ _ _ h1]
      intro d hd
      simp only [Options.set] at hd
      cases hk : k.env with
      | none => rw [hk] at hd; exact hn d hd
      | some e =>
        rw [hk] at hd
        simp only [] at hd
        split at hd
        · cases hd
        · cases hd; exact envDict_nodup none e (by simp)
    | stdin t cl => rw [setStdin_ok _ _ _ _ h1]; exact hn
    | stdout t a cl => rw [setStdout_ok _ _ _ _ _ h1]; exact hn
    | stderr t a cl => rw [setStderr_ok _ _ _ _ _ h1]; exact hn
    | env u =>
      simp only [SetCall.run] at h1
      cases h1
      intro d hd
      simp only [Options.addEnv] at hd
      cases hd
      exact envDict_nodup _ u hn

/-- **C05.** After any sequence of calls on the default options, the child's value of variable `v` is
the last one assigned since the latest `set(env=...)`, else the parent's if `inherit_env` (as last
set), else unset. -/
theorem C05_child_environment (calls : List SetCall) (o : Options) (h : runCalls calls {} = .ok o)
    (environ : Dict) (v : Text) :
    Dict.get (o.childEnv environ) v =
      (envSays v none calls).or
        (if inherits calls then Dict.get environ v else none) := by
  have hsays := env_get_calls calls {} o h v
  have hinh : o.inheritEnv = inherits calls :=
    C04_last_writer_wins calls {} o h .inheritEnv (by simp)
  have hnd := env_nodup_calls calls {} o h (by simp)
  rw [← hinh]
  rw [show (({} : Options).env.bind fun d => Dict.get d v) = none from rfl] at hsays
  rw [← hsays]
  unfold Options.childEnv Options.runtimeEnv
  cases hi : o.inheritEnv with
  | true =>
    simp only [if_true]
    cases he : o.env with
    | none => simp
    | some e =>
      simp only [Option.bind_some]
      cases hee : e.isEmpty with
      | true => simp [Dict.isEmpty_get e hee]
      | false =>
        simp only [Bool.false_eq_true, if_false, Option.getD_some]
        rw [Dict.get_update, Dict.filter_get e (hnd e he)]
  | false =>
    simp only [Bool.false_eq_true, if_false, Option.or_none]
    cases he : o.env with
    | none => rfl
    | some e =>
      simp only [Option.bind_some]
      cases hee : e.isEmpty with
      | true => simp [Dict.isEmpty_get e hee, Dict.get]
      | false => simp

/-- `cmd.env(A=1).set(inherit_env=False).env(B=2, A=3)`: the hypothesis of C05 holds. -/
example : ∃ o, runCalls [.env [(.str ['A'], .int 1)], .set { inheritEnv := some false },
    .env [(.str ['B'], .int 2), (.str ['A'], .int 3)]] {} = .ok o ∧
    o.childEnv [(['P'], ['x'])] = [(['A'], ['3']), (['B'], ['2'])] := ⟨_, rfl, by decide⟩

/-! ## C06 -/

/-- shellous/util.py:213-218 `EnvironmentDict.__eq__`: dictionary equality, insertion order is
irrelevant (stated on the items of dicts with unique keys). -/
def dictEq (a b : Dict) : Prop := ∀ q, Dict.get a q = Dict.get b q

/-- Python equality of the `env` field. -/
def envEq : Option Dict → Option Dict → Prop
  | none, none => True
  | some a, some b => dictEq a b
  | _, _ => False

/-- Equality generated by `@dataclass` (shellous/command.py:93, 401): field by field. -/
def Command.pyEq (c d : Command) : Prop :=
  c.args = d.args ∧ envEq c.options.env d.options.env ∧
    { c.options with env := none } = { d.options with env := none }

/-- Hash generated by `@dataclass(frozen=True)`: a function `H` of the tuple of field hashes, where
the hash of `env` is `hash(tuple(items))` (shellous/util.py:210-211), i.e. a function `HE` of the item
sequence. -/
def Command.pyHash (H : List Leaf → Options → Option Nat → Nat) (HE : Dict → Nat) (c : Command) :
    Nat :=
  H c.args { c.options with env := none } (c.options.env.map HE)

/-- **C06 is false of the code**: `sh("x").env(A=1).env(B=2)` and `sh("x").env(B=2).env(A=1)` compare
equal, but their hashes are computed from different item tuples, so with a tuple hash that
distinguishes the two tuples they differ. -/
theorem C06_equal_hash_false :
    ¬ ∀ (H : List Leaf → Options → Option Nat → Nat) (HE : Dict → Nat) (c d : Command),
        Command.pyEq c d → Command.pyHash H HE c = Command.pyHash H HE d := by
  intro h
  let c : Command := .mk [.str ['x']]
    ((({} : Options).addEnv [(.str ['A'], .int 1)]).addEnv [(.str ['B'], .int 2)])
  let d : Command := .mk [.str ['x']]
    ((({} : Options).addEnv [(.str ['B'], .int 2)]).addEnv [(.str ['A'], .int 1)])
  have := h (fun _ _ e => e.getD 0)
    (fun e => if e = [(['A'], ['1']), (['B'], ['2'])] then 1 else 0) c d ?_
  · exact absurd this (by decide)
  · refine ⟨rfl, ?_, rfl⟩
    show dictEq [(['A'], ['1']), (['B'], ['2'])] [(['B'], ['2']), (['A'], ['1'])]
    intro q
    simp only [Dict.get]
    by_cases hA : ['A'] = q
    · subst hA; simp
    · by_cases hB : ['B'] = q
      · subst hB; simp
      · simp [hA, hB]

/-- **C06, partial**: commands that compare equal hash equally whenever their environment variables
were first set in the same order. Missing: different orders (false, see above). -/
theorem C06_equal_hash_partial (H : List Leaf → Options → Option Nat → Nat) (HE : Dict → Nat)
    (c d : Command) (heq : Command.pyEq c d)
    (hc : ∀ e, c.options.env = some e → (Dict.keys e).Nodup)
    (horder : c.options.env.map Dict.keys = d.options.env.map Dict.keys) :
    Command.pyHash H HE c = Command.pyHash H HE d := by
  obtain ⟨ha, he, ho⟩ := heq
  have key : ∀ a b : Dict, dictEq a b → (Dict.keys a).Nodup → Dict.keys a = Dict.keys b → a = b := by
    intro a
    induction a with
    | nil => intro b _ _ hk; cases b with
      | nil => rfl
      | cons => simp [Dict.keys] at hk
    | cons x xs ih =>
      intro b hd hn hk
      cases b with
      | nil => simp [Dict.keys] at hk
      | cons y ys =>
        obtain ⟨xk, xv⟩ := x
        obtain ⟨yk, yv⟩ := y
        simp only [Dict.keys, List.map_cons, List.cons.injEq, List.nodup_cons] at hk hn
        obtain ⟨rfl, hk⟩ := hk
        have h0 := hd xk
        simp only [Dict.get, if_true, Option.some.injEq] at h0
        subst h0
        have : xs = ys := by
          apply ih ys _ hn.2 hk
          intro q
          have hq := hd q
          simp only [Dict.get] at hq
          by_cases hx : xk = q
          · subst hx
            have n1 : ∀ (l : Dict), xk ∉ l.map (·.1) → Dict.get l xk = none := by
              intro l hl
              induction l with
              | nil => rfl
              | cons z zs ihz =>
                obtain ⟨zk, zv⟩ := z
                simp only [List.map_cons, List.mem_cons, not_or] at hl
                simp only [Dict.get, Ne.symm hl.1, if_false]
                exact ihz hl.2
            rw [n1 xs hn.1, n1 ys (hk ▸ hn.1)]
          · simpa [hx] using hq
        rw [this]
  have henv : c.options.env = d.options.env := by
    cases h1 : c.options.env with
    | none => cases h2 : d.options.env with
      | none => rfl
      | some b => rw [h1, h2] at he; exact he.elim
    | some a => cases h2 : d.options.env with
      | none => rw [h1, h2] at he; exact he.elim
      | some b =>
        rw [h1, h2] at he
        rw [h1, h2] at horder
        simp only [Option.map_some, Option.some.injEq] at horder
        rw [key a b he (hc a h1) horder]
  unfold Command.pyHash
  rw [ha, ho, henv]

/-- Instance of the hypotheses of the partial theorem. -/
example : Command.pyEq (.mk [.str ['x']] (({} : Options).addEnv [(.str ['A'], .int 1)]))
    (.mk [.str ['x']] (({} : Options).addEnv [(.str ['A'], .str ['1'])])) :=
  ⟨rfl, fun _ => rfl, rfl⟩

/-! ## C07 -/

/-- Expressions built with `|` from commands and pipelines. -/
inductive PipeExpr where
  | cmd (c : Command)
  | pipe (p : Pipeline)
  | or (l r : PipeExpr)

/-- Python evaluation of such an expression: the operands are values, `l | r` calls
`Command.__or__` or `Pipeline.__or__`. -/
def PipeExpr.eval : PipeExpr → Except Exc (Command ⊕ Pipeline)
  | .cmd c => .ok (.inl c)
  | .pipe p => .ok (.inr p)
  | .or l r => do
    let x ← l.eval
    let y ← r.eval
    let rhs : Operand := match y with
      | .inl c => .cmd c
      | .inr p => .pipe p
    match x with
    | .inl c => c.or rhs
    | .inr p => do return .inr (← p.or rhs)

/-- The commands mentioned by the expression, left to right. -/
def PipeExpr.commands : PipeExpr → List Command
  | .cmd c => [c]
  | .pipe p => p.commands
  | .or l r => l.commands ++ r.commands

/-- All pipelines mentioned are non-empty, as `Pipeline.__post_init__` guarantees. -/
def PipeExpr.WF : PipeExpr → Prop
  | .cmd _ => True
  | .pipe p => p.commands ≠ []
  | .or l r => l.WF ∧ r.WF

/-- The commands of a value. -/
def valueCommands : Command ⊕ Pipeline → List Command
  | .inl c => [c]
  | .inr p => p.commands

/-- **C07.** Every bracketing evaluates, without error, to exactly the commands in textual order; a
`|` of two operands is a pipeline, which is never empty. -/
theorem C07_pipeline_composition (e : PipeExpr) (hwf : e.WF) :
    ∃ v, e.eval = .ok v ∧ valueCommands v = e.commands ∧ valueCommands v ≠ [] ∧
      (∀ l r, e = .or l r → ∃ p, v = .inr p) := by
  induction e with
  | cmd c => exact ⟨_, rfl, rfl, by simp [valueCommands], by simp⟩
  | pipe p => exact ⟨_, rfl, rfl, hwf, by simp⟩
  | or l r ihl ihr =>
    obtain ⟨x, hx, cx, nx, _⟩ := ihl hwf.1
    obtain ⟨y, hy, cy, ny, _⟩ := ihr hwf.2
    refine ⟨.inr ⟨valueCommands x ++ valueCommands y⟩, ?_, ?_, ?_, fun _ _ _ => ⟨_, rfl⟩⟩
    · simp only [PipeExpr.eval, hx, hy, bind, Except.bind]
      cases x with
      | inl c =>
        cases y with
        | inl d => rfl
        | inr q => simp [Command.or, Pipeline.or, Pipeline.add, Pipeline.make, valueCommands,
            bind, Except.bind, pure, Except.pure]
      | inr p =>
        have hp : p.commands ≠ [] := nx
        cases y with
        | inl d => simp [Pipeline.or, Pipeline.add, Pipeline.make, valueCommands, pure, Except.pure]
        | inr q => simp [Pipeline.or, Pipeline.add, Pipeline.make, valueCommands, hp, pure,
            Except.pure]
    · simp [valueCommands, PipeExpr.commands, ← cx, ← cy]
    · simp [valueCommands] at nx ⊢
      intro h; exact absurd h nx

/-- **C07.** In particular `(a | b) | c` and `a | (b | c)` are the same pipeline. -/
theorem C07_assoc (a b c : PipeExpr) (ha : a.WF) (hb : b.WF) (hc : c.WF) :
    (PipeExpr.or (.or a b) c).eval = (PipeExpr.or a (.or b c)).eval := by
  obtain ⟨v, hv, cv, _, pv⟩ := C07_pipeline_composition (.or (.or a b) c) ⟨⟨ha, hb⟩, hc⟩
  obtain ⟨w, hw, cw, _, pw⟩ := C07_pipeline_composition (.or a (.or b c)) ⟨ha, hb, hc⟩
  obtain ⟨p, rfl⟩ := pv _ _ rfl
  obtain ⟨q, rfl⟩ := pw _ _ rfl
  rw [hv, hw]
  have : p.commands = q.commands := by
    have h1 : p.commands = _ := cv
    have h2 : q.commands = _ := cw
    rw [h1, h2]; simp [PipeExpr.commands]
  cases p; cases q; simp_all

/-- No constructor accepts an empty pipeline. -/
theorem C07_nonempty (cs : List Command) (p : Pipeline) (h : Pipeline.make cs = .ok p) :
    p.commands = cs ∧ cs ≠ [] := by
  unfold Pipeline.make at h
  split at h
  · cases h
  · rename_i hl; cases h; exact ⟨rfl, fun e => hl (by simp [e])⟩

example : (PipeExpr.or (.cmd (.mk [.str ['a']] {})) (.or (.cmd (.mk [.str ['b']] {}))
    (.pipe ⟨[.mk [.str ['c']] {}]⟩))).WF := ⟨trivial, trivial, by simp [PipeExpr.WF]⟩

/-! ## C08 -/

/-- **C08.** `pipe.stdin(x)` is the pipeline with the first command replaced by
`first.stdin(x)`, and fails exactly as that call fails. -/
theorem C08_stdin_first (c : Command) (rest : List Command) (t : Target) (cl : Bool) :
    (∀ c', c.stdin t cl = .ok c' → Pipeline.stdin ⟨c :: rest⟩ t cl = .ok ⟨c' :: rest⟩) ∧
    (∀ e, c.stdin t cl = .error e → Pipeline.stdin ⟨c :: rest⟩ t cl = .error e) := by
  constructor
  · intro c' h; simp [Pipeline.stdin, h, bind, Except.bind, Pipeline.make]
  · intro e h; simp [Pipeline.stdin, h, bind, Except.bind]

/-- Shared description of the "last command" setters. -/
theorem modifyLast_last (front : List Command) (c : Command) (f : Command → Except Exc Command) :
    (∀ c', f c = .ok c' → Pipeline.modifyLast ⟨front ++ [c]⟩ f = .ok ⟨front ++ [c']⟩) ∧
    (∀ e, f c = .error e → Pipeline.modifyLast ⟨front ++ [c]⟩ f = .error e) := by
  constructor
  · intro c' h; simp [Pipeline.modifyLast, h, bind, Except.bind, Pipeline.make]
  · intro e h; simp [Pipeline.modifyLast, h, bind, Except.bind]

/-- **C08.** `stdout`, `stderr`, `.result` and `.writable` on a pipeline replace exactly the last
command by what the same call makes of it, fail exactly as that call fails, and `options` are the last
command's. -/
theorem C08_last_command (front : List Command) (c : Command) :
    (∀ t a cl,
      Pipeline.stdout ⟨front ++ [c]⟩ t a cl = (c.stdout t a cl).map fun c' => ⟨front ++ [c']⟩) ∧
    (∀ t a cl,
      Pipeline.stderr ⟨front ++ [c]⟩ t a cl = (c.stderr t a cl).map fun c' => ⟨front ++ [c']⟩) ∧
    (Pipeline.result ⟨front ++ [c]⟩ = c.result.map fun c' => ⟨front ++ [c']⟩) ∧
    (Pipeline.setWritable ⟨front ++ [c]⟩ = c.setWritable.map fun c' => ⟨front ++ [c']⟩) ∧
    Pipeline.options ⟨front ++ [c]⟩ = some c.options := by
  have gen : ∀ f : Command → Except Exc Command,
      Pipeline.modifyLast ⟨front ++ [c]⟩ f = (f c).map fun c' => (⟨front ++ [c']⟩ : Pipeline) := by
    intro f
    cases h : f c with
    | error e => rw [(modifyLast_last front c f).2 e h]; rfl
    | ok c' => rw [(modifyLast_last front c f).1 c' h]; rfl
  exact ⟨fun t a cl => gen _, fun t a cl => gen _, gen _, gen _, by simp [Pipeline.options]⟩

example : ∃ p, Pipeline.stdout ⟨[.mk [.str ['a']] {}, .mk [.str ['b']] {}]⟩ (.path ['o']) = .ok p ∧
    p.commands.map (·.options.output) = [.redirect .default, .path ['o']] := ⟨_, rfl, rfl⟩

/-- **C07.** Calling a pipeline with no argument is the pipeline itself; arguments are refused, not
dropped: a pipeline has no single argument list they could be appended to. -/
theorem C07_call (p : Pipeline) (a : Arg) (args : List Arg) :
    p.call [] = .ok p ∧ p.call (a :: args) = .error .typeError := ⟨rfl, rfl⟩

/-! ## C09 -/

/-- The documented output types of `|` and `>>` (README "Redirection"): path, buffers, files,
descriptors, `sh.*` constants, loggers, stream writers. -/
def documentedOutput : Target → Bool
  | .path _ | .bytearray _ | .stringIO _ | .bytesIO _ | .ioBase _ | .int _ | .redirect _
  | .logger _ | .streamWriter _ => true
  | .str _ | .bytes _ | .pathLike _ | .streamReader _ | .command | .none | .other _ => false

/-- The documented input types on the left of `|`. -/
def documentedInput : Target → Bool
  | .str _ | .bytes _ | .path _ | .bytearray _ | .stringIO _ | .bytesIO _ | .ioBase _ | .int _
  | .redirect _ | .streamReader _ => true
  | .pathLike _ | .logger _ | .streamWriter _ | .command | .none | .other _ => false

/-- **C09.** `cmd | x`, `cmd >> x` and `x | cmd` for every kind of `x`. -/
theorem C09_command_operators (c : Command) (t : Target) :
    (documentedOutput t = true → c.or (.target t) = (c.stdout t (append := false) (close := false)).map Sum.inl) ∧
    (documentedOutput t = false → c.or (.target t) = .error .typeError) ∧
    (documentedOutput t = true → c.rshift t = c.stdout t (append := true) (close := false)) ∧
    (documentedOutput t = false → c.rshift t = .error .typeError) ∧
    (documentedInput t = true → c.ror t = c.stdin t (close := false)) ∧
    (documentedInput t = false → c.ror t = .error .typeError) := by
  have hm : Except.map Sum.inl (c.stdout t) =
      (do return .inl (← c.stdout t) : Except Exc (Command ⊕ Pipeline)) := by
    cases c.stdout t <;> rfl
  cases t <;>
    simp_all [documentedOutput, documentedInput, Command.or, Command.rshift, Command.ror,
      Target.isStdoutType, Target.isStdinType, Pipeline.make, Pipeline.or, bind, Except.bind]

/-- **C09.** The same table for pipelines. -/
theorem C09_pipeline_operators (p : Pipeline) (t : Target) :
    (documentedOutput t = true → p.or (.target t) = p.stdout t (append := false) (close := false)) ∧
    (documentedOutput t = false → p.or (.target t) = .error .typeError) ∧
    (documentedOutput t = true → p.rshift t = p.stdout t (append := true) (close := false)) ∧
    (documentedOutput t = false → p.rshift t = .error .typeError) ∧
    (documentedInput t = true → p.ror t = p.stdin t (close := false)) ∧
    (documentedInput t = false → p.ror t = .error .typeError) := by
  cases t <;>
    simp [documentedOutput, documentedInput, Pipeline.or, Pipeline.rshift, Pipeline.ror,
      Target.isStdoutType, Target.isStdinType]

/-- **C09.** `cmd | x` does to `cmd` what the one-command pipeline does to its last command. -/
theorem C09_command_as_pipeline (c : Command) (x : Operand) :
    (c.or x).map valueCommands = ((⟨[c]⟩ : Pipeline).or x).map (·.commands) := by
  cases x with
  | cmd d => rfl
  | pipe q => simp [Command.or, Pipeline.make, Pipeline.or, Pipeline.add, bind, Except.bind, pure,
      Except.pure, Except.map, valueCommands]
  | target t =>
    cases ht : t.isStdoutType with
    | false => simp [Command.or, Pipeline.or, ht, Pipeline.make, bind, Except.bind, Except.map]
    | true =>
      simp only [Command.or, Pipeline.or, ht, if_true, Pipeline.stdout, Pipeline.modifyLast,
        List.getLast?_singleton]
      cases c.stdout t with
      | error e => rfl
      | ok d => rfl

/-- A string is never taken as an output. -/
example : (Command.mk [.str ['a']] {}).or (.target (.str ['f'])) = .error .typeError := rfl
example : ∃ d, (Command.mk [.str ['a']] {}).or (.target (.path ['f'])) = .ok (.inl d) := ⟨_, rfl⟩

/-! ## C10 -/

/-- **C10.** The display name of a command. -/
theorem C10_name (reprs : Leaf → Text) (c : Command) (a0 : Leaf) (rest : List Leaf)
    (hargs : c.args = a0 :: rest) :
    (∀ alt, c.options.altName = some alt → alt ≠ [] → c.name reprs = alt) ∧
    (c.options.altName = none ∨ c.options.altName = some [] →
      ((a0.toStr reprs).length ≤ 31 → c.name reprs = a0.toStr reprs) ∧
      ((a0.toStr reprs).length > 31 → ∃ tail, tail.length = 31 ∧ tail <:+ a0.toStr reprs ∧
        c.name reprs = ['.', '.', '.'] ++ tail) ∧
      (c.name reprs).length ≤ 34) := by
  constructor
  · intro alt h hne
    cases alt with
    | nil => exact absurd rfl hne
    | cons a as => simp [Command.name, h]
  · intro h
    have hname : c.name reprs =
        if (a0.toStr reprs).length > 31 then
          ['.', '.', '.'] ++ (a0.toStr reprs).drop ((a0.toStr reprs).length - 31)
        else a0.toStr reprs := by
      rcases h with h | h <;> simp [Command.name, h, hargs]
    rw [hname]
    refine ⟨?_, ?_, ?_⟩
    · intro hl; simp [Nat.not_lt.mpr hl]
    · intro hl
      refine ⟨(a0.toStr reprs).drop ((a0.toStr reprs).length - 31), ?_, List.drop_suffix _ _, ?_⟩
      · simp only [List.length_drop]; omega
      · simp only [hl, if_true]
    · split
      · simp only [List.length_append, List.length_cons, List.length_nil, List.length_drop]; omega
      · omega

/-- **C10.** A pipeline's name joins the names of its commands with `|`. -/
theorem C10_pipeline_name (reprs : Leaf → Text) (c : Command) (cs : List Command) :
    Pipeline.name reprs ⟨c :: cs⟩ =
      c.name reprs ++ (cs.map fun d => '|' :: d.name reprs).flatten := by
  induction cs generalizing c with
  | nil => simp [Pipeline.name, List.intercalate]
  | cons d ds ih =>
    have := ih d
    simp only [Pipeline.name, List.map_cons, List.intercalate] at this ⊢
    simp only [List.intersperse, List.flatten_cons, List.singleton_append, List.cons_append] at this ⊢
    rw [this]; rfl

example : (Command.mk [.str (List.replicate 40 'x')] {}).name (fun _ => []) =
    "...".toList ++ List.replicate 31 'x' := by decide

end Shellous.Props
