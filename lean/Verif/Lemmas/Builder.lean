import Verif.Spec.Builder

namespace Shellous

open Spec

/-! ## coerce -/

mutual
theorem coerceOne_spec (a : Arg) :
    ((∃ l ∈ leaves a, Unsupported l) → coerceOne a = .error .typeError) ∧
    ((¬ ∃ l ∈ leaves a, Unsupported l) → ∃ out, coerceOne a = .ok out ∧
      (leaves a).map leafValue = out.map some) := by
  cases a with
  | seq k items =>
    have h := coerceNested_spec items
    simpa only [coerceOne, leaves] using h
  | bad k => simp [leaves, Unsupported, coerceOne]
  | _ => simp [leaves, Unsupported, coerceOne, leafValue]
theorem coerceNested_spec (as : List Arg) :
    ((∃ l ∈ as.flatMap leaves, Unsupported l) → coerceNested as = .error .typeError) ∧
    ((¬ ∃ l ∈ as.flatMap leaves, Unsupported l) → ∃ out, coerceNested as = .ok out ∧
      (as.flatMap leaves).map leafValue = out.map some) := by
  cases as with
  | nil => simp [coerceNested]
  | cons a rest =>
    obtain ⟨h1, h2⟩ := coerceOne_spec a
    obtain ⟨h3, h4⟩ := coerceNested_spec rest
    constructor
    · rintro ⟨l, hl, hu⟩
      simp only [List.flatMap_cons, List.mem_append] at hl
      by_cases ha : ∃ l ∈ leaves a, Unsupported l
      · simp [coerceNested, h1 ha]; rfl
      · obtain ⟨out, ho, _⟩ := h2 ha
        have : ∃ l ∈ rest.flatMap leaves, Unsupported l := by
          rcases hl with hl | hl
          · exact absurd ⟨l, hl, hu⟩ ha
          · exact ⟨l, hl, hu⟩
        simp [coerceNested, ho, h3 this]; rfl
    · intro hn
      have ha : ¬ ∃ l ∈ leaves a, Unsupported l := by
        rintro ⟨l, hl, hu⟩; exact hn ⟨l, by simp [hl], hu⟩
      have hr : ¬ ∃ l ∈ rest.flatMap leaves, Unsupported l := by
        rintro ⟨l, hl, hu⟩; exact hn ⟨l, by simp only [List.flatMap_cons, List.mem_append]; exact .inr hl, hu⟩
      obtain ⟨o1, e1, m1⟩ := h2 ha
      obtain ⟨o2, e2, m2⟩ := h4 hr
      refine ⟨o1 ++ o2, ?_, ?_⟩
      · simp [coerceNested, e1, e2]; rfl
      · simp [m1, m2]
end

/-- `coerce` with already transformed top-level arguments is `coerceNested`. -/
theorem coerce_none (fns : CoerceFns) (as : List Arg) : coerce fns none as = coerceNested as := by
  induction as with
  | nil => rfl
  | cons a rest ih => simp only [coerce, coerceNested, ih]; rfl

theorem coerce_coerced (fns : CoerceFns) (f : Option Nat) (args tops : List Arg)
    (h : Coerced fns f args tops) : coerce fns f args = coerceNested tops := by
  cases f with
  | none => simp only [Coerced] at h; subst h; exact coerce_none fns tops
  | some id =>
    simp only [Coerced] at h
    obtain ⟨hl, hz⟩ := h
    induction args generalizing tops with
    | nil => cases tops with
      | nil => rfl
      | cons => simp at hl
    | cons a rest ih =>
      cases tops with
      | nil => simp at hl
      | cons t ts =>
        have h0 := hz (a, t) (by simp)
        have := ih ts (by simpa using hl) (fun p hp => hz p (by simp [hp]))
        simp only [] at h0
        simp only [coerce, applyCoerceArg, coerceNested, h0, this]
        rfl

theorem coerce_ok_coerced (fns : CoerceFns) (f : Option Nat) (args : List Arg) (out : List Leaf)
    (h : coerce fns f args = .ok out) : ∃ tops, Coerced fns f args tops := by
  cases f with
  | none => exact ⟨args, rfl⟩
  | some id =>
    induction args generalizing out with
    | nil => exact ⟨[], by simp [Coerced]⟩
    | cons a rest ih =>
      simp only [coerce, applyCoerceArg] at h
      cases ha : fns id a with
      | error e => rw [ha] at h; cases h
      | ok b =>
        rw [ha] at h
        simp only [bind, Except.bind] at h
        cases hb : coerceOne b with
        | error e => rw [hb] at h; cases h
        | ok x =>
          rw [hb] at h
          simp only [] at h
          cases hr : coerce fns (some id) rest with
          | error e => rw [hr] at h; cases h
          | ok xs =>
            obtain ⟨ts, ht⟩ := ih xs hr
            refine ⟨b :: ts, ?_⟩
            simp only [Coerced] at ht ⊢
            refine ⟨by simp [ht.1], ?_⟩
            intro p hp
            simp only [List.zip_cons_cons, List.mem_cons] at hp
            rcases hp with rfl | hp
            · exact ha
            · exact ht.2 p hp

theorem coerce_append (fns : CoerceFns) (f : Option Nat) (a b : List Arg) :
    coerce fns f (a ++ b) = (do
      let x ← coerce fns f a
      let y ← coerce fns f b
      .ok (x ++ y)) := by
  induction a with
  | nil =>
    simp only [List.nil_append, coerce]
    cases coerce fns f b <;> rfl
  | cons c rest ih =>
    simp only [List.cons_append, coerce, ih]
    cases applyCoerceArg fns f c with
    | error e => rfl
    | ok c' =>
      cases hx : coerceOne c' with
      | error e => simp [bind, Except.bind, hx]
      | ok x =>
        cases h1 : coerce fns f rest with
        | error e => simp [bind, Except.bind, hx]
        | ok y =>
          cases h2 : coerce fns f b with
          | error e => simp [bind, Except.bind, hx]
          | ok z => simp [bind, Except.bind, hx]

/-! ## options -/

theorem opt_ext (o o' : Options) (h : ∀ n : OptName, n.get o = n.get o') : o = o' := by
  have hh := fun n => h n
  apply Options.ext
  · exact hh .path
  · exact hh .env
  · exact hh .inheritEnv
  · exact hh .input
  · exact hh .inputClose
  · exact hh .output
  · exact hh .outputAppend
  · exact hh .outputClose
  · exact hh .error
  · exact hh .errorAppend
  · exact hh .errorClose
  · exact hh .errorLimit
  · exact hh .encoding
  · exact hh .returnResult
  · exact hh .catchCancelled
  · exact hh .exitCodes
  · exact hh .timeout
  · exact hh .cancelTimeout
  · exact hh .cancelSignal
  · exact hh .altName
  · exact hh .passFds
  · exact hh .passFdsClose
  · exact hh .writable
  · exact hh .startNewSession
  · exact hh .preexecFn
  · exact hh .pty
  · exact hh .closeFds
  · exact hh .auditCallback
  · exact hh .coerceArg

theorem set_get (o : Options) (k : Kwds) (n : OptName) :
    n.get (o.set k) = (n.kw k).getD (n.get o) := by
  cases n
  case env =>
    simp only [OptName.get, OptName.kw, Options.set]
    cases h : k.env with
    | none => rfl
    | some e => rfl
  all_goals rfl

theorem setStdin_ok (o o' : Options) (t : Target) (c : Bool) (h : o.setStdin t c = .ok o') :
    o' = { o with input := t, inputClose := c } := by
  unfold Options.setStdin at h
  split at h
  · cases h
  · split at h
    · cases h
    · cases h; rfl

theorem setStdout_ok (o o' : Options) (t : Target) (a c : Bool) (h : o.setStdout t a c = .ok o') :
    o' = { o with output := t, outputAppend := a, outputClose := c } := by
  unfold Options.setStdout at h
  split at h
  · cases h
  · split at h
    · cases h
    · cases h; rfl

theorem setStderr_ok (o o' : Options) (t : Target) (a c : Bool) (h : o.setStderr t a c = .ok o') :
    o' = { o with error := t, errorAppend := a, errorClose := c } := by
  unfold Options.setStderr at h
  split at h
  · cases h
  · cases h; rfl

theorem setChecked_ok (o o' : Options) (k : Kwds) (h : o.setChecked k = .ok o') : o' = o.set k := by
  unfold Options.setChecked at h
  split at h
  · cases h
  · cases h; rfl

theorem run_get (c : SetCall) (o o' : Options) (h : c.run o = .ok o') (n : OptName)
    (hn : n ≠ .env) : n.get o' = (c.assigns n).getD (n.get o) := by
  cases c with
  | set k => rw [setChecked_ok _ _ _ h]; exact set_get o k n
  | stdin t cl => rw [setStdin_ok _ _ _ _ h]; cases n <;> rfl
  | stdout t a cl => rw [setStdout_ok _ _ _ _ _ h]; cases n <;> rfl
  | stderr t a cl => rw [setStderr_ok _ _ _ _ _ h]; cases n <;> rfl
  | env u =>
    simp only [SetCall.run] at h
    cases h
    cases n <;> first | rfl | exact absurd rfl hn

theorem runCalls_cons_ok (c : SetCall) (cs : List SetCall) (o o' : Options)
    (h : runCalls (c :: cs) o = .ok o') :
    ∃ o1, c.run o = .ok o1 ∧ runCalls cs o1 = .ok o' := by
  simp only [runCalls, bind, Except.bind] at h
  split at h
  · cases h
  · rename_i o1 h1; exact ⟨o1, h1, h⟩

theorem getLast?_cons_getD {α} (a : α) (l : List α) (d : α) :
    ((a :: l).getLast?).getD d = (l.getLast?).getD a := by
  cases l with
  | nil => rfl
  | cons b bs => simp [List.getLast?_cons]

/-! ## dictionaries -/

theorem Dict.get_set (d : Dict) (k v q : Text) :
    Dict.get (Dict.set d k v) q = if k = q then some v else Dict.get d q := by
  induction d with
  | nil => simp [Dict.set, Dict.get]
  | cons kv rest ih =>
    obtain ⟨k', v'⟩ := kv
    simp only [Dict.set]
    by_cases h : k' = k
    · subst h
      by_cases hq : k' = q
      · subst hq; simp [Dict.get]
      · simp [Dict.get, hq]
    · simp only [h, if_false, Dict.get, ih]
      by_cases hq : k' = q
      · subst hq; simp [Ne.symm h]
      · simp [hq]

theorem Dict.get_update (d : Dict) (u : List (Text × Text)) (q : Text) :
    Dict.get (Dict.update d u) q =
      (((u.filter fun kv => kv.1 == q).getLast?).map (·.2)).or (Dict.get d q) := by
  induction u generalizing d with
  | nil => simp [Dict.update]
  | cons kv rest ih =>
    have : Dict.update d (kv :: rest) = Dict.update (Dict.set d kv.1 kv.2) rest := rfl
    rw [this, ih, Dict.get_set]
    by_cases h : kv.1 = q
    · have hb : (kv.1 == q) = true := by simp [h]
      simp only [List.filter_cons, hb, if_true, h]
      cases hl : (rest.filter fun kv => kv.1 == q).getLast? with
      | none =>
        have : rest.filter (fun kv => kv.1 == q) = [] := List.getLast?_eq_none_iff.mp hl
        simp [this]
      | some x => simp [List.getLast?_cons, hl]
    · have hb : (kv.1 == q) = false := by simp [h]
      simp [List.filter_cons, h]

/-- Keys of a dict. -/
def Dict.keys (d : Dict) : List Text := d.map (·.1)

theorem Dict.set_keys (d : Dict) (k v : Text) :
    Dict.keys (Dict.set d k v) = if k ∈ Dict.keys d then Dict.keys d else Dict.keys d ++ [k] := by
  induction d with
  | nil => simp [Dict.set, Dict.keys]
  | cons kv rest ih =>
    obtain ⟨k', v'⟩ := kv
    simp only [Dict.set]
    by_cases h : k' = k
    · subst h; simp [Dict.keys]
    · simp only [h, if_false]
      simp only [Dict.keys, List.map_cons] at ih ⊢
      rw [ih]
      by_cases hk : k ∈ List.map (fun x => x.fst) rest
      · simp only [hk, if_true, List.mem_cons, or_true]
      · simp only [hk, if_false, List.mem_cons, Ne.symm h, or_false, List.cons_append]

theorem Dict.set_nodup (d : Dict) (k v : Text) (h : (Dict.keys d).Nodup) :
    (Dict.keys (Dict.set d k v)).Nodup := by
  rw [Dict.set_keys]
  split
  · exact h
  · rename_i hk
    rw [List.nodup_append]
    refine ⟨h, by simp, ?_⟩
    intro a ha b hb
    simp only [List.mem_singleton] at hb
    subst hb
    exact fun e => hk (e ▸ ha)

theorem Dict.update_nodup (d : Dict) (u : List (Text × Text)) (h : (Dict.keys d).Nodup) :
    (Dict.keys (Dict.update d u)).Nodup := by
  induction u generalizing d with
  | nil => exact h
  | cons kv rest ih => exact ih _ (Dict.set_nodup d kv.1 kv.2 h)

theorem Dict.get_of_mem (d : Dict) (h : (Dict.keys d).Nodup) (k v : Text) (hm : (k, v) ∈ d) :
    Dict.get d k = some v := by
  induction d with
  | nil => simp at hm
  | cons kv rest ih =>
    obtain ⟨k', v'⟩ := kv
    simp only [Dict.keys, List.map_cons, List.nodup_cons] at h
    simp only [List.mem_cons, Prod.mk.injEq] at hm
    rcases hm with ⟨rfl, rfl⟩ | hm
    · simp [Dict.get]
    · have : k' ≠ k := by
        rintro rfl
        exact h.1 (List.mem_map.mpr ⟨(k', v), hm, rfl⟩)
      simp only [Dict.get, this, if_false]
      exact ih h.2 hm

/-- For a dict with unique keys, filtering on a key leaves at most the stored pair. -/
theorem Dict.filter_get (d : Dict) (h : (Dict.keys d).Nodup) (q : Text) :
    ((d.filter fun kv => kv.1 == q).getLast?).map (·.2) = Dict.get d q := by
  induction d with
  | nil => simp [Dict.get]
  | cons kv rest ih =>
    obtain ⟨k', v'⟩ := kv
    simp only [Dict.keys, List.map_cons, List.nodup_cons] at h
    have ih := ih h.2
    by_cases hq : k' = q
    · subst hq
      have : rest.filter (fun kv => kv.1 == k') = [] := by
        rw [List.filter_eq_nil_iff]
        intro x hx hc
        exact h.1 (List.mem_map.mpr ⟨x, hx, by simpa using hc⟩)
      simp [Dict.get, this]
    · have hb : (k' == q) = false := by simp [hq]
      simp only [List.filter_cons, hb, Dict.get, hq, if_false]
      exact ih

theorem coerceEnv_nodup (e : List (PyVal × PyVal)) : (Dict.keys (coerceEnv e)).Nodup :=
  Dict.update_nodup [] _ (by simp [Dict.keys])

theorem coerceEnv_get (e : List (PyVal × PyVal)) (q : Text) :
    Dict.get (coerceEnv e) q = Spec.lastUpdate q e := by
  unfold coerceEnv Spec.lastUpdate
  rw [Dict.get_update]
  simp only [Dict.get, Option.or_none, List.filter_map, List.getLast?_map, Option.map_map]
  rfl

theorem envDict_get (base : Option Dict) (e : List (PyVal × PyVal)) (q : Text) :
    Dict.get (envDict base e) q =
      (Spec.lastUpdate q e).or (base.bind fun d => Dict.get d q) := by
  unfold envDict
  rw [Dict.get_update, Dict.filter_get _ (coerceEnv_nodup e), coerceEnv_get]
  cases base <;> rfl

theorem envDict_nodup (base : Option Dict) (e : List (PyVal × PyVal))
    (h : ∀ d, base = some d → (Dict.keys d).Nodup) : (Dict.keys (envDict base e)).Nodup := by
  unfold envDict
  apply Dict.update_nodup
  cases base with
  | none => simp [Dict.keys]
  | some d => exact h d rfl

theorem Dict.isEmpty_get (d : Dict) (h : d.isEmpty = true) (q : Text) : Dict.get d q = none := by
  cases d with
  | nil => rfl
  | cons _ _ => simp at h

end Shellous
