import Verif.Spec.Find

/-! # C87: the program that runs is the one that is found -/

namespace Shellous.Find

/-! ## Splitting -/

theorem splitOn_ne (c : Char) (s : Str) : splitOn c s ≠ [] := by
  cases s with
  | nil => simp [splitOn]
  | cons x xs =>
    unfold splitOn
    split
    · simp
    · split <;> simp

theorem splitOn_clean {c : Char} {p : Str} (h : c ∉ p) : splitOn c p = [p] := by
  induction p with
  | nil => rfl
  | cons x xs ih =>
    simp only [List.mem_cons, not_or] at h
    unfold splitOn
    rw [if_neg (fun e => h.1 e.symm), ih h.2]

theorem splitOn_append {c : Char} {p : Str} (h : c ∉ p) (rest : Str) : splitOn c (p ++ c :: rest) = p :: splitOn c rest := by
  induction p with
  | nil => simp [splitOn]
  | cons x xs ih =>
    simp only [List.mem_cons, not_or] at h
    rw [List.cons_append]
    conv => lhs; unfold splitOn
    rw [if_neg (fun e => h.1 e.symm), ih h.2]

theorem inter_cons (c : Char) (p q : Str) (r : List Str) :
    ((p :: q :: r).intersperse [c]).flatten = p ++ c :: ((q :: r).intersperse [c]).flatten := by
  simp [List.intersperse]

theorem Splits.eq {c : Char} {s : Str} {parts : List Str} (h : Splits c s parts) : splitOn c s = parts := by
  obtain ⟨h1, h2, h3⟩ := h
  subst h3
  induction parts with
  | nil => exact absurd rfl h1
  | cons p r ih =>
    cases r with
    | nil => simpa [List.intersperse] using splitOn_clean (h2 p (by simp))
    | cons q r =>
      rw [inter_cons, splitOn_append (h2 p (by simp)), ih (by simp) (fun x hx => h2 x (List.mem_cons_of_mem _ hx))]

theorem splitOn_splits (c : Char) (s : Str) : Splits c s (splitOn c s) := by
  induction s with
  | nil => exact ⟨by simp [splitOn], by simp [splitOn], by simp [splitOn]⟩
  | cons x xs ih =>
    obtain ⟨h1, h2, h3⟩ := ih
    unfold splitOn
    split
    · rename_i hx
      subst hx
      cases hs : splitOn x xs with
      | nil => exact absurd hs h1
      | cons q r =>
        rw [hs] at h2 h3
        refine ⟨by simp, ?_, ?_⟩
        · intro p hp
          rcases List.mem_cons.1 hp with rfl | hp
          · simp
          · exact h2 p hp
        · rw [inter_cons, h3]; rfl
    · rename_i hx
      split
      · rename_i hs; exact absurd hs h1
      · rename_i y ys hs
        rw [hs] at h2 h3
        refine ⟨by simp, ?_, ?_⟩
        · intro p hp
          rcases List.mem_cons.1 hp with rfl | hp
          · intro hm
            rcases List.mem_cons.1 hm with e | hm
            · exact hx e.symm
            · exact h2 y (by simp) hm
          · exact h2 p (List.mem_cons_of_mem _ hp)
        · cases ys with
          | nil => simpa [List.intersperse] using h3
          | cons q r =>
            rw [inter_cons] at h3 ⊢
            rw [← h3]; rfl

/-! ## C87 -/

theorem search_spec (exe : Str → Bool) (name : Str) (seen ds : List Str) (hs : ∀ d ∈ seen, exe (join d name) = false) :
    search exe name seen ds = (ds.find? fun d => exe (join d name)).map fun d => join d name := by
  induction ds generalizing seen with
  | nil => rfl
  | cons d ds ih =>
    unfold search
    split
    · rename_i hd
      rw [ih seen hs, List.find?_cons_of_neg (by simp [hs d hd])]
    · split
      · rename_i he
        rw [List.find?_cons_of_pos (by exact he)]; rfl
      · rename_i he
        rw [List.find?_cons_of_neg (by exact he)]
        refine ih _ fun d' hd' => ?_
        rcases List.mem_cons.1 hd' with rfl | h
        · simpa using he
        · exact hs d' h

theorem Env.PathIs.eq {e : Env} {p : Str} (h : e.PathIs p) : e.searchPath = p := by
  unfold Env.searchPath
  cases h with
  | option h => rw [h]
  | environ h h' => rw [h, h']; rfl
  | default h h' => rw [h, h']; rfl

theorem which_eq {e : Env} {path name : Str} {dirs : List Str} (hp : e.PathIs path) (hne : path ≠ []) (hd : Splits ':' path dirs) (hn : '/' ∉ name) :
    e.which name = (dirs.find? fun d => e.exe (join d name)).map fun d => join d name := by
  unfold Env.which
  have : hasDir name = false := by simp [hasDir, hn]
  rw [if_neg (by simp [this])]
  rw [hp.eq, if_neg hne, hd.eq]
  exact search_spec _ _ _ _ (by simp)

/-- **C87**: a name without a slash is looked for in the directories of the search path, in their order, and the first file that can be executed is it. -/
theorem C87_which (e : Env) (path name : Str) (dirs : List Str) (hp : e.PathIs path) (hne : path ≠ []) (hd : Splits ':' path dirs) (hn : '/' ∉ name)
    (f : Str) : e.which name = some f ↔ e.First dirs name f := by
  rw [which_eq hp hne hd hn]
  simp only [Option.map_eq_some_iff, List.find?_eq_some_iff_append, Env.First]
  constructor
  · rintro ⟨d, ⟨he, as, bs, h1, h2⟩, rfl⟩
    exact ⟨as, d, bs, h1, rfl, he, fun d' hd' => by simpa using h2 d' hd'⟩
  · rintro ⟨as, d, bs, h1, rfl, he, h2⟩
    exact ⟨d, ⟨he, as, bs, h1, fun d' hd' => by simpa using h2 d' hd'⟩, rfl⟩

/-- **C87**: an empty search path has no directories: nothing is found. -/
theorem C87_empty (e : Env) (name : Str) (hp : e.PathIs []) (hn : '/' ∉ name) : e.which name = none := by
  unfold Env.which
  have : hasDir name = false := by simp [hasDir, hn]
  rw [if_neg (by simp [this])]
  rw [hp.eq, if_pos rfl]

/-- **C87**: a name with a slash is not looked for. -/
theorem C87_direct (e : Env) (name : Str) (hn : '/' ∈ name) :
    (e.launch name = .runs name ↔ e.exe name = true) ∧ (e.launch name = .failed ↔ e.exe name = false) ∧
      (e.which name = some name ↔ e.exe name = true) ∧ (e.which name = none ↔ e.exe name = false) := by
  have hd : hasDir name = true := by simp [hasDir, hn]
  unfold Env.launch Env.which Env.exec Env.execList
  rw [if_pos hd, if_pos hd, if_pos hd]
  cases he : e.exe name <;> simp [he]

theorem join_dir {d name : Str} (h : d ≠ []) : '/' ∈ join d name := by
  unfold join
  split
  · rename_i h'
    rcases h' with h' | h'
    · exact absurd h' h
    · exact List.mem_append_left _ (List.mem_of_getLast? h')
  · simp

/-- **C87**: if no directory of the search path is empty, then a name without a slash either is not found, and nothing is started, or the file that is
found is the one that runs, whatever the environment of the child says. -/
theorem C87_launch_partial (e : Env) (path name : Str) (dirs : List Str) (hp : e.PathIs path) (hd : Splits ':' path dirs) (hdirs : ∀ d ∈ dirs, d ≠ [])
    (hn : '/' ∉ name) :
    (e.launch name = .notFound ∧ ¬ ∃ f, e.First dirs name f) ∨ ∃ f, e.launch name = .runs f ∧ e.First dirs name f := by
  have hne : path ≠ [] := by
    rintro rfl
    have := hd.eq
    simp only [splitOn] at this
    exact hdirs [] (by rw [← this]; simp) rfl
  have hno : hasDir name = false := by simp [hasDir, hn]
  cases hw : e.which name with
  | none =>
    refine .inl ⟨?_, ?_⟩
    · unfold Env.launch; rw [if_neg (by simp [hno]), hw]
    · rintro ⟨f, hf⟩
      have := (C87_which e path name dirs hp hne hd hn f).2 hf
      rw [hw] at this; cases this
  | some f =>
    have hf := (C87_which e path name dirs hp hne hd hn f).1 hw
    refine .inr ⟨f, ?_, hf⟩
    obtain ⟨as, d, bs, h1, h2, h3, _⟩ := hf
    have hs : hasDir f = true := by
      have := join_dir (name := name) (hdirs d (by rw [h1]; simp))
      simp [hasDir, h2, this]
    unfold Env.launch
    rw [if_neg (by simp [hno]), hw]
    simp [Env.exec, Env.execList, hs, h3]

/-- What is missing: with an empty directory in the search path (the current directory), `which` answers a name without a slash, and it is looked for once
more, in the `PATH` of the child: another program may run. -/
theorem C87_launch_false : ∃ (e : Env) (path name : Str) (dirs : List Str) (f g : Str), e.PathIs path ∧ Splits ':' path dirs ∧ '/' ∉ name ∧ e.First dirs name f ∧
    e.launch name = .runs g ∧ ¬ SameFile f g := by
  refine ⟨{ path := some [':', '/', 'o'], childPath := some ['/', 'b'], exe := fun s => s = ['t'] ∨ s = ['/', 'b', '/', 't'] }, [':', '/', 'o'],
    ['t'], [[], ['/', 'o']], ['t'], ['/', 'b', '/', 't'], .option rfl, ⟨by decide, by decide, by decide⟩, by decide,
    ⟨[], [], [['/', 'o']], rfl, by decide, by decide, by simp⟩, by decide, ?_⟩
  rintro ⟨h, _⟩
  revert h
  decide

/-! ### `find_command` -/

theorem rootOf_clean {s : Str} (h : '/' ∉ s) : rootOf s = .cwd := by
  unfold rootOf
  rcases s with _ | ⟨x, s⟩
  · rfl
  · have : x ≠ '/' := fun e => h (by simp [e])
    simp [this]

theorem parts_root {c : Char} {s : Str} (h : c ∉ s) : splitOn c s = [s] := splitOn_clean h

/-- Only the components that count. -/
def sig (s : Str) : List Str := (splitOn '/' s).filter fun p => p ≠ [] ∧ p ≠ ['.']

theorem sig_slash (s : Str) : sig ('/' :: s) = sig s := by
  unfold sig
  simp [splitOn]

theorem sig_mem {s p : Str} (h : p ∈ sig s) : '/' ∉ p ∧ p ≠ [] ∧ p ≠ ['.'] := by
  unfold sig at h
  rw [List.mem_filter] at h
  exact ⟨(splitOn_splits '/' s).clean p h.1, by simpa using h.2⟩

theorem sig_inter {ps : List Str} (h : ∀ p ∈ ps, '/' ∉ p ∧ p ≠ [] ∧ p ≠ ['.']) : sig (ps.intersperse ['/']).flatten = ps := by
  cases ps with
  | nil => simp [sig, splitOn]
  | cons p r =>
    unfold sig
    rw [Splits.eq ⟨by simp, fun q hq => (h q hq).1, rfl⟩]
    apply List.filter_eq_self.2
    intro q hq
    have := (h q hq).2
    simpa using this

theorem inter_head {ps : List Str} (h : ∀ p ∈ ps, '/' ∉ p ∧ p ≠ [] ∧ p ≠ ['.']) : (ps.intersperse ['/']).flatten.head? ≠ some '/' := by
  cases ps with
  | nil => simp
  | cons p r =>
    obtain ⟨h1, h2, _⟩ := h p (by simp)
    cases p with
    | nil => exact absurd rfl h2
    | cons x p =>
      have : x ≠ '/' := fun e => h1 (by simp [e])
      cases r with
      | nil => simp [List.intersperse, this]
      | cons q r => rw [inter_cons]; simp [this]

/-- The string of a `Path` names the same file. -/
theorem pathStr_same (s : Str) : SameFile (pathStr s) s := by
  suffices h : rootOf (pathStr s) = rootOf s ∧ sig (pathStr s) = sig s from
    ⟨h.1, _, _, splitOn_splits _ _, splitOn_splits _ _, h.2⟩
  have hm : ∀ p ∈ sig s, '/' ∉ p ∧ p ≠ [] ∧ p ≠ ['.'] := fun p hp => sig_mem hp
  have hi := sig_inter hm
  have hh := inter_head hm
  generalize ht : ((sig s).intersperse ['/']).flatten = t at hi hh
  have hp : pathStr s = if rootStr s ++ t = [] then ['.'] else rootStr s ++ t := by subst ht; rfl
  rw [hp]
  have tail : ∀ u : Str, u.head? ≠ some '/' → rootOf ('/' :: u) = .root ∧ rootOf ('/' :: '/' :: u) = .two ∧ rootOf u = .cwd := by
    intro u hu
    rcases u with _ | ⟨x, u⟩
    · decide
    · have : x ≠ '/' := fun e => hu (by simp [e])
      simp [rootOf, this]
  obtain ⟨t1, t2, t3⟩ := tail t hh
  unfold rootStr
  split
  · rename_i r
    refine ⟨?_, ?_⟩
    · simp only [List.singleton_append, List.cons_ne_nil, if_false, t1]
      simp [rootOf]
    · simp only [List.singleton_append, List.cons_ne_nil, if_false, sig_slash, hi]
  · rename_i r hr
    refine ⟨?_, ?_⟩
    · have : r.head? ≠ some '/' := by
        intro e
        rcases r with _ | ⟨x, r⟩
        · cases e
        · simp only [List.head?_cons, Option.some.injEq] at e; subst e; exact hr r rfl
      simp only [List.cons_append, List.nil_append, List.cons_ne_nil, if_false, t2, (tail r this).2.1]
    · simp only [List.cons_append, List.nil_append, List.cons_ne_nil, if_false, sig_slash, hi]
  · rename_i r h1 h2
    refine ⟨?_, ?_⟩
    · have : r.head? ≠ some '/' := by
        intro e
        rcases r with _ | ⟨x, r⟩
        · cases e
        · simp only [List.head?_cons, Option.some.injEq] at e; subst e; exact h2 r rfl
      simp only [List.singleton_append, List.cons_ne_nil, if_false, t1, (tail r this).1]
    · simp only [List.singleton_append, List.cons_ne_nil, if_false, sig_slash, hi]
  · rename_i h1 h2 h3
    have hs : s.head? ≠ some '/' := by
      intro e
      rcases s with _ | ⟨x, r⟩
      · cases e
      · simp only [List.head?_cons, Option.some.injEq] at e; subst e; exact h3 r rfl
    rw [(tail s hs).2.2]
    simp only [List.nil_append]
    split
    · rename_i he
      subst he
      refine ⟨by decide, ?_⟩
      rw [← hi]; decide
    · exact ⟨t3, hi⟩

/-- **C87**: `find_command` answers a path of the file that `which` finds. -/
theorem C87_find (e : Env) (name p : Str) (h : e.findCommand name = some p) : ∃ f, e.which name = some f ∧ SameFile p f := by
  unfold Env.findCommand at h
  split at h
  · rename_i r hr
    split at h
    · cases h
    · cases h; exact ⟨r, hr, pathStr_same r⟩
  · cases h

/-- A path that begins with a slash keeps it. -/
theorem pathStr_abs {s : Str} (h : s.head? = some '/') : '/' ∈ pathStr s := by
  rcases s with _ | ⟨x, s⟩
  · cases h
  · simp only [List.head?_cons, Option.some.injEq] at h
    subst h
    unfold pathStr rootStr
    dsimp only
    split <;> simp_all

/-- **C87**: what `find_command` answers can be run, and is what runs, if it is an absolute path (`Path` may leave out a leading "./" from others). -/
theorem C87_find_run_partial (e : Env) (name p : Str) (hfs : ∀ s t, SameFile s t → e.exe s = e.exe t) (h : e.findCommand name = some p)
    (hp : '/' ∈ p) : e.launch p = .runs p := by
  obtain ⟨f, hf, hs⟩ := C87_find e name p h
  refine (C87_direct e p hp).1.2 ?_
  rw [hfs p f hs]
  unfold Env.which at hf
  split at hf
  · split at hf
    · cases hf; assumption
    · cases hf
  · split at hf
    · cases hf
    · rw [search_spec _ _ _ _ (by simp), Option.map_eq_some_iff] at hf
      obtain ⟨d, hd, rfl⟩ := hf
      exact List.find?_some (p := fun d => e.exe (join d name)) hd

/-- **C87**: with absolute directories in the search path, this is always so. -/
theorem C87_find_run (e : Env) (path name p : Str) (dirs : List Str) (hpa : e.PathIs path) (hne : path ≠ []) (hd : Splits ':' path dirs)
    (habs : ∀ d ∈ dirs, d.head? = some '/') (hn : '/' ∉ name) (hfs : ∀ s t, SameFile s t → e.exe s = e.exe t) (h : e.findCommand name = some p) :
    e.launch p = .runs p ∧ ∃ f, e.launch name = .runs f ∧ SameFile p f := by
  have hdn : ∀ d ∈ dirs, d ≠ [] := fun d hd' e' => by have := habs d hd'; rw [e'] at this; cases this
  unfold Env.findCommand at h
  split at h
  · rename_i r hr
    split at h
    · cases h
    · cases h
      have hF := (C87_which e path name dirs hpa hne hd hn r).1 hr
      have hr0 := hF
      obtain ⟨as, d, bs, h1, h2, h3, _⟩ := hF
      have hdm : d ∈ dirs := by rw [h1]; simp
      have hslash : r.head? = some '/' := by
        have := habs d hdm
        rcases d with _ | ⟨x, d⟩
        · cases this
        · rw [h2]; unfold join; split <;> simpa using this
      refine ⟨C87_find_run_partial e name _ hfs (by simp [Env.findCommand, hr]; assumption) (pathStr_abs hslash), r, ?_, pathStr_same r⟩
      rcases C87_launch_partial e path name dirs hpa hd hdn hn with ⟨_, hno⟩ | ⟨f, hl, hf⟩
      · exact absurd ⟨r, hr0⟩ hno
      · have := (C87_which e path name dirs hpa hne hd hn f).2 hf
        rw [hr] at this; cases this; exact hl
  · cases h

/-- What is missing: for a file of the current directory the answer has no slash: it is looked for in the search path, which may not have it. -/
theorem C87_find_run_false : ∃ (e : Env) (name p : Str), (∀ s t, SameFile s t → e.exe s = e.exe t) ∧ e.findCommand name = some p ∧
    e.launch name = .runs name ∧ e.launch p = .notFound := by
  refine ⟨{ path := some ['/', 'b'], exe := fun s => rootOf s = .cwd ∧ sig s = [['t']] }, ['.', '/', 't'], ['t'], ?_, by decide, by decide,
    by decide⟩
  rintro s t ⟨h1, ps, qs, h2, h3, h4⟩
  have : sig s = sig t := by unfold sig; rw [h2.eq, h3.eq]; exact h4
  simp only [h1, this]

/-- An ordinary search path meets the hypotheses. -/
example : ∃ (e : Env) (path name : Str) (dirs : List Str) (p : Str), e.PathIs path ∧ path ≠ [] ∧ Splits ':' path dirs ∧ (∀ d ∈ dirs, d.head? = some '/') ∧
    '/' ∉ name ∧ (∀ s t, SameFile s t → e.exe s = e.exe t) ∧ e.findCommand name = some p ∧ p = ['/', 'u', '/', 'b', '/', 'l'] := by
  refine ⟨{ environ := some ['/', 'o', ':', '/', 'u', '/', '/', 'b', '/', ':', '/', 'b'], exe := fun s => rootOf s = .root ∧ (sig s = [['u'], ['b'], ['l']] ∨
    sig s = [['b'], ['l']]) }, ['/', 'o', ':', '/', 'u', '/', '/', 'b', '/', ':', '/', 'b'], ['l'], [['/', 'o'], ['/', 'u', '/', '/', 'b', '/'], ['/', 'b']], _,
    .environ rfl rfl, by decide, ⟨by decide, by decide, by decide⟩, by decide, by decide, ?_, by decide, rfl⟩
  rintro s t ⟨h1, ps, qs, h2, h3, h4⟩
  have : sig s = sig t := by unfold sig; rw [h2.eq, h3.eq]; exact h4
  simp only [h1, this]

end Shellous.Find
