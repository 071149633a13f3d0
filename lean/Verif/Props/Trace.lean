import Verif.Spec.Trace

/-! # C90: tracing changes nothing but the log -/

namespace Shellous.Trace

variable {S : Type}

theorem unlogged_cons (x : List Ev × Seen) (h : List (List Ev × Seen)) :
    unlogged (x :: h) = (x.1.filter Ev.isAct, x.2) :: unlogged h := rfl

/-- How the object of the wrapper belongs to the function's: `y` tells if the function has just yielded. -/
inductive Rel : Obj S → Obj (Inside S) → Bool → Prop
  | fresh : Rel .fresh .fresh false
  | live (s : S) (y : Bool) : Rel (.live s) (.live ⟨s, y⟩) y
  | over : Rel .over .over false

/-- What the wrapper does with an outcome of the function. -/
theorem drive_over (b : Body S) : ∀ rs, drive b .over rs = rs.map fun _ => ([], .spent)
  | [] => rfl
  | _ :: rs => by simp [drive, resume, drive_over b rs]

/-- The general statement: `ok` holds of the function's states and what is next sent to it, such that at a yield the wrapper's shortcut
makes no difference. -/
theorem sim (hd : Option Nat) (b : Body S) (ok : Obj S → Bool → List Resume → Prop)
    (hstart : ∀ v rs, ok .fresh false (.send v :: rs) → match b.start with
      | (_, .wait s) => ok (.live s) false rs
      | (_, .yield _ s) => ok (.live s) true rs
      | _ => True)
    (hstep : ∀ s y r rs, ok (.live s) y (r :: rs) → match b.step s r with
      | (_, .wait s') => ok (.live s') false rs
      | (_, .yield _ s') => ok (.live s') true rs
      | _ => True)
    (hyield : ∀ s r rs, ok (.live s) true (r :: rs) →
      (∃ v, r = .send v ∧ b.step s r = b.step s (.send 0)) ∨ ∃ e, r = .throw e ∧ b.step s r = ([], .raise e)) :
    ∀ (rs : List Resume) (o : Obj S) (o' : Obj (Inside S)) (y : Bool), Rel o o' y → ok o y rs →
      unlogged (drive (traced none none hd b) o' rs) = unlogged (drive b o rs)
  | [], _, _, _, _, _ => rfl
  | r :: rs, o, o', y, hr, hok => by
    have ih := sim hd b ok hstart hstep hyield rs
    cases hr with
    | over => simp only [drive_over]
    | fresh =>
      cases r with
      | throw e => simp only [drive, resume, unlogged_cons, drive_over, List.filter_nil]
      | send v =>
        have h := hstart v rs hok
        have hst : (traced none none hd b).start = (Ev.stepin :: (leave none hd b.start).1, (leave none hd b.start).2) := rfl
        obtain ⟨x, hx⟩ : ∃ x, b.start = x := ⟨_, rfl⟩
        rw [hx] at h hst
        simp only [drive, resume, hst, hx, unlogged_cons]
        revert h
        rcases x with ⟨es, _ | _ | _ | _⟩ <;> intro h
        · simp only [leave, List.filter_cons, Ev.isAct, Bool.false_eq_true, if_false]
          rw [← ih _ _ _ (.live _ _) h]
        · simp only [leave, List.filter_cons, Ev.isAct, Bool.false_eq_true, if_false]
          rw [← ih _ _ _ (.live _ _) h]
        · simp [leave, Ev.isAct, drive_over]
        · simp [leave, Ev.isAct, drive_over]
    | live s y =>
      have h := hstep s y r rs hok
      have key : ∃ x : List Ev × Out S, b.step s r = x ∧ (traced none none hd b).step ⟨s, y⟩ r = leave none hd x := by
        cases y with
        | false => exact ⟨_, rfl, by simp [traced]⟩
        | true =>
          rcases hyield s r rs hok with ⟨v, rfl, e⟩ | ⟨e, rfl, e'⟩
          · exact ⟨_, e, by simp [traced]⟩
          · exact ⟨_, e', by simp [traced]⟩
      obtain ⟨x, k1, k2⟩ := key
      simp only [drive, resume, unlogged_cons, k1, k2]
      rw [k1] at h
      revert h
      rcases x with ⟨es, _ | _ | _ | _⟩ <;> intro h
      · simp only [leave]
        rw [← ih _ _ _ (.live _ _) h]
      · simp only [leave]
        rw [← ih _ _ _ (.live _ _) h]
      · simp [leave, Ev.isAct, drive_over]
      · simp [leave, Ev.isAct, drive_over]

/-- **C90** for coroutines: whatever the function does and however it is resumed (values, exceptions, cancellation), tracing changes
nothing but the log. -/
theorem C90_coroutine (b : Body S) (hb : b.Coroutine) (enabled : Bool) (hd : Option Nat) (rs : List Resume) :
    unlogged (drive (logMethod enabled none none hd b).2 .fresh rs) = unlogged (drive b .fresh rs) := by
  cases enabled with
  | false => rfl
  | true =>
    refine sim hd b (fun _ y _ => y = false) ?_ ?_ ?_ rs _ _ _ .fresh rfl
    · intro _ _ _
      split
      · rfl
      · next es v s h => exact absurd h (hb.start _ _ _)
      · trivial
    · intro s y r _ _
      split
      · rfl
      · next es v s' h => exact absurd h (hb.step _ _ _ _ _)
      · trivial
    · intro _ _ _ h; cases h

/-- **C90** for async generators whose `yield`s are bare: the same, also if the iteration is abandoned. -/
theorem C90_generator_partial (b : Body S) (hb : b.Bare) (enabled : Bool) (hd : Option Nat) (rs : List Resume) :
    unlogged (drive (logMethod enabled none none hd b).2 .fresh rs) = unlogged (drive b .fresh rs) := by
  cases enabled with
  | false => rfl
  | true =>
    refine sim hd b (fun o y _ => y = true → ∀ s, o = .live s → (∀ e, b.step s (.throw e) = ([], .raise e)) ∧
      ∀ v, b.step s (.send v) = b.step s (.send 0)) ?_ ?_ ?_ rs _ _ _ .fresh (by intro h; cases h)
    · intro _ _ _
      split
      · intro h; cases h
      · next es v s h => intro _ s' e; cases e; exact hb.start _ _ _ h
      · trivial
    · intro s y r _ _
      split
      · intro h; cases h
      · next es v s' h => intro _ s'' e; cases e; exact hb.step _ _ _ _ _ h
      · trivial
    · intro s r rs h
      cases r with
      | send v => exact .inl ⟨v, rfl, (h rfl s rfl).2 v⟩
      | throw e => exact .inr ⟨e, rfl, (h rfl s rfl).1 e⟩

/-- **C90** for all async generators, as long as the iteration goes on. -/
theorem C90_iteration (b : Body S) (enabled : Bool) (hd : Option Nat) (rs : List Resume) (h : Asks (drive b .fresh rs) rs) :
    unlogged (drive (logMethod enabled none none hd b).2 .fresh rs) = unlogged (drive b .fresh rs) := by
  cases enabled with
  | false => rfl
  | true =>
    refine sim hd b (fun o y rs => Asks (drive b o rs) rs ∧ (y = true → rs[0]? = none ∨ rs[0]? = some (.send 0))) ?_ ?_ ?_ rs _ _ _ .fresh
      ⟨h, by intro h; cases h⟩
    · rintro v rs ⟨hA, -⟩
      simp only [drive, resume] at hA
      revert hA
      rcases b.start with ⟨es, _ | ⟨w, s⟩ | _ | _⟩ <;> intro hA
      · exact ⟨fun i x v hi => hA (i + 1) x v hi, by intro h; cases h⟩
      · exact ⟨fun i x v hi => hA (i + 1) x v hi, fun _ => hA 0 _ _ rfl⟩
      · trivial
      · trivial
    · rintro s y r rs ⟨hA, -⟩
      simp only [drive, resume] at hA
      revert hA
      rcases b.step s r with ⟨es, _ | ⟨w, s⟩ | _ | _⟩ <;> intro hA
      · exact ⟨fun i x v hi => hA (i + 1) x v hi, by intro h; cases h⟩
      · exact ⟨fun i x v hi => hA (i + 1) x v hi, fun _ => hA 0 _ _ rfl⟩
      · trivial
      · trivial
    · rintro s r rs ⟨-, h⟩
      rcases h rfl with h | h
      · cases h
      · simp only [List.getElem?_cons_zero, Option.some.injEq] at h
        subst h
        exact .inl ⟨0, rfl, rfl⟩

/-- **C90** for `read_lines`, the one async generator of the library that is marked. -/
theorem C90_read_lines (decode : Nat → Except Nat Nat) (enabled : Bool) (hd : Option Nat) (rs : List Resume) :
    unlogged (drive (logMethod enabled none none hd (readLines decode)).2 .fresh rs) = unlogged (drive (readLines decode) .fresh rs) := by
  refine C90_generator_partial _ ⟨fun es v s h => by simp [readLines] at h, fun s r es v s' h => ?_⟩ enabled hd rs
  have : s' = .atYield := by
    simp only [readLines] at h
    split at h
    · cases h
    · split at h <;> cases h; rfl
    all_goals cases h
  subst this
  exact ⟨fun _ => rfl, fun _ => rfl⟩

/-- **C90** the log itself: if the function logs nothing, there is one line when it starts, and one when it ends, with the exception that it
raises (or, if it returns, the one that its caller is handling). -/
theorem C90_paired (hd : Option Nat) (b : Body S) (hs : b.start.1.all Ev.isAct = true) (hq : ∀ s r, (b.step s r).1.all Ev.isAct = true) (v : Nat)
    (rs : List Resume) :
    logged (drive (traced none none hd b) .fresh (.send v :: rs)) = [.stepin] ∨
    ∃ x, logged (drive (traced none none hd b) .fresh (.send v :: rs)) = [.stepin, .stepout x] ∧
      ((x = hd ∧ ∃ w, .returns w ∈ (drive (traced none none hd b) .fresh (.send v :: rs)).map Prod.snd) ∨
       ∃ e, x = some e ∧ .raises e ∈ (drive (traced none none hd b) .fresh (.send v :: rs)).map Prod.snd) := by
  have quiet : ∀ l : List Ev, l.all Ev.isAct = true → l.filter (fun e => !e.isAct) = [] := by
    intro l h
    rw [List.filter_eq_nil_iff]
    intro a ha
    simpa using List.all_eq_true.1 h a ha
  have cons : ∀ (x : List Ev × Seen) h, logged (x :: h) = x.1.filter (fun e => !e.isAct) ++ logged h := by
    intro x h; simp [logged]
  have over : ∀ rs, logged (drive (traced none none hd b) .over rs) = [] := by
    intro rs; rw [drive_over]; induction rs with
    | nil => rfl
    | cons r rs ih => rw [List.map_cons, cons, ih]; rfl
  -- from a suspended wrapper on
  have live : ∀ (rs : List Resume) (i : Inside S), logged (drive (traced none none hd b) (.live i) rs) = [] ∨
      ∃ x, logged (drive (traced none none hd b) (.live i) rs) = [.stepout x] ∧
        ((x = hd ∧ ∃ w, .returns w ∈ (drive (traced none none hd b) (.live i) rs).map Prod.snd) ∨
         ∃ e, x = some e ∧ .raises e ∈ (drive (traced none none hd b) (.live i) rs).map Prod.snd) := by
    intro rs
    induction rs with
    | nil => intro i; exact .inl rfl
    | cons r rs ih =>
      intro i
      have key : ∃ x : List Ev × Out S, x.1.all Ev.isAct = true ∧ (traced none none hd b).step i r = leave none hd x := by
        obtain ⟨s, y⟩ := i
        cases y
        · exact ⟨_, hq s r, by simp [traced]⟩
        · cases r with
          | send v => exact ⟨_, hq s (.send 0), by simp [traced]⟩
          | throw e => exact ⟨([], .raise e), rfl, by simp [traced]⟩
      obtain ⟨⟨es, o⟩, k1, k2⟩ := key
      simp only [drive, resume, k2]
      cases o with
      | wait s =>
        simp only [leave, cons, quiet es k1, List.nil_append]
        rcases ih ⟨s, false⟩ with h | ⟨x, h, h'⟩
        · exact .inl h
        · refine .inr ⟨x, h, ?_⟩
          rcases h' with ⟨hx, w, hw⟩ | ⟨e, he, hw⟩
          · exact .inl ⟨hx, w, List.mem_cons_of_mem _ hw⟩
          · exact .inr ⟨e, he, List.mem_cons_of_mem _ hw⟩
      | yield v s =>
        simp only [leave, cons, quiet es k1, List.nil_append]
        rcases ih ⟨s, true⟩ with h | ⟨x, h, h'⟩
        · exact .inl h
        · refine .inr ⟨x, h, ?_⟩
          rcases h' with ⟨hx, w, hw⟩ | ⟨e, he, hw⟩
          · exact .inl ⟨hx, w, List.mem_cons_of_mem _ hw⟩
          · exact .inr ⟨e, he, List.mem_cons_of_mem _ hw⟩
      | ret w =>
        refine .inr ⟨hd, ?_, .inl ⟨rfl, w, by simp [leave]⟩⟩
        simp only [leave, cons, over, List.filter_append, List.filter_cons, quiet es k1, List.append_nil, List.nil_append]; rfl
      | raise e =>
        refine .inr ⟨some e, ?_, .inr ⟨e, rfl, by simp [leave]⟩⟩
        simp only [leave, cons, over, List.filter_append, List.filter_cons, quiet es k1, List.append_nil, List.nil_append]; rfl
  have hst : (traced none none hd b).start = (Ev.stepin :: (leave none hd b.start).1, (leave none hd b.start).2) := rfl
  simp only [drive, resume, hst]
  obtain ⟨x, hx⟩ : ∃ x, b.start = x := ⟨_, rfl⟩
  rw [hx] at hs ⊢
  obtain ⟨es, o⟩ := x
  have k1 : es.all Ev.isAct = true := hs
  have lift : ∀ (x : Seen) (i : Inside S), (logged (([Ev.stepin] ++ es, x) :: drive (traced none none hd b) (.live i) rs) = [.stepin] ∨
      ∃ y, logged (([Ev.stepin] ++ es, x) :: drive (traced none none hd b) (.live i) rs) = [.stepin, .stepout y] ∧
        ((y = hd ∧ ∃ w, .returns w ∈ (([Ev.stepin] ++ es, x) :: drive (traced none none hd b) (.live i) rs).map Prod.snd) ∨
         ∃ e, y = some e ∧ .raises e ∈ (([Ev.stepin] ++ es, x) :: drive (traced none none hd b) (.live i) rs).map Prod.snd)) := by
    intro x i
    rw [cons, List.filter_append, quiet es k1]
    rcases live rs i with h | ⟨y, h, h'⟩
    · left; rw [h]; rfl
    · refine .inr ⟨y, by rw [h]; rfl, ?_⟩
      rcases h' with ⟨hx, w, hw⟩ | ⟨e, he, hw⟩
      · exact .inl ⟨hx, w, List.mem_cons_of_mem _ hw⟩
      · exact .inr ⟨e, he, List.mem_cons_of_mem _ hw⟩
  cases o with
  | wait s => exact lift _ _
  | yield v s => exact lift _ _
  | ret w =>
    refine .inr ⟨hd, ?_, .inl ⟨rfl, w, by simp [leave]⟩⟩
    simp only [leave, cons, over, List.filter_append, List.filter_cons, quiet es k1, List.append_nil, List.nil_append]; rfl
  | raise e =>
    refine .inr ⟨some e, ?_, .inr ⟨e, rfl, by simp [leave]⟩⟩
    simp only [leave, cons, over, List.filter_append, List.filter_cons, quiet es k1, List.append_nil, List.nil_append]; rfl

/-- **C90** the order: all that the function does comes after the line that says that it starts and before the one that says that it ends. -/
theorem C90_brackets (hd : Option Nat) (b : Body S) (hs : b.start.1.all Ev.isAct = true) (hq : ∀ s r, (b.step s r).1.all Ev.isAct = true) (v : Nat)
    (rs : List Resume) :
    ∃ acts : List Ev, acts.all Ev.isAct = true ∧
      ((drive (traced none none hd b) .fresh (.send v :: rs)).flatMap Prod.fst = .stepin :: acts ∨
       ∃ x, (drive (traced none none hd b) .fresh (.send v :: rs)).flatMap Prod.fst = .stepin :: acts ++ [.stepout x]) := by
  have over : ∀ rs, (drive (traced none none hd b) .over rs).flatMap Prod.fst = [] := by
    intro rs; rw [drive_over]; induction rs with
    | nil => rfl
    | cons r rs ih => rw [List.map_cons, List.flatMap_cons, ih]; rfl
  have live : ∀ (rs : List Resume) (i : Inside S), ∃ acts : List Ev, acts.all Ev.isAct = true ∧
      ((drive (traced none none hd b) (.live i) rs).flatMap Prod.fst = acts ∨
       ∃ x, (drive (traced none none hd b) (.live i) rs).flatMap Prod.fst = acts ++ [.stepout x]) := by
    intro rs
    induction rs with
    | nil => intro i; exact ⟨[], rfl, .inl rfl⟩
    | cons r rs ih =>
      intro i
      have key : ∃ x : List Ev × Out S, x.1.all Ev.isAct = true ∧ (traced none none hd b).step i r = leave none hd x := by
        obtain ⟨s, y⟩ := i
        cases y
        · exact ⟨_, hq s r, by simp [traced]⟩
        · cases r with
          | send v => exact ⟨_, hq s (.send 0), by simp [traced]⟩
          | throw e => exact ⟨([], .raise e), rfl, by simp [traced]⟩
      obtain ⟨⟨es, o⟩, k1, k2⟩ := key
      have k1 : es.all Ev.isAct = true := k1
      simp only [drive, resume, k2]
      cases o with
      | wait s =>
        obtain ⟨acts, h1, h2⟩ := ih ⟨s, false⟩
        refine ⟨es ++ acts, by rw [List.all_append, k1, h1]; rfl, ?_⟩
        simp only [leave, List.flatMap_cons]
        rcases h2 with h2 | ⟨x, h2⟩
        · exact .inl (by rw [h2])
        · exact .inr ⟨x, by rw [h2, List.append_assoc]⟩
      | yield v s =>
        obtain ⟨acts, h1, h2⟩ := ih ⟨s, true⟩
        refine ⟨es ++ acts, by rw [List.all_append, k1, h1]; rfl, ?_⟩
        simp only [leave, List.flatMap_cons]
        rcases h2 with h2 | ⟨x, h2⟩
        · exact .inl (by rw [h2])
        · exact .inr ⟨x, by rw [h2, List.append_assoc]⟩
      | ret w => exact ⟨es, k1, .inr ⟨hd, by simp only [leave, List.flatMap_cons, over, List.append_nil]⟩⟩
      | raise e => exact ⟨es, k1, .inr ⟨some e, by simp only [leave, List.flatMap_cons, over, List.append_nil]⟩⟩
  have hst : (traced none none hd b).start = (Ev.stepin :: (leave none hd b.start).1, (leave none hd b.start).2) := rfl
  simp only [drive, resume, hst]
  obtain ⟨x, hx⟩ : ∃ x, b.start = x := ⟨_, rfl⟩
  rw [hx] at hs ⊢
  obtain ⟨es, o⟩ := x
  have k1 : es.all Ev.isAct = true := hs
  have lift : ∀ (x : Seen) (i : Inside S), ∃ acts : List Ev, acts.all Ev.isAct = true ∧
      ((([Ev.stepin] ++ es, x) :: drive (traced none none hd b) (.live i) rs).flatMap Prod.fst = .stepin :: acts ∨
       ∃ y, (([Ev.stepin] ++ es, x) :: drive (traced none none hd b) (.live i) rs).flatMap Prod.fst = .stepin :: acts ++ [.stepout y]) := by
    intro x i
    obtain ⟨acts, h1, h2⟩ := live rs i
    refine ⟨es ++ acts, by rw [List.all_append, k1, h1]; rfl, ?_⟩
    simp only [List.flatMap_cons]
    rcases h2 with h2 | ⟨x, h2⟩
    · exact .inl (by rw [h2]; rfl)
    · exact .inr ⟨x, by rw [h2]; simp⟩
  cases o with
  | wait s => exact lift _ _
  | yield v s => exact lift _ _
  | ret w => exact ⟨es, k1, .inr ⟨hd, by simp only [leave, List.flatMap_cons, over, List.append_nil]; rfl⟩⟩
  | raise e => exact ⟨es, k1, .inr ⟨some e, by simp only [leave, List.flatMap_cons, over, List.append_nil]; rfl⟩⟩

/-- An async generator with `try: ... yield 7 ... finally: <action 1>`. -/
def withFinally : Body Unit where
  start := ([], .yield 7 ())
  step
    | _, .send _ => ([.act 1], .ret 0)
    | _, .throw e => ([.act 1], .raise e)

/-- **C90** is false for async generators in general: if the iteration is abandoned (`aclose`), the `finally` clause of the function does not run
with the wrapper's. -/
theorem C90_generator_false :
    unlogged (drive (traced none none none withFinally) .fresh [.send 0, .throw 5]) = [([], .yields 7), ([], .raises 5)] ∧
    unlogged (drive withFinally .fresh [.send 0, .throw 5]) = [([], .yields 7), ([.act 1], .raises 5)] := by decide

/-- A function that does something, waits, and returns what it gets. -/
def simple : Body Unit where
  start := ([.act 1], .wait ())
  step
    | _, .send v => ([.act 2], .ret v)
    | _, .throw e => ([.act 3], .raise e)

/-- **C90** is false if the message itself cannot be made: if `_platform_info` raises, the function (`__aenter__`) is not even called
(`asyncio.get_child_watcher`, which it calls, does not exist in Python 3.14); if the representation of the exception given to
`__aexit__` raises, that exception takes the place of its outcome. -/
theorem C90_message_false :
    unlogged (drive (traced (some 9) none none simple) .fresh [.send 0, .send 4]) = [([], .raises 9), ([], .spent)] ∧
    unlogged (drive (traced none (some 9) none simple) .fresh [.send 0, .send 4]) = [([.act 1], .waits), ([.act 2], .raises 9)] ∧
    unlogged (drive simple .fresh [.send 0, .send 4]) = [([.act 1], .waits), ([.act 2], .returns 4)] := by decide

example : simple.Coroutine := ⟨fun _ _ _ h => by simp [simple] at h, fun _ r _ _ _ h => by cases r <;> simp [simple] at h⟩

example : drive (traced none none none simple) .fresh [.send 0, .throw 6, .send 1] =
    [([.stepin, .act 1], .waits), ([.act 3, .stepout (some 6)], .raises 6), ([], .spent)] := by decide

example : Asks (drive withFinally .fresh [.send 0, .send 0]) [.send 0, .send 0] ∧
    unlogged (drive (traced none none none withFinally) .fresh [.send 0, .send 0]) = [([], .yields 7), ([.act 1], .returns 0)] := by
  refine ⟨?_, by decide⟩
  intro i x v h
  match i with
  | 0 => exact .inr rfl
  | i + 1 => exact .inl (by simp)

example : drive (traced none none none (readLines fun n => .ok (n + 10))) .fresh [.send 0, .send 3, .send 0, .send 0] =
    [([.stepin], .waits), ([], .yields 13), ([], .waits), ([.stepout none], .returns 0)] := by decide

end Shellous.Trace
