import Verif.Spec.Iter
import Verif.Lemmas.Session

/-!
# An iteration is an `async with` block
-/

namespace Shellous

/-- What the generator has handed out are the decoded lines it has read. -/
structure GInv (gc : GenCfg) (g : GenSt) : Prop where
  ls : g.ls = lineRun gc.limit (gc.seen g.tries)
  texts : readLines gc.decode g.ls.lines = (g.out, none)

theorem readLines_append (decode : Bytes → Except Exc Text) (a b : List Bytes) (ta : List Text)
    (h : readLines decode a = (ta, none)) :
    readLines decode (a ++ b) = (ta ++ (readLines decode b).1, (readLines decode b).2) := by
  induction a generalizing ta with
  | nil => cases h; rfl
  | cons x xs ih =>
    simp only [List.cons_append, readLines] at h ⊢
    cases hx : decode x with
    | error e => rw [hx] at h; cases h
    | ok t =>
      rw [hx] at h
      simp only [Prod.mk.injEq] at h ⊢
      have := ih (readLines decode xs).1 (Prod.ext rfl h.2)
      rw [this, ← h.1]
      simp

theorem seen_succ (gc : GenCfg) (n : Nat) : gc.seen (n + 1) = gc.seen n ++ ((gc.arrive n).map Arrival.ev ++ [.go]) := by
  unfold GenCfg.seen
  rw [List.range_succ, List.flatMap_append]
  simp

theorem lineRun_append (limit : Nat) (a b : List SEv) : lineRun limit (a ++ b) = b.foldl (lineStep limit) (lineRun limit a) := by
  unfold lineRun
  rw [List.foldl_append]

theorem arrivals_lines (limit : Nat) (l : List Arrival) (s : LineSt) :
    (l.foldl (fun s a => lineStep limit s a.ev) s).lines = s.lines := by
  induction l generalizing s with
  | nil => rfl
  | cons a l ih =>
    rw [List.foldl_cons, ih]
    cases a
    · rfl
    · rfl
    · simp only [Arrival.ev, lineStep]
      split <;> rfl

/-- One attempt to read adds at most one line. -/
theorem go_lines (limit : Nat) (s : LineSt) :
    (lineStep limit s .go).lines = s.lines ∨
      ((lineStep limit s .go).st = .running ∧ ∃ l, (lineStep limit s .go).lines = s.lines ++ [l]) := by
  unfold lineStep
  simp only []
  split
  · exact .inl rfl
  · rename_i hst
    have hst : s.st = .running := by simpa using hst
    split
    · split
      · exact .inl rfl
      · exact .inr ⟨hst, _, rfl⟩
    · split
      · exact .inl rfl
      · split
        · split
          · exact .inl rfl
          · exact .inr ⟨hst, _, rfl⟩
        · exact .inl rfl

theorem genTry_spec {gc : GenCfg} {g : GenSt} (h : GInv gc g) :
    (genTry gc g).1.ls = lineRun gc.limit (gc.seen (genTry gc g).1.tries) ∧
    ((genTry gc g).2 = .wait ∨ (genTry gc g).2 = .yield → GInv gc (genTry gc g).1) ∧
    ((genTry gc g).2 = .stop none → GInv gc (genTry gc g).1 ∧ (genTry gc g).1.ls.st = .done) ∧
    (∃ l, (genTry gc g).1.out = g.out ++ l) ∧
    (readLines gc.decode (genTry gc g).1.ls.lines).1 = (genTry gc g).1.out := by
  have hls : lineStep gc.limit ((gc.arrive g.tries).foldl (fun s a => lineStep gc.limit s a.ev) g.ls) .go =
      lineRun gc.limit (gc.seen (g.tries + 1)) := by
    rw [seen_succ, lineRun_append, ← h.ls, List.foldl_append, List.foldl_map]
    rfl
  have har := arrivals_lines gc.limit (gc.arrive g.tries) g.ls
  unfold genTry
  simp only []
  generalize hs : (gc.arrive g.tries).foldl (fun s a => lineStep gc.limit s a.ev) g.ls = s at hls har ⊢
  have hgo := go_lines gc.limit s
  generalize hs' : lineStep gc.limit s .go = s' at hls hgo ⊢
  have same : s'.lines = s.lines → readLines gc.decode s'.lines = (g.out, none) := by
    intro hl
    rw [hl, har]
    exact h.texts
  cases hst : s'.st with
  | raised e =>
    refine ⟨hls, by simp, by simp, ⟨[], by simp⟩, ?_⟩
    rcases hgo with hl | ⟨hr, _⟩
    · exact congrArg Prod.fst (same hl)
    · rw [hst] at hr; cases hr
  | done =>
    simp only []
    have hl : s'.lines = s.lines := by
      rcases hgo with hl | ⟨hr, _⟩
      · exact hl
      · rw [hst] at hr; cases hr
    exact ⟨hls, by simp, fun _ => ⟨⟨hls, same hl⟩, hst⟩, ⟨[], by simp⟩, congrArg Prod.fst (same hl)⟩
  | running =>
    simp only []
    rcases hgo with hl | ⟨_, l, hl⟩
    · rw [hl, List.drop_length]
      exact ⟨hls, fun _ => ⟨hls, same hl⟩, by simp, ⟨[], by simp⟩, congrArg Prod.fst (same hl)⟩
    · rw [hl, List.drop_left]
      simp only []
      cases hd : gc.decode l with
      | error e =>
        refine ⟨hls, by simp, by simp, ⟨[], by simp⟩, ?_⟩
        change (readLines gc.decode s'.lines).1 = g.out
        rw [hl, har, readLines_append _ _ _ _ h.texts]
        simp [readLines, hd]
      | ok t =>
        have key : readLines gc.decode s'.lines = (g.out ++ [t], none) := by
          rw [hl, har, readLines_append _ _ _ _ h.texts]
          simp [readLines, hd]
        exact ⟨hls, fun _ => ⟨hls, key⟩, by simp, ⟨[t], rfl⟩, congrArg Prod.fst key⟩

/-- How the generator's part of the run has ended. -/
structure GEnd (gc : GenCfg) (r : Option Exc) (g : GenSt) : Prop where
  ls : g.ls = lineRun gc.limit (gc.seen g.tries)
  texts : r = none → readLines gc.decode g.ls.lines = (g.out, none)
  done : r = none → gc.stream = true → g.ls.st = .done
  out : (readLines gc.decode g.ls.lines).1 = g.out
  none_ : gc.stream = false → g = {}

/-- The first component of a value. -/
def firstOut {α β : Type} (r : Out (α × β) × W × List Ev) : Out α × W × List Ev :=
  match r with
  | (.ok (a, _), w, evs) => (.ok a, w, evs)
  | (.exc e, w, evs) => (.exc e, w, evs)
  | (.blocked, w, evs) => (.blocked, w, evs)

theorem attempt_userBody_cons {w w' : W} {ev : Ev} (h : ∀ l, userBodyLoop w (ev :: l) = userBodyLoop w' l) (l : List Ev) :
    attempt userBody w (ev :: l) = attempt userBody w' l := by
  rw [attempt_eq, attempt_eq]
  change (match userBodyLoop w (ev :: l) with
    | (.ok _, w, evs) => (Out.ok none, w, evs)
    | (.exc e, w, evs) => (.ok (some e), w, evs)
    | (.blocked, w, evs) => (.blocked, w, evs)) = _
  rw [h]
  rfl

/-- What the generator does, a block of the user's could do. -/
theorem genLoop_block (gc : GenCfg) (y : Bool) (g : GenSt) (h : GInv gc g) (w : W) (evs : List Ev) :
    (∃ evs', attempt userBody w evs' = firstOut (genLoop gc y g w evs)) ∧
      (∀ e, (genLoop gc y g w evs).1 ≠ .exc e) ∧
      ∀ r g', (genLoop gc y g w evs).1 = .ok (r, g') → gc.stream = true → GEnd gc r g' := by
  have raised : ∀ (w : W) (e : Exc) (l : List Ev), ∃ evs', attempt userBody w evs' = (.ok (some e), w, l) :=
    fun w e l => ⟨.bodyDone (some e) :: l, rfl⟩
  have cons : ∀ {w w' : W} {ev : Ev} {x : Out (Option Exc) × W × List Ev},
      (∀ l, userBodyLoop w (ev :: l) = userBodyLoop w' l) → (∃ evs', attempt userBody w' evs' = x) →
      ∃ evs', attempt userBody w evs' = x := by
    intro w w' ev x h ⟨evs', hx⟩
    exact ⟨ev :: evs', by rw [attempt_userBody_cons h, hx]⟩
  have gend : ∀ {g : GenSt} {e : Exc}, GInv gc g → gc.stream = true → GEnd gc (some e) g := fun h hs =>
    ⟨h.ls, by simp, by simp, congrArg Prod.fst h.texts, by simp [hs]⟩
  induction evs generalizing y g w with
  | nil => exact ⟨⟨[], rfl⟩, by simp [genLoop], by simp [genLoop]⟩
  | cons ev evs ih =>
    have step : ∀ w' g' y', GInv gc g' → genLoop gc y g w (ev :: evs) = genLoop gc y' g' w' evs →
        (∀ l, userBodyLoop w (ev :: l) = userBodyLoop w' l) →
        (∃ evs', attempt userBody w evs' = firstOut (genLoop gc y g w (ev :: evs))) ∧
          (∀ e, (genLoop gc y g w (ev :: evs)).1 ≠ .exc e) ∧
          ∀ r g', (genLoop gc y g w (ev :: evs)).1 = .ok (r, g') → gc.stream = true → GEnd gc r g' := by
      intro w' g' y' hg hx hu
      rw [hx]
      obtain ⟨i1, i2⟩ := ih y' g' hg w'
      exact ⟨cons hu i1, i2⟩
    cases ev with
    | resume =>
      by_cases hc : (!y && w.mustCancel) = true
      · have hx : genLoop gc y g w (.resume :: evs) = (.ok (some .cancelled, g), w.throwCancel, evs) := by
          simp only [genLoop, hc, if_true]
        rw [hx]
        refine ⟨?_, by simp, ?_⟩
        · refine cons (w' := w.throwCancel) (ev := .bodyGotCancel) ?_ (raised _ _ _)
          intro l
          have : w.mustCancel = true := by simp_all
          simp [userBodyLoop, this]
        · intro r g' hr hst
          cases hr
          exact gend h hst
      · obtain ⟨t1, t2, t3, _, t5⟩ := genTry_spec h
        rcases ht : genTry gc g with ⟨g', n⟩
        rw [ht] at t1 t2 t3 t5
        cases n with
        | wait => exact step w g' false (t2 (.inl rfl)) (by simp only [genLoop, hc, ht]; rfl) fun _ => rfl
        | yield => exact step w g' true (t2 (.inr rfl)) (by simp only [genLoop, hc, ht]; rfl) fun _ => rfl
        | stop e =>
          have hx : genLoop gc y g w (.resume :: evs) = (.ok (e, g'), w, evs) := by
            simp only [genLoop, hc, ht]; rfl
          rw [hx]
          refine ⟨⟨.bodyDone e :: evs, by cases e <;> rfl⟩, by simp, ?_⟩
          intro r g'' hr hst
          cases hr
          refine ⟨t1, ?_, ?_, t5, by simp [hst]⟩
          · rintro rfl; exact (t3 rfl).1.texts
          · rintro rfl _; exact (t3 rfl).2
    | bodyDone e =>
      cases e with
      | none =>
        obtain ⟨i1, i2⟩ := ih y g h w
        exact ⟨i1, i2⟩
      | some e =>
        cases y with
        | true =>
          refine ⟨⟨.bodyDone (some e) :: evs, rfl⟩, by simp [genLoop], ?_⟩
          intro r g' hr hst
          cases hr
          exact gend h hst
        | false =>
          obtain ⟨i1, i2⟩ := ih false g h w
          exact ⟨i1, i2⟩
    | bodyGotCancel =>
      by_cases hc : (y && w.mustCancel) = true
      · refine step w.throwCancel g y h (by simp only [genLoop, hc, if_true]) ?_
        intro l
        have : w.mustCancel = true := by simp_all
        simp [userBodyLoop, this]
      · obtain ⟨i1, i2⟩ := ih y g h w
        have hx : genLoop gc y g w (.bodyGotCancel :: evs) = genLoop gc y g w evs := by simp only [genLoop, hc]; rfl
        rw [hx]
        exact ⟨i1, i2⟩
    | _ => exact step _ g y h rfl fun _ => rfl

theorem genBody_block (gc : GenCfg) (w : W) (evs : List Ev) :
    (∃ evs', attempt userBody w evs' = firstOut (genBody gc w evs)) ∧
      (∀ e, (genBody gc w evs).1 ≠ .exc e) ∧
      ∀ r g', (genBody gc w evs).1 = .ok (r, g') → GEnd gc r g' := by
  unfold genBody
  cases hst : gc.stream with
  | false =>
    refine ⟨⟨.bodyDone none :: evs, rfl⟩, by simp, ?_⟩
    intro r g' hr
    cases hr
    exact ⟨rfl, fun _ => rfl, by simp [hst], rfl, fun _ => rfl⟩
  | true =>
    have h0 : GInv gc {} := ⟨rfl, rfl⟩
    obtain ⟨t1, t2, t3, _, t5⟩ := genTry_spec h0
    rcases ht : genTry gc {} with ⟨g', n⟩
    rw [ht] at t1 t2 t3 t5
    cases n with
    | wait =>
      obtain ⟨a, b, c⟩ := genLoop_block gc false g' (t2 (.inl rfl)) w evs
      exact ⟨a, b, fun r g hr => c r g hr hst⟩
    | yield =>
      obtain ⟨a, b, c⟩ := genLoop_block gc true g' (t2 (.inr rfl)) w evs
      exact ⟨a, b, fun r g hr => c r g hr hst⟩
    | stop e =>
      refine ⟨⟨.bodyDone e :: evs, by cases e <;> rfl⟩, by simp, ?_⟩
      intro r g'' hr
      cases hr
      refine ⟨t1, ?_, ?_, t5, by simp [hst]⟩
      · rintro rfl; exact (t3 rfl).1.texts
      · rintro rfl _; exact (t3 rfl).2

/-- The end of an iteration, after the generator's part of the run. -/
def iterTail (cfg : RCfg) (r : Option Exc) (g : GenSt) : Coro (Option Exc × GenSt) := do
  let x ← attemptValue (aexit cfg r)
  match x, r with
  | .inl e, _ => Coro.pure (some e, g)
  | .inr _, none => Coro.pure (none, g)
  | .inr suppress, some e => Coro.pure (if suppress then none else some e, g)

theorem iterTail_eq (cfg : RCfg) (r : Option Exc) (g : GenSt) (w : W) (evs : List Ev) :
    iterTail cfg r g w evs = match runTail cfg r w evs with
      | (.ok _, w', l) => (.ok (none, g), w', l)
      | (.exc e, w', l) => (.ok (some e, g), w', l)
      | (.blocked, w', l) => (.blocked, w', l) := by
  unfold iterTail runTail
  simp only [Bind.bind, Coro.bind, attemptValue]
  rcases aexit cfg r w evs with ⟨o, w', l⟩
  cases o with
  | blocked => rfl
  | exc e => rfl
  | ok b =>
    cases r with
    | none => rfl
    | some e => cases b <;> rfl

theorem iterate_launch_exc {cfg : RCfg} {gc : GenCfg} {w w1 : W} {evs l : List Ev} {e : Exc}
    (h : aenter cfg w evs = (.exc e, w1, l)) : iterate cfg gc w evs = (.ok (some e, {}), w1, l) := by
  unfold iterate
  rw [bind_ok (a := some e) (w' := w1) (evs' := l) (by rw [attempt_eq, h])]
  rfl

theorem iterate_launch_blocked {cfg : RCfg} {gc : GenCfg} {w w1 : W} {evs l : List Ev}
    (h : aenter cfg w evs = (.blocked, w1, l)) : iterate cfg gc w evs = (.blocked, w1, l) := by
  unfold iterate
  rw [bind_blocked (w' := w1) (evs' := l) (by rw [attempt_eq, h])]

theorem iterate_body {cfg : RCfg} {gc : GenCfg} {w w1 w2 : W} {evs l l2 : List Ev} {r : Option Exc} {g : GenSt}
    (h : aenter cfg w evs = (.ok (), w1, l)) (hb : genBody gc (w1.log .bodyStart) l = (.ok (r, g), w2, l2)) :
    iterate cfg gc w evs = iterTail cfg r g (w2.log (.bodyEnd r)) l2 := by
  unfold iterate
  rw [bind_ok (a := none) (w' := w1) (evs' := l) (by rw [attempt_eq, h])]
  simp only []
  rw [bind_ok (a := ()) (w' := w1.log .bodyStart) (evs' := l) rfl, bind_ok hb]
  simp only []
  rw [bind_ok (a := ()) (w' := w2.log (.bodyEnd r)) (evs' := l2) rfl]
  rfl

theorem iterate_body_blocked {cfg : RCfg} {gc : GenCfg} {w w1 w2 : W} {evs l l2 : List Ev}
    (h : aenter cfg w evs = (.ok (), w1, l)) (hb : genBody gc (w1.log .bodyStart) l = (.blocked, w2, l2)) :
    iterate cfg gc w evs = (.blocked, w2, l2) := by
  unfold iterate
  rw [bind_ok (a := none) (w' := w1) (evs' := l) (by rw [attempt_eq, h])]
  simp only []
  rw [bind_ok (a := ()) (w' := w1.log .bodyStart) (evs' := l) rfl, bind_blocked hb]

theorem execute_block_eq (cfg : RCfg) (w : W) (evs : List Ev) :
    execute .block cfg w evs = ((withRun cfg userBody w evs).1.asBlock, (withRun cfg userBody w evs).2.1) := by
  unfold execute
  rcases withRun cfg userBody w evs with ⟨o, w', l⟩
  cases o <;> rfl

/-- What is known of an iteration that has ended: `r` is the exception of the generator's part of the run. -/
inductive IterEnd (gc : GenCfg) (w' : W) (g : GenSt) (o : Option Exc) : Prop
  | launch (e : Exc) : o = some e → g = {} → IterEnd gc w' g o
  | body (r : Option Exc) : .bodyEnd r ∈ w'.trace → GEnd gc r g → IterEnd gc w' g o

theorem runTail_trace {cfg : RCfg} {r : Option Exc} {w : W} {evs : List Ev} {o : Obs} (h : o ∈ w.trace) :
    o ∈ (runTail cfg r w evs).2.1.trace := by
  have ha : Pres (fun w' => ∃ l, w'.trace = w.trace ++ l) (runTail cfg r) := by
    refine .bind ((fstable_trace w.trace).aexit cfg r) fun b => ?_
    cases r with
    | none => exact .pure _
    | some e => exact .ite (.pure _) (.raise _)
  obtain ⟨l, hl⟩ := ha w ⟨[], by simp⟩ evs
  rw [hl]
  exact List.mem_append_left _ h

/-- An iteration does what some `async with` block does. -/
theorem iterate_block (cfg : RCfg) (gc : GenCfg) (w : W) (evs : List Ev) :
    (∃ evs', execute .block cfg w evs' = ((iterate cfg gc w evs).1.asLoop, (iterate cfg gc w evs).2.1)) ∧
      (∀ e, (iterate cfg gc w evs).1 ≠ .exc e) ∧
      ∀ o g, (iterate cfg gc w evs).1 = .ok (o, g) → IterEnd gc (iterate cfg gc w evs).2.1 g o := by
  have hpre := (Frame.aenter cfg).pre w evs
  rcases ha : aenter cfg w evs with ⟨o, w1, l⟩
  rw [ha] at hpre
  cases o with
  | blocked =>
    rw [iterate_launch_blocked ha]
    exact ⟨⟨evs, by rw [execute_block_eq, withRun_enter_blocked ha]; rfl⟩, by simp, by simp⟩
  | exc e =>
    rw [iterate_launch_exc ha]
    refine ⟨⟨evs, by rw [execute_block_eq, withRun_enter_exc ha]; rfl⟩, by simp, ?_⟩
    intro o g h
    cases h
    exact .launch e rfl rfl
  | ok _ =>
    obtain ⟨pre, h1, h2⟩ := hpre (by simp)
    obtain ⟨⟨l', hl'⟩, hne, hend⟩ := genBody_block gc (w1.log .bodyStart) l
    have ha' : aenter cfg w (pre ++ l') = (.ok (), w1, l') := h2 l'
    rcases hb : genBody gc (w1.log .bodyStart) l with ⟨o, w2, l2⟩
    rw [hb] at hl' hne hend
    cases o with
    | exc e => exact absurd rfl (hne e)
    | blocked =>
      rw [iterate_body_blocked ha hb]
      exact ⟨⟨pre ++ l', by rw [execute_block_eq, withRun_body_blocked ha' hl']; rfl⟩, by simp, by simp⟩
    | ok x =>
      obtain ⟨r, g⟩ := x
      rw [iterate_body ha hb, iterTail_eq]
      have hx := withRun_body ha' hl'
      have ht := runTail_trace (cfg := cfg) (r := r) (w := w2.log (.bodyEnd r)) (evs := l2) (o := .bodyEnd r) (by simp [W.log])
      rcases hq : runTail cfg r (w2.log (.bodyEnd r)) l2 with ⟨o, w3, l3⟩
      rw [hq] at hx ht
      cases o with
      | blocked => exact ⟨⟨pre ++ l', by rw [execute_block_eq, hx]; rfl⟩, by simp, by simp⟩
      | ok _ =>
        refine ⟨⟨pre ++ l', by rw [execute_block_eq, hx]; rfl⟩, by simp, ?_⟩
        intro o g' h
        cases h
        exact .body r ht (hend r g rfl)
      | exc e =>
        refine ⟨⟨pre ++ l', by rw [execute_block_eq, hx]; rfl⟩, by simp, ?_⟩
        intro o g' h
        cases h
        exact .body r ht (hend r g rfl)


/-! ## Pipelines -/

/-- The end of the `async with` of a pipeline, after its body. -/
def pipeTail (r : Option Exc) : Coro (Option (List TOut)) := do
  let (suppress, results) ← pipeAexit r
  match r with
  | none => Coro.pure results
  | some e => if suppress then Coro.pure results else Coro.raise e

theorem withPipe_tail {cfg : PRCfg} {b : Bool} {body : Coro Unit} {w w1 w2 : W} {evs r r2 : List Ev} {ex : Option Exc}
    (h : pipeAenter cfg b w evs = (.ok (), w1, r)) (hb : attempt body (w1.log .bodyStart) r = (.ok ex, w2, r2)) :
    withPipe cfg b body w evs = pipeTail ex (w2.log (.bodyEnd ex)) r2 := by
  unfold withPipe pipeTail
  rw [bind_ok h, bind_ok (a := ()) (w' := w1.log .bodyStart) (evs' := r) rfl, bind_ok hb,
    bind_ok (a := ()) (w' := w2.log (.bodyEnd ex)) (evs' := r2) rfl]
  cases ex <;> rfl

/-- The end of an iteration over a pipeline, after the generator's part of the run. -/
def pipeIterTail (r : Option Exc) (g : GenSt) : Coro (Option Exc × GenSt) := do
  let x ← attemptValue (pipeAexit r)
  match x, r with
  | .inl e, _ => Coro.pure (some e, g)
  | .inr _, none => Coro.pure (none, g)
  | .inr (suppress, _), some e => Coro.pure (if suppress then none else some e, g)

theorem pipeIterTail_eq (r : Option Exc) (g : GenSt) (w : W) (evs : List Ev) :
    pipeIterTail r g w evs = match pipeTail r w evs with
      | (.ok _, w', l) => (.ok (none, g), w', l)
      | (.exc e, w', l) => (.ok (some e, g), w', l)
      | (.blocked, w', l) => (.blocked, w', l) := by
  unfold pipeIterTail pipeTail
  simp only [Bind.bind, Coro.bind, attemptValue]
  rcases pipeAexit r w evs with ⟨o, w', l⟩
  cases o with
  | blocked => rfl
  | exc e => rfl
  | ok b =>
    obtain ⟨b, x⟩ := b
    cases r with
    | none => rfl
    | some e => cases b <;> rfl

theorem pipeIterate_launch_exc {cfg : PRCfg} {gc : GenCfg} {w w1 : W} {evs l : List Ev} {e : Exc}
    (h : pipeAenter cfg true w evs = (.exc e, w1, l)) : pipeIterate cfg gc w evs = (.ok (some e, {}), w1, l) := by
  unfold pipeIterate
  rw [bind_ok (a := some e) (w' := w1) (evs' := l) (by rw [attempt_eq, h])]
  rfl

theorem pipeIterate_launch_blocked {cfg : PRCfg} {gc : GenCfg} {w w1 : W} {evs l : List Ev}
    (h : pipeAenter cfg true w evs = (.blocked, w1, l)) : pipeIterate cfg gc w evs = (.blocked, w1, l) := by
  unfold pipeIterate
  rw [bind_blocked (w' := w1) (evs' := l) (by rw [attempt_eq, h])]

theorem pipeIterate_body {cfg : PRCfg} {gc : GenCfg} {w w1 w2 : W} {evs l l2 : List Ev} {r : Option Exc} {g : GenSt}
    (h : pipeAenter cfg true w evs = (.ok (), w1, l)) (hb : genBody gc (w1.log .bodyStart) l = (.ok (r, g), w2, l2)) :
    pipeIterate cfg gc w evs = pipeIterTail r g (w2.log (.bodyEnd r)) l2 := by
  unfold pipeIterate
  rw [bind_ok (a := none) (w' := w1) (evs' := l) (by rw [attempt_eq, h])]
  simp only []
  rw [bind_ok (a := ()) (w' := w1.log .bodyStart) (evs' := l) rfl, bind_ok hb]
  simp only []
  rw [bind_ok (a := ()) (w' := w2.log (.bodyEnd r)) (evs' := l2) rfl]
  rfl

theorem pipeIterate_body_blocked {cfg : PRCfg} {gc : GenCfg} {w w1 w2 : W} {evs l l2 : List Ev}
    (h : pipeAenter cfg true w evs = (.ok (), w1, l)) (hb : genBody gc (w1.log .bodyStart) l = (.blocked, w2, l2)) :
    pipeIterate cfg gc w evs = (.blocked, w2, l2) := by
  unfold pipeIterate
  rw [bind_ok (a := none) (w' := w1) (evs' := l) (by rw [attempt_eq, h])]
  simp only []
  rw [bind_ok (a := ()) (w' := w1.log .bodyStart) (evs' := l) rfl, bind_blocked hb]

theorem pipeExecute_block_eq (cfg : PRCfg) (w : W) (evs : List Ev) :
    pipeExecute .block cfg w evs =
      (match (withPipe cfg true userBody w evs).1 with
        | .ok _ => .ok none
        | .exc e => .exc e
        | .blocked => .blocked, (withPipe cfg true userBody w evs).2.1) := by
  unfold pipeExecute pipeBlock
  rcases withPipe cfg true userBody w evs with ⟨o, w', l⟩
  cases o <;> rfl

theorem pstable_trace (t : List Obs) : PStable fun w => ∃ l, w.trace = t ++ l :=
  { (fstable_trace t) with }

theorem pipeTail_trace {r : Option Exc} {w : W} {evs : List Ev} {o : Obs} (h : o ∈ w.trace) :
    o ∈ (pipeTail r w evs).2.1.trace := by
  have ha : Pres (fun w' => ∃ l, w'.trace = w.trace ++ l) (pipeTail r) := by
    refine .bind ((pstable_trace w.trace).pipeAexit r) fun b => ?_
    cases r with
    | none => exact .pure _
    | some e => exact .ite (.pure _) (.raise _)
  obtain ⟨l, hl⟩ := ha w ⟨[], by simp⟩ evs
  rw [hl]
  exact List.mem_append_left _ h

/-- An iteration over a pipeline does what some `async with` block does. -/
theorem pipeIterate_block (cfg : PRCfg) (gc : GenCfg) (w : W) (evs : List Ev) :
    (∃ evs', pipeExecute .block cfg w evs' =
      ((pipeIterate cfg gc w evs).1.asLoop, (pipeIterate cfg gc w evs).2.1)) ∧
      (∀ e, (pipeIterate cfg gc w evs).1 ≠ .exc e) ∧
      ∀ o g, (pipeIterate cfg gc w evs).1 = .ok (o, g) → IterEnd gc (pipeIterate cfg gc w evs).2.1 g o := by
  have hpre := (Frame.pipeAenter cfg true).pre w evs
  rcases ha : pipeAenter cfg true w evs with ⟨o, w1, l⟩
  rw [ha] at hpre
  cases o with
  | blocked =>
    rw [pipeIterate_launch_blocked ha]
    exact ⟨⟨evs, by rw [pipeExecute_block_eq, withPipe_enter_blocked ha]; rfl⟩, by simp, by simp⟩
  | exc e =>
    rw [pipeIterate_launch_exc ha]
    refine ⟨⟨evs, by rw [pipeExecute_block_eq, withPipe_enter_exc ha]; rfl⟩, by simp, ?_⟩
    intro o g h
    cases h
    exact .launch e rfl rfl
  | ok _ =>
    obtain ⟨pre, h1, h2⟩ := hpre (by simp)
    obtain ⟨⟨l', hl'⟩, hne, hend⟩ := genBody_block gc (w1.log .bodyStart) l
    have ha' : pipeAenter cfg true w (pre ++ l') = (.ok (), w1, l') := h2 l'
    rcases hb : genBody gc (w1.log .bodyStart) l with ⟨o, w2, l2⟩
    rw [hb] at hl' hne hend
    cases o with
    | exc e => exact absurd rfl (hne e)
    | blocked =>
      rw [pipeIterate_body_blocked ha hb]
      exact ⟨⟨pre ++ l', by rw [pipeExecute_block_eq, withPipe_body_blocked ha' hl']; rfl⟩, by simp, by simp⟩
    | ok x =>
      obtain ⟨r, g⟩ := x
      rw [pipeIterate_body ha hb, pipeIterTail_eq]
      have hx := withPipe_tail ha' hl'
      have ht := pipeTail_trace (r := r) (w := w2.log (.bodyEnd r)) (evs := l2) (o := .bodyEnd r) (by simp [W.log])
      rcases hq : pipeTail r (w2.log (.bodyEnd r)) l2 with ⟨o, w3, l3⟩
      rw [hq] at hx ht
      cases o with
      | blocked => exact ⟨⟨pre ++ l', by rw [pipeExecute_block_eq, hx]; rfl⟩, by simp, by simp⟩
      | ok _ =>
        refine ⟨⟨pre ++ l', by rw [pipeExecute_block_eq, hx]; rfl⟩, by simp, ?_⟩
        intro o g' h
        cases h
        exact .body r ht (hend r g rfl)
      | exc e =>
        refine ⟨⟨pre ++ l', by rw [pipeExecute_block_eq, hx]; rfl⟩, by simp, ?_⟩
        intro o g' h
        cases h
        exact .body r ht (hend r g rfl)

end Shellous
