import Verif.Spec.SubstDet
import Verif.Props.Subst

/-! # C92: command lines with process substitution are deterministic -/

namespace Shellous.Subst

variable {S : Type}

/-! ## What one node did: a function of what it was answered -/

structure Loc (S : Type) where
  st : S
  ended : Bool := false
  wrote : Nat → List Byte := fun _ => []
  nread : Nat → Nat := fun _ => 0
  closed : Nat → Bool := fun _ => false

def upd {α : Type} (f : Nat → α) (v : Nat) (x : α) : Nat → α := fun w => if w = v then x else f w

@[simp] theorem upd_same {α : Type} (f : Nat → α) (v : Nat) (x : α) : upd f v x v = x := by simp [upd]
theorem upd_ne {α : Type} (f : Nat → α) {v w : Nat} (x : α) (h : w ≠ v) : upd f v x w = f w := by simp [upd, h]

def lstep (cfg : Cfg S) (u : Nat) (l : Loc S) (r : Option Byte) : Loc S :=
  match cfg.act l.st with
  | .read v k =>
    if cfg.reader v = some u ∧ l.closed v = false then
      { l with st := k r, nread := upd l.nread v (l.nread v + if r.isSome then 1 else 0) }
    else { l with st := k none }
  | .write v b s =>
    if cfg.writer v = some u ∧ l.closed v = false then { l with st := s, wrote := upd l.wrote v (l.wrote v ++ [b]) }
    else { l with st := s }
  | .close v s => { l with st := s, closed := upd l.closed v (l.closed v || (decide (cfg.reader v = some u) || decide (cfg.writer v = some u))) }
  | .exit => { l with ended := true }

def rep (cfg : Cfg S) (u : Nat) (h : List (Option Byte)) : Loc S := h.foldl (lstep cfg u) { st := cfg.prog u }

theorem rep_snoc (cfg : Cfg S) (u : Nat) (h : List (Option Byte)) (r : Option Byte) : rep cfg u (h ++ [r]) = lstep cfg u (rep cfg u h) r := by
  simp [rep]

/-- The node is through with pipe `v`. -/
def Loc.done (l : Loc S) (v : Nat) : Bool := l.ended || l.closed v

/-- What only grows. -/
structure Loc.le (v : Nat) (l l' : Loc S) : Prop where
  wrote : l.wrote v <+: l'.wrote v
  nread : l.nread v ≤ l'.nread v
  closed : l.closed v = true → l'.closed v = true ∧ l'.wrote v = l.wrote v ∧ l'.nread v = l.nread v
  ended : l.ended = true → l'.ended = true

theorem Loc.le.refl (v : Nat) (l : Loc S) : Loc.le v l l := ⟨List.prefix_refl _, Nat.le_refl _, fun h => ⟨h, rfl, rfl⟩, id⟩

theorem Loc.le.trans {v : Nat} {a b c : Loc S} (h : Loc.le v a b) (h' : Loc.le v b c) : Loc.le v a c :=
  ⟨h.wrote.trans h'.wrote, Nat.le_trans h.nread h'.nread,
    fun hc => let ⟨x, y, z⟩ := h.closed hc; let ⟨x', y', z'⟩ := h'.closed x; ⟨x', y'.trans y, z'.trans z⟩, fun he => h'.ended (h.ended he)⟩

theorem lstep_le (cfg : Cfg S) (u v : Nat) (l : Loc S) (r : Option Byte) : Loc.le v l (lstep cfg u l r) := by
  unfold lstep
  split
  · rename_i w k _
    split
    · rename_i hh
      refine ⟨List.prefix_refl _, ?_, fun hc => ⟨hc, rfl, ?_⟩, id⟩
      · by_cases e : v = w
        · subst e; simp
        · simp [upd_ne _ _ e]
      · by_cases e : v = w
        · subst e; rw [hh.2] at hc; cases hc
        · simp [upd_ne _ _ e]
    · exact ⟨List.prefix_refl _, Nat.le_refl _, fun h => ⟨h, rfl, rfl⟩, id⟩
  · rename_i w b s _
    split
    · rename_i hh
      refine ⟨?_, Nat.le_refl _, fun hc => ⟨hc, ?_, rfl⟩, id⟩
      · by_cases e : v = w
        · subst e; simp
        · simp [upd_ne _ _ e]
      · by_cases e : v = w
        · subst e; rw [hh.2] at hc; cases hc
        · simp [upd_ne _ _ e]
    · exact ⟨List.prefix_refl _, Nat.le_refl _, fun h => ⟨h, rfl, rfl⟩, id⟩
  · rename_i w s _
    refine ⟨List.prefix_refl _, Nat.le_refl _, fun hc => ⟨?_, rfl, rfl⟩, id⟩
    by_cases e : v = w
    · subst e; simp [hc]
    · simp [upd_ne _ _ e, hc]
  · exact ⟨List.prefix_refl _, Nat.le_refl _, fun h => ⟨h, rfl, rfl⟩, fun _ => rfl⟩

theorem rep_le (cfg : Cfg S) (u v : Nat) {h h' : List (Option Byte)} (hp : h <+: h') : Loc.le v (rep cfg u h) (rep cfg u h') := by
  obtain ⟨x, rfl⟩ := hp
  unfold rep
  rw [List.foldl_append]
  generalize List.foldl (lstep cfg u) { st := cfg.prog u } h = l
  induction x generalizing l with
  | nil => exact .refl _ _
  | cons r x ih => exact (lstep_le cfg u v l r).trans (ih _)

/-! ## The net is a function of the histories -/

/-- Both ends of the pipes. -/
theorem ends_ne {cfg : Cfg S} (ht : Tree cfg.links) {v x y : Nat} (hx : cfg.reader v = some x) (hy : cfg.writer v = some y) : x ≠ y := by
  obtain ⟨l, h0, hl, ⟨rfl, rfl⟩ | ⟨rfl, rfl⟩⟩ := ends hx hy <;> have := ht _ _ h0 hl <;> omega

theorem reader_writer {cfg : Cfg S} {v x : Nat} (hx : cfg.reader v = some x) : ∃ y, cfg.writer v = some y := by
  unfold Cfg.reader at hx
  unfold Cfg.writer
  split at hx
  · cases hx
  · rename_i h
    rw [if_neg h]
    cases hl : cfg.links[v]? with
    | none => rw [hl] at hx; cases hx
    | some l => exact ⟨_, rfl⟩

theorem writer_reader {cfg : Cfg S} {v y : Nat} (hy : cfg.writer v = some y) : ∃ x, cfg.reader v = some x := by
  unfold Cfg.writer at hy
  unfold Cfg.reader
  split at hy
  · cases hy
  · rename_i h
    rw [if_neg h]
    cases hl : cfg.links[v]? with
    | none => rw [hl] at hy; cases hy
    | some l => exact ⟨_, rfl⟩

abbrev Hist := Nat → List (Option Byte)

structure PipeIs (p : Pipe) (v : Nat) (lr lw : Loc S) : Prop where
  buf : p.buf = (lw.wrote v).drop (lr.nread v)
  le : lr.nread v ≤ (lw.wrote v).length
  rc : p.rClosed = lr.closed v
  wc : p.wClosed = lw.closed v

structure Corr (cfg : Cfg S) (net : Net S) (h : Hist) : Prop where
  st : ∀ u, net.st u = (rep cfg u (h u)).st
  ended : ∀ u, net.ended u = (rep cfg u (h u)).ended
  pipe : ∀ v x y, cfg.reader v = some x → cfg.writer v = some y → PipeIs (net.pipe v) v (rep cfg x (h x)) (rep cfg y (h y))
  other : ∀ v, cfg.reader v = none → net.pipe v = {}

/-- The node is about to read from a pipe that is open for it. -/
def Reads (cfg : Cfg S) (u : Nat) (l : Loc S) (v : Nat) : Prop := ∃ k, cfg.act l.st = .read v k ∧ cfg.reader v = some u ∧ l.closed v = false

/-- The answer to it: the next byte, or `none` if there will be none. -/
def Answer (cfg : Cfg S) (h : Hist) (u : Nat) (l : Loc S) (r : Option Byte) : Prop :=
  (∀ v y, Reads cfg u l v → cfg.writer v = some y → r = ((rep cfg y (h y)).wrote v)[l.nread v]? ∧ (r = none → (rep cfg y (h y)).done v = true)) ∧
  ((∀ v, ¬ Reads cfg u l v) → r = none)

/-- One more answer. -/
def Hist.add (h : Hist) (u : Nat) (r : Option Byte) : Hist := upd h u (h u ++ [r])

theorem corr_init (cfg : Cfg S) : Corr cfg cfg.init (fun _ => []) :=
  ⟨fun _ => rfl, fun _ => rfl, fun _ _ _ _ _ => ⟨rfl, Nat.le_refl _, rfl, rfl⟩, fun _ _ => rfl⟩

/-- Changing the state of one node and one pipe. -/
theorem corr_add {cfg : Cfg S} {net net' : Net S} {h : Hist} (hc : Corr cfg net h) {u : Nat} {r : Option Byte}
    (hst : net'.st = upd net.st u (lstep cfg u (rep cfg u (h u)) r).st)
    (hen : net'.ended = upd net.ended u (lstep cfg u (rep cfg u (h u)) r).ended)
    (hpi : ∀ v x y, cfg.reader v = some x → cfg.writer v = some y →
      PipeIs (net'.pipe v) v (upd (fun w => rep cfg w (h w)) u (lstep cfg u (rep cfg u (h u)) r) x)
        (upd (fun w => rep cfg w (h w)) u (lstep cfg u (rep cfg u (h u)) r) y))
    (hot : ∀ v, cfg.reader v = none → net'.pipe v = {}) : Corr cfg net' (h.add u r) := by
  have hl : ∀ w, rep cfg w (h.add u r w) = upd (fun w => rep cfg w (h w)) u (lstep cfg u (rep cfg u (h u)) r) w := by
    intro w
    by_cases e : w = u
    · subst e; simp [Hist.add, rep_snoc]
    · simp [Hist.add, upd_ne _ _ e]
  refine ⟨fun w => ?_, fun w => ?_, fun v x y hx hy => ?_, hot⟩
  · rw [hst, hl]
    by_cases e : w = u
    · subst e; simp
    · simp [upd_ne _ _ e, hc.st]
  · rw [hen, hl]
    by_cases e : w = u
    · subst e; simp
    · simp [upd_ne _ _ e, hc.ended]
  · rw [hl, hl]; exact hpi v x y hx hy

/-- Nothing has changed at pipe `v`. -/
structure Loc.agree (v : Nat) (l l' : Loc S) : Prop where
  wrote : l'.wrote v = l.wrote v
  nread : l'.nread v = l.nread v
  closed : l'.closed v = l.closed v

theorem PipeIs.congr {p : Pipe} {v : Nat} {lr lw lr' lw' : Loc S} (h : PipeIs p v lr lw) (hr : lr.agree v lr') (hw : lw.agree v lw') : PipeIs p v lr' lw' :=
  ⟨by rw [hw.wrote, hr.nread]; exact h.buf, by rw [hw.wrote, hr.nread]; exact h.le, by rw [hr.closed]; exact h.rc, by rw [hw.closed]; exact h.wc⟩

theorem agree_upd (f : Nat → Loc S) {u v : Nat} {l' : Loc S} (h : (f u).agree v l') (x : Nat) : (f x).agree v (upd f u l' x) := by
  by_cases e : x = u
  · subst e; simpa using h
  · rw [upd_ne _ _ e]; exact ⟨rfl, rfl, rfl⟩

theorem corr_step {cfg : Cfg S} (ht : Tree cfg.links) {net net' : Net S} {h : Hist} (hc : Corr cfg net h) {u : Nat} (hs : cfg.step net u = some net')
    (hk : ¬ cfg.Killed net u) :
    ∃ r, Corr cfg net' (h.add u r) ∧ (rep cfg u (h u)).ended = false ∧ u < cfg.links.length ∧ Answer cfg h u (rep cfg u (h u)) r := by
  unfold Cfg.step at hs
  split at hs
  · rename_i hu
    have hen : (rep cfg u (h u)).ended = false := by rw [← hc.ended]; exact hu.2
    have hst := hc.st u
    have hpu : ∀ v x y, cfg.reader v = some x → cfg.writer v = some y → PipeIs (net.pipe v) v (rep cfg x (h x)) (rep cfg y (h y)) := hc.pipe
    have notReads : (∀ v k, cfg.act (net.st u) ≠ .read v k) → ∀ v, ¬ Reads cfg u (rep cfg u (h u)) v := by
      rintro hn v ⟨k, h1, -⟩
      rw [← hst] at h1; exact hn v k h1
    have quiet : (∀ v, ¬ Reads cfg u (rep cfg u (h u)) v) → Answer cfg h u (rep cfg u (h u)) none :=
      fun hn => ⟨fun v y hr => absurd hr (hn v), fun _ => rfl⟩
    -- nothing changes but the state
    have still : ∀ (s : S) (l' : Loc S), lstep cfg u (rep cfg u (h u)) none = l' → l'.st = s → l'.ended = false → (∀ v, (rep cfg u (h u)).agree v l') →
        Corr cfg (net.go u s) (h.add u none) := by
      intro s l' e1 e2 e3 e4
      refine corr_add hc ?_ ?_ ?_ hc.other
      · rw [e1, e2]; rfl
      · rw [e1, e3]
        funext w
        by_cases e : w = u
        · subst e; rw [upd_same]; exact hu.2
        · rw [upd_ne _ _ e]; rfl
      · intro v x y hx hy
        rw [e1]
        exact (hpu v x y hx hy).congr (agree_upd (fun w => rep cfg w (h w)) (e4 v) x) (agree_upd (fun w => rep cfg w (h w)) (e4 v) y)
    have upd_ended : ∀ b, b = false → upd net.ended u b = net.ended := by
      rintro b rfl
      funext w
      by_cases e : w = u
      · subst e; rw [upd_same]; exact hu.2.symm
      · rw [upd_ne _ _ e]
    cases ha : cfg.act (net.st u) with
    | read v k =>
      rw [ha] at hs
      simp only at hs
      have ha' : cfg.act (rep cfg u (h u)).st = .read v k := by rw [← hst]; exact ha
      split at hs
      · rename_i hv
        obtain ⟨y, hy⟩ := reader_writer hv.1
        have hp := hpu v u y hv.1 hy
        have hcl : (rep cfg u (h u)).closed v = false := by rw [← hp.rc]; exact hv.2
        have hR : Reads cfg u (rep cfg u (h u)) v := ⟨k, ha', hv.1, hcl⟩
        have huniq : ∀ w, Reads cfg u (rep cfg u (h u)) w → w = v := by
          rintro w ⟨k', h1, -⟩
          rw [ha'] at h1; cases h1; rfl
        split at hs
        · rename_i b rest hb
          cases hs
          have e : lstep cfg u (rep cfg u (h u)) (some b) =
              { rep cfg u (h u) with st := k (some b), nread := upd (rep cfg u (h u)).nread v ((rep cfg u (h u)).nread v + 1) } := by
            simp only [lstep, ha', if_pos (And.intro hv.1 hcl)]; rfl
          have hdrop := hp.buf.symm.trans hb
          have hget : ((rep cfg y (h y)).wrote v)[(rep cfg u (h u)).nread v]? = some b := by
            have := congrArg (·[0]?) hdrop
            simpa using this
          refine ⟨some b, ?_, hen, hu.1, ?_, fun hn => absurd hR (hn v)⟩
          · refine corr_add hc ?_ ?_ ?_ ?_
            · rw [e]; rfl
            · rw [e]; exact (upd_ended _ hen).symm
            · intro w x z hx hz
              rw [e]
              by_cases ew : w = v
              · subst ew
                rw [hv.1] at hx; cases hx
                rw [hy] at hz; cases hz
                have hne := ends_ne ht hv.1 hy
                rw [upd_same, upd_ne _ _ (Ne.symm hne)]
                have hlt : (rep cfg u (h u)).nread w < ((rep cfg y (h y)).wrote w).length := by
                  rw [List.getElem?_eq_some_iff] at hget
                  exact hget.1
                refine ⟨?_, ?_, ?_, ?_⟩
                · show (if w = w then _ else _ : Pipe).buf = _
                  rw [if_pos rfl]
                  simp only [upd_same]
                  rw [← List.drop_drop, hdrop]; rfl
                · simp only [upd_same]; exact hlt
                · show (if w = w then _ else _ : Pipe).rClosed = _
                  rw [if_pos rfl]; exact hp.rc
                · show (if w = w then _ else _ : Pipe).wClosed = _
                  rw [if_pos rfl]; exact hp.wc
              · have hpw := hpu w x z hx hz
                have hpe : ((net.go u (k (some b))).setPipe v { net.pipe v with buf := rest }).pipe w = net.pipe w := by
                  show (if w = v then _ else _) = _
                  rw [if_neg ew]; rfl
                rw [hpe]
                have hag : (rep cfg u (h u)).agree w
                    { rep cfg u (h u) with st := k (some b), nread := upd (rep cfg u (h u)).nread v ((rep cfg u (h u)).nread v + 1) } :=
                  ⟨rfl, upd_ne _ _ ew, rfl⟩
                exact hpw.congr (agree_upd (fun w => rep cfg w (h w)) hag x) (agree_upd (fun w => rep cfg w (h w)) hag z)
            · intro w hw
              have ew : w ≠ v := by rintro rfl; rw [hv.1] at hw; cases hw
              show (if w = v then _ else _) = _
              rw [if_neg ew]; exact hc.other w hw
          · intro w z hw hz
            have := huniq w hw; subst this
            rw [hy] at hz; cases hz
            exact ⟨hget.symm, fun h => by cases h⟩
        · rename_i hb
          split at hs
          · cases hs
          · rename_i hw
            cases hs
            have e : lstep cfg u (rep cfg u (h u)) none =
                { rep cfg u (h u) with st := k none, nread := upd (rep cfg u (h u)).nread v ((rep cfg u (h u)).nread v + 0) } := by
              simp only [lstep, ha', if_pos (And.intro hv.1 hcl)]; rfl
            refine ⟨none, still _ _ e rfl hen (fun w => ⟨rfl, ?_, rfl⟩), hen, hu.1, ?_, fun hn => absurd hR (hn v)⟩
            · by_cases ew : w = v
              · subst ew; simp
              · exact upd_ne _ _ ew
            · intro w z hw' hz
              have := huniq w hw'; subst this
              rw [hy] at hz; cases hz
              refine ⟨?_, fun _ => ?_⟩
              · have hl := hp.buf.symm.trans hb
                rw [List.drop_eq_nil_iff] at hl
                exact (List.getElem?_eq_none hl).symm
              · simp only [Cfg.wOpen, hy, hc.ended, hp.wc] at hw
                simp only [Loc.done]
                revert hw
                cases (rep cfg y (h y)).ended <;> cases (rep cfg y (h y)).closed w <;> simp
      · rename_i hv
        cases hs
        have hv' : ¬ (cfg.reader v = some u ∧ (rep cfg u (h u)).closed v = false) := by
          rintro ⟨h1, h2⟩
          obtain ⟨y, hy⟩ := reader_writer h1
          exact hv ⟨h1, by rw [(hpu v u y h1 hy).rc]; exact h2⟩
        have e : lstep cfg u (rep cfg u (h u)) none = { rep cfg u (h u) with st := k none } := by
          simp only [lstep, ha', if_neg hv']
        refine ⟨none, still _ _ e rfl hen (fun w => ⟨rfl, rfl, rfl⟩), hen, hu.1, quiet ?_⟩
        rintro w ⟨k', h1, h2, h3⟩
        rw [ha'] at h1; cases h1
        exact hv' ⟨h2, h3⟩
    | write v b s =>
      rw [ha] at hs
      simp only at hs
      have ha' : cfg.act (rep cfg u (h u)).st = .write v b s := by rw [← hst]; exact ha
      have hq := quiet (notReads (by intro v k e; rw [ha] at e; cases e))
      split at hs
      · rename_i hv
        obtain ⟨x, hx⟩ := writer_reader hv.1
        have hp := hpu v x u hx hv.1
        have hcl : (rep cfg u (h u)).closed v = false := by rw [← hp.wc]; exact hv.2
        split at hs
        · split at hs
          · cases hs
            have e : lstep cfg u (rep cfg u (h u)) none =
                { rep cfg u (h u) with st := s, wrote := upd (rep cfg u (h u)).wrote v ((rep cfg u (h u)).wrote v ++ [b]) } := by
              simp only [lstep, ha', if_pos (And.intro hv.1 hcl)]
            refine ⟨none, ?_, hen, hu.1, hq⟩
            refine corr_add hc ?_ ?_ ?_ ?_
            · rw [e]; rfl
            · rw [e]; exact (upd_ended _ hen).symm
            · intro w x' z hx' hz
              rw [e]
              by_cases ew : w = v
              · subst ew
                rw [hv.1] at hz; cases hz
                rw [hx] at hx'; cases hx'
                have hne := ends_ne ht hx hv.1
                rw [upd_same, upd_ne _ _ hne]
                refine ⟨?_, ?_, ?_, ?_⟩
                · show (if w = w then _ else _ : Pipe).buf = _
                  rw [if_pos rfl]
                  simp only [upd_same]
                  rw [List.drop_append_of_le_length hp.le, ← hp.buf]
                · simp only [upd_same, List.length_append]; have := hp.le; omega
                · show (if w = w then _ else _ : Pipe).rClosed = _
                  rw [if_pos rfl]; exact hp.rc
                · show (if w = w then _ else _ : Pipe).wClosed = _
                  rw [if_pos rfl]; exact hp.wc
              · have hpw := hpu w x' z hx' hz
                have hpe : ((net.go u s).setPipe v { net.pipe v with buf := (net.pipe v).buf ++ [b] }).pipe w = net.pipe w := by
                  show (if w = v then _ else _) = _
                  rw [if_neg ew]; rfl
                rw [hpe]
                have hag : (rep cfg u (h u)).agree w
                    { rep cfg u (h u) with st := s, wrote := upd (rep cfg u (h u)).wrote v ((rep cfg u (h u)).wrote v ++ [b]) } :=
                  ⟨upd_ne _ _ ew, rfl, rfl⟩
                exact hpw.congr (agree_upd (fun w => rep cfg w (h w)) hag x') (agree_upd (fun w => rep cfg w (h w)) hag z)
            · intro w hw
              have ew : w ≠ v := by rintro rfl; rw [hx] at hw; cases hw
              show (if w = v then _ else _) = _
              rw [if_neg ew]; exact hc.other w hw
          · cases hs
        · rename_i hro
          exact absurd ⟨v, b, s, ha, hv.1, hv.2, by simpa using hro⟩ hk
      · rename_i hv
        cases hs
        have hv' : ¬ (cfg.writer v = some u ∧ (rep cfg u (h u)).closed v = false) := by
          rintro ⟨h1, h2⟩
          obtain ⟨x, hx⟩ := writer_reader h1
          exact hv ⟨h1, by rw [(hpu v x u hx h1).wc]; exact h2⟩
        have e : lstep cfg u (rep cfg u (h u)) none = { rep cfg u (h u) with st := s } := by
          simp only [lstep, ha', if_neg hv']
        exact ⟨none, still _ _ e rfl hen (fun w => ⟨rfl, rfl, rfl⟩), hen, hu.1, hq⟩
    | close v s =>
      rw [ha] at hs
      simp only [Option.some.injEq] at hs
      subst hs
      have ha' : cfg.act (rep cfg u (h u)).st = .close v s := by rw [← hst]; exact ha
      have hq := quiet (notReads (by intro v k e; rw [ha] at e; cases e))
      have e : lstep cfg u (rep cfg u (h u)) none =
          { rep cfg u (h u) with st := s, closed := upd (rep cfg u (h u)).closed v ((rep cfg u (h u)).closed v || (decide (cfg.reader v = some u) || decide (cfg.writer v = some u))) } := by
        simp only [lstep, ha']
      refine ⟨none, ?_, hen, hu.1, hq⟩
      refine corr_add hc ?_ ?_ ?_ ?_
      · rw [e]; rfl
      · rw [e]; exact (upd_ended _ hen).symm
      · intro w x z hx hz
        rw [e]
        have hpw := hpu w x z hx hz
        by_cases ew : w = v
        · subst ew
          have hne := ends_ne ht hx hz
          refine ⟨?_, ?_, ?_, ?_⟩
          · show (if w = w then _ else _ : Pipe).buf = _
            rw [if_pos rfl]
            show (net.pipe w).buf = _
            rw [hpw.buf]
            by_cases e1 : x = u <;> by_cases e2 : z = u <;> simp [upd, e1, e2]
          · have := hpw.le
            by_cases e1 : x = u <;> by_cases e2 : z = u <;> simp_all [upd]
          · show (if w = w then _ else _ : Pipe).rClosed = _
            rw [if_pos rfl]
            show ((net.pipe w).rClosed || _) = _
            rw [hpw.rc, hx]
            by_cases e1 : x = u
            · subst e1; simp
            · rw [upd_ne _ _ e1]; simp [e1]
          · show (if w = w then _ else _ : Pipe).wClosed = _
            rw [if_pos rfl]
            show ((net.pipe w).wClosed || _) = _
            rw [hpw.wc, hz]
            by_cases e1 : z = u
            · subst e1; simp
            · rw [upd_ne _ _ e1]; simp [e1]
        · have hpe : (Net.setPipe (net.go u s) v { net.pipe v with
              rClosed := (net.pipe v).rClosed || decide (cfg.reader v = some u)
              wClosed := (net.pipe v).wClosed || decide (cfg.writer v = some u) }).pipe w = net.pipe w := by
            show (if w = v then _ else _) = _
            rw [if_neg ew]; rfl
          rw [hpe]
          have hag : (rep cfg u (h u)).agree w { rep cfg u (h u) with st := s, closed := upd (rep cfg u (h u)).closed v ((rep cfg u (h u)).closed v || (decide (cfg.reader v = some u) || decide (cfg.writer v = some u))) } :=
            ⟨rfl, rfl, upd_ne _ _ ew⟩
          exact hpw.congr (agree_upd (fun w => rep cfg w (h w)) hag x) (agree_upd (fun w => rep cfg w (h w)) hag z)
      · intro w hw
        by_cases ew : w = v
        · subst ew
          have hw' : cfg.writer w = none := by
            cases hh : cfg.writer w with
            | none => rfl
            | some y => obtain ⟨x, hx⟩ := writer_reader hh; rw [hx] at hw; cases hw
          show (if w = w then _ else _) = _
          rw [if_pos rfl]
          have := hc.other w hw
          simp [hw, hw', this]
        · show (if w = v then _ else _) = _
          rw [if_neg ew]; exact hc.other w hw
    | exit =>
      rw [ha] at hs
      simp only [Option.some.injEq] at hs
      subst hs
      have ha' : cfg.act (rep cfg u (h u)).st = .exit := by rw [← hst]; exact ha
      have hq := quiet (notReads (by intro v k e; rw [ha] at e; cases e))
      have e : lstep cfg u (rep cfg u (h u)) none = { rep cfg u (h u) with ended := true } := by
        simp only [lstep, ha']
      refine ⟨none, ?_, hen, hu.1, hq⟩
      refine corr_add hc ?_ ?_ ?_ hc.other
      · rw [e]
        funext w
        by_cases ew : w = u
        · subst ew; rw [upd_same]; exact hst
        · rw [upd_ne _ _ ew]; rfl
      · rw [e]; rfl
      · intro w x z hx hz
        rw [e]
        have hag : (rep cfg u (h u)).agree w { rep cfg u (h u) with ended := true } := ⟨rfl, rfl, rfl⟩
        exact (hpu w x z hx hz).congr (agree_upd (fun w => rep cfg w (h w)) hag x) (agree_upd (fun w => rep cfg w (h w)) hag z)
  · cases hs

/-! ## The histories of a complete execution -/

/-- Each answer was right, and nobody goes on after the end. -/
def Val (cfg : Cfg S) (h : Hist) : Prop :=
  ∀ u h1 r h2, h u = h1 ++ r :: h2 → (rep cfg u h1).ended = false ∧ Answer cfg h u (rep cfg u h1) r

theorem answer_add {cfg : Cfg S} {h : Hist} {u0 : Nat} {r0 : Option Byte} (h0 : (rep cfg u0 (h u0)).ended = false) {u : Nat} {l : Loc S} {r : Option Byte}
    (ha : Answer cfg h u l r) : Answer cfg (h.add u0 r0) u l r := by
  refine ⟨fun v y hr hy => ?_, ha.2⟩
  obtain ⟨h1, h2⟩ := ha.1 v y hr hy
  by_cases e : y = u0
  · subst e
    have e1 : rep cfg y (h.add y r0 y) = lstep cfg y (rep cfg y (h y)) r0 := by simp [Hist.add, rep_snoc]
    rw [e1]
    have hle := lstep_le cfg y v (rep cfg y (h y)) r0
    cases r with
    | some b =>
      refine ⟨?_, fun h => by cases h⟩
      obtain ⟨x, hx⟩ := hle.wrote
      rw [← hx]
      have hlt := (List.getElem?_eq_some_iff.1 h1.symm).1
      rw [List.getElem?_append_left hlt]; exact h1
    | none =>
      have hd := h2 rfl
      simp only [Loc.done, h0, Bool.false_or] at hd
      obtain ⟨c1, c2, -⟩ := hle.closed hd
      exact ⟨by rw [c2]; exact h1, fun _ => by simp [Loc.done, c1]⟩
  · have e1 : h.add u0 r0 y = h y := upd_ne _ _ e
    rw [e1]; exact ⟨h1, h2⟩

theorem val_add {cfg : Cfg S} {h : Hist} (hv : Val cfg h) {u : Nat} {r : Option Byte} (he : (rep cfg u (h u)).ended = false)
    (ha : Answer cfg h u (rep cfg u (h u)) r) : Val cfg (h.add u r) := by
  intro w h1 r1 h2 hw
  by_cases e : w = u
  · subst e
    rw [Hist.add, upd_same] at hw
    rcases List.eq_nil_or_concat h2 with rfl | ⟨h3, r3, rfl⟩
    · obtain ⟨rfl, hr⟩ := List.append_inj' hw rfl
      cases hr
      exact ⟨he, answer_add he ha⟩
    · have : h w ++ [r] = (h1 ++ r1 :: h3) ++ [r3] := by rw [hw]; simp
      obtain ⟨e1, -⟩ := List.append_inj' this rfl
      have := hv w h1 r1 h3 e1
      exact ⟨this.1, answer_add he this.2⟩
  · rw [Hist.add, upd_ne _ _ e] at hw
    have := hv w h1 r1 h2 hw
    exact ⟨this.1, answer_add he this.2⟩

/-- The number of steps. -/
def Hist.total (h : Hist) (n : Nat) : Nat := ((List.range n).map fun u => (h u).length).sum

theorem total_add (h : Hist) {u n : Nat} (hu : u < n) (r : Option Byte) : (h.add u r).total n = h.total n + 1 := by
  unfold Hist.total
  induction n with
  | zero => omega
  | succ n ih =>
    rw [List.range_succ, List.map_append, List.map_append, List.sum_append, List.sum_append]
    by_cases e : u = n
    · subst e
      have : (List.range u).map (fun w => (h.add u r w).length) = (List.range u).map fun w => (h w).length := by
        refine List.map_congr_left fun w hw => ?_
        rw [Hist.add, upd_ne _ _ (by have := List.mem_range.1 hw; omega)]
      rw [this]
      simp [Hist.add]; omega
    · have h1 := ih (by omega)
      rw [h1]
      have : h.add u r n = h n := by rw [Hist.add, upd_ne _ _ (Ne.symm e)]
      simp [this]; omega

theorem total_le {h h' : Hist} (hp : ∀ u, h u <+: h' u) (n : Nat) : h.total n ≤ h'.total n := by
  unfold Hist.total
  induction n with
  | zero => exact Nat.le_refl _
  | succ n ih =>
    rw [List.range_succ, List.map_append, List.map_append, List.sum_append, List.sum_append]
    have := (hp n).length_le
    simp; omega

theorem run_val {cfg : Cfg S} (ht : Tree cfg.links) : ∀ (us : List Nat) (net : Net S) (h : Hist), Corr cfg net h → Val cfg h → cfg.Calm net us →
    ∀ net', cfg.run net us = some net' → ∃ h', Corr cfg net' h' ∧ Val cfg h' ∧ h'.total cfg.links.length = h.total cfg.links.length + us.length
  | [], net, h, hc, hv, _, net', hr => by cases hr; exact ⟨h, hc, hv, rfl⟩
  | u :: us, net, h, hc, hv, hcalm, net', hr => by
    simp only [Cfg.run] at hr
    split at hr
    · rename_i net1 hs
      obtain ⟨r, h1, h2, h3, h4⟩ := corr_step ht hc hs hcalm.1
      obtain ⟨h', k1, k2, k3⟩ := run_val ht us net1 (h.add u r) h1 (val_add hv h2 h4) (hcalm.2 _ hs) net' hr
      exact ⟨h', k1, k2, by rw [k3, total_add h h3]; simp; omega⟩
    · cases hr

/-! ## Any other execution does the same -/

/-- A node that is through with a pipe does nothing with it any more. -/
theorem done_final {cfg : Cfg S} {hA hB : Hist} (hv : Val cfg hA) {y v : Nat} (hp : hB y <+: hA y) (hd : (rep cfg y (hB y)).done v = true) :
    (rep cfg y (hA y)).wrote v = (rep cfg y (hB y)).wrote v ∧ (rep cfg y (hA y)).nread v = (rep cfg y (hB y)).nread v := by
  cases he : (rep cfg y (hB y)).ended with
  | true =>
    obtain ⟨x, hx⟩ := hp
    cases x with
    | nil => rw [List.append_nil] at hx; rw [hx]; exact ⟨rfl, rfl⟩
    | cons r x =>
      have := (hv y (hB y) r x hx.symm).1
      rw [he] at this; cases this
  | false =>
    simp only [Loc.done, he, Bool.false_or] at hd
    have := (rep_le cfg y v hp).closed hd
    exact ⟨this.2.1, this.2.2⟩

theorem pre_step {cfg : Cfg S} (ht : Tree cfg.links) (cap' : Nat → Nat) {netA : Net S} {hA : Hist} (hcA : Corr cfg netA hA) (hvA : Val cfg hA)
    (hend : ∀ u, u < cfg.links.length → netA.ended u = true) (hemp : ∀ v, (netA.pipe v).buf = [])
    {net net' : Net S} {h : Hist} (hc : Corr { cfg with cap := cap' } net h) (hp : ∀ u, h u <+: hA u) {u : Nat}
    (hs : Cfg.step { cfg with cap := cap' } net u = some net') :
    ¬ Cfg.Killed { cfg with cap := cap' } net u ∧ ∃ r, Corr { cfg with cap := cap' } net' (h.add u r) ∧ (∀ w, h.add u r w <+: hA w) ∧
      u < cfg.links.length := by
  have hlive : u < cfg.links.length ∧ net.ended u = false := by
    unfold Cfg.step at hs
    split at hs
    · assumption
    · cases hs
  have hnot : (rep cfg u (h u)).ended = false := by rw [← hlive.2]; exact (hc.ended u).symm
  have hA : ∃ rA rest, hA u = h u ++ rA :: rest := by
    obtain ⟨x, hx⟩ := hp u
    cases x with
    | nil =>
      rw [List.append_nil] at hx
      have := hend u hlive.1
      rw [hcA.ended, ← hx, hnot] at this; cases this
    | cons r x => exact ⟨r, x, hx.symm⟩
  obtain ⟨rA, rest, hAu⟩ := hA
  have hpre1 : h u ++ [rA] <+: hA u := ⟨rest, by rw [hAu]; simp⟩
  -- not killed
  have hnk : ¬ Cfg.Killed { cfg with cap := cap' } net u := by
    rintro ⟨v, b, s, ha, hw, hwc, hro⟩
    have hw : cfg.writer v = some u := hw
    obtain ⟨x, hx⟩ := writer_reader (cfg := cfg) hw
    have hpB := hc.pipe v x u hx hw
    have hpA := hcA.pipe v x u hx hw
    have hcl : (rep cfg u (h u)).closed v = false := by rw [← hwc]; exact hpB.wc.symm
    have hdone : (rep cfg x (h x)).done v = true := by
      have hx' : Cfg.reader { cfg with cap := cap' } v = some x := hx
      simp only [Cfg.rOpen, hx', hc.ended, hpB.rc] at hro
      simp only [Loc.done]
      revert hro
      show (!(rep cfg x (h x)).ended && !(rep cfg x (h x)).closed v) = false → _
      cases (rep cfg x (h x)).ended <;> cases (rep cfg x (h x)).closed v <;> simp
    have hfin := (done_final hvA (hp x) hdone).2
    have hdrain : ((rep cfg u (hA u)).wrote v).length ≤ (rep cfg x (hA x)).nread v := by
      have := hpA.buf
      rw [hemp] at this
      exact List.drop_eq_nil_iff.1 this.symm
    have hstep : (lstep cfg u (rep cfg u (h u)) rA).wrote v = (rep cfg u (h u)).wrote v ++ [b] := by
      have ha' : cfg.act (rep cfg u (h u)).st = .write v b s := by rw [← ha]; exact congrArg cfg.act (hc.st u).symm
      simp only [lstep, ha', if_pos (And.intro hw hcl), upd_same]
    have hmono := (rep_le cfg u v hpre1).wrote.length_le
    rw [rep_snoc, hstep, List.length_append] at hmono
    have hle : (rep cfg x (h x)).nread v ≤ ((rep cfg u (h u)).wrote v).length := hpB.le
    simp only [List.length_singleton] at hmono
    omega
  refine ⟨hnk, ?_⟩
  obtain ⟨r, h1, -, h3, h4⟩ := corr_step (cfg := { cfg with cap := cap' }) ht hc hs hnk
  have h4 : Answer cfg h u (rep cfg u (h u)) r := h4
  have h5 := (hvA u (h u) rA rest hAu).2
  have hrr : r = rA := by
    by_cases hR : ∃ v, Reads cfg u (rep cfg u (h u)) v
    · obtain ⟨v, hR⟩ := hR
      obtain ⟨y, hy⟩ : ∃ y, cfg.writer v = some y := by obtain ⟨k, -, h, -⟩ := hR; exact reader_writer h
      obtain ⟨b1, b2⟩ := h4.1 v y hR hy
      obtain ⟨a1, -⟩ := h5.1 v y hR hy
      cases r with
      | some b =>
        rw [a1]
        obtain ⟨x, hx⟩ := (rep_le cfg y v (hp y)).wrote
        rw [← hx]
        have hlt := (List.getElem?_eq_some_iff.1 b1.symm).1
        rw [List.getElem?_append_left hlt]; exact b1
      | none =>
        rw [a1, (done_final hvA (hp y) (b2 rfl)).1]; exact b1
    · have hn : ∀ v, ¬ Reads cfg u (rep cfg u (h u)) v := fun v hv => hR ⟨v, hv⟩
      rw [h4.2 hn, h5.2 hn]
  subst hrr
  refine ⟨r, h1, fun w => ?_, h3⟩
  by_cases e : w = u
  · subst e; rw [Hist.add, upd_same]; exact hpre1
  · rw [Hist.add, upd_ne _ _ e]; exact hp w

theorem pre_run {cfg : Cfg S} (ht : Tree cfg.links) (cap' : Nat → Nat) {netA : Net S} {hA : Hist} (hcA : Corr cfg netA hA) (hvA : Val cfg hA)
    (hend : ∀ u, u < cfg.links.length → netA.ended u = true) (hemp : ∀ v, (netA.pipe v).buf = []) :
    ∀ (us : List Nat) (net : Net S) (h : Hist), Corr { cfg with cap := cap' } net h → (∀ u, h u <+: hA u) →
    ∀ net', Cfg.run { cfg with cap := cap' } net us = some net' → Cfg.Calm { cfg with cap := cap' } net us ∧
      ∃ h', Corr { cfg with cap := cap' } net' h' ∧ (∀ u, h' u <+: hA u) ∧ h'.total cfg.links.length = h.total cfg.links.length + us.length
  | [], net, h, hc, hp, net', hr => by cases hr; exact ⟨trivial, h, hc, hp, rfl⟩
  | u :: us, net, h, hc, hp, net', hr => by
    simp only [Cfg.run] at hr
    split at hr
    · rename_i net1 hs
      obtain ⟨h0, r, h1, h2, h3⟩ := pre_step ht cap' hcA hvA hend hemp hc hp hs
      obtain ⟨k0, h', k1, k2, k3⟩ := pre_run ht cap' hcA hvA hend hemp us net1 (h.add u r) h1 h2 net' hr
      refine ⟨⟨h0, fun n hn => ?_⟩, h', k1, k2, by rw [k3, total_add h h3]; simp; omega⟩
      rw [hs] at hn; cases hn; exact k0
    · cases hr

theorem tree_deterministic {cfg : Cfg S} (ht : Tree cfg.links) {us : List Nat} {net : Net S} (hA : cfg.Consumes us net)
    (cap' : Nat → Nat) (us' : List Nat) (net' : Net S) (hB : Cfg.run { cfg with cap := cap' } cfg.init us' = some net') :
    Cfg.Calm { cfg with cap := cap' } cfg.init us' ∧ us'.length ≤ us.length ∧
    ((∀ u, u < cfg.links.length → net'.ended u = true) → (∀ u, u < cfg.links.length → net'.st u = net.st u) ∧ (∀ v, net'.pipe v = net.pipe v)) := by
  obtain ⟨hA', a1, a2, a3⟩ := run_val ht us cfg.init (fun _ => []) (corr_init cfg) (fun u h1 r h2 h => by simp at h) hA.calm net hA.run
  obtain ⟨b0, hB', b1, b2, b3⟩ := pre_run ht cap' a1 a2 hA.ended hA.empty us' cfg.init (fun _ => []) (corr_init _) (fun _ => List.nil_prefix) net' hB
  refine ⟨b0, ?_, fun hend => ?_⟩
  · have := total_le b2 cfg.links.length
    omega
  · have heq : ∀ u, u < cfg.links.length → hB' u = hA' u := by
      intro u hu
      obtain ⟨x, hx⟩ := b2 u
      cases x with
      | nil => simpa using hx
      | cons r x =>
        have h1 := (a2 u (hB' u) r x hx.symm).1
        have h2 := hend u hu
        rw [b1.ended] at h2
        have h2 : (rep cfg u (hB' u)).ended = true := h2
        rw [h1] at h2; cases h2
    refine ⟨fun u hu => ?_, fun v => ?_⟩
    · rw [b1.st, a1.st, heq u hu]; rfl
    · cases hr : cfg.reader v with
      | none => rw [a1.other v hr]; exact b1.other v hr
      | some x =>
        obtain ⟨y, hy⟩ := reader_writer hr
        obtain ⟨l, hl⟩ : ∃ l, cfg.links[v]? = some l ∧ 0 < v := by
          obtain ⟨l, h0, hl, -⟩ := ends hr hy; exact ⟨l, hl, h0⟩
        have hvn : v < cfg.links.length := (List.getElem?_eq_some_iff.1 hl.1).1
        have hpn : l.parent < cfg.links.length := Nat.lt_trans (ht v l hl.2 hl.1) hvn
        have hxy : x < cfg.links.length ∧ y < cfg.links.length := by
          obtain ⟨l', -, hl', ⟨rfl, rfl⟩ | ⟨rfl, rfl⟩⟩ := ends hr hy <;> rw [hl.1] at hl' <;> cases hl' <;> exact ⟨by assumption, by assumption⟩
        have pA := a1.pipe v x y hr hy
        have pB : PipeIs (net'.pipe v) v (rep cfg x (hB' x)) (rep cfg y (hB' y)) := b1.pipe v x y hr hy
        rw [heq x hxy.1, heq y hxy.2] at pB
        have e1 := pB.buf.trans pA.buf.symm
        have e2 := pB.rc.trans pA.rc.symm
        have e3 := pB.wc.trans pA.wc.symm
        cases hq : net'.pipe v; cases hq' : net.pipe v
        rw [hq, hq'] at e1 e2 e3
        simp only at e1 e2 e3
        rw [e1, e2, e3]

/-- **C92** Suppose that one execution of a command line with process substitution ends with nobody killed and all data read. Then every execution, in any order of the
steps and with any capacities of the pipes: kills nobody, has at most as many steps, and if it cannot go on, all processes and tasks have ended in the same state as
in the first one (the same output, the same exit codes), and the pipes are as they were left there. -/
theorem C92_deterministic (last : Cmd) (before : List Cmd) (act : S → Act S) (prog : Nat → S) (cap cap' : Nat → Nat) (hcap : ∀ v, 0 < cap' v)
    (us us' : List Nat) (net net' : Net S) (hA : Cfg.Consumes ⟨build last before, act, prog, cap⟩ us net)
    (hB : Cfg.run ⟨build last before, act, prog, cap'⟩ (Cfg.init ⟨build last before, act, prog, cap'⟩) us' = some net') :
    Cfg.Calm ⟨build last before, act, prog, cap'⟩ (Cfg.init ⟨build last before, act, prog, cap'⟩) us' ∧ us'.length ≤ us.length ∧
    ((∀ u, Cfg.step ⟨build last before, act, prog, cap'⟩ net' u = none) → ∀ u, u < (build last before).length →
      net'.ended u = true ∧ net'.st u = net.st u ∧ net'.pipe u = net.pipe u) := by
  obtain ⟨h1, h2, h3⟩ := tree_deterministic (cfg := ⟨build last before, act, prog, cap⟩) (build_tree last before) hA cap' us' net' hB
  refine ⟨h1, h2, fun hno u hu => ?_⟩
  have hend := C88_no_deadlock last before act prog cap' hcap net' hno
  obtain ⟨k1, k2⟩ := h3 hend
  exact ⟨hend u hu, k1 u hu, k2 u⟩

/-- **C92** Hence an execution of which as many steps are done as possible is over after finitely many steps: there is no other way to go on for ever. -/
theorem C92_ends (last : Cmd) (before : List Cmd) (act : S → Act S) (prog : Nat → S) (cap cap' : Nat → Nat)
    (us : List Nat) (net : Net S) (hA : Cfg.Consumes ⟨build last before, act, prog, cap⟩ us net) (sched : Nat → Nat) :
    ∃ n, Cfg.run ⟨build last before, act, prog, cap'⟩ (Cfg.init ⟨build last before, act, prog, cap'⟩) ((List.range n).map sched) = none := by
  refine ⟨us.length + 1, ?_⟩
  cases h : Cfg.run ⟨build last before, act, prog, cap'⟩ (Cfg.init ⟨build last before, act, prog, cap'⟩) ((List.range (us.length + 1)).map sched) with
  | none => rfl
  | some net' =>
    have := (tree_deterministic (cfg := ⟨build last before, act, prog, cap⟩) (build_tree last before) hA cap' _ net' h).2.1
    simp at this; omega

/-! ## Programs that read to the end -/

/-- The node has been told that pipe `v` is at its end. -/
def Eof (cfg : Cfg S) (u v : Nat) (h : List (Option Byte)) : Prop := ∃ h1 h2, h = h1 ++ none :: h2 ∧ Reads cfg u (rep cfg u h1) v

theorem Eof.snoc {cfg : Cfg S} {u v : Nat} {h : List (Option Byte)} (he : Eof cfg u v h) (r : Option Byte) : Eof cfg u v (h ++ [r]) := by
  obtain ⟨h1, h2, rfl, hr⟩ := he
  exact ⟨h1, h2 ++ [r], by simp, hr⟩

@[elab_as_elim]
theorem snocInd {α : Type} {P : List α → Prop} (nil : P []) (append_singleton : ∀ h r, P h → P (h ++ [r])) (h : List α) : P h := by
  have : ∀ l : List α, P l.reverse := fun l => by
    induction l with
    | nil => exact nil
    | cons a l ih => rw [List.reverse_cons]; exact append_singleton _ _ ih
  simpa using this h.reverse

theorem patient_eof {cfg : Cfg S} (hpat : cfg.Patient) (u : Nat) (h : List (Option Byte)) :
    ∃ l, Path cfg.act (cfg.prog u) l (rep cfg u h).st ∧ ∀ v, cfg.reader v = some u →
      ((v, none) ∈ l → Eof cfg u v h) ∧ ((rep cfg u h).closed v = true → Eof cfg u v h) ∧ ((rep cfg u h).ended = true → Eof cfg u v h) := by
  induction h using snocInd with
  | nil => exact ⟨[], .refl _, fun v _ => ⟨(fun h => by cases h), (fun h => by cases h), (fun h => by cases h)⟩⟩
  | append_singleton h r ih =>
    obtain ⟨l, hl, ih⟩ := ih
    rw [rep_snoc]
    cases ha : cfg.act (rep cfg u h).st with
    | read w k =>
      by_cases hlive : cfg.reader w = some u ∧ (rep cfg u h).closed w = false
      · simp only [lstep, ha, if_pos hlive]
        refine ⟨_, hl.read r ha, fun v hv => ⟨fun hm => ?_, fun hc => ((ih v hv).2.1 hc).snoc r, fun he => ((ih v hv).2.2 he).snoc r⟩⟩
        rcases List.mem_append.1 hm with hm | hm
        · exact ((ih v hv).1 hm).snoc r
        · rw [List.mem_singleton] at hm
          cases hm
          exact ⟨h, [], rfl, k, ha, hlive⟩
      · simp only [lstep, ha, if_neg hlive]
        refine ⟨_, hl.read none ha, fun v hv => ⟨fun hm => ?_, fun hc => ((ih v hv).2.1 hc).snoc r, fun he => ((ih v hv).2.2 he).snoc r⟩⟩
        rcases List.mem_append.1 hm with hm | hm
        · exact ((ih v hv).1 hm).snoc r
        · rw [List.mem_singleton] at hm
          obtain rfl : v = w := congrArg Prod.fst hm
          refine ((ih v hv).2.1 ?_).snoc r
          cases hcl : (rep cfg u h).closed v with
          | true => rfl
          | false => exact absurd ⟨hv, hcl⟩ hlive
    | write w b s =>
      by_cases hlive : cfg.writer w = some u ∧ (rep cfg u h).closed w = false
      · simp only [lstep, ha, if_pos hlive]
        exact ⟨_, hl.write ha, fun v hv => ⟨fun hm => ((ih v hv).1 hm).snoc r, fun hc => ((ih v hv).2.1 hc).snoc r, fun he => ((ih v hv).2.2 he).snoc r⟩⟩
      · simp only [lstep, ha, if_neg hlive]
        exact ⟨_, hl.write ha, fun v hv => ⟨fun hm => ((ih v hv).1 hm).snoc r, fun hc => ((ih v hv).2.1 hc).snoc r, fun he => ((ih v hv).2.2 he).snoc r⟩⟩
    | close w s =>
      simp only [lstep, ha]
      refine ⟨_, hl.close ha, fun v hv => ⟨fun hm => ((ih v hv).1 hm).snoc r, fun hc => ?_, fun he => ((ih v hv).2.2 he).snoc r⟩⟩
      by_cases e : v = w
      · subst e
        exact ((ih v hv).1 (hpat u v l _ hv hl (.inr ⟨s, ha⟩))).snoc r
      · rw [upd_ne _ _ e] at hc
        exact ((ih v hv).2.1 hc).snoc r
    | exit =>
      simp only [lstep, ha]
      exact ⟨_, hl, fun v hv => ⟨fun hm => ((ih v hv).1 hm).snoc r, fun hc => ((ih v hv).2.1 hc).snoc r,
        fun _ => ((ih v hv).1 (hpat u v l _ hv hl (.inl ha))).snoc r⟩⟩

/-- If the reader is through, so is the writer, and nothing is left. -/
theorem patient_done {cfg : Cfg S} (hpat : cfg.Patient) {h : Hist} (hv : Val cfg h) {v x y : Nat} (hx : cfg.reader v = some x) (hy : cfg.writer v = some y)
    (hd : (rep cfg x (h x)).done v = true) : (rep cfg y (h y)).done v = true ∧ ((rep cfg y (h y)).wrote v).length ≤ (rep cfg x (h x)).nread v := by
  obtain ⟨l, -, hl⟩ := patient_eof hpat x (h x)
  obtain ⟨-, h2, h3⟩ := hl v hx
  have he : Eof cfg x v (h x) := by
    simp only [Loc.done, Bool.or_eq_true] at hd
    exact hd.elim h3 h2
  obtain ⟨h1, h2, e, hr⟩ := he
  obtain ⟨-, ha⟩ := hv x h1 none h2 e
  obtain ⟨a1, a2⟩ := ha.1 v y hr hy
  refine ⟨a2 rfl, Nat.le_trans (List.getElem?_eq_none_iff.1 a1.symm) ?_⟩
  exact (rep_le cfg x v (e ▸ List.prefix_append _ _)).nread

theorem patient_run {cfg : Cfg S} (ht : Tree cfg.links) (hpat : cfg.Patient) : ∀ (us : List Nat) (net : Net S) (h : Hist), Corr cfg net h → Val cfg h →
    ∀ net', cfg.run net us = some net' → cfg.Calm net us ∧ ∃ h', Corr cfg net' h' ∧ Val cfg h'
  | [], net, h, hc, hv, net', hr => by cases hr; exact ⟨trivial, h, hc, hv⟩
  | u :: us, net, h, hc, hv, net', hr => by
    simp only [Cfg.run] at hr
    split at hr
    · rename_i net1 hs
      have hlive : net.ended u = false := by
        unfold Cfg.step at hs
        split at hs
        · rename_i hu; exact hu.2
        · cases hs
      have hnk : ¬ cfg.Killed net u := by
        rintro ⟨v, b, s, ha, hw, hwc, hro⟩
        obtain ⟨x, hx⟩ := writer_reader hw
        have hp := hc.pipe v x u hx hw
        have hd : (rep cfg x (h x)).done v = true := by
          simp only [Cfg.rOpen, hx, hc.ended, hp.rc] at hro
          simp only [Loc.done]
          revert hro
          cases (rep cfg x (h x)).ended <;> cases (rep cfg x (h x)).closed v <;> simp
        have := (patient_done hpat hv hx hw hd).1
        simp only [Loc.done, ← hc.ended, hlive, ← hp.wc, hwc] at this
        cases this
      obtain ⟨r, h1, h2, h3, h4⟩ := corr_step ht hc hs hnk
      obtain ⟨k0, k1⟩ := patient_run ht hpat us net1 (h.add u r) h1 (val_add hv h2 h4) net' hr
      refine ⟨⟨hnk, fun n hn => ?_⟩, k1⟩
      rw [hs] at hn; cases hn; exact k0
    · cases hr

/-- **C92** If each program reads its inputs to the end, all complete executions are as C92 asks for. -/
theorem C92_patient (last : Cmd) (before : List Cmd) (act : S → Act S) (prog : Nat → S) (cap : Nat → Nat)
    (hpat : Cfg.Patient ⟨build last before, act, prog, cap⟩) (us : List Nat) (net : Net S)
    (hr : Cfg.run ⟨build last before, act, prog, cap⟩ (Cfg.init ⟨build last before, act, prog, cap⟩) us = some net)
    (hend : ∀ u, u < (build last before).length → net.ended u = true) : Cfg.Consumes ⟨build last before, act, prog, cap⟩ us net := by
  have ht : Tree (Cfg.links ⟨build last before, act, prog, cap⟩) := build_tree last before
  generalize hcfg : (⟨build last before, act, prog, cap⟩ : Cfg S) = cfg at *
  have hlen : ∀ u, u < cfg.links.length → net.ended u = true := by subst hcfg; exact hend
  obtain ⟨h0, h, h1, h2⟩ := patient_run ht hpat us cfg.init (fun _ => []) (corr_init cfg) (fun u h1 r h2 h => by simp at h) net hr
  refine ⟨hr, h0, hlen, fun v => ?_⟩
  cases hx : cfg.reader v with
  | none => rw [h1.other v hx]
  | some x =>
    obtain ⟨y, hy⟩ := reader_writer hx
    have hp := h1.pipe v x y hx hy
    have hxn : x < cfg.links.length := by
      obtain ⟨l, h0, hl, ⟨rfl, rfl⟩ | ⟨rfl, rfl⟩⟩ := ends hx hy
      · exact (List.getElem?_eq_some_iff.1 hl).1
      · exact Nat.lt_trans (ht _ _ h0 hl) (List.getElem?_eq_some_iff.1 hl).1
    have := (patient_done hpat h2 hx hy (by rw [Loc.done, ← h1.ended, hlen x hxn]; rfl)).2
    rw [hp.buf]; exact List.drop_eq_nil_iff.2 this

/-! ## Examples -/

/-- A program that writes what it is given, or copies some pipes, one after the other, keeping what it has read. -/
inductive Q where
  | out (l : List (Nat × Byte))
  | inp (vs : List Nat) (t : Option Nat) (acc : List Byte)
  | fwd (b : Byte) (vs : List Nat) (t : Option Nat) (acc : List Byte)
deriving DecidableEq

def Q.act : Q → Act Q
  | .out [] => .exit
  | .out ((v, b) :: l) => .write v b (.out l)
  | .inp [] _ _ => .exit
  | .inp (v :: vs) t acc => .read v fun | some b => .fwd b (v :: vs) t (acc ++ [b]) | none => .inp vs t acc
  | .fwd b vs (some t) acc => .write t b (.inp vs (some t) acc)
  | .fwd _ vs none acc => .read 0 fun _ => .inp vs none acc

/-- `cat <(cat) -`: node 1 copies the output of node 3 and then its standard input (6) to its output; 3 copies its standard input (5). -/
def catProg : Nat → Q
  | 0 => .inp [1] none []
  | 1 => .inp [3, 6] (some 1) []
  | 2 => .inp [2] none []
  | 3 => .inp [5] (some 3) []
  | 4 => .inp [4] none []
  | 5 => .out [(5, 7), (5, 9)]
  | 6 => .out [(6, 8)]
  | _ => .out []

def catCfg (cap : Nat) : Cfg Q := ⟨build (.mk [.reads (.mk []) []]) [], Q.act, catProg, fun _ => cap⟩

/-- Nobody is killed, as a test. -/
def calmB (cfg : Cfg Q) : Net Q → List Nat → Bool
  | _, [] => true
  | net, u :: us =>
    (match cfg.act (net.st u) with
     | .write v _ _ => !(decide (cfg.writer v = some u) && !(net.pipe v).wClosed && !cfg.rOpen net v)
     | _ => true) &&
    (match cfg.step net u with
     | some net' => calmB cfg net' us
     | none => true)

theorem calm_of {cfg : Cfg Q} : ∀ (us : List Nat) (net : Net Q), calmB cfg net us = true → cfg.Calm net us
  | [], _, _ => trivial
  | u :: us, net, h => by
    simp only [calmB, Bool.and_eq_true] at h
    refine ⟨?_, fun net' hs => ?_⟩
    · rintro ⟨v, b, s, ha, hw, hwc, hro⟩
      rw [ha] at h
      simp [hw, hwc, hro] at h
    · rw [hs] at h; exact calm_of us net' h.2

theorem consumes_of {cfg : Cfg Q} (ht : Tree cfg.links) {us : List Nat} {net : Net Q} (hr : cfg.run cfg.init us = some net)
    (hc : calmB cfg cfg.init us = true) (he : ∀ u, u < cfg.links.length → net.ended u = true) (hb : ∀ v, v < cfg.links.length → (net.pipe v).buf = []) :
    cfg.Consumes us net := by
  refine ⟨hr, calm_of _ _ hc, he, fun v => ?_⟩
  by_cases hv : v < cfg.links.length
  · exact hb v hv
  · obtain ⟨h, h1, -⟩ := run_val ht us cfg.init (fun _ => []) (corr_init cfg) (fun u h1 r h2 h => by simp at h) (calm_of _ _ hc) net hr
    rw [h1.other v (by simp [Cfg.reader, List.getElem?_eq_none (Nat.le_of_not_lt hv)])]

/-- One execution, with pipes of one byte. -/
def catRun : List Nat := [5, 3, 3, 1, 1, 0, 0, 5, 3, 3, 1, 1, 0, 0, 5, 3, 3, 1, 4, 4, 6, 1, 1, 0, 0, 6, 1, 1, 0, 0, 2, 2]

/-- The hypotheses of C92 hold of it. -/
theorem cat_consumes : ∃ net, (catCfg 1).Consumes catRun net ∧ net.st 0 = .inp [] none [7, 9, 8] := by
  have h : ((catCfg 1).run (catCfg 1).init catRun).isSome = true := by decide +kernel
  obtain ⟨net, hn⟩ := Option.isSome_iff_exists.1 h
  have h1 : ((catCfg 1).run (catCfg 1).init catRun).all (fun n => (List.range 7).all n.ended) = true := by decide +kernel
  have h2 : ((catCfg 1).run (catCfg 1).init catRun).all (fun n => (List.range 7).all fun v => (n.pipe v).buf.isEmpty) = true := by decide +kernel
  have h3 : ((catCfg 1).run (catCfg 1).init catRun).all (fun n => decide (n.st 0 = .inp [] none [7, 9, 8])) = true := by decide +kernel
  rw [hn] at h1 h2 h3
  simp only [Option.all_some, decide_eq_true_eq, List.all_eq_true, List.mem_range, List.isEmpty_iff] at h1 h2 h3
  exact ⟨net, consumes_of (build_tree _ _) hn (by decide +kernel) h1 h2, h3⟩

/-- So with pipes of any size and in any order the output is 7, 9, 8. -/
example (cap : Nat) (hcap : 0 < cap) (us : List Nat) (net : Net Q) (h : (catCfg cap).run (catCfg cap).init us = some net)
    (hno : ∀ u, (catCfg cap).step net u = none) : net.st 0 = .inp [] none [7, 9, 8] := by
  obtain ⟨netA, hA, h0⟩ := cat_consumes
  obtain ⟨-, -, h3⟩ := C92_deterministic (.mk [.reads (.mk []) []]) [] Q.act catProg (fun _ => 1) (fun _ => cap) (fun _ => hcap) catRun us netA net hA h
  rw [(h3 hno 0 (by decide)).2.1, h0]

/-- What is left to read, and the rest has been read to the end. -/
def Q.Left (vs0 : List Nat) (l : List (Nat × Option Byte)) : Q → Prop
  | .out _ => False
  | .inp vs _ _ => ∀ v, v ∈ vs0 → v ∈ vs ∨ (v, none) ∈ l
  | .fwd _ vs _ _ => ∀ v, v ∈ vs0 → v ∈ vs ∨ (v, none) ∈ l

theorem Q.left {s0 s : Q} {l : List (Nat × Option Byte)} (h : Path Q.act s0 l s) : ∀ vs0 t, s0 = .inp vs0 t [] → Q.Left vs0 l s := by
  induction h with
  | refl => rintro vs0 t rfl v hv; exact .inl hv
  | read r hp ha ih =>
    intro vs0 t h0
    have := ih vs0 t h0
    revert this ha
    rename_i s' l v k
    cases s' with
    | out l => intro _ h; exact h.elim
    | inp vs t acc =>
      cases vs with
      | nil => intro ha; cases ha
      | cons w vs =>
        intro ha h
        cases ha
        cases r with
        | some b => intro v hv; exact (h v hv).imp id (by simp +contextual)
        | none =>
          intro v hv
          rcases h v hv with h | h
          · rcases List.mem_cons.1 h with rfl | h
            · exact .inr (by simp)
            · exact .inl h
          · exact .inr (by simp [h])
    | fwd b vs t acc =>
      cases t with
      | some t => intro ha; cases ha
      | none => intro ha h; cases ha; intro v hv; exact (h v hv).imp id (by simp +contextual)
  | write hp ha ih =>
    intro vs0 t h0
    have := ih vs0 t h0
    revert this ha
    rename_i s' _ l v b
    cases s' with
    | out l => intro _ h; exact h.elim
    | inp vs t acc => cases vs <;> (intro ha; cases ha)
    | fwd b vs t acc => cases t <;> intro ha h <;> cases ha; exact h
  | close hp ha ih =>
    intro vs0 t h0
    have := ih vs0 t h0
    revert this ha
    rename_i s' _ l v
    cases s' with
    | out l => intro _ h; exact h.elim
    | inp vs t acc => cases vs <;> (intro ha; cases ha)
    | fwd b vs t acc => cases t <;> (intro ha; cases ha)

/-- `cat <(cat) -` reads its inputs to the end: the hypothesis of `C92_patient`. -/
theorem cat_patient (cap : Nat) : (catCfg cap).Patient := by
  intro u v l s hr hp hs
  have hu : ∃ vs t, catProg u = .inp vs t [] ∧ v ∈ vs := by
    have hv : v < 7 := by
      cases hl : (catCfg cap).links[v]? with
      | none => simp [Cfg.reader, hl] at hr
      | some x => exact (List.getElem?_eq_some_iff.1 hl).1
    match v, hv with
    | 0, _ => cases hr
    | 1, _ => cases hr; exact ⟨_, _, rfl, by decide⟩
    | 2, _ => cases hr; exact ⟨_, _, rfl, by decide⟩
    | 3, _ => cases hr; exact ⟨_, _, rfl, by decide⟩
    | 4, _ => cases hr; exact ⟨_, _, rfl, by decide⟩
    | 5, _ => cases hr; exact ⟨_, _, rfl, by decide⟩
    | 6, _ => cases hr; exact ⟨_, _, rfl, by decide⟩
  obtain ⟨vs, t, h0, hv⟩ := hu
  have h := Q.left hp vs t h0
  cases s with
  | out l => exact h.elim
  | inp ws t acc =>
    cases ws with
    | nil => exact (h v hv).resolve_left (by simp)
    | cons w ws => rcases hs with hs | ⟨s', hs⟩ <;> cases hs
  | fwd b ws t acc => cases t <;> rcases hs with hs | ⟨s', hs⟩ <;> cases hs

/-- Node 1 does not read its standard input. -/
def trueCfg : Cfg Q := ⟨build (.mk []) [], Q.act, fun | 0 => .inp [1] none [] | 3 => .out [(3, 7), (3, 9)] | _ => .out [], fun _ => 5⟩

/-- **C92** The condition is needed: if a process exits without reading all, how far its writer gets is a matter of time. Two complete executions, in which the task that
writes the input gets rid of all of it, or of nothing. -/
theorem C92_unread :
    (trueCfg.run trueCfg.init [3, 3, 3, 1, 0, 0, 2]).map (fun n => ((List.range 4).map n.ended, n.st 3)) = some ([true, true, true, true], .out []) ∧
    (trueCfg.run trueCfg.init [1, 3, 0, 0, 2]).map (fun n => ((List.range 4).map n.ended, n.st 3)) = some ([true, true, true, true], .out [(3, 7), (3, 9)]) := by
  decide +kernel

end Shellous.Subst
