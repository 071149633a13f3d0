import Verif.Spec.ThreadWatcher
import Verif.Lemmas.Upd

/-!
# The steps of `ThreadStrategy` and their invariants
-/

namespace Shellous

inductive TsStep (w : TsW) : TsEv → TsW → Prop
  | fork (pid) : w.proc pid = none →
      TsStep w (.fork pid) { w with proc := upd w.proc pid (some w.nChildren), nChildren := w.nChildren + 1 }
  | exits (pid raw c) : w.proc pid = some c → w.exited c = none → TsStep w (.exits pid raw) { w with exited := upd w.exited c (some raw) }
  | reapElsewhere (pid c raw) : w.proc pid = some c → w.exited c = some raw →
      TsStep w (.reapElsewhere pid) { w with proc := upd w.proc pid none }
  | watch (pid c) : w.proc pid = some c →
      TsStep w (.watch pid) { w with nCalls := w.nCalls + 1, pc := upd w.pc w.nCalls .check, pid := upd w.pid w.nCalls pid,
                                     target := upd w.target w.nCalls c }
  | refused (i ok) : w.pc i = .check → w.pid i ∈ w.pids → TsStep w (.go i ok) { w with pc := upd w.pc i .assertionError }
  | checked (i ok) : w.pc i = .check → w.pid i ∉ w.pids → TsStep w (.go i ok) { w with pc := upd w.pc i .insert }
  | insert (i ok) : w.pc i = .insert → TsStep w (.go i ok) { w with pids := w.pid i :: w.pids, pc := upd w.pc i .start }
  | start (i) : w.pc i = .start → TsStep w (.go i true) { w with pc := upd w.pc i .waiting }
  | startFailed (i) : w.pc i = .start → TsStep w (.go i false) { w with pc := upd w.pc i .startFailed }
  | noChild (i ok) : w.pc i = .waiting → w.proc (w.pid i) = none → TsStep w (.go i ok) { w with pc := upd w.pc i (.calling 255) }
  | reap (i ok c raw) : w.pc i = .waiting → w.proc (w.pid i) = some c → w.exited c = some raw →
      TsStep w (.go i ok) { w with proc := upd w.proc (w.pid i) none, pc := upd w.pc i (.calling (exitStatus raw)) }
  | pop (i ok) : w.pc i = .popping → TsStep w (.go i ok) { w with pids := w.pids.filter (· ≠ w.pid i), pc := upd w.pc i .done }
  | callback (i e st) : w.pc i = .calling st → e ≠ .otherError →
      TsStep w (.callback i e) { w with reports := (i, w.pid i, st) :: w.reports, pc := upd w.pc i .popping }
  | callbackRaised (i st) : w.pc i = .calling st →
      TsStep w (.callback i .otherError) { w with reports := (i, w.pid i, st) :: w.reports, pc := upd w.pc i .callbackRaised }

theorem tsstep_of {w w' : TsW} {ev : TsEv} (h : w.step ev = some w') : TsStep w ev w' := by
  cases ev with
  | fork pid =>
    simp only [TsW.step] at h
    split at h <;> cases h
    exact .fork pid (by assumption)
  | exits pid raw =>
    simp only [TsW.step] at h
    split at h
    · split at h <;> cases h
      exact .exits pid raw _ (by assumption) (by assumption)
    · cases h
  | reapElsewhere pid =>
    simp only [TsW.step] at h
    split at h
    · rename_i c hc
      cases hx : w.exited c with
      | none => rw [if_pos hx] at h; cases h
      | some raw => rw [if_neg (by rw [hx]; simp)] at h; cases h; exact .reapElsewhere pid c raw hc hx
    · cases h
  | watch pid =>
    simp only [TsW.step] at h
    split at h <;> cases h
    exact .watch pid _ (by assumption)
  | go i ok =>
    simp only [TsW.step, TsW.goOn] at h
    cases hpc : w.pc i <;> rw [hpc] at h <;> try (cases h; done)
    case check =>
      by_cases hp : w.pid i ∈ w.pids
      · rw [if_pos hp] at h; cases h; exact .refused i ok hpc hp
      · rw [if_neg hp] at h; cases h; exact .checked i ok hpc hp
    case insert => cases h; exact .insert i ok hpc
    case start =>
      cases ok
      · cases h; exact .startFailed i hpc
      · cases h; exact .start i hpc
    case waiting =>
      simp only [TsW.waitBlocking] at h
      split at h
      · cases h; exact .noChild i ok hpc (by assumption)
      · split at h <;> cases h
        exact .reap i ok _ _ hpc (by assumption) (by assumption)
    case popping => cases h; exact .pop i ok hpc
  | callback i e =>
    simp only [TsW.step] at h
    split at h
    · rename_i st hst
      cases h
      by_cases he : e = .otherError
      · subst he; rw [if_pos rfl]; exact .callbackRaised i st hst
      · rw [if_neg he]; exact .callback i e st hst he
    · cases h

/-- Before the callback. -/
def TsPc.early : TsPc → Bool
  | .unborn | .check | .assertionError | .insert | .start | .startFailed | .waiting | .calling _ => true
  | _ => false

/-- Before the child was reaped. -/
def TsPc.unreaped : TsPc → Bool
  | .check | .assertionError | .insert | .start | .startFailed | .waiting => true
  | _ => false

structure TsInv (w : TsW) : Prop where
  born : ∀ i, w.nCalls ≤ i → w.pc i = .unborn
  kids : ∀ p c, w.proc p = some c → c < w.nChildren
  kidInj : ∀ p q c, w.proc p = some c → w.proc q = some c → p = q
  fresh : ∀ c, w.nChildren ≤ c → w.exited c = none
  aim : ∀ i, i < w.nCalls → w.target i < w.nChildren
  held : ∀ i, i < w.nCalls → w.proc (w.pid i) = some (w.target i) ∨ w.exited (w.target i) ≠ none
  called : ∀ i st, w.pc i = .calling st → w.exited (w.target i) ≠ none
  rep : ∀ i p st, (i, p, st) ∈ w.reports → i < w.nCalls ∧ p = w.pid i ∧ w.exited (w.target i) ≠ none ∧ (w.pc i).early = false
  once : (w.reports.map (·.1)).Nodup
  late : ∀ i, (w.pc i).early = false → i ∈ w.reports.map (·.1)

set_option maxHeartbeats 4000000 in
theorem tsinv {l : List TsEv} {w : TsW} (h : TsHist l w) : TsInv w := by
  induction h with
  | start => constructor <;> simp [TsPc.early]
  | step ev h hs ih =>
    rename_i w w'
    obtain ⟨h1, h2, h3, h4, h5, h6, h7, h8, h9, h10⟩ := ih
    have hst := tsstep_of hs
    clear h hs
    cases hst <;> refine ⟨?_, ?_, ?_, ?_, ?_, ?_, ?_, ?_, ?_, ?_⟩ <;> simp only [upd, apply_ite TsPc.early, TsPc.early] <;>
      grind [TsPc.early]

/-- Only calls of `watch_pid` make entries in the table. -/
theorem ts_listed {l : List TsEv} {w : TsW} (h : TsHist l w) (p : Nat) (hp : p ∈ w.pids) :
    ∃ j, j < w.nCalls ∧ w.pid j = p ∧ (w.pc j).listed = true := by
  induction h with
  | start => cases hp
  | step ev h hs ih =>
    rename_i w w'
    have born := (tsinv h).born
    have lt : ∀ i, w.pc i ≠ .unborn → i < w.nCalls := fun i hi => Nat.lt_of_not_ge fun hge => hi (born i hge)
    have hst := tsstep_of hs
    clear h hs
    have keep : ∀ i new, p ∈ w.pids → ((w.pc i).listed = true → new.listed = true) →
        ∃ j, j < w.nCalls ∧ w.pid j = p ∧ (upd w.pc i new j).listed = true := by
      intro i new hp hn
      obtain ⟨j, h1, h2, h3⟩ := ih hp
      refine ⟨j, h1, h2, ?_⟩
      by_cases hj : j = i
      · rw [hj, upd_same]; exact hn (hj ▸ h3)
      · rwa [upd_other _ _ hj]
    cases hst
    case watch pid c hc =>
      obtain ⟨j, h1, h2, h3⟩ := ih hp
      have hj : j ≠ w.nCalls := by omega
      exact ⟨j, Nat.lt_succ_of_lt h1, (upd_other _ _ hj).trans h2, by show (upd w.pc _ _ j).listed = true; rwa [upd_other _ _ hj]⟩
    case insert i ok hpc =>
      rcases List.mem_cons.1 hp with rfl | hp
      · exact ⟨i, lt i (by rw [hpc]; simp), rfl, by show (upd w.pc _ _ i).listed = true; rw [upd_same]; rfl⟩
      · exact keep i _ hp (fun _ => rfl)
    case pop i ok hpc =>
      obtain ⟨hp, hne⟩ := List.mem_filter.1 hp
      obtain ⟨j, h1, h2, h3⟩ := ih hp
      have hj : j ≠ i := by rintro rfl; simp [h2] at hne
      exact ⟨j, h1, h2, by show (upd w.pc _ _ j).listed = true; rwa [upd_other _ _ hj]⟩
    case refused i ok hpc _ => exact keep i _ hp (by rw [hpc]; simp [TsPc.listed])
    case checked i ok hpc _ => exact keep i _ hp (by rw [hpc]; simp [TsPc.listed])
    case start i hpc => exact keep i _ hp (fun _ => rfl)
    case startFailed i hpc => exact keep i _ hp (fun _ => rfl)
    case noChild i ok hpc _ => exact keep i _ hp (fun _ => rfl)
    case reap i ok c raw hpc _ _ => exact keep i _ hp (fun _ => rfl)
    case callback i e st hpc _ => exact keep i _ hp (fun _ => rfl)
    case callbackRaised i st hpc => exact keep i _ hp (fun _ => rfl)
    all_goals exact ih hp

theorem ts_once_before {w w' : TsW} {ev : TsEv} (hs : TsStep w ev w') (h : TsOnce w') : TsOnce w := by
  cases hs <;> try exact h
  intro i j hi hj he
  have h1 : i ≠ w.nCalls := by omega
  have h2 : j ≠ w.nCalls := by omega
  refine h i j (Nat.lt_succ_of_lt hi) (Nat.lt_succ_of_lt hj) ?_
  show upd w.target _ _ i = upd w.target _ _ j
  rw [upd_other _ _ h1, upd_other _ _ h2, he]

/-- What is true if nobody else reaps children and no child is watched twice. -/
structure TsTrue (w : TsW) : Prop where
  unreaped : ∀ i, (w.pc i).unreaped = true → w.proc (w.pid i) = some (w.target i)
  calling : ∀ i st, w.pc i = .calling st → ∃ raw, w.exited (w.target i) = some raw ∧ st = exitStatus raw
  reported : ∀ i p st, (i, p, st) ∈ w.reports → ∃ raw, w.exited (w.target i) = some raw ∧ st = exitStatus raw

set_option maxHeartbeats 4000000 in
theorem tstrue {l : List TsEv} {w : TsW} (h : TsHist l w) (ha : TsAlone l) (ho : TsOnce w) : TsTrue w := by
  induction h with
  | start => constructor <;> simp [TsPc.unreaped]
  | step ev h hs ih =>
    rename_i l w w'
    obtain ⟨a1, a2, a3, a4, a5, _, _, a8, _, _⟩ := tsinv h
    have hst := tsstep_of hs
    have ho' := ts_once_before hst ho
    obtain ⟨h1, h2, h3⟩ := ih (fun p hp => ha p (List.mem_append_left _ hp)) ho'
    have hev : ∀ pid, ev ≠ .reapElsewhere pid := fun pid he => ha pid (he ▸ List.mem_append_right _ List.mem_cons_self)
    have lt : ∀ i, w.pc i ≠ .unborn → i < w.nCalls := fun i hi => Nat.lt_of_not_ge fun hge => hi (a1 i hge)
    have lt' : ∀ i, (w.pc i).unreaped = true → i < w.nCalls := fun i hi => lt i (fun he => by rw [he] at hi; cases hi)
    clear h hs ha
    cases hst
    case reapElsewhere pid c raw h1 h2 => exact absurd rfl (hev pid)
    case reap i ok c raw hpc hp hx =>
      have hi := h1 i (by rw [hpc]; rfl)
      rw [hp] at hi
      cases hi
      refine ⟨fun j hj => ?_, fun j st hj => ?_, h3⟩
      · have hj : (upd w.pc i (.calling (exitStatus raw)) j).unreaped = true := hj
        by_cases hji : j = i
        · rw [hji, upd_same] at hj; cases hj
        · rw [upd_other _ _ hji] at hj
          have hpj := h1 j hj
          show upd w.proc (w.pid i) none (w.pid j) = _
          rw [upd_other, hpj]
          intro he
          rw [he, hp] at hpj
          exact hji (ho' j i (lt' j hj) (lt i (by rw [hpc]; simp)) (Option.some.inj hpj).symm)
      · have hj : upd w.pc i (.calling (exitStatus raw)) j = .calling st := hj
        by_cases hji : j = i
        · rw [hji, upd_same] at hj; cases hj; exact ⟨raw, hji ▸ hx, rfl⟩
        · rw [upd_other _ _ hji] at hj; exact h2 j st hj
    case fork =>
      refine ⟨fun i hi => ?_, h2, h3⟩
      have := h1 i hi
      show upd w.proc _ _ _ = _
      rw [upd_other, this]
      rintro he
      rw [he] at this
      simp_all
    all_goals
      clear a3 ho ho' hev
      refine ⟨?_, ?_, ?_⟩ <;> simp only [upd, apply_ite TsPc.unreaped, TsPc.unreaped] <;> grind [TsPc.unreaped]

end Shellous
