import Verif.Props.Fds

/-!
# C42: descriptors when a launch fails
-/

namespace Shellous

/-! ## Clean-up closes what was handed over -/

theorem fds_cleanupEntries (o : Options) : fds (cleanupEntries o) = handed o := by
  have h1 : ∀ close t, fds (closeEntry close t) = givenBy close t := by
    intro close t
    cases close
    · cases t <;> simp [closeEntry, givenBy]
    · cases t with
      | int n => by_cases h : 0 ≤ n <;> simp [closeEntry, givenBy, fds, h]
      | redirect r => cases r <;> simp [closeEntry, givenBy, fds, Redirect.val]
      | _ => simp [closeEntry, givenBy, fds]
  simp only [cleanupEntries, fds_append, h1, handed]
  cases o.passFdsClose
  · simp
  · simp [fds_map_fd]

/-- No object's `close` raises. -/
def Sys.closesOk (sys : Sys) : Prop := (∀ n, sys.fileCloseErr n = false) ∧ ∀ n, sys.objCloseErr n = false

theorem closeAll_noerr {sys : Sys} (h : sys.closesOk) : ∀ (es : List Ent) (s : LS),
    (closeAll sys es s).2 = false
  | [], s => rfl
  | e :: es, s => by
    have : ∀ s, (closeEnt sys e s).2 = false := by
      intro s
      cases e with
      | fd n => by_cases h0 : 0 ≤ n <;> simp [closeEnt, h0]
      | file n => simp [closeEnt, h.1]
      | childFd n => simp [closeEnt]
      | obj id => simp [closeEnt, h.2]
    unfold closeAll
    have h1 := this s
    cases hx : closeEnt sys e s with
    | mk s1 b =>
      rw [hx] at h1
      simp only at h1
      subst h1
      exact closeAll_noerr h es s1

theorem enter_err {sys : Sys} (hc : sys.closesOk) {c : Command} {s s' : LS} {e : Exc}
    (h : enter sys c s = (.error e, s')) :
    ∃ s1, enterBody sys c s = (.error e, s1) ∧ cleanup sys c.options s1 = (s', false) := by
  unfold enter at h
  split at h
  · cases h
  · next e1 s1 h1 =>
    have hb := closeAll_noerr hc (cleanupEntries c.options) s1
    cases hx : cleanup sys c.options s1 with
    | mk s2 b =>
      have : b = false := by
        have : (closeAll sys (cleanupEntries c.options) s1).2 = b := by
          show (cleanup sys c.options s1).2 = b
          rw [hx]
        rw [← this, hb]
      subst this
      simp only [hx] at h
      simp at h
      obtain ⟨rfl, rfl⟩ := h
      exact ⟨s1, h1, hx⟩

/-- C42, setting up. If anything fails before the process is spawned, the descriptors handed over by
the options have been closed, each exactly once, the caller's are untouched, and the descriptors the
library opened by itself are exactly what leaks. -/
theorem C42_setup_failure_exact {sys : Sys} (hs : sys.Ok) (hc : sys.closesOk) (c : Command) (T : List Int)
    (hT : T.Nodup) (hown : ∀ x ∈ handed c.options, x ∈ T) (hd : (handed c.options).Nodup)
    {e : Exc} {s' : LS} (h : enter sys c { tab := T } = (.error e, s')) :
    s'.ebadf = [] ∧ s'.closed = handed c.options ∧ (∀ x ∈ s'.opened, x ∉ T) ∧
    ∀ x, x ∈ s'.tab ↔ (x ∈ T ∧ x ∉ handed c.options) ∨ x ∈ s'.opened := by
  obtain ⟨s1, h1, h2⟩ := enter_err hc h
  obtain ⟨new, ents, e1⟩ := enterBody_err hs h1
  have hm : ∀ x ∈ fds (cleanupEntries c.options), x ∈ s1.tab := by
    intro x hx
    rw [fds_cleanupEntries] at hx
    exact (e1.mem_tab x).2 (Or.inr (hown x hx))
  obtain ⟨_, b2, b3, _, b5, _, b7⟩ := closeAll_ok _ h2 (e1.nodup_tab hT)
    (by rw [fds_cleanupEntries]; exact hd) hm
  rw [fds_cleanupEntries] at b2 b3
  have hop : s'.opened = new := by rw [b7]; simpa [LS.newRun] using e1.opened
  refine ⟨b5.trans e1.ebadf, ?_, ?_, ?_⟩
  · rw [b3, e1.closed]; simp [LS.newRun]
  · intro x hx; rw [hop] at hx; exact e1.fresh x hx
  · intro x
    rw [b2, e1.mem_tab, hop]
    constructor
    · rintro ⟨h | h, h'⟩
      · exact Or.inr h
      · exact Or.inl ⟨h, h'⟩
    · rintro (⟨h, h'⟩ | h)
      · exact ⟨Or.inr h, h'⟩
      · exact ⟨Or.inl h, fun h' => e1.fresh x h (hown x h')⟩

/-! ## Commands for which setting up opens nothing -/

/-- A redirection to a path. -/
def Target.isFile : Target → Bool
  | .path _ | .pathLike _ => true
  | _ => false

theorem setupInput_noopen (sys : Sys) {t : Target} (ht : t.isFile = false) (close : Bool) (s : LS) :
    (setupInput sys t close s).2.opened = s.opened := by
  cases t <;> simp [Target.isFile] at ht <;> try rfl
  case redirect r => cases r <;> cases close <;> rfl
  case int n => cases close <;> rfl
  case str x => simp only [setupInput]; cases sys.encode x <;> rfl

theorem setPosition_noopen (sys : Sys) (t : Target) (ap : Bool) (s : LS) (h : Handle) :
    ((do setPosition sys t ap; pure h : M Handle) s).2.opened = s.opened := by
  show (M.bind (M.bind (call sys) _) _ s).2.opened = _
  simp only [M.bind, call]
  cases sys.fail s.calls <;> rfl

theorem setupOutput_noopen (sys : Sys) (fd : Fin 3) {t : Target} (ht : t.isFile = false)
    (ap close : Bool) (s : LS) : (setupOutput sys fd t ap close s).2.opened = s.opened := by
  by_cases hb : (s.stderrOnly && fd == 2) = true
  · cases t <;> simp [Target.isFile] at ht <;>
      (simp only [setupOutput]; show (M.bind getS _ s).2.opened = _; simp only [M.bind, getS, hb]; rfl)
  · rw [Bool.not_eq_true] at hb
    cases t <;> simp [Target.isFile] at ht <;>
      simp only [setupOutput] <;> (show (M.bind getS _ s).2.opened = _) <;>
      simp only [M.bind, getS, hb, Bool.false_eq_true, if_false] <;>
      first
      | rfl
      | exact setPosition_noopen sys _ ap s _
      | skip
    case redirect r =>
      cases r <;> cases close <;> try rfl
      all_goals (by_cases hf : fd = 1 <;> (show (if fd = 1 then _ else _ : LS).opened = _; simp [hf]))
    case int n => cases close <;> rfl

theorem fromDefault_isFile (t : Target) (fd : Fin 3) (p : PtyOpt) :
    (fromDefault t fd p).isFile = t.isFile := by
  cases t with
  | redirect r =>
    cases r <;> try rfl
    simp only [fromDefault]
    match fd, p.truthy with
    | 0, true => rfl
    | 0, false => rfl
    | 1, true => rfl
    | 1, false => rfl
    | 2, true => rfl
    | 2, false => rfl
  | _ => rfl

theorem bind_noopen {α β : Type} {m : M α} {f : α → M β} {s : LS}
    (h1 : (m s).2.opened = s.opened) (h2 : ∀ a t, (f a t).2.opened = t.opened) :
    ((m >>= f) s).2.opened = s.opened := by
  show (M.bind m f s).2.opened = _
  unfold M.bind
  cases hm : m s with
  | mk r s1 =>
    rw [hm] at h1
    cases r with
    | error e => exact h1
    | ok a => exact (h2 a s1).trans h1

theorem call_noopen (sys : Sys) (s : LS) : (call sys s).2.opened = s.opened := by
  unfold call; cases sys.fail s.calls <;> rfl

theorem enterBody_noopen (sys : Sys) (c : Command) (s : LS) (ha : usesProcSub c.args = false)
    (h0 : c.options.input.isFile = false) (h1 : c.options.output.isFile = false)
    (h2 : c.options.error.isFile = false) (hp : c.options.pty.truthy = false) :
    (enterBody sys c s).2.opened = s.opened := by
  unfold enterBody
  refine bind_noopen rfl fun _ t => ?_
  refine bind_noopen (by simp [setupArgs, ha, modify]) fun _ t => ?_
  refine bind_noopen ?_ fun _ t => ?_
  · unfold setupRedirects
    refine bind_noopen (setupInput_noopen sys (by rw [fromDefault_isFile]; exact h0) _ _) fun _ t => ?_
    refine bind_noopen (by simp only [noteStderrOnly, modify]; split <;> rfl) fun _ t => ?_
    refine bind_noopen (setupOutput_noopen sys 1 (by rw [fromDefault_isFile]; exact h1) _ _ _) fun _ t => ?_
    refine bind_noopen (setupOutput_noopen sys 2 (by rw [fromDefault_isFile]; exact h2) _ _ _) fun _ t => ?_
    refine bind_noopen (by simp [setupPty, hp]; rfl) fun _ t => ?_
    rfl
  · refine bind_noopen ?_ fun _ t => call_noopen sys t
    unfold setupPassFds
    split
    · rfl
    · refine bind_noopen rfl fun _ t => ?_
      cases c.options.passFdsClose <;> rfl

/-- C42 for commands without process substitutions, path redirections or terminal: whatever step fails
before the process is spawned, no descriptor leaks. -/
theorem C42_setup_failure_partial {sys : Sys} (hs : sys.Ok) (hc : sys.closesOk) (c : Command)
    (T : List Int) (hT : T.Nodup) (hown : ∀ x ∈ handed c.options, x ∈ T)
    (hd : (handed c.options).Nodup) (ha : usesProcSub c.args = false)
    (h0 : c.options.input.isFile = false) (h1 : c.options.output.isFile = false)
    (h2 : c.options.error.isFile = false) (hp : c.options.pty.truthy = false)
    {e : Exc} {s' : LS} (h : enter sys c { tab := T } = (.error e, s')) :
    s'.ebadf = [] ∧ ∀ x, x ∈ s'.tab ↔ x ∈ T ∧ x ∉ handed c.options := by
  obtain ⟨b1, _, _, b4⟩ := C42_setup_failure_exact hs hc c T hT hown hd h
  have hop : s'.opened = [] := by
    obtain ⟨s1, g1, g2⟩ := enter_err hc h
    have := enterBody_noopen sys c { tab := T } ha h0 h1 h2 hp
    rw [g1] at this
    obtain ⟨n, es, e1⟩ := enterBody_err hs g1
    obtain ⟨_, _, _, _, _, _, b7⟩ := closeAll_ok _ g2 (e1.nodup_tab hT)
      (by rw [fds_cleanupEntries]; exact hd) (by
        intro x hx
        rw [fds_cleanupEntries] at hx
        exact (e1.mem_tab x).2 (Or.inr (hown x hx)))
    rw [b7]
    exact this
  exact ⟨b1, fun x => by rw [b4 x, hop]; simp⟩

-- A failing lookup of the program.
example :
    let c := exCmd "nonexistent" [] { input := .int 7, inputClose := true, passFds := [8], passFdsClose := true }
    ∃ s', enter (exSys [0]) c { tab := [0, 1, 2, 7, 8] } = (.error .osError, s') ∧
      s'.tab = [0, 1, 2] ∧ s'.closed = [7, 8] := eval_err (by decide +kernel) (by decide +kernel)

/-- C42 fails: `sh("nonexistent", sh("ls"))` leaks both ends of the pipe when the program is not found. -/
theorem C42_process_substitution_false :
    let c := exCmd "nonexistent" [.cmd (exCmd "ls")]
    ∃ s', launch (exSys [1]) c { tab := [0, 1, 2] } = (.error .osError, s') ∧ s'.tab = [4, 3, 0, 1, 2] :=
  eval_err (by decide +kernel) (by decide +kernel)

/-- C42 fails: a file opened for a Path redirection stays open when the program is not found (until
the garbage collector gets it). -/
theorem C42_path_false :
    let c := exCmd "nonexistent" [] { output := .path "out".toList }
    ∃ s', launch (exSys [1]) c { tab := [0, 1, 2] } = (.error .osError, s') ∧ s'.tab = [3, 0, 1, 2] :=
  eval_err (by decide +kernel) (by decide +kernel)

/-- C42 fails: both sides of the terminal stay open when the program is not found. -/
theorem C42_pty_false :
    let c := exCmd "nonexistent" [] { pty := .on }
    ∃ s', launch (exSys [3]) c { tab := [0, 1, 2] } = (.error .osError, s') ∧ s'.tab = [4, 3, 0, 1, 2] :=
  eval_err (by decide +kernel) (by decide +kernel)

/-- C42 fails: the read end given to a writable pipeline stays open when exec fails, because the
clean-up looks at the options of the last command only. -/
theorem C42_writable_pipeline_false :
    let c := exCmd "tee" [.pipe [exCmd "a" [] { writable := true }, exCmd "b"]]
    ∃ s', launch (exSys [2]) c { tab := [0, 1, 2] } = (.error .osError, s') ∧ s'.tab = [3, 0, 1, 2] :=
  eval_err (by decide +kernel) (by decide +kernel)

/-! ## Failure of the spawn itself -/

theorem launch_spawn_err {sys : Sys} (hc : sys.closesOk) {c : Command} {s s1 s' : LS} {e : Exc}
    (h1 : enter sys c s = (.ok (), s1)) (h : launch sys c s = (.error e, s')) :
    exit sys true { s1 with calls := s1.calls + 1 } = (s', false) := by
  unfold launch at h
  rw [h1] at h
  dsimp only at h
  have noerr : ∀ b t, (exit sys b t).2 = false := by
    intro b t
    unfold exit
    have hx := closeAll_noerr hc t.openFds t
    cases hcl : closeAll sys t.openFds t with
    | mk t1 r =>
      rw [hcl] at hx
      simp only at hx
      subst hx
      have hsubs : ∀ l t, (cleanupSubs sys l t).2 = false := by
        intro l
        induction l with
        | nil => intro t; rfl
        | cons c l ih =>
          intro t
          unfold cleanupSubs
          have hx := closeAll_noerr hc (cleanupEntries c.options) t
          cases hcl : cleanup sys c.options t with
          | mk t1 r =>
            have : r = false := by
              have : (cleanup sys c.options t).2 = r := by rw [hcl]
              rw [← this]; exact hx
            subst this
            exact ih t1
      cases b
      · rfl
      · exact hsubs _ _
  split at h
  · next e1 s2 h2 =>
    simp at h2
    obtain ⟨_, rfl⟩ := h2
    have hn := noerr true { s1 with calls := s1.calls + 1 }
    cases hx : exit sys true { s1 with calls := s1.calls + 1 } with
    | mk s3 b =>
      rw [hx] at hn h
      simp only at hn
      subst hn
      simp at h
      rw [h.2]
  · next s2 h2 =>
    have hn := noerr false s2
    cases hx : exit sys false s2 with
    | mk s3 b =>
      rw [hx] at hn h
      simp only at hn
      subst hn
      simp at h

theorem cleanupSubs_ok {sys : Sys} : ∀ (subs : List SubCmd) {s s' : LS},
    cleanupSubs sys subs s = (s', false) → s.tab.Nodup →
    (subs.flatMap fun c => handed c.options).Nodup →
    (∀ x ∈ subs.flatMap (fun c => handed c.options), x ∈ s.tab) →
    (∀ x, x ∈ s'.tab ↔ x ∈ s.tab ∧ x ∉ subs.flatMap (fun c => handed c.options)) ∧
      s'.ebadf = s.ebadf ∧ s'.pty = s.pty
  | [], s, s', h, _, _, _ => by simp [cleanupSubs] at h; subst h; simp
  | c :: cs, s, s', h, hn, hd, hm => by
    unfold cleanupSubs at h
    split at h
    · cases h
    · next s1 h1 =>
      simp only [List.flatMap_cons] at hd hm ⊢
      obtain ⟨d1, d2, d3⟩ := List.nodup_append.1 hd
      obtain ⟨a1, a2, a3, _, a5, _, a7⟩ := closeAll_ok _ h1 hn (by rw [fds_cleanupEntries]; exact d1)
        (by intro x hx; rw [fds_cleanupEntries] at hx; exact hm x (by simp [hx]))
      rw [fds_cleanupEntries] at a2
      obtain ⟨i1, i2, i3⟩ := cleanupSubs_ok cs h a1 d2 (by
        intro x hx
        rw [a2]
        exact ⟨hm x (List.mem_append_right _ hx), fun h => d3 x h x hx rfl⟩)
      refine ⟨fun x => ?_, i2.trans a5, i3.trans (by rw [a7])⟩
      rw [i1, a2, List.mem_append]
      constructor
      · rintro ⟨⟨p, q⟩, r⟩; exact ⟨p, fun h => h.elim q r⟩
      · rintro ⟨p, q⟩; exact ⟨⟨p, fun h => q (Or.inl h)⟩, fun h => q (Or.inr h)⟩

/-- The substitution is a command, or a pipeline that is read from. -/
def SubCmd.simple : SubCmd → Bool
  | .cmd _ => true
  | .pipe p => !(SubCmd.pipe p).isWritable

theorem sub_handed {a b : SubCmd} {n : Int} (hn : 0 ≤ n) (hsim : a.simple = true) (hc : cleanEnd a)
    (h : (a.isWritable = true ∧ a.stdin n = .ok b) ∨ (a.isWritable = false ∧ a.stdout n = .ok b)) :
    (handed b.options).Perm (n :: handed a.options) := by
  have hin : ∀ c : Command, noIn c → (handed (withIn c n).options).Perm (n :: handed c.options) := by
    intro c h
    have : handed (withIn c n).options = n :: handed c.options := by
      simp only [noIn] at h
      simp [withIn, handed, h]
      simp [givenBy, hn]
      rfl
    rw [this]
  have hout : ∀ c : Command, noOut c → (handed (withOut c n).options).Perm (n :: handed c.options) := by
    intro c h
    simp only [noOut] at h
    have h1 : handed (withOut c n).options = givenBy c.options.inputClose c.options.input ++ n ::
        (givenBy c.options.errorClose c.options.error ++
          (if c.options.passFdsClose then c.options.passFds.filter (fun n => decide (0 ≤ n)) else [])) := by
      simp [withOut, handed]
      simp [givenBy, hn]
      rfl
    have h2 : handed c.options = givenBy c.options.inputClose c.options.input ++
        (givenBy c.options.errorClose c.options.error ++
          (if c.options.passFdsClose then c.options.passFds.filter (fun n => decide (0 ≤ n)) else [])) := by
      simp [handed, h]
    rw [h1, h2]
    exact List.perm_middle
  cases a with
  | cmd c =>
    rcases h with ⟨hw, h⟩ | ⟨hw, h⟩
    · simp only [SubCmd.stdin] at h
      cases h1 : c.stdin (.int n) true with
      | error e => rw [h1] at h; cases h
      | ok x =>
        rw [h1] at h; cases h
        rw [stdin_int_ok hn h1]
        simp only [SubCmd.isWritable] at hw
        simp only [cleanEnd, hw, if_true] at hc
        exact hin c hc
    · simp only [SubCmd.stdout] at h
      cases h1 : c.stdout (.int n) false true with
      | error e => rw [h1] at h; cases h
      | ok x =>
        rw [h1] at h; cases h
        rw [stdout_int_ok hn h1]
        simp only [SubCmd.isWritable] at hw
        simp only [cleanEnd, hw, Bool.false_eq_true, if_false] at hc
        exact hout c hc
  | pipe p =>
    have hw : (SubCmd.pipe p).isWritable = false := by simpa [SubCmd.simple] using hsim
    rcases h with ⟨hw', _⟩ | ⟨_, h⟩
    · rw [hw] at hw'; cases hw'
    · simp only [SubCmd.stdout] at h
      cases h1 : p.stdout (.int n) false true with
      | error e => rw [h1] at h; cases h
      | ok q =>
        rw [h1] at h; cases h
        obtain ⟨cs, c, hp, hq⟩ := pipeline_stdout_ok hn h1
        simp only [cleanEnd, hw, Bool.false_eq_true, if_false] at hc
        have := hout c (hc c (by simp [hp]))
        simpa [SubCmd.options, Pipeline.options, hp, hq] using this

/-- The commands among the arguments. -/
def subsOf (args : List Leaf) : List SubCmd := args.filterMap Leaf.sub?

theorem subst_handed {args ps subs passed kept pipes} (h : Subst args ps subs passed kept pipes) :
    (∀ x ∈ subsOf args, x.simple = true ∧ cleanEnd x) → (∀ x ∈ passed ++ kept, 0 ≤ x) →
    (subs.flatMap fun c => handed c.options).Perm
      (kept ++ (subsOf args).flatMap fun c => handed c.options) := by
  induction h with
  | nil => intro _ _; simp [subsOf]
  | plain a hn _ ih =>
    intro hc h0
    have : ∀ as, subsOf (a :: as) = subsOf as := by intro as; simp [subsOf, hn]
    rw [this] at hc ⊢
    exact ih hc h0
  | @reading a sub sub' r w as _ _ _ _ _ hsub hw hs _ ih =>
    intro hc h0
    have hso : subsOf (a :: as) = sub :: subsOf as := by simp [subsOf, hsub]
    rw [hso] at hc ⊢
    have i1 := ih (fun x hx => hc x (by simp [hx]))
      (fun x hx => h0 x (by simp at hx ⊢; rcases hx with h | h <;> simp [h]))
    have p1 := sub_handed (h0 w (by simp)) (hc sub (by simp)).1 (hc sub (by simp)).2 (Or.inr ⟨(isWritable_false_iff _).mpr hw, hs⟩)
    simp only [List.flatMap_cons, List.cons_append]
    refine (p1.append i1).trans ?_
    simp only [List.cons_append]
    exact (List.perm_append_comm_assoc _ _ _).cons w
  | @writing a sub sub' r w as _ _ _ _ _ hsub hw hs _ ih =>
    intro hc h0
    have hso : subsOf (a :: as) = sub :: subsOf as := by simp [subsOf, hsub]
    rw [hso] at hc ⊢
    have i1 := ih (fun x hx => hc x (by simp [hx]))
      (fun x hx => h0 x (by simp at hx ⊢; rcases hx with h | h <;> simp [h]))
    have p1 := sub_handed (h0 r (by simp)) (hc sub (by simp)).1 (hc sub (by simp)).2 (Or.inl ⟨(isWritable_iff _).mpr hw, hs⟩)
    simp only [List.flatMap_cons, List.cons_append]
    refine (p1.append i1).trans ?_
    simp only [List.cons_append]
    exact (List.perm_append_comm_assoc _ _ _).cons r

/-- C42, spawning. If setting up succeeded but the process cannot be spawned, then everything the
library opened is closed, except the parent side of the terminal; and everything handed over by the
command's and its substitutions' options is closed, without closing anything twice; the caller's
descriptors stay open. Missing: pipelines that are written to (see `C42_writable_pipeline_false`), and
descriptors handed over by commands deeper inside, which are not closed. -/
theorem C42_spawn_failure_partial {sys : Sys} (hs : sys.Ok) (hc : sys.closesOk) (c : Command)
    (T : List Int) (hT : T.Nodup)
    (hsub : ∀ x ∈ subsOf c.args, x.simple = true ∧ cleanEnd x)
    (hown : ∀ x ∈ handed c.options ++ (subsOf c.args).flatMap (fun d => handed d.options), x ∈ T)
    (hd : (handed c.options ++ (subsOf c.args).flatMap (fun d => handed d.options)).Nodup)
    {e : Exc} {s1 s' : LS} (h1 : enter sys c { tab := T } = (.ok (), s1))
    (h : launch sys c { tab := T } = (.error e, s')) :
    s'.ebadf = [] ∧ ∀ x, x ∈ s'.tab ↔
      (x ∈ T ∧ x ∉ handed c.options ++ (subsOf c.args).flatMap (fun d => handed d.options)) ∨
      x ∈ s'.parent := by
  have hx := launch_spawn_err hc h1 h
  obtain ⟨new, ents, own, kept, passed, ps, e1, hS, hpf, hperm, hfds, hpo, hpi, _⟩ :=
    enterBody_ok hs (enter_ok.1 h1)
  have hopen : s1.openFds = ents := by rw [e1.openFds]; rfl
  unfold exit at hx
  split at hx
  · cases hx
  next s2 h2 =>
  simp only [if_true] at hx
  dsimp only at h2
  rw [hopen] at h2
  have htab : ∀ x, x ∈ s1.tab ↔ x ∈ new ∨ x ∈ T := e1.mem_tab
  have hnew : ∀ x, x ∈ new ↔ x ∈ own ∨ x ∈ kept ∨ x ∈ s1.parent := by
    intro x; rw [hperm.mem_iff]; simp
  have hfr : ∀ x ∈ new, x ∉ T := e1.fresh
  have hnn : ∀ x ∈ passed ++ kept, 0 ≤ x := by
    intro x hx
    refine e1.nonneg x (hperm.symm.subset ?_)
    rcases List.mem_append.1 hx with h | h
    · simp [hpo x h]
    · simp [h]
  have hsh := subst_handed hS hsub hnn
  generalize hSub : (subsOf c.args).flatMap (fun d => handed d.options) = S at *
  have hmem : ∀ x, x ∈ fds ents ↔ x ∈ handed c.options ∨ x ∈ own := by
    intro x; rw [hfds.mem_iff]; simp
  obtain ⟨d1, d2, d3⟩ := List.nodup_append.1 hd
  have hnd : (own ++ kept ++ s1.parent).Nodup := hperm.nodup_iff.1 e1.nodup
  obtain ⟨q1, q2, q3⟩ := List.nodup_append.1 hnd
  obtain ⟨r1, r2, r3⟩ := List.nodup_append.1 q1
  have hnodup : (fds ents).Nodup := by
    rw [hfds.nodup_iff]
    refine List.nodup_append.2 ⟨d1, r1, ?_⟩
    intro a ha b hb hab
    subst hab
    exact hfr a ((hnew a).2 (Or.inl hb)) (hown a (by simp [ha]))
  obtain ⟨b1, b2, b3, _, b5, _, b7⟩ := closeAll_ok ents h2 (e1.nodup_tab hT) hnodup (by
    intro x hx
    rcases (hmem x).1 hx with h | h
    · exact (htab x).2 (Or.inr (hown x (by simp [h])))
    · exact (htab x).2 (Or.inl ((hnew x).2 (Or.inl h))))
  have hs2 : s2.subcmds = s1.subcmds := by rw [b7]
  have hp2 : s2.pty = s1.pty := by rw [b7]
  rw [hs2] at hx
  have hkS : (kept ++ S).Nodup := by
    refine List.nodup_append.2 ⟨r2, d2, ?_⟩
    intro a ha b hb hab
    subst hab
    exact hfr a ((hnew a).2 (Or.inr (Or.inl ha))) (hown a (by simp [hb]))
  obtain ⟨c1, c2, c3⟩ := cleanupSubs_ok _ hx (by simpa using b1) (hsh.nodup_iff.2 hkS) (by
    intro x hx
    have : x ∈ kept ∨ x ∈ S := by simpa using hsh.subset hx
    dsimp only
    rw [b2, hmem, htab, hnew]
    rcases this with h | h
    · refine ⟨Or.inl (Or.inr (Or.inl h)), ?_⟩
      rintro (h' | h')
      · exact hfr x ((hnew x).2 (Or.inr (Or.inl h))) (hown x (by simp [h']))
      · exact r3 x h' x h rfl
    · refine ⟨Or.inr (hown x (by simp [h])), ?_⟩
      rintro (h' | h')
      · exact d3 x h' x h rfl
      · exact hfr x ((hnew x).2 (Or.inl h')) (hown x (by simp [h])))
  have hpar : s'.parent = s1.parent := by
    simp only [LS.parent, c3, hp2]
  refine ⟨c2.trans (b5.trans e1.ebadf), fun x => ?_⟩
  have hmk : x ∈ s1.subcmds.flatMap (fun c => handed c.options) ↔ x ∈ kept ∨ x ∈ S := by
    rw [hsh.mem_iff, List.mem_append]
  rw [c1, hmk]
  dsimp only
  rw [b2, hmem, htab, hnew, hpar]
  simp only [List.mem_append, not_or]
  constructor
  · rintro ⟨⟨(h | h | h) | h, h1, h2⟩, h3, h4⟩
    · exact (h2 h).elim
    · exact (h3 h).elim
    · exact Or.inr h
    · exact Or.inl ⟨h, h1, h4⟩
  · rintro (⟨h, h1, h2⟩ | h)
    · exact ⟨⟨Or.inr h, h1, fun h' => hfr x ((hnew x).2 (Or.inl h')) h⟩,
        fun h' => hfr x ((hnew x).2 (Or.inr (Or.inl h'))) h, h2⟩
    · have hn : x ∈ new := (hnew x).2 (Or.inr (Or.inr h))
      exact ⟨⟨Or.inl (Or.inr (Or.inr h)), fun h' => hfr x hn (hown x (by simp [h'])),
        fun h' => q3 x (by simp [h']) x h rfl⟩, fun h' => q3 x (by simp [h']) x h rfl,
        fun h' => hfr x hn (hown x (by simp [h']))⟩

-- The spawn fails for `diff <(sort) -` with a file as stdout and descriptors handed over at both levels.
example :
    let c := exCmd "diff" [.cmd (exCmd "sort" [] { input := .int 8, inputClose := true })]
      { output := .path "o".toList, error := .int 7, errorClose := true }
    (∃ s1, enter (exSys [3]) c { tab := [0, 1, 2, 7, 8] } = (.ok (), s1)) ∧
    ∃ s', launch (exSys [3]) c { tab := [0, 1, 2, 7, 8] } = (.error .osError, s') ∧
      s'.tab = [0, 1, 2] ∧ s'.closed = [9, 11, 7, 8, 10] := 
  ⟨(eval_ok (P := fun _ => True) (by decide +kernel) trivial).imp fun _ h => h.1,
   eval_err (by decide +kernel) (by decide +kernel)⟩

/-- C42 fails: when a command on a terminal cannot be spawned, the parent side stays open. -/
theorem C42_spawn_pty_false :
    let c := exCmd "ls" [] { pty := .on }
    ∃ s', launch (exSys [4]) c { tab := [0, 1, 2] } = (.error .osError, s') ∧ s'.tab = [3, 0, 1, 2] :=
  eval_err (by decide +kernel) (by decide +kernel)

/-! ## Failure of a pipeline's set-up -/

/-- C42 for pipelines: if one of the pipes cannot be created, all pipes created so far are closed,
each end exactly once, and nothing else is. The exception is the one that made the setup fail. -/
theorem C42_pipeline_setup_failure {sys : Sys} (hs : sys.Ok) (cs : List Command) (T : List Int)
    (hT : T.Nodup) {e : Exc} {s' : LS} (h : pipeStart sys cs { tab := T } = (.error e, s')) :
    s'.ebadf = [] ∧ s'.closed = s'.opened ∧ (∀ x, x ∈ s'.tab ↔ x ∈ T) ∧ (setupPipeline sys cs { tab := T }).1 = .error e := by
  unfold pipeStart at h
  split at h
  · cases h
  · next e1 s1 h1 =>
    have h1' : (setupPipeline sys cs { tab := T }).1 = .error e1 := congrArg Prod.fst h1
    have hE : ∃ new, Eff { tab := T } s1 new (new.map Ent.fd) := by
      simp only [setupPipeline, M.bind_err, liftE_err] at h1
      rcases h1 with h1 | ⟨cs1, s2, h2, _, rfl⟩
      · exact stitch_err hs _ cs (Nat.le_refl _) h1
      · obtain ⟨ps, e, _⟩ := stitch_ok hs _ cs (Nat.le_refl _) h2
        exact ⟨_, e⟩
    obtain ⟨new, e⟩ := hE
    have hopen : s1.openFds = new.map Ent.fd := by rw [e.openFds]; rfl
    have hf : fds (new.map Ent.fd) = new := by
      rw [fds_map_fd, List.filter_eq_self]
      intro a ha
      simpa using e.nonneg a ha
    obtain ⟨s2, g1, _⟩ := C44_close_fds sys new s1
    rw [hopen, g1] at h
    simp at h
    obtain ⟨rfl, rfl⟩ := h
    obtain ⟨b1, b2, b3, _, b5, _, b7⟩ := closeAll_ok _ g1 (e.nodup_tab hT) (by rw [hf]; exact e.nodup)
      (by rw [hf]; intro x hx; exact (e.mem_tab x).2 (Or.inl hx))
    rw [hf] at b2 b3
    refine ⟨b5.trans e.ebadf, ?_, fun x => ?_, h1'⟩
    · dsimp only
      rw [b3, e.closed, b7]
      dsimp only
      rw [e.opened]
    · dsimp only
      rw [b2, e.mem_tab]
      dsimp only
      constructor
      · rintro ⟨h | h, h'⟩
        · exact (h' h).elim
        · exact h
      · intro h
        exact ⟨Or.inr h, fun h' => e.fresh x h' h⟩

example : ∃ s', pipeStart (exSys [1]) [exCmd "a", exCmd "b", exCmd "c"] { tab := [0, 1, 2] } =
    (.error .osError, s') ∧ s'.closed = [3, 4] ∧ s'.tab = [0, 1, 2] := eval_err (by decide +kernel) (by decide +kernel)

/-- C42 fails for pipelines: descriptors handed over by the commands themselves stay open when a pipe
cannot be created. -/
theorem C42_pipeline_owned_false :
    ∃ s', pipeStart (exSys [0]) [exCmd "a" [] { input := .int 7, inputClose := true }, exCmd "b"]
      { tab := [0, 1, 2, 7] } = (.error .osError, s') ∧ 7 ∈ s'.tab := eval_err (by decide +kernel) (by decide +kernel)

/-! ## A cancelled `async with pipeline` -/

/-- Other code opens descriptors. -/
theorem captWait_opened {sys : Sys} (hs : sys.Ok) (cmds : List Command) : ∀ (n : Nat) (s : LS),
    ∃ others, Eff s (captWait sys cmds (List.replicate n .opened) s) others [] ∧ others.length = n
  | 0, s => ⟨[], .refl s, rfl⟩
  | n + 1, s => by
    obtain ⟨others, e, hl⟩ := captWait_opened hs cmds n (newFd sys s).2
    have e1 : Eff s (newFd sys s).2 [sys.alloc s.tab] [] :=
      ⟨rfl, rfl, rfl, rfl, rfl, rfl, by simp [newFd], by simpa using hs.fresh s.tab,
        by simpa using hs.nonneg s.tab, by simp⟩
    exact ⟨_, e1.trans e, by simp [hl]⟩

/-- C42 for `async with pipeline`: if the caller is cancelled while it waits for the pipeline to be ready,
and no command has been launched yet, all the pipes are closed, each end exactly once, and nothing else
is, whatever descriptors (`others`) the rest of the program opens meanwhile. -/
theorem C42_pipeline_cancelled_partial {sys : Sys} (hs : sys.Ok) (cs : List Command) (T : List Int)
    (hT : T.Nodup) (n : Nat) (hset : okB (setupPipeline sys cs { tab := T }).1 = true) :
    ∃ s' pipeEnds others, pipeStartCancelled sys cs (List.replicate n .opened) { tab := T } =
        (.error .cancelled, s') ∧ others.length = n ∧ pipeEnds.length = 2 * (cs.length - 1) ∧
      s'.opened = pipeEnds ++ others ∧ s'.opened.Nodup ∧
      s'.tried = pipeEnds ∧ s'.closed = pipeEnds ∧ s'.ebadf = [] ∧
      ∀ x, x ∈ s'.tab ↔ x ∈ T ∨ x ∈ others := by
  unfold pipeStartCancelled
  cases h1 : setupPipeline sys cs { tab := T } with
  | mk r s1 =>
  cases r with
  | error e => rw [h1] at hset; cases hset
  | ok cmds =>
    dsimp only
    simp only [setupPipeline, M.bind_ok, liftE_ok] at h1
    obtain ⟨cs1, s2, h2, _, rfl⟩ := h1
    obtain ⟨ps, e, _, hlen, _⟩ := stitch_ok hs _ cs (Nat.le_refl _) h2
    obtain ⟨others, e2, hol⟩ := captWait_opened hs cmds n s2
    have hopen : s2.openFds = (ps.flatMap fun p => [p.1, p.2]).map Ent.fd := by rw [e.openFds]; rfl
    have e12 := e.trans e2
    have hlen' : (ps.flatMap fun p => [p.1, p.2]).length = 2 * (cs.length - 1) := by
      rw [← hlen]
      have : ∀ l : List (Int × Int), (l.flatMap fun p => [p.1, p.2]).length = 2 * l.length := by
        intro l
        induction l with
        | nil => rfl
        | cons a l ih => simp only [List.flatMap_cons, List.length_append, ih, List.length_cons, List.length_nil]; omega
      exact this ps
    generalize (ps.flatMap fun p => [p.1, p.2]) = new at *
    have hf : fds (new.map Ent.fd) = new := by
      rw [fds_map_fd, List.filter_eq_self]
      intro a ha
      simpa using e.nonneg a ha
    generalize captWait sys cmds (List.replicate n .opened) s2 = s3 at *
    obtain ⟨s4, g1, _⟩ := C44_close_fds sys new s3
    rw [hopen, g1]
    obtain ⟨b1, b2, b3, b4, b5, _, b7⟩ := closeAll_ok _ g1 (e12.nodup_tab hT) (by rw [hf]; exact e.nodup)
      (by rw [hf]; intro x hx; exact (e12.mem_tab x).2 (Or.inl (List.mem_append_left _ hx)))
    rw [hf] at b2 b3 b4
    refine ⟨{ s4 with openFds := [] }, new, others, rfl, hol, hlen', ?_, ?_, ?_, ?_, ?_, fun x => ?_⟩
    · dsimp only; rw [b7]; dsimp only; rw [e12.opened]; rfl
    · dsimp only; rw [b7]; dsimp only; rw [e12.opened]; exact e12.nodup
    · dsimp only; rw [b4, e12.tried]; rfl
    · dsimp only; rw [b3, e12.closed]; rfl
    · exact b5.trans e12.ebadf
    · dsimp only
      rw [b2, e12.mem_tab]
      dsimp only
      constructor
      · rintro ⟨h | h, h'⟩
        · rcases List.mem_append.1 h with h | h
          · exact (h' h).elim
          · exact Or.inr h
        · exact Or.inl h
      · rintro (h | h)
        · exact ⟨Or.inr h, fun h' => e.fresh x h' h⟩
        · exact ⟨Or.inl (List.mem_append_right _ h), fun h' =>
            e2.fresh x h ((e.mem_tab x).2 (Or.inl h'))⟩

/-- `async with a | b` cancelled before anything was launched, while a descriptor was opened elsewhere. -/
example : okB (setupPipeline (exSys []) [exCmd "a", exCmd "b"] { tab := [0, 1, 2] }).1 = true ∧
    ∃ s', pipeStartCancelled (exSys []) [exCmd "a", exCmd "b"] [.opened] { tab := [0, 1, 2] } =
      (.error .cancelled, s') ∧ s'.closed = [3, 4] ∧ s'.tab = [5, 0, 1, 2] :=
  ⟨by decide +kernel, eval_err (by decide +kernel) (by decide +kernel)⟩

/-- C42 is false for `async with pipeline` when a command has been launched already: its pipe ends, which
the launch has closed, are closed again. -/
theorem C42_pipeline_cancelled_twice_false :
    ∃ s', pipeStartCancelled (exSys []) [exCmd "a", exCmd "b"] [.launched 0] { tab := [0, 1, 2] } =
      (.error .cancelled, s') ∧ s'.tried = [4, 3, 4] ∧ s'.ebadf = [4] :=
  eval_err (by decide +kernel) (by decide +kernel)

/-- ... and if other code has opened a descriptor that got the number meanwhile, that descriptor is closed
behind its back. -/
theorem C42_pipeline_cancelled_foreign_false :
    ∃ s', pipeStartCancelled (exSys []) [exCmd "a", exCmd "b"] [.launched 0, .opened] { tab := [0, 1, 2] } =
      (.error .cancelled, s') ∧ s'.opened = [3, 4, 4] ∧ s'.closed = [4, 3, 4] ∧ s'.tab = [0, 1, 2] :=
  eval_err (by decide +kernel) (by decide +kernel)

end Shellous
