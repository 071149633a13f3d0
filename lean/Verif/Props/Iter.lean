import Verif.Lemmas.Iter
import Verif.Props.EndToEnd
import Verif.Props.PipeEnter
import Verif.Props.PipeOutcome
import Verif.Props.Capture

/-!
# C70: `async for line in cmd`
-/

namespace Shellous.Props
open Shellous

/-- The lines are all of the output that the stream has seen: it has ended, and the lines are its decoding, cut after each
newline. (`errors="ignore"` may leave an empty last line.) -/
structure WholeOutput (errors : Errors) (seen : List SEv) (lines : List Text) : Prop where
  ended : ended seen = true
  text : ∃ t, decodeAll utf8Step errors (written seen) = .ok t ∧ lines.flatten = t
  cut : errors ≠ .ignore → TextLines lines

/-- The generator was interrupted by a cancellation: of the consumer while it waited for a line, or (after some other
exception) of the cleanup. -/
def Interrupted (w : W) : Prop := ∃ e, .bodyEnd (some e) ∈ w.trace ∧ (e = .cancelled ∨ .thrown ∈ cleanupLog w.trace)

theorem gend_whole {gc : GenCfg} {errors : Errors} {g : GenSt} (hs : gc.stream = true)
    (hd : gc.decode = decodeAll utf8Step errors) (h : GEnd gc none g) : WholeOutput errors (gc.seen g.tries) g.out := by
  have hdone := h.done rfl hs
  have ht := h.texts rfl
  rw [h.ls] at hdone ht
  have hl := C19_lines_partial gc.limit errors (gc.seen g.tries) hdone
  have hinv := lines_inv gc.limit (gc.seen g.tries)
  rw [hd] at ht
  simp only [ht] at hl
  cases hx : decodeAll utf8Step errors (written (gc.seen g.tries)) with
  | error e => exact absurd (hl.2 e hx) (by simp)
  | ok t =>
    obtain ⟨_, h2, h3⟩ := hl.1 t hx
    exact ⟨(hinv.done hdone).2, ⟨t, hx, h2⟩, h3⟩

/-- A block that ends normally although its body raised: it was cancelled, and then the timer cannot have gone off, unless
`catch_cancelled` is set. -/
theorem block_suppressed {cfg : RCfg} {w w' : W} (hf : w.Fresh) {evs : List Ev} {e : Exc}
    (h : execute .block cfg w evs = (.ok none, w')) (he : .bodyEnd (some e) ∈ w'.trace) :
    (e = .cancelled ∨ .thrown ∈ cleanupLog w'.trace) ∧ (w'.timedOut = true → cfg.opts.catchCancelled = true) := by
  cases execute_ended hf h (by simp) with
  | ended w1 w2 w3 ex ob _ hl hrel hbr x ho fin =>
    obtain ⟨l, sp⟩ := hl.split hf hbr x
    have hex : ex = some e := (sp.bodyEnd he).symm
    subst hex
    cases ob with
    | blocked => exact absurd rfl ho
    | exc e => generalize hoc : combine _ (Out.exc e) = oc at fin; cases hoc; cases fin
    | ok b =>
      cases b with
      | false => generalize hoc : combine (some e) (Out.ok false) = oc at fin; cases hoc; cases fin
      | true =>
        obtain ⟨_, hc, ht⟩ := x.ok true rfl
        refine ⟨?_, fun h => ht ⟨hc rfl, h⟩⟩
        by_cases hc' : e = .cancelled
        · exact .inl hc'
        refine .inr (Classical.byContradiction fun ht => ?_)
        have ht0 : throwsIn (cleanupLog (w3.stopTimer.log (.auditStop none)).trace) = 0 := List.count_eq_zero.2 ht
        have hth : w3.throws = (w2.log (.bodyEnd (some e))).throws := by
          have := sp.throwsIn
          have := sp.throws
          omega
        have hcan := not_cancelled hl hbr x hth (by simpa using hc')
        rw [hc rfl] at hcan
        cases hcan

/-- An iteration over a command, seen as a block. -/
theorem iter_block {cfg : RCfg} {gc : GenCfg} {w w' : W} {evs : List Ev} {o : Out (Option Exc × GenSt)}
    (h : iterExecute cfg gc w evs = (o, w')) : (∃ evs', execute .block cfg w evs' = (o.asLoop, w')) ∧
      (∀ e, o ≠ .exc e) ∧ ∀ x g, o = .ok (x, g) → IterEnd gc w' g x := by
  cases h
  exact iterate_block cfg gc w evs

theorem asLoop_blocked {o : Out (Option Exc × GenSt)} : o.asLoop = .blocked ↔ o = .blocked := by
  unfold Out.asLoop
  split <;> simp

/-- **C70.** When `async for line in cmd` ends normally, the lines it handed out are the whole output of the command
(UTF-8): the stream has ended, and the lines are its decoding cut after each newline; or else the generator was interrupted
by a cancellation. Missing from the full claim is the second case: see `C70_cancelled_false`. -/
theorem C70_complete_partial (cfg : RCfg) (gc : GenCfg) (w : W) (hf : w.Fresh) (evs : List Ev) (errors : Errors) (g : GenSt)
    (w' : W) (hs : gc.stream = true) (hd : gc.decode = decodeAll utf8Step errors)
    (h : iterExecute cfg gc w evs = (.ok (none, g), w')) :
    (.bodyEnd none ∈ w'.trace ∧ WholeOutput errors (gc.seen g.tries) g.out) ∨ Interrupted w' := by
  obtain ⟨⟨evs', hx⟩, _, hend⟩ := iter_block h
  cases hend none g rfl with
  | launch e he => cases he
  | body r hr hg =>
    cases r with
    | none => exact .inl ⟨hr, gend_whole hs hd hg⟩
    | some e => exact .inr ⟨e, hr, (block_suppressed hf hx hr).1⟩

/-- **C70, timeouts.** The `timeout` option never truncates the output silently: if the timer went off, and the loop
nevertheless ended normally, it has handed out the whole output (without `catch_cancelled`). -/
theorem C70_timeout (cfg : RCfg) (gc : GenCfg) (w : W) (hf : w.Fresh) (evs : List Ev) (errors : Errors) (g : GenSt)
    (w' : W) (hs : gc.stream = true) (hd : gc.decode = decodeAll utf8Step errors)
    (h : iterExecute cfg gc w evs = (.ok (none, g), w')) (ht : w'.timedOut = true) (hc : cfg.opts.catchCancelled = false) :
    WholeOutput errors (gc.seen g.tries) g.out := by
  obtain ⟨⟨evs', hx⟩, _, hend⟩ := iter_block h
  cases hend none g rfl with
  | launch e he => cases he
  | body r hr hg =>
    cases r with
    | none => exact gend_whole hs hd hg
    | some e =>
      have := (block_suppressed hf hx hr).2 ht
      rw [hc] at this
      cases this

/-- **C70.** However the loop ended, the lines handed out are decodings of the first lines of the output: none is lost,
split or handed out twice. -/
theorem C70_prefix (cfg : RCfg) (gc : GenCfg) (w : W) (evs : List Ev) (x : Option Exc) (g : GenSt) (w' : W)
    (h : iterExecute cfg gc w evs = (.ok (x, g), w')) :
    ∃ lines, Lines lines ∧ g.out = (readLines gc.decode lines).1 ∧
      ((∀ a b c, written (gc.seen g.tries) = a ++ b ++ c → (0x0A : UInt8) ∉ b → b.length ≤ gc.limit) →
        SEv.exc .valueError ∉ gc.seen g.tries → lines.flatten <+: written (gc.seen g.tries)) := by
  obtain ⟨_, _, hend⟩ := iter_block h
  cases hend x g rfl with
  | launch e _ hg =>
    subst hg
    exact ⟨[], ⟨by simp, by simp, by simp⟩, rfl, fun _ _ => by simp⟩
  | body r hr hg =>
    have hp := C19_prefix gc.limit (gc.seen g.tries)
    rw [← hg.ls] at hp
    exact ⟨g.ls.lines, hp.1, hg.out.symm, hp.2⟩

/-- **C70.** After a loop that ended normally, and in which nobody was cancelled, the child has ended and its status has been
collected, no signal has been sent to it, and every background copy (of stderr, for example) has come to its end. -/
theorem C70_run_ended (cfg : RCfg) (gc : GenCfg) (w : W) (hf : w.Fresh) (evs : List Ev) (g : GenSt) (w' : W)
    (h : iterExecute cfg gc w evs = (.ok (none, g), w')) (hi : ¬ Interrupted w') (ht : .thrown ∉ cleanupLog w'.trace) :
    Reaped w' ∧ librarySignals w'.trace = [] ∧ (∀ s, .kill false s ∉ w'.trace) ∧
      ∀ i ∈ copies cfg, ∃ t o, w'.tasks[i]? = some t ∧ t.out = some o ∧ (∀ e, o ≠ .err e) ∧ t.cancels = 0 := by
  obtain ⟨⟨evs', hx⟩, _, hend⟩ := iter_block h
  cases hend none g rfl with
  | launch e he => cases he
  | body r hr hg =>
    cases r with
    | some e => exact absurd ⟨e, hr, (block_suppressed hf hx hr).1⟩ hi
    | none =>
      have ht0 : throwsIn (cleanupLog w'.trace) = 0 := List.count_eq_zero.2 ht
      obtain ⟨h1, h2, _⟩ := C34_normal_end .block cfg w hf evs' none w' hx hr ht0
      refine ⟨?_, h1, h2, C69_block_copies_ended cfg w hf evs' w' hx hr ht⟩
      cases execute_ended hf hx (by simp [Out.asLoop]) with
      | ended w1 w2 w3 ex ob _ hl hrel hbr x ho fin =>
        obtain ⟨l, sp⟩ := hl.split hf hbr x
        have hex : ex = none := (sp.bodyEnd hr).symm
        subst hex
        have hth : w3.throws = (w2.log (.bodyEnd none)).throws := by
          have := sp.throwsIn
          have := sp.throws
          omega
        have hcan := not_cancelled hl hbr x hth (by simp)
        cases ob with
        | blocked => exact absurd rfl ho
        | exc e => generalize hoc : combine none (Out.exc e) = oc at fin; cases hoc; cases fin
        | ok b => exact rcKnown_reaped (x.good.same rfl rfl rfl) (x.calm b rfl rfl hcan).1

/-- **C70.** However the loop ends - also when the consumer leaves it early and closes the generator - the child has ended,
unless the library could not kill it; with the restrictions of C33. -/
theorem C70_child_partial (cfg : RCfg) (gc : GenCfg) (w : W) (hf : w.Fresh) (evs : List Ev) (x : Option Exc) (g : GenSt)
    (w' : W) (h : iterExecute cfg gc w evs = (.ok (x, g), w')) (hk : KillUndisturbed w'.trace)
    (hc : .bodyStart ∈ w'.trace ∨ w'.cancels ≤ w.cancels + 2) :
    w'.proc = none ∨ Reaped w' ∨ (.unableToKill ∈ w'.trace ∧ ∃ e, x = some e) := by
  obtain ⟨⟨evs', hx⟩, _, _⟩ := iter_block h
  have hb : (Out.ok (x, g)).asLoop ≠ .blocked := by rw [Ne, asLoop_blocked]; simp
  rcases C33_partial .block cfg w hf evs' _ w' hx hb hk hc with h | h | ⟨h1, e, h2, _⟩
  · exact .inl h
  · exact .inr (.inl h)
  · refine .inr (.inr ⟨h1, ?_⟩)
    cases x with
    | none => cases h2
    | some e => exact ⟨e, rfl⟩

/-- **C70.** The audit callback brackets an iteration, too. -/
theorem C70_audits (cfg : RCfg) (gc : GenCfg) (w : W) (hf : w.Fresh) (evs : List Ev) (x : Option Exc) (g : GenSt) (w' : W)
    (h : iterExecute cfg gc w evs = (.ok (x, g), w')) :
    ∃ (sigs : List (Option Nat)) (f : Option Exc), audits w'.trace = .start :: sigs.map .signal ++ [.stop f] := by
  obtain ⟨⟨evs', hx⟩, _, _⟩ := iter_block h
  exact C32_ended .block cfg w hf evs' _ w' hx (by rw [Ne, asLoop_blocked]; simp)

/-- `async for line in c` was executed from the launch to its normal end: `d` is the command launched, `s'` the state of the
launch (Model/Launch) when the child runs, `wd` its copies and streams, `gc` the reader of the stream the loop reads. -/
structure Iterated (sys : Sys) (c d : Command) (s s' : LS) (wd : Wired) (cfg : RCfg) (gc : GenCfg) (errors : Errors) (w : W)
    (evs : List Ev) (g : GenSt) (w' : W) : Prop where
  args : c.args ≠ []
  start : iterStart sys c s = (.ok d, s')
  wired : wire sys d.options s' = .ok wd
  opts : cfg.opts = d.options
  ioTasks : cfg.ioTasks = wd.tasks.length
  stream : gc.stream = wd.iterStream.isSome
  decode : gc.decode = decodeAll utf8Step errors
  fresh : w.Fresh
  ended : iterExecute cfg gc w evs = (.ok (none, g), w')

/-- **C70, end to end.** By default, `async for line in cmd` hands out the whole standard output of the command, if it ends
normally and its generator was not interrupted by a cancellation; and then the child has exited and been collected, and the
copy of its standard error is complete. -/
theorem C70_stdout_partial {sys : Sys} {c d : Command} {s s' : LS} {wd : Wired} {cfg : RCfg} {gc : GenCfg}
    {errors : Errors} {w w' : W} {evs : List Ev} {g : GenSt} (a : Iterated sys c d s s' wd cfg gc errors w evs g w')
    (ho : c.options.output = .redirect .default) (hi : ¬ Interrupted w') :
    wd.iterStream = some (outEnds s'.pty).lib ∧ WholeOutput errors (gc.seen g.tries) g.out ∧
      (.thrown ∉ cleanupLog w'.trace → Reaped w' ∧
        ∀ i ∈ copies cfg, ∃ t o, w'.tasks[i]? = some t ∧ t.out = some o ∧ (∀ e, o ≠ .err e) ∧ t.cancels = 0) := by
  obtain ⟨hl, _, _, hd, _, _⟩ := C13_iteration_command c d a.args s s' a.start
  have hst := C12_stdout d s hl a.wired
  rw [show d.options.output = .redirect .capture by rw [hd (by rw [ho]; rfl)]] at hst
  have hx : wd.iterStream = some (outEnds s'.pty).lib := by simp [Wired.iterStream, hst.2.2]
  refine ⟨hx, ?_, ?_⟩
  · rcases C70_complete_partial cfg gc w a.fresh evs errors g w' (by rw [a.stream, hx]; rfl) a.decode a.ended with h | h
    · exact h.2
    · exact absurd h hi
  · intro ht
    obtain ⟨h1, _, _, h2⟩ := C70_run_ended cfg gc w a.fresh evs g w' a.ended hi ht
    exact ⟨h1, h2⟩

/-- **C70.** With the idiom `cmd.stdout(DEVNULL).stderr(STDOUT)`, the loop hands out the whole standard error. -/
theorem C70_stderr_partial {sys : Sys} (hs : sys.Ok) {c d : Command} {s s' : LS} {wd : Wired} {cfg : RCfg} {gc : GenCfg}
    {errors : Errors} {w w' : W} {evs : List Ev} {g : GenSt} (a : Iterated sys c d s s' wd cfg gc errors w evs g w')
    (hpty : c.options.pty.truthy = false) (ho : c.options.output = .redirect .devnull)
    (he : c.options.error = .redirect .stdout) (hi : ¬ Interrupted w') :
    wd.iterStream = some .procStderr ∧ WholeOutput errors (gc.seen g.tries) g.out := by
  have hst := C13_iteration_stderr hs c d a.args s s' wd a.start a.wired hpty ho he
  have hx : wd.iterStream = some .procStderr := by simp [Wired.iterStream, hst.1, hst.2]
  refine ⟨hx, ?_⟩
  rcases C70_complete_partial cfg gc w a.fresh evs errors g w' (by rw [a.stream, hx]; rfl) a.decode a.ended with h | h
  · exact h.2
  · exact absurd h hi

/-- **C70.** If neither stream is captured, the loop hands out nothing. -/
theorem C70_redirected {sys : Sys} (hs : sys.Ok) {c d : Command} {s s' : LS} {wd : Wired} {cfg : RCfg} {gc : GenCfg}
    {errors : Errors} {w w' : W} {evs : List Ev} {g : GenSt} (a : Iterated sys c d s s' wd cfg gc errors w evs g w')
    (hpty : c.options.pty.truthy = false) (ho1 : c.options.output ≠ .int (-1)) (ho2 : c.options.output.eqR .default = false)
    (ho3 : c.options.output.eqR .devnull = false) (ho4 : c.options.output ≠ .redirect .capture)
    (he1 : c.options.error ≠ .int (-1)) (he2 : c.options.error ≠ .redirect .capture) : g.out = [] := by
  have hst := (C13_iteration_single hs c d a.args s s' wd a.start a.wired hpty ho1 he1).2 ho2 ho3 ho4 he2
  have hx : gc.stream = false := by rw [a.stream]; simp [Wired.iterStream, hst.1, hst.2]
  obtain ⟨_, _, hend⟩ := iter_block a.ended
  cases hend none g rfl with
  | launch e he => cases he
  | body r hr hg => rw [hg.none_ hx]

/-! ## Pipelines -/

/-- The body of a pipeline block ends once. -/
theorem pipe_bodyEnd_unique {cfg : PRCfg} {w w' : W} (hf : w.Fresh) {evs : List Ev} {o : Out (Option Returned)}
    (h : pipeExecute .block cfg w evs = (o, w')) (hb : o ≠ .blocked) {a b : Option Exc} (ha : .bodyEnd a ∈ w'.trace)
    (hb' : .bodyEnd b ∈ w'.trace) : a = b := by
  cases phase .block cfg w hf evs with
  | setup e hs hx =>
    have := hx []
    rw [List.append_nil, h] at this
    cases this
    rw [show ({ w with cancelled := decide (e = .cancelled) } : W).trace = w.trace from rfl, hf.trace] at ha
    cases ha
  | launching w1 _ _ _ hx => rw [h] at hx; cases hx; exact absurd rfl hb
  | body w1 w2 _ _ _ _ _ hx => rw [h] at hx; cases hx; exact absurd rfl hb
  | interrupted w1 rest hs hh q hm hx =>
    have := hx []
    rw [List.append_nil, List.append_nil, h] at this
    have hp := harvestResults_spec (commands .block cfg) false true w1.interrupted rest
    rcases hr : harvestResults (commands .block cfg) false true w1.interrupted rest with ⟨oh, w3, r⟩
    rw [hr] at this hp
    have same := (pipeFail_same this).1
    rw [same.trace] at ha
    exact absurd ha ((interrupted_trace hf q hp.ext).1 a)
  | exiting w1 w2 ex rest hs q _ hrd br hx =>
    have := hx []
    rw [List.append_nil, List.append_nil, h] at this
    have hp := harvestResults_spec (commands .block cfg) false true ((w2.log (.bodyEnd ex)).atExit ex) rest
    rcases hr : harvestResults (commands .block cfg) false true ((w2.log (.bodyEnd ex)).atExit ex) rest with ⟨oh, w3, r⟩
    rw [hr] at this hp
    have same := (pipeEnd_same this).1
    obtain ⟨l, hl, hu⟩ := hp.ext.trace
    have ht : ((w2.log (.bodyEnd ex)).atExit ex).trace = w2.trace ++ [.bodyEnd ex] := (atExit_ext _ _).2
    have h2 : ∀ e, .bodyEnd e ∉ w2.trace := by
      refine noBodyEnd_quiet (fun _ => rfl) br.ext.trace ?_
      intro e hm
      rcases List.mem_append.1 hm with hm | hm
      · refine noBodyEnd_quiet (fun _ => rfl) q.toExt.trace ?_ e hm
        intro e hm
        rw [show (w.piped .block cfg).trace = w.trace from rfl, hf.trace] at hm
        cases hm
      · simp at hm
    have key : ∀ x, .bodyEnd x ∈ w'.trace → x = ex := by
      intro x hx
      rw [same.trace, hl, ht, List.append_assoc] at hx
      rcases List.mem_append.1 hx with hx | hx
      · exact absurd hx (h2 x)
      · rcases List.mem_append.1 hx with hx | hx
        · simpa using hx
        · have := hu _ hx; cases this
    rw [key a ha, key b hb']

/-- An iteration over a pipeline, seen as a block. -/
theorem pipe_iter_block {cfg : PRCfg} {gc : GenCfg} {w w' : W} {evs : List Ev} {o : Out (Option Exc × GenSt)}
    (h : pipeIterExecute cfg gc w evs = (o, w')) : (∃ evs', pipeExecute .block cfg w evs' = (o.asLoop, w')) ∧
      (∀ e, o ≠ .exc e) ∧ ∀ x g, o = .ok (x, g) → IterEnd gc w' g x := by
  cases h
  exact pipeIterate_block cfg gc w evs

/-- **C70, pipelines.** When `async for line in pipeline` ends normally, every command of the pipeline has ended, and the
lines are the whole output of the last one; or else the generator was interrupted by a cancellation (see
`C70_cancelled_false`). -/
theorem C70_pipe_complete_partial (cfg : PRCfg) (hn : 0 < cfg.n) (gc : GenCfg) (w : W) (hf : w.Fresh) (evs : List Ev)
    (errors : Errors) (g : GenSt) (w' : W) (hs : gc.stream = true) (hd : gc.decode = decodeAll utf8Step errors)
    (h : pipeIterExecute cfg gc w evs = (.ok (none, g), w')) :
    AllDone w' (commands .block cfg) ∧
      ((.bodyEnd none ∈ w'.trace ∧ WholeOutput errors (gc.seen g.tries) g.out) ∨ Interrupted w') := by
  obtain ⟨⟨evs', hx⟩, _, hend⟩ := pipe_iter_block h
  have hb : (Out.ok (none, g)).asLoop ≠ .blocked := by rw [Ne, asLoop_blocked]; simp
  have ho := C46_block_outcome cfg hn w hf evs' _ w' hx hb
  cases hend none g rfl with
  | launch e he => cases he
  | body r hr hg =>
    cases r with
    | none =>
      refine ⟨?_, .inl ⟨hr, gend_whole hs hd hg⟩⟩
      cases ho with
      | ended _ ha => exact ha
      | suppressed e _ ha => exact ha
    | some e =>
      cases ho with
      | ended hm ha => cases pipe_bodyEnd_unique hf hx hb hr hm
      | suppressed e' hm ha hc => exact ⟨ha, .inr ⟨e', hm, hc⟩⟩

/-- **C70, pipelines.** However the loop ends, the lines handed out are decodings of the first lines of the output. -/
theorem C70_pipe_prefix (cfg : PRCfg) (gc : GenCfg) (w : W) (evs : List Ev) (x : Option Exc) (g : GenSt) (w' : W)
    (h : pipeIterExecute cfg gc w evs = (.ok (x, g), w')) :
    ∃ lines, Lines lines ∧ g.out = (readLines gc.decode lines).1 ∧
      ((∀ a b c, written (gc.seen g.tries) = a ++ b ++ c → (0x0A : UInt8) ∉ b → b.length ≤ gc.limit) →
        SEv.exc .valueError ∉ gc.seen g.tries → lines.flatten <+: written (gc.seen g.tries)) := by
  obtain ⟨_, _, hend⟩ := pipe_iter_block h
  cases hend x g rfl with
  | launch e _ hg =>
    subst hg
    exact ⟨[], ⟨by simp, by simp, by simp⟩, rfl, fun _ _ => by simp⟩
  | body r hr hg =>
    have hp := C19_prefix gc.limit (gc.seen g.tries)
    rw [← hg.ls] at hp
    exact ⟨g.ls.lines, hp.1, hg.out.symm, hp.2⟩

/-! ## Executions -/

/-- The output "a\nb\n" arrives in two pieces, with the second attempt to read in between. -/
def twoLines : GenCfg where
  decode := decodeAll utf8Step .strict
  arrive := fun
    | 0 => [.data [97, 10]]
    | 2 => [.data [98, 10], .eof]
    | _ => []

/-- `async for line in cmd`, and all goes well: the copies of stderr and stdin are tasks 1 and 2. -/
def calmLoop : List Ev :=
  [.resume, .fork, .taskDone 0 (.val none), .resume, .resume, .taskDone 1 (.val none), .resume, .taskDone 2 (.val none),
    .resume, .exit 3, .reap, .deliver, .taskDone 3 (.val none), .resume, .taskDone 4 (.val none), .resume]

/-- What is there to see of a loop: the exception, the lines, and how often the generator tried to read. -/
def loopSeen (x : Out (Option Exc × GenSt) × W) : Option (Option Exc × List Text × Nat) :=
  match x.1 with
  | .ok (e, g) => some (e, g.out, g.tries)
  | _ => none

/-- The hypotheses of the theorems on commands are met. -/
example : loopSeen (iterExecute twoCopies twoLines {} calmLoop) = some (none, [['a', '\n'], ['b', '\n']], 4) ∧
    .thrown ∉ cleanupLog (iterExecute twoCopies twoLines {} calmLoop).2.trace ∧
    .bodyEnd none ∈ (iterExecute twoCopies twoLines {} calmLoop).2.trace ∧
    KillUndisturbed (iterExecute twoCopies twoLines {} calmLoop).2.trace := by
  refine ⟨by decide +kernel, by decide +kernel, by decide +kernel, fun l1 l2 h => ?_⟩
  have hn : .auditSignal false none ∉ (iterExecute twoCopies twoLines {} calmLoop).2.trace := by decide +kernel
  rw [h] at hn
  simp at hn

/-- The copies and streams of a command with a captured stdout. -/
def loopWired : Wired where
  tasks := [.copy .procStderr .errorBytes (some 1024), .writeStream [] .procStdin none]
  stdout := some .procStdout

/-- There are executions as in the end-to-end theorems: a loop over `cat` with the default options. -/
example : ∃ d s' wd g w', Iterated (exSys []) (exCmd "cat" []) d { tab := [0, 1, 2] } s' wd
    { ioTasks := 2, opts := d.options } twoLines .strict {} calmLoop g w' ∧ g.out = [['a', '\n'], ['b', '\n']] ∧
      (exCmd "cat" []).options.output = .redirect .default := by
  have h : loopSeen (iterExecute { ioTasks := 2, opts := { output := .redirect .capture } } twoLines {} calmLoop) =
    some (none, [['a', '\n'], ['b', '\n']], 4) := by decide +kernel
  rcases hx : iterExecute { ioTasks := 2, opts := { output := .redirect .capture } } twoLines {} calmLoop with ⟨o, w'⟩
  rw [hx] at h
  cases o with
  | blocked => cases h
  | exc e => cases h
  | ok x =>
    obtain ⟨e, g⟩ := x
    simp only [loopSeen, Option.some.injEq, Prod.mk.injEq] at h
    obtain ⟨rfl, h2, _⟩ := h
    exact ⟨(exCmd "cat" [] { output := .redirect .capture }), (launch (exSys [])
      (exCmd "cat" [] { output := .redirect .capture }) { tab := [0, 1, 2] }).2, loopWired, g, w',
      ⟨by simp [Command.args], rfl, rfl, rfl, rfl, rfl, rfl, fresh_default false 0, hx⟩, h2, rfl⟩

/-- C70 is false of the exit status: the command of the loop above has exited with 3, and the loop ended normally.
(Neither `Command._readlines` nor `Runner.__aexit__` look at the status.) -/
theorem C70_status_false :
    loopSeen (iterExecute twoCopies twoLines {} calmLoop) = some (none, [['a', '\n'], ['b', '\n']], 4) ∧
    (iterExecute twoCopies twoLines {} calmLoop).2.proc.bind (·.rc) = some 3 := by decide +kernel

/-- C70 is false when the consumer is cancelled while it waits for a line: the `CancelledError` is swallowed, and the loop
ends normally after a part of the output. (`Runner.__aexit__` suppresses it, so that `result()` can raise instead; but
`Command._readlines` does not call `result()`.) Here only "a" has been handed out. -/
theorem C70_cancelled_false : ∃ evs,
    loopSeen (iterExecute twoCopies twoLines {} evs) = some (none, [['a', '\n']], 2) ∧
    (iterExecute twoCopies twoLines {} evs).2.cancels = 1 ∧ (iterExecute twoCopies twoLines {} evs).2.mustCancel = false :=
  ⟨[.resume, .fork, .taskDone 0 (.val none), .resume, .resume, .cancel, .resume, .taskDone 1 .cancelled,
    .taskDone 2 .cancelled, .exit (-15), .reap, .deliver, .taskDone 3 (.val none), .resume, .taskDone 4 (.val none), .resume],
    by decide +kernel⟩

/-- When the timer goes off while the consumer executes the body of its loop, it is the body that gets the `CancelledError`:
the generator does not learn of it, and the child runs on without a signal, until the generator is closed. -/
theorem C70_timeout_false : ∃ evs,
    loopSeen (iterExecute { twoCopies with opts := { timeout := some 1 } } twoLines {} evs) = none ∧
    .thrown ∈ (iterExecute { twoCopies with opts := { timeout := some 1 } } twoLines {} evs).2.trace ∧
    (iterExecute { twoCopies with opts := { timeout := some 1 } } twoLines {} evs).2.timer = false ∧
    (iterExecute { twoCopies with opts := { timeout := some 1 } } twoLines {} evs).2.proc = some {} ∧
    librarySignals (iterExecute { twoCopies with opts := { timeout := some 1 } } twoLines {} evs).2.trace = [] :=
  ⟨[.resume, .fork, .taskDone 0 (.val none), .resume, .timer, .bodyGotCancel], by decide +kernel⟩

/-- The loop over a pipeline of two commands (tasks 2 and 3), the first of which exits with 1. -/
def calmPipeLoop : List Ev :=
  [.taskDone 0 (.val none), .taskDone 1 (.val none), .resume, .resume, .resume, .resume, .taskDone 2 (.err (.resultError (exited 1))),
    .taskDone 3 (.val (some (exited 0))), .resume]

/-- The same for pipelines: the loop ends normally although a command has failed. The hypotheses of the theorems on
pipelines are met. -/
theorem C70_pipe_status_false :
    loopSeen (pipeIterExecute { n := 2 } twoLines {} calmPipeLoop) = some (none, [['a', '\n'], ['b', '\n']], 4) ∧
    (pipeIterExecute { n := 2 } twoLines {} calmPipeLoop).2.outOf 2 = some (.err (.resultError (exited 1))) := by
  decide +kernel

/-- The same for pipelines: a cancellation of the consumer, while it waits for a line, is swallowed. -/
theorem C70_pipe_cancelled_false : ∃ evs,
    loopSeen (pipeIterExecute { n := 2 } twoLines {} evs) = some (none, [['a', '\n']], 2) ∧
    (pipeIterExecute { n := 2 } twoLines {} evs).2.cancels = 1 ∧
    (pipeIterExecute { n := 2 } twoLines {} evs).2.mustCancel = false :=
  ⟨[.taskDone 0 (.val none), .taskDone 1 (.val none), .resume, .resume, .cancel, .resume,
    .taskDone 2 (.val (some ⟨-15, [], [], true, []⟩)), .taskDone 3 (.val (some ⟨-15, [], [], true, []⟩)), .resume],
    by decide +kernel⟩

/-- The consumer leaves its loop (`aclose()` raises `GeneratorExit` at the `yield`): the child is terminated. -/
example : ∃ evs, loopSeen (iterExecute twoCopies twoLines {} evs) = some (some (.user 0), [['a', '\n']], 1) ∧
    librarySignals (iterExecute twoCopies twoLines {} evs).2.trace ≠ [] :=
  ⟨[.resume, .fork, .taskDone 0 (.val none), .resume, .bodyDone (some (.user 0)), .taskDone 1 .cancelled,
    .taskDone 2 .cancelled, .exit (-15), .reap, .deliver, .taskDone 3 (.val none), .resume, .taskDone 4 (.val none), .resume],
    by decide +kernel⟩

end Shellous.Props
