import Verif.Spec.EndToEndSinks
import Verif.Props.EndToEnd
import Verif.Props.Sinks
import Verif.Props.Tty

/-! C69 for loggers, stream writers, stream readers, and the input of a terminal. -/

namespace Shellous.Props

section
variable {sys : Sys} {c : Command} {s0 s : LS} {wd : Wired} {cfg : RCfg} {f : Option Exc} {w w' : W} {evs : List Ev}
  {v : Option Returned} {seen : Stream → List SEv} {wrote moved : Stream → List WEv} {before after : Objects}
  {lineLimit : Nat} {logged : Nat → List Text}

theorem user_copy' (hs : sys.Ok) (a : Awaited sys c s0 s wd cfg f w evs v w' seen wrote before after) {t : Target}
    (ht : (∃ id, t = .logger id) ∨ (∃ id, t = .streamWriter id)) {x : Stream}
    (hx : c.copiesTo s t x) : ∃ k : Nat, wd.tasks[k]? = some (.copy x (.user t) none) := by
  rcases hx with ⟨ho, rfl⟩ | ⟨ho, rfl⟩
  · have := C12_stdout c s0 a.launched a.wired
    rw [ho] at this
    rcases ht with ⟨id, rfl⟩ | ⟨id, rfl⟩ <;> exact mem_readers this.2.1
  · have hno : ¬ (c.options.output.eqR .devnull = true ∧ c.options.error.eqR .stdout = true) := by
      rintro ⟨_, h⟩
      rw [ho] at h
      rcases ht with ⟨id, rfl⟩ | ⟨id, rfl⟩ <;> cases h
    have := C12_stderr hs c s0 a.launched a.wired hno
    rw [ho] at this
    rcases ht with ⟨id, rfl⟩ | ⟨id, rfl⟩ <;> exact mem_readers this.2.1

theorem copyLogger_ended {limit : Nat} {decode : Bytes → Except Exc Text} {evs : List SEv}
    (hd : (copyLogger limit decode evs).ls.st = .done) : ended evs = true := by
  rcases logger_rel limit decode evs with ⟨h, _, _⟩ | ⟨pre, post, _, e, _, h, _⟩
  · rw [h] at hd
    exact ((lines_inv limit evs).done hd).2
  · rw [h] at hd; cases hd

/-- C69: output logged to a `logging.Logger` has ended when `await cmd` returns, and there was one message for each of its
lines, in order (UTF-8: see C63). -/
theorem C69_logger (hs : sys.Ok) (a : Awaited sys c s0 s wd cfg f w evs v w' seen wrote before after)
    (m : Moved c wd cfg w' seen wrote moved lineLimit logged)
    (hc : c.options.catchCancelled = false ∨ w'.timedOut = false) (id : Nat) (x : Stream)
    (hx : c.copiesTo s (.logger id) x) (errors : Errors)
    (hu : (cfg.decode · c.options.encoding) = decodeAll utf8Step errors) :
    ended (seen x) = true ∧
    ∃ lines t, decodeAll utf8Step errors (written (seen x)) = .ok t ∧ lines.flatten = t ∧
      (errors ≠ .ignore → TextLines lines) ∧ (logged id).length = lines.length ∧
      ∀ (i : Nat) (l : Text), lines[i]? = some l → ∃ m, (logged id)[i]? = some m ∧ IsMessage l m := by
  obtain ⟨k, h⟩ := user_copy' hs a (.inl ⟨id, rfl⟩) hx
  obtain ⟨h1, h2⟩ := m.logger k x id none h
  have hd := a.done hc h h2
  refine ⟨copyLogger_ended hd, ?_⟩
  rw [h1, hu]
  rw [hu] at hd
  exact C63_logger_complete_partial lineLimit errors (seen x) hd

/-- C69: output copied to a `StreamWriter` has ended when `await cmd` returns; the writer is closed, and, unless its peer
went away, all of the output was written to it. -/
theorem C69_streamWriter (hs : sys.Ok) (a : Awaited sys c s0 s wd cfg f w evs v w' seen wrote before after)
    (m : Moved c wd cfg w' seen wrote moved lineLimit logged)
    (hc : c.options.catchCancelled = false ∨ w'.timedOut = false) (id : Nat) (x : Stream)
    (hx : c.copiesTo s (.streamWriter id) x) :
    sourceEnded (moved x) = true ∧ (copyStreamwriter (moved x)).w.closed = true ∧
      (¬ childGone (moved x) → (copyStreamwriter (moved x)).w.accepted = sourceBytes (moved x)) := by
  obtain ⟨k, h⟩ := user_copy' hs a (.inr ⟨id, rfl⟩) hx
  have hd := a.done hc h (m.writer k x id none h)
  have hpc : (copyStreamwriter (moved x)).pc = .done := by
    cases hpc : (copyStreamwriter (moved x)).pc <;> rw [hpc] at hd <;> simp [SwPc.status] at hd ⊢
  obtain ⟨_, h2, _⟩ := C63_streamwriter (moved x)
  obtain ⟨i, j, l⟩ := h2 hpc
  exact ⟨j, i, l⟩

/-- C69: when `await cmd` returns, input from a `StreamReader` has been closed, and, unless the child stopped reading,
the reader had ended and everything from it was written (a reader that itself fails with a broken-pipe error: C16). -/
theorem C69_reader (a : Awaited sys c s0 s wd cfg f w evs v w' seen wrote before after)
    (m : Moved c wd cfg w' seen wrote moved lineLimit logged)
    (hc : c.options.catchCancelled = false ∨ w'.timedOut = false) (hp : s.pty = none) (id : Nat)
    (hi : c.options.input = .streamReader id) (hsrc : pipeErrorIn (wrote .procStdin) → childGone (wrote .procStdin)) :
    s.stdin = PIPE ∧ (writeReader none (wrote .procStdin)).w.closed = true ∧
      (¬ childGone (wrote .procStdin) → sourceEnded (wrote .procStdin) = true ∧
        (writeReader none (wrote .procStdin)).w.accepted = sourceBytes (wrote .procStdin)) := by
  have hs : InFed s wd (.writeReader id) := by
    have := C11_stdin c s0 a.launched a.wired
    rw [hi] at this
    exact this
  obtain ⟨h1, h2, _⟩ := hs
  rw [hp] at h1 h2
  obtain ⟨k, hk⟩ := mem_writers h2
  have hd := a.done hc hk (m.reader k _ _ _ hk)
  change (writeReader none (wrote .procStdin)).pc.status = _ at hd
  have hpc : (writeReader none (wrote .procStdin)).pc = .done := by
    cases hpc : (writeReader none (wrote .procStdin)).pc <;> rw [hpc] at hd <;> simp [WPc.status] at hd ⊢
  obtain ⟨b, inv⟩ := writeReader_inv none (wrote .procStdin)
  obtain ⟨f1, f2, f3⟩ := inv.fin (.inr hpc)
  refine ⟨h1, f2.2 rfl, fun hg => ?_⟩
  have hb : (writeReader none (wrote .procStdin)).w.broken = false := by
    cases h : (writeReader none (wrote .procStdin)).w.broken with
    | false => rfl
    | true => exact absurd (inv.ok.gone.1 h) hg
  rcases f3 with ⟨g1, g2⟩ | g
  · refine ⟨g1, ?_⟩
    rcases f1 with f1 | ⟨f1, _⟩
    · rw [f1, ← inv.src, g2]
      simp [trailer]
    · rw [hb] at f1; cases f1
  · exact absurd (hsrc g) hg

/-- C69: when `await cmd` returns, a program that reads its input from a terminal (in canonical mode), and has not closed
it, gets exactly the input and then end of file, as soon as the terminal has processed what was written to it. -/
theorem C69_pty_stdin (a : Awaited sys c s0 s wd cfg f w evs v w' seen wrote before after)
    (hc : c.options.catchCancelled = false ∨ w'.timedOut = false) (p : Pty) (hp : s.pty = some p) (eofc : UInt8)
    (he : p.eof = [eofc]) (ctl : UInt8 → Option (Tty → Tty)) (hn : eofc ≠ 0x0A) (b : Bytes)
    (hi : sys.inputIs c.options.input b) (hnd : c.options.input ≠ .redirect .default) (hpl : Plain eofc ctl b)
    (hg : ¬ childGone (wrote .ptyWriter)) :
    let t := Tty.run eofc ctl (writeStream b (some [eofc]) (wrote .ptyWriter)).w.accepted
    s.stdin = .int p.child ∧ t.sawEof = true ∧ t.received = b := by
  intro t
  have hs : InFed s wd (.writeStream b) := by
    have := C11_stdin c s0 a.launched a.wired
    generalize c.options.input = t at hi this hnd
    cases t with
    | redirect q => cases q <;> simp_all [Sys.inputIs, StdinSpec]
    | bytes x => simp only [Sys.inputIs] at hi; subst hi; exact this
    | bytearray id => simp only [Sys.inputIs] at hi; subst hi; exact this
    | bytesIO id => simp only [Sys.inputIs] at hi; subst hi; exact this
    | str x =>
      obtain ⟨b', h1, h2⟩ := this
      simp only [Sys.inputIs, h1, Except.ok.injEq] at hi; subst hi; exact h2
    | stringIO id =>
      obtain ⟨b', h1, h2⟩ := this
      simp only [Sys.inputIs, h1, Except.ok.injEq] at hi; subst hi; exact h2
    | _ => exact hi.elim
  obtain ⟨h1, h2, _⟩ := hs
  rw [hp] at h1 h2
  obtain ⟨k, hk⟩ := mem_writers h2
  have hd := a.done hc hk (a.input k _ _ _ hk)
  change (writeStream b (some p.eof) (wrote .ptyWriter)).pc.status = _ at hd
  rw [he] at hd
  have hpc : (writeStream b (some [eofc]) (wrote .ptyWriter)).pc = .done := by
    cases hpc : (writeStream b (some [eofc]) (wrote .ptyWriter)).pc <;> rw [hpc] at hd <;> simp [WPc.status] at hd ⊢
  have hx := C17_canonical_bytes eofc ctl b hpl hn (wrote .ptyWriter)
    (writeStream b (some [eofc]) (wrote .ptyWriter)).w.accepted.length
  simp only [List.take_length] at hx
  obtain ⟨_, x2, x3⟩ := hx
  have := x3 hpc hg (Nat.le_refl _)
  exact ⟨h1, this, x2 this⟩

end

/-- `cat`, from a `StreamReader` to a logger, with its errors to a `StreamWriter`. -/
def catAll : Command := exCmd "cat" [] { input := .streamReader 3, output := .logger 7, error := .streamWriter 4 }

/-- The state after its launch. -/
def catLaunched : LS := (launch (exSys []) catAll { tab := [0, 1, 2] }).2

/-- Its background copies. -/
def catWired : Wired :=
  { tasks := [.copy .procStderr (.user (.streamWriter 4)) none, .copy .procStdout (.user (.logger 7)) none,
      .writeReader 3 .procStdin none] }

/-- Its run. -/
def catCfg : RCfg :=
  { ioTasks := 3, decode := fun b _ => decodeAll utf8Step .strict b
    opts := { input := .streamReader 3, output := .logger 7, error := .streamWriter 4 } }

/-- "hi" and a newline go in and come out. -/
def catSeen : Stream → List SEv
  | .procStdout => [.feed [104], .go, .go, .feed [105, 10], .eof, .go, .go]
  | _ => []

/-- What is written to the child. -/
def catWrote : Stream → List WEv := fun _ => [.feed [104, 105, 10], .srcEof, .go, .go, .go]

/-- What goes to the `StreamWriter`. -/
def catMoved : Stream → List WEv := fun _ => [.feed [33], .go, .srcEof, .go, .go, .go]

/-- C69: there are executions as in the theorems. -/
theorem cat_awaited : Awaited (exSys []) catAll { tab := [0, 1, 2] } catLaunched catWired catCfg none {} echoEvents
    (some (.text [])) (execute (.await none) catCfg {} echoEvents).2 catSeen catWrote noObjects noObjects where
  launched := by
    have : (launch (exSys []) catAll { tab := [0, 1, 2] }).1 = .ok () := rfl
    unfold catLaunched
    rw [← this]
  wired := rfl
  opts := rfl
  ioTasks := rfl
  fresh := fresh_default false 0
  ended := by
    have : (execute (.await none) catCfg {} echoEvents).1 = .ok (some (.text [])) := by decide +kernel
    rw [← this]
  output k src limit h := by rcases k with _ | _ | _ | k <;> simp [catWired] at h
  error k src limit h := by rcases k with _ | _ | _ | k <;> simp [catWired] at h
  noOutput _ := rfl
  noError _ := rfl
  bytesIO k src id limit h := by rcases k with _ | _ | _ | k <;> simp [catWired] at h
  bytearray k src id limit h := by rcases k with _ | _ | _ | k <;> simp [catWired] at h
  stringIO k src id limit h := by rcases k with _ | _ | _ | k <;> simp [catWired] at h
  input k b dst eof h := by rcases k with _ | _ | _ | k <;> simp [catWired] at h

/-- The messages. -/
theorem cat_moved : Moved catAll catWired catCfg (execute (.await none) catCfg {} echoEvents).2 catSeen catWrote catMoved 100
    (fun _ => ["hi".toList]) where
  logger k src id limit h := by
    rcases k with _ | _ | _ | k <;> simp [catWired] at h
    obtain ⟨rfl, rfl, rfl⟩ := h
    have h1 : (copyLogger 100 (decodeAll utf8Step .strict) (catSeen .procStdout)).ls.st = .done := by decide +kernel
    have h2 : (copyLogger 100 (decodeAll utf8Step .strict) (catSeen .procStdout)).log = ["hi".toList] := by decide +kernel
    refine ⟨h2.symm, ?_⟩
    change Reports _ _ (copyLogger 100 (decodeAll utf8Step .strict) (catSeen .procStdout)).ls.st
    rw [h1]
    exact reports_done _ _ ⟨none, by decide +kernel⟩
  writer k src id limit h := by
    rcases k with _ | _ | _ | k <;> simp [catWired] at h
    obtain ⟨rfl, rfl, rfl⟩ := h
    have : (copyStreamwriter (catMoved .procStderr)).pc.status = .done := by decide +kernel
    rw [this]
    exact reports_done _ _ ⟨none, by decide +kernel⟩
  reader k id dst eof h := by
    rcases k with _ | _ | _ | k <;> simp [catWired] at h
    obtain ⟨rfl, rfl, rfl⟩ := h
    have : (writeReader none (catWrote .procStdin)).pc.status = .done := by decide +kernel
    rw [this]
    exact reports_done _ _ ⟨none, by decide +kernel⟩

/-- The theorems above, for it. -/
example : (writeReader none (catWrote .procStdin)).w.accepted = [104, 105, 10] ∧
    (copyStreamwriter (catMoved .procStderr)).w.accepted = [33] ∧ ended (catSeen .procStdout) = true := by
  refine ⟨?_, ?_, ?_⟩
  · exact ((C69_reader cat_awaited cat_moved (.inl rfl) rfl 3 rfl
      (by rintro ⟨e, h, -⟩; simp [catWrote] at h)).2.2 (by simp [childGone, catWrote])).2
  · exact (C69_streamWriter (exSys_ok []) cat_awaited cat_moved (.inl rfl) 4 .procStderr (.inr ⟨rfl, rfl⟩)).2.2
      (by simp [childGone, catMoved])
  · exact (C69_logger (exSys_ok []) cat_awaited cat_moved (.inl rfl) 7 .procStdout (.inl ⟨rfl, rfl⟩) .strict rfl).1

/-- `cat` on a terminal. -/
def catTty : Command := exCmd "cat" [] { input := .bytes [104, 10], pty := .on }

/-- The state after its launch. -/
def ttyLaunched : LS := (launch (exSys []) catTty { tab := [0, 1, 2] }).2

/-- Its background copies. -/
def ttyWired : Wired :=
  { tasks := [.copy .ptyReader .outputBytes none, .writeStream [104, 10] .ptyWriter (some (exSys []).ptyEof)] }

/-- Its run. -/
def ttyCfg : RCfg :=
  { ioTasks := 2, decode := fun b _ => decodeAll utf8Step .strict b, opts := { input := .bytes [104, 10], pty := .on }
    outBytes := some [104, 10] }

/-- All goes well. -/
def ttyEvents : List Ev :=
  [.resume, .fork, .taskDone 0 (.val none), .resume, .taskDone 2 (.val none), .taskDone 1 (.val none), .exit 0, .reap,
    .deliver, .taskDone 3 (.val none), .resume, .taskDone 4 (.val none), .resume]

/-- What its reader sees. -/
def ttySeen : Stream → List SEv := fun _ => [.feed [104, 10], .go, .eof, .go, .go]

/-- What its writer does. -/
def ttyWrote : Stream → List WEv := fun _ => [.go, .go, .go]

theorem tty_awaited : Awaited (exSys []) catTty { tab := [0, 1, 2] } ttyLaunched ttyWired ttyCfg none {} ttyEvents
    (some (.text "h\n".toList)) (execute (.await none) ttyCfg {} ttyEvents).2 ttySeen ttyWrote noObjects noObjects where
  launched := by
    have : (launch (exSys []) catTty { tab := [0, 1, 2] }).1 = .ok () := rfl
    unfold ttyLaunched
    rw [← this]
  wired := rfl
  opts := rfl
  ioTasks := rfl
  fresh := fresh_default false 0
  ended := by
    have : (execute (.await none) ttyCfg {} ttyEvents).1 = .ok (some (.text "h\n".toList)) := by decide +kernel
    rw [← this]
  output k src limit h := by
    rcases k with _ | _ | k <;> simp [ttyWired] at h
    obtain ⟨rfl, rfl⟩ := h
    refine ⟨by decide +kernel, ?_⟩
    have : (bufferCopy none (ttySeen .ptyReader)).2 = .done := by decide +kernel
    rw [this]
    exact reports_done _ _ ⟨none, by decide +kernel⟩
  error k src limit h := by rcases k with _ | _ | k <;> simp [ttyWired] at h
  noOutput h := by cases h
  noError _ := rfl
  bytesIO k src id limit h := by rcases k with _ | _ | k <;> simp [ttyWired] at h
  bytearray k src id limit h := by rcases k with _ | _ | k <;> simp [ttyWired] at h
  stringIO k src id limit h := by rcases k with _ | _ | k <;> simp [ttyWired] at h
  input k b dst eof h := by
    rcases k with _ | _ | k <;> simp [ttyWired] at h
    obtain ⟨rfl, rfl, rfl⟩ := h
    have : (writeStream [104, 10] (some [4]) (ttyWrote .ptyWriter)).pc.status = .done := by decide +kernel
    change Reports _ _ (writeStream [104, 10] (some [4]) (ttyWrote .ptyWriter)).pc.status
    rw [this]
    exact reports_done _ _ ⟨none, by decide +kernel⟩

/-- The theorem, for it. -/
example : (Tty.run 4 (fun _ => none) (writeStream [104, 10] (some [4]) (ttyWrote .ptyWriter)).w.accepted).received = [104, 10] :=
  (C69_pty_stdin tty_awaited (.inl rfl) { parent := 3, child := 4, eof := [4] } rfl 4 rfl (fun _ => none) (by decide) [104, 10] rfl
    (by simp [catTty, exCmd])
    ⟨by decide, fun _ _ => rfl, fun a b c h _ => by
      have := congrArg List.length h
      simp at this
      simp [maxCanon]
      omega⟩ (by simp [childGone, ttyWrote])).2.2

end Shellous.Props
