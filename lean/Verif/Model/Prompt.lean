import Verif.Model.Codec

/-!
# The prompt API (shellous/prompt.py)

A `Prompt` is driven by events: what `stdout.read` returns, the timer, a cancellation of the calling
task, the resumption of the calling task after its reader task has finished, and the outcome of
draining stdin. Theorems quantify over all event lists; an exhausted list means that the operation is
still waiting (any intermediate moment).

`stdout.read(chunk_size)` returns any non-empty chunk, or `b""` at the end of the stream; that a chunk is
not longer than `_chunk_size` is not used. Bytes that were not read stay in the `StreamReader` when the
reader task is cancelled (asyncio/streams.py:671-720: no suspension point after the buffer is cut).

Not modelled here: a cancellation of the caller while `harvest_results` waits for a reader task that is
being cancelled after a timeout (see Model/Harvest for `harvest_results` itself), and reads started by
another task at the same time.
-/

namespace Shellous

/-- A compiled pattern: `pattern.search(text)` gives the span (start, end) of the first match. -/
abbrev Pattern := Text → Option (Nat × Nat)

/-- Leftmost position, counting from `i`, at which one of the alternatives is a prefix of the rest of
the text; at that position, the first alternative. -/
def searchAlts (alts : List Text) (i : Nat) : Text → Option (Nat × Nat)
  | [] =>
    match alts.find? (fun a => a.isPrefixOf []) with
    | some a => some (i, i + a.length)
    | none => none
  | c :: t =>
    match alts.find? (fun a => a.isPrefixOf (c :: t)) with
    | some a => some (i, i + a.length)
    | none => searchAlts alts (i + 1) t

/-- shellous/prompt.py:610-614 `_regex_compile_exact` on a string, with the semantics of Python's `re`
for an escaped literal. -/
def exactPattern (s : Text) : Pattern := searchAlts [s] 0

/-- shellous/prompt.py:612-613 on a list: an alternation of escaped literals; the alternation of no
strings is the empty pattern. -/
def exactListPattern (ss : List Text) : Pattern :=
  searchAlts (if ss.isEmpty then [[]] else ss) 0

/-- The `prompt` argument of `expect`. -/
inductive PromptArg where
  | none
  | str (s : Text)
  | list (ss : List Text)
  | regex (p : Pattern)

/-- shellous/prompt.py:76-77: the `default_prompt` argument, compiled. -/
def compileDefault : PromptArg → Option Pattern
  | .none => Option.none
  | .str s => some (exactPattern s)
  | .list ss => some (exactListPattern ss)
  | .regex p => some p

/-- shellous/prompt.py:306-311: which pattern `expect` searches for. -/
def resolvePrompt (dflt : Option Pattern) : PromptArg → Except Exc Pattern
  | .none =>
    match dflt with
    | Option.none => .error .typeError
    | some p => .ok p
  | .str s => .ok (exactPattern s)
  | .list ss => .ok (exactListPattern ss)
  | .regex p => .ok p

/-- Log messages of the prompt API (only with SHELLOUS_TRACE=prompt). Data longer than 2000 bytes is
abridged by the code (`_LOG_LIMIT`), not here. -/
inductive PLog where
  | waitNoEcho
  | sendHidden
  | send (data : Bytes)
  | receive (data : Bytes)
  | receiveCancelled (pending : Text)
  | found (text : Text) (pending : Nat)
  | sendEof
  | close
deriving DecidableEq, Repr

/-- Settings that do not change during a session (shellous/prompt.py:79-85). `encode` is the command's
encoding, `ptyEof` is `runner.pty_eof` (none without a terminal), `logOn` is `LOG_PROMPT`. -/
structure PCfg where
  dflt : Option Pattern := none
  dfltTimeout : Option Nat := none
  encode : Text → Except Exc Bytes
  pty : Bool := false
  ptyEof : Option Bytes := none
  logOn : Bool := false

/-- State of a `Prompt` (shellous/prompt.py:59-61), what was written to the co-process, whether stdin was
closed, the log, and the chunks read so far (not in the code: kept for stating properties). -/
structure PS where
  dec : Decoder
  pending : Text := []
  atEof : Bool := false
  written : Bytes := []
  closed : Bool := false
  log : List PLog := []
  got : List Bytes := []

/-- shellous/prompt.py:94-97 `at_eof`. -/
def PS.isAtEof (p : PS) : Bool := p.atEof && p.pending.isEmpty

/-- `if LOG_PROMPT: LOGGER.info(...)`. -/
def PS.logMsg (p : PS) (cfg : PCfg) (m : PLog) : PS :=
  if cfg.logOn then { p with log := p.log ++ [m] } else p

/-- Events; see above. `read []` is the end of the stream. -/
inductive PEv where
  | read (chunk : Bytes)
  | readErr (e : Exc)
  | timeout
  | cancel
  | resume
  | drained
  | drainErr (e : Exc)
deriving DecidableEq

/-- How an operation ends. `matched` carries the text before the match and the match (`command` returns
only the former). With `exc`, `dropped` is text that the reader task had already taken out of the buffer
as its result when the caller was cancelled; nobody gets it. With `blocked` (the call has not ended),
`held` is such text while the caller has not been resumed yet. -/
inductive POut where
  | matched (text prompt : Text)
  | text (t : Text)
  | done
  | exc (e : Exc) (dropped : Text := [])
  | blocked (held : Text := [])
deriving DecidableEq

/-- shellous/prompt.py:442-462 and 528-538: process one chunk returned by `read`. When the decoder
raises, the chunk is gone. -/
def PS.readChunk (cfg : PCfg) (p : PS) (c : Bytes) : Except Exc Text × PS :=
  let p := { p with atEof := p.atEof || c.isEmpty, got := p.got ++ [c] }
  let p := p.logMsg cfg (.receive c)
  match p.dec.decode c p.atEof with
  | (.error e, d) => (.error e, { p with dec := d })
  | (.ok t, d) => (.ok t, { p with dec := d, pending := p.pending ++ t })

/-- shellous/prompt.py:472-495 `_search_pending`. -/
def PS.searchPending (cfg : PCfg) (p : PS) (pat : Pattern) : Option (Text × Text × PS) :=
  match pat p.pending with
  | none => none
  | some (i, j) =>
    let p' := { p with pending := p.pending.drop j }
    some (p.pending.take i, (p.pending.drop i).take (j - i),
      p'.logMsg cfg (.found ((p.pending.drop i).take (j - i)) p'.pending.length))

/-- Result of the reader task of `expect`. -/
abbrev MatchRes := Except Exc (Text × Text)

/-- shellous/prompt.py:438-470 `_read_to_pattern`: one iteration, for the chunk returned by `read`. -/
def patStep (cfg : PCfg) (pat : Pattern) (p : PS) (c : Bytes) : PS × Option MatchRes :=
  match p.readChunk cfg c with
  | (.error e, p') => (p', some (.error e))
  | (.ok data, p') =>
    if data.isEmpty && !p'.atEof then (p', none)
    else
      match p'.searchPending cfg pat with
      | some (t, m, p'') => (p'', some (.ok (t, m)))
      | none => if p'.atEof then (p', some (.error .eofError)) else (p', none)

/-- shellous/prompt.py:321-330: `harvest_results` of the reader task and what `expect` makes of it. The
second argument is the result of the task, if it has finished. The caller sees the result when it is
resumed; when it is cancelled before, it raises CancelledError. -/
def expectLoop (cfg : PCfg) (pat : Pattern) (timer : Bool) :
    List PEv → Option MatchRes → PS → POut × PS × List PEv
  | [], some (.ok (t, m)), p => (.blocked (t ++ m), p, [])
  | [], _, p => (.blocked, p, [])
  | .read c :: evs, none, p => expectLoop cfg pat timer evs (patStep cfg pat p c).2 (patStep cfg pat p c).1
  | .readErr e :: evs, none, p => expectLoop cfg pat timer evs (some (.error e)) p
  | .timeout :: evs, none, p =>
    if timer then (.exc .timeout, p.logMsg cfg (.receiveCancelled p.pending), evs)
    else expectLoop cfg pat timer evs none p
  | .cancel :: evs, none, p => (.exc .cancelled, p.logMsg cfg (.receiveCancelled p.pending), evs)
  | .cancel :: evs, some (.ok (t, m)), p => (.exc .cancelled (t ++ m), p, evs)
  | .cancel :: evs, some (.error _), p => (.exc .cancelled, p, evs)
  | .resume :: evs, some (.ok (t, m)), p => (.matched t m, p, evs)
  | .resume :: evs, some (.error e), p => (.exc e, p, evs)
  | _ :: evs, r, p => expectLoop cfg pat timer evs r p

/-- `timeout or self._default_timeout` (shellous/prompt.py:200, 323, 344): a timeout of 0 counts as not
given. -/
def effTimeout (cfg : PCfg) : Option Nat → Option Nat
  | none => cfg.dfltTimeout
  | some 0 => cfg.dfltTimeout
  | some n => some n

/-- Is the timer armed? (A default timeout of 0 is passed on to `asyncio.wait`.) -/
def timerSet (cfg : PCfg) (t : Option Nat) : Bool := (effTimeout cfg t).isSome

/-- shellous/prompt.py:313-330: `expect` with the pattern resolved. -/
def expectPat (cfg : PCfg) (pat : Pattern) (timeout : Option Nat) (evs : List PEv) (p : PS) :
    POut × PS × List PEv :=
  match (if p.pending.isEmpty then none else p.searchPending cfg pat) with
  | some (t, m, p') => (.matched t m, p', evs)
  | none =>
    if p.atEof then (.exc .eofError, p, evs)
    else expectLoop cfg pat (timerSet cfg timeout) evs none p

/-- shellous/prompt.py:207-330 `expect`. -/
def expect (cfg : PCfg) (arg : PromptArg) (timeout : Option Nat) (evs : List PEv) (p : PS) :
    POut × PS × List PEv :=
  match resolvePrompt cfg.dflt arg with
  | .error e => (.exc e, p, evs)
  | .ok pat => expectPat cfg pat timeout evs p

/-- shellous/prompt.py:353-362 `read_pending`. -/
def readPending (p : PS) : POut × PS := (.text p.pending, { p with pending := [] })

/-- shellous/prompt.py:521-538 `_read_some`: one iteration; the task's result once it has finished. -/
def someStep (cfg : PCfg) (p : PS) (c : Bytes) : PS × Option (Except Exc Unit) :=
  match p.readChunk cfg c with
  | (.error e, p') => (p', some (.error e))
  | (.ok _, p') => (p', if p'.atEof then some (.ok ()) else none)

/-- shellous/prompt.py:341-351: `read_all` while its reader task runs. -/
def readAllLoop (cfg : PCfg) (timer : Bool) :
    List PEv → Option (Except Exc Unit) → PS → POut × PS × List PEv
  | [], _, p => (.blocked, p, [])
  | .read c :: evs, none, p => readAllLoop cfg timer evs (someStep cfg p c).2 (someStep cfg p c).1
  | .readErr e :: evs, none, p => readAllLoop cfg timer evs (some (.error e)) p
  | .timeout :: evs, none, p =>
    if timer then (.exc .timeout, p, evs) else readAllLoop cfg timer evs none p
  | .cancel :: evs, _, p => (.exc .cancelled, p, evs)
  | .resume :: evs, some (.ok ()), p => ((readPending p).1, (readPending p).2, evs)
  | .resume :: evs, some (.error e), p => (.exc e, p, evs)
  | _ :: evs, r, p => readAllLoop cfg timer evs r p

/-- shellous/prompt.py:332-351 `read_all`. -/
def readAll (cfg : PCfg) (timeout : Option Nat) (evs : List PEv) (p : PS) : POut × PS × List PEv :=
  if p.atEof then ((readPending p).1, (readPending p).2, evs)
  else readAllLoop cfg (timerSet cfg timeout) evs none p

/-! ## Sending -/

/-- `text` argument of `send`. -/
inductive SendText where
  | bytes (b : Bytes)
  | str (s : Text)
deriving DecidableEq

/-- shellous/prompt.py:179-180, 185-188: the bytes to write. -/
def sendData (cfg : PCfg) (t : SendText) (endStr : Option Text) : Except Exc Bytes :=
  match t with
  | .bytes b =>
    match cfg.encode (endStr.getD []) with
    | .error e => .error e
    | .ok x => .ok (b ++ x)
  | .str s => cfg.encode (s ++ endStr.getD [])

/-- The reader task that runs while stdin is drained. -/
inductive DrainReader where
  | notStarted | running | finished
deriving DecidableEq

/-- The state of that task after its first step: it has nothing to do at the end of the stream. -/
def drainStart (p : PS) : DrainReader := if p.atEof then .finished else .running

/-- shellous/prompt.py:197-205 with 497-508 `_drain`. When draining has ended and the reader task is not
finished, it is cancelled and awaited: its CancelledError replaces the outcome of draining, and `send`
ignores it. -/
def drainLoop (cfg : PCfg) (timer : Bool) : List PEv → DrainReader → PS → POut × PS × List PEv
  | [], _, p => (.blocked, p, [])
  | .resume :: evs, .notStarted, p => drainLoop cfg timer evs (drainStart p) p
  | .read c :: evs, .running, p =>
    drainLoop cfg timer evs (if (someStep cfg p c).2.isSome then .finished else .running) (someStep cfg p c).1
  | .readErr _ :: evs, .running, p => drainLoop cfg timer evs .finished p
  | .drained :: evs, _, p => (.done, p, evs)
  | .drainErr e :: evs, .finished, p => (.exc e, p, evs)
  | .drainErr _ :: evs, _, p => (.done, p, evs)
  | .timeout :: evs, r, p =>
    if timer then (.exc .timeout, p, evs) else drainLoop cfg timer evs r p
  | .cancel :: evs, _, p => (.exc .cancelled, p, evs)
  | _ :: evs, r, p => drainLoop cfg timer evs r p

/-- What happens at one turn of the loop in `_wait_no_echo`: the terminal's echo mode is looked at, or
the caller is cancelled during the sleep before. -/
inductive Poll where
  | echo (on : Bool)
  | cancel
deriving DecidableEq

/-- shellous/prompt.py:104-115 `echo` as seen at a poll. -/
def echoSeen (cfg : PCfg) (on : Bool) : Bool := cfg.pty && on

/-- shellous/prompt.py:545-550: `n` polls left; `none`: echo is off. -/
def pollEcho (cfg : PCfg) : Nat → List Poll → Option POut
  | 0, .cancel :: _ => some (.exc .cancelled)
  | 0, _ => some (.exc .runtimeError)
  | _ + 1, [] => some .blocked
  | _ + 1, .cancel :: _ => some (.exc .cancelled)
  | n + 1, .echo on :: ps => if echoSeen cfg on then pollEcho cfg n ps else none

/-- shellous/prompt.py:540-550 `_wait_no_echo`. The poll that follows the last sleep does not take
place: after 120 polls with echo the code sleeps once more and gives up. -/
def waitNoEcho (cfg : PCfg) (polls : List Poll) (p : PS) : Option POut × PS :=
  (pollEcho cfg 120 polls, p.logMsg cfg .waitNoEcho)

/-- shellous/prompt.py:185-205: `send` after waiting for echo to be off. -/
def sendNow (cfg : PCfg) (t : SendText) (endStr : Option Text) (noEcho : Bool) (timeout : Option Nat)
    (evs : List PEv) (p : PS) : POut × PS × List PEv :=
  match sendData cfg t endStr with
  | .error e => (.exc e, p, evs)
  | .ok data =>
    let p := { p with written := p.written ++ data }
    let p := p.logMsg cfg (if noEcho then .sendHidden else .send data)
    drainLoop cfg (timerSet cfg timeout) evs .notStarted p

/-- shellous/prompt.py:147-205 `send`. -/
def send (cfg : PCfg) (t : SendText) (endStr : Option Text) (noEcho : Bool) (timeout : Option Nat)
    (polls : List Poll) (evs : List PEv) (p : PS) : POut × PS × List PEv :=
  if noEcho then
    match waitNoEcho cfg polls p with
    | (some o, p') => (o, p', evs)
    | (none, p') => sendNow cfg t endStr noEcho timeout evs p'
  else sendNow cfg t endStr noEcho timeout evs p

/-- shellous/prompt.py:389-397: the end of `command`, after `expect`. -/
def commandEnd (allowEof : Bool) : POut × PS × List PEv → POut × PS × List PEv
  | (.exc .eofError d, p, evs) =>
    if allowEof then ((readPending p).1, (readPending p).2, evs) else (.exc .eofError d, p, evs)
  | r => r

/-- shellous/prompt.py:364-397 `command`. -/
def command (cfg : PCfg) (t : SendText) (endStr : Option Text) (noEcho : Bool) (arg : PromptArg)
    (timeout : Option Nat) (allowEof : Bool) (polls : List Poll) (evs : List PEv) (p : PS) :
    POut × PS × List PEv :=
  if p.atEof then (.exc .eofError, p, evs)
  else
    match send cfg t endStr noEcho timeout polls evs p with
    | (.done, p', evs') => commandEnd allowEof (expect cfg arg timeout evs' p')
    | r => r

/-- shellous/prompt.py:399-414 `close`. -/
def promptClose (cfg : PCfg) (p : PS) : PS :=
  match cfg.ptyEof with
  | some (b :: bs) => ({ p with written := p.written ++ (b :: bs) ++ (b :: bs) }).logMsg cfg .sendEof
  | _ => ({ p with closed := true }).logMsg cfg .close

/-! ## Sessions -/

/-- An operation of the prompt API. -/
inductive POp where
  | expect (arg : PromptArg) (timeout : Option Nat)
  | readAll (timeout : Option Nat)
  | readPending
  | send (t : SendText) (endStr : Option Text) (noEcho : Bool) (timeout : Option Nat)
  | command (t : SendText) (endStr : Option Text) (noEcho : Bool) (arg : PromptArg)
      (timeout : Option Nat) (allowEof : Bool)
  | close

/-- Run one operation with the given terminal states and events. -/
def POp.run (cfg : PCfg) (op : POp) (polls : List Poll) (evs : List PEv) (p : PS) : POut × PS :=
  match op with
  | .expect arg timeout => ((Shellous.expect cfg arg timeout evs p).1, (Shellous.expect cfg arg timeout evs p).2.1)
  | .readAll timeout => ((Shellous.readAll cfg timeout evs p).1, (Shellous.readAll cfg timeout evs p).2.1)
  | .readPending => Shellous.readPending p
  | .send t e n timeout =>
    ((Shellous.send cfg t e n timeout polls evs p).1, (Shellous.send cfg t e n timeout polls evs p).2.1)
  | .command t e n arg timeout a =>
    ((Shellous.command cfg t e n arg timeout a polls evs p).1,
     (Shellous.command cfg t e n arg timeout a polls evs p).2.1)
  | .close => (.done, promptClose cfg p)

/-- A call with everything that happens during it. -/
structure PCall where
  op : POp
  polls : List Poll := []
  evs : List PEv := []

/-- A session: the outcomes of the calls, in order, and the state reached. -/
def session (cfg : PCfg) : List PCall → PS → List POut × PS
  | [], p => ([], p)
  | c :: cs, p =>
    let r := c.op.run cfg c.polls c.evs p
    let s := session cfg cs r.2
    (r.1 :: s.1, s.2)

end Shellous
