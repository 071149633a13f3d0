# Formal model of byllyfish/shellous in Lean 4

Everything lives in `lean/Verif/`:

* `Model/*.lean`  executable, total definitions mirroring the Python code branch by branch.
  Every definition cites the file and lines it models (paths are relative to `/repo`).
* `Spec/*.lean`   small, independent specifications (what a user would write down).
* `Lemmas/*.lean` helper lemmas and invariants.
* `Props/*.lean`  one section per property: the theorems named in `MANIFEST.json`,
  each followed by an `example` with a concrete non-trivial instance.

When a property is *false of the code*, the file contains a theorem `Cnn_..._false` with a
concrete witness (a run of the model) and the strongest true statement under the suffix `_partial`.
Such disagreements are listed in "Findings" below.

## Trusted base

* Lean 4.33.0's kernel. Every theorem of `MANIFEST.json` depends on at most the axioms `propext`, `Quot.sound` and
  `Classical.choice`; the exact set per theorem is listed in `AXIOMS.txt` (generated by `tools/gen_axioms.sh` with
  `#print axioms`). There is no axiom of our own and no compiled evaluation (`native_decide`, `bv_decide`); the examples
  use `decide +kernel`, which is evaluation by the kernel.
* The reading of the Python source: the model is hand written from the text of `/repo/shellous`. Each definition cites the
  lines it models.
* The reading of what lies underneath (CPython 3.12 `asyncio`, `io`, `codecs`, `re`, `os`, `threading`; Linux; for
  `KQueueStrategy` BSD/macOS), stated here and in the comments of the definitions concerned:
  - *asyncio*: cooperative scheduling (other code runs only while a coroutine is suspended); `task.cancel()` makes the
    current await raise `CancelledError` at the next resume, except that a direct `await task` forwards the request to the
    inner task; `asyncio.wait` returns when its condition holds or its timer fired, and the done/pending split is the one
    at the moment of resume; `shield` does not forward cancellation; a task that is cancelled may end in any way at any
    later time, or never; `transport.close()` kills a process that is still running; `StreamReader.read(n)` has no
    suspension point after it has cut its buffer.
  - *contextlib.asynccontextmanager*: the user's block stands in the place of the `yield`.
  - *Python threads*: one access to shared state (attribute, dictionary item) or one system call is atomic; everything
    else may be interleaved. Locks are mutual exclusion without fairness (fairness is a hypothesis of the theorems that
    say "eventually").
  - *Descriptors*: `pipe`, `open`, `openpty`, `pidfd_open` either succeed with numbers that are not in use, or raise; numbers
    are used again after `close`; `close` of a number that is not open raises EBADF.
  - *Processes*: a process exits at most once; process ids are used again only after the child was reaped; asyncio learns
    the return code some time after the exit, or never; SIGKILL may fail to end a process (for the watcher: `os.kill` of an own
    child that was not reaped does not raise).
  - *epoll*: level triggered; a pidfd is readable if and only if its child has exited; closing a descriptor takes it off the
    epoll. "Eventually" theorems assume that a descriptor that stays ready is returned at some time.
  - *kqueue*: `NOTE_EXIT` is registered for the process that has the id at that moment, is returned once and only after
    that process has begun to die; registering raises `ProcessLookupError` only if the process is dying or absent; a call that
    raises has registered nothing. A dying process may not be reapable for some time.
  - *codecs*: UTF-8 is modelled completely (decoder with strict/replace/ignore/backslashreplace/surrogateescape as far as
    C53 needs them) and the buffered incremental decoder on top of it; other encodings are parameters of the theorems.
  - *re*: only escaped literals and alternations of escaped literals are modelled, as leftmost, first-alternative search;
    arbitrary patterns are a parameter (any function returning a span in range).
  - *programs and pipes* (C85, C86): a program is any deterministic machine that reads and writes bytes, may close its streams, and may run for ever; a
    pipe holds a bounded number of bytes, wakes its reader at end-of-file when no writer is left, and a write into a pipe without a reader ends the
    writer by SIGPIPE. Programs that depend on time or signals, that close their standard error early or leave grandchildren behind are not covered.
  - *tty*: canonical mode with VEOF, 4095 byte lines; raw mode passes bytes through.

## What is modelled and what is not

| code | model | not modelled |
|------|-------|--------------|
| `command.py` `Options`, `CmdContext`, `Command` (coerce, call, set, env, stdin/stdout/stderr, operators, name, find_command) | `Model/Options`, `Model/Command`, `Model/Find` | `__repr__`/`__str__` formatting, typing generics |
| `command.py` `__await__`, `__aenter__`, `__aexit__`, `__aiter__`, `prompt` | `Model/Launch` (preflight), `Model/Run`, `Model/PromptRun`, `Model/Contexts`, `Model/Iter` | |
| `pipeline.py` | `Model/Command`, `Model/PipeRun`, `Model/PromptRun` | |
| `redirect.py` | `Model/Options` (kinds, defaults), `Model/Streams`, `Model/Sinks`, `Model/Tty`, `Model/Flow` (the tasks together with the programs and the pipes) | |
| `result.py` | `Model/Result` | dataclass repr |
| `util.py` | `decode`/`encode`: `Model/Codec`; `EnvironmentDict`, `coerce_env`: `Model/Options`; `close_fds`: `Model/Launch`; `wait_pid`: `Model/Result`; `poll_wait_pid`, `uninterrupted`: `Model/Run`; `context_*`: `Model/Contexts` | `verify_dev_fds`, `SupportsClose` typing |
| `harvest.py` | `Model/Harvest` over `Model/Async` | |
| `runner.py` `_RunOptions`, `_cleanup`, `_setup_pipeline` | `Model/Launch` | win32, BSD pty (its descriptors: `Model/PtyFds`) |
| `runner.py` `Runner` | `Model/Run` over `Model/Async`; `Model/AuditRun` (audit_callback that raises); both the Linux and the BSD pty branch | |
| `runner.py` `PipeRunner` | `Model/PipeRun` over `Model/Async`/`Model/Harvest` | |
| `prompt.py` | `Model/Prompt`, `Model/Term` (echo, eof), `Model/Codec` (decoder), `Model/PromptRun` (result), `Model/SendFlow` (`send` together with the child and the pipes) | two concurrent reads |
| `pty_util.py` | `Model/Launch` (`open_pty`, `ChildFd`), `Model/Term`, `Model/PtyModes` (adapters, EIO), `Model/PtyFds` (BSD branches) | |
| `watcher.py` | `Model/Watcher` (epoll), `Model/KqueueWatcher`, `Model/ThreadWatcher`, `Model/DefaultWatcher` | `_check_sigchld` |

Not modelled at all: `log.py` decorators (no effect on behaviour when tracing is off), Windows branches, uvloop, wall-clock
time (timeouts are events that may happen at any time while armed), GeneratorExit (a coroutine that is never resumed
again is covered as a suspension point), a stranger cancelling the library's internal tasks, garbage collection/`__del__`,
memory, `asyncio` debug mode.

## Modelling techniques

* **Pure core** (arguments, options, pipelines, results, env, names, wiring tables): plain functions;
  proofs by structural induction or exhaustive case analysis over finite kinds.
* **Streams**: a copy is a machine driven by a list of events (data, EOF, go, an exception at the current await);
  interruption = any event list.
* **Async core** (`Model/Async.lean`): `Coro α = World → List Ev → Out α × World × List Ev`, where
  the event list is the adversary: process exits, return code noticed, task completions with any
  outcome, user signals, cancellation, timers, resume. Running out of events while suspended is the
  outcome `blocked`, so a theorem over all event lists covers every schedule *and* every
  intermediate/crash point. Properties are proved with a small Hoare logic (`wp`) for this monad.
* **Descriptors** (`Model/Launch.lean`): a table of open descriptors, logs of attempted, successful and failed closes, and an
  oracle for the result of each system call; the oracle is universally quantified.
* **Threads** (`watcher.py`, `Contexts`): small-step interleaving semantics; invariants by induction over histories.
  "Eventually" is stated for infinite executions under weak fairness; each such theorem has an example execution that
  satisfies the hypotheses.
* Model and proof are kept honest by `seeded/LOG.jsonl`: more than 340 edits of the model in the way of realistic bugs, with the
  theorems that then failed, and the theorems that were tightened because none did.

## Findings (statements false of the code)

Each is proved by a `_false` or `_limit_` theorem: a concrete run of the model.

* C06 the hash of a command depends on the order in which environment variables were set; equality does not.
* C12/C13 on a terminal: `stdout=DEVNULL, stderr=STDOUT` fails after the launch; the default stderr does not follow a redirected
  stdout; `subprocess.PIPE` slips through the "nobody reads both streams" check. Awaiting a command with one captured stream:
  nobody reads it.
* C16 a `StreamReader` source that fails with ConnectionResetError is taken for end of input. C17 lines over 4095 bytes on a
  terminal. C19 lines over 64 KiB; UTF-16.
* C21/C62 an empty `exit_codes` container means {0}; in a pipeline only the last command's `exit_codes` count, and they are
  applied to the exit code of whichever command failed first.
* C26 a real exit code 255 after a signal is reported as killed by it; SIGKILL does not update the last signal.
* C27/C30/C31/C46 harvest: two cancellations, or tasks that ignore cancellation, leave tasks running; a cancellation during the
  cleanup after a failure is swallowed. C28 not the first exception in time.
* C33/C37/C40 the same for a run: a cancellation during the wait after SIGKILL leaves the child running; three cancellations
  during the launch abandon it.
* C34 `transport.close()` may send a SIGKILL that is not announced. C32 a signal may be announced after `stop` if the child
  survived its SIGKILL.
* C35/C36 a body may swallow the timeout's cancellation; `async with` suppresses a late cancellation.
* C41 a descriptor handed over twice, or overridden by a process substitution, or as a file object.
* C42 leaks when a launch fails: process substitutions, path redirects, pty (`_start` failing does not call `_close`), written-to
  pipelines. `async with pipeline` cancelled while it starts: the pipe ends of commands that were launched already are closed a
  second time, which closes a foreign descriptor if the number has been used again.
* C47 `async with pipeline` hangs if its first or last command cannot be launched; launch errors are not raised by the block; errors
  while creating the pipes become ValueError.
* C48/C51 text is lost if `expect` is cancelled after its reader found the prompt. C50 `expect([...])` depends on the chunking if
  one string ends inside another. C54 an error while draining is swallowed.
* C56 after a session whose child was killed but not reaped, or whose pipeline could not start, there is no result, and TypeError
  replaces the exception of the block.
* C57 leaving a block that was not entered leaves an empty entry; task addresses may be used again.
* C58/C64 watcher: a child reaped elsewhere is reported as 255, or never, or as another child; a callback that raises ends the
  thread; `close()` while the thread is dying can write a byte to a foreign descriptor; a watch in flight at `close()` leaks its
  pidfd. C59 `close()` while `add_child_handler` runs: AssertionError, AttributeError, or a watch on a closed strategy.
* C66 ThreadStrategy: a new child whose process id was used before may be refused with AssertionError.
* C68 KQueueStrategy: a child that needs more than 75 ms to die after its event is never reported.
* C61 realtime signals.
* C69 with `catch_cancelled` and a `timeout`, a truncated output is returned as if complete if the child exits with 0 after the signal.
* C70 a cancellation of the consumer of `async for line in cmd`, while it waits for a line, is swallowed: the loop ends normally, with part of the output (also for pipelines). The exit status of an iterated command or pipeline is never looked at. A timeout that goes off while the body of the loop is executed does not stop the child.
* C71 a `timeout` of the last command of a pipeline is masked: if the other commands ended with 0, `await pipeline` returns
  normally with the part of the output that had been copied. `a.set(exit_codes={1}) | b`: if `a` exits with 0, `b` is cancelled, and
  `await pipeline` returns normally with part of the output of `b`.
* C73 `timeout=0` means no limit; waiting for echo to be off is not limited by `timeout`.
* C75 an audit callback that raises in the phase "signal" keeps the signal from being sent; the exception of the body is lost, background tasks are left running, and during a failing launch the child survives without any signal.
* C77 `_waiter` stops the timer of the `timeout` option when the child exits. If a stream of the child stays open (a grandchild has inherited it), `await cmd` with a `timeout` hangs for ever.
* C81 a write to a terminal that fails (the child has exited with part of its input unread) closes the parent's side while the reader
  still watches it: output not yet read is lost, and the number may belong to somebody else. On FreeBSD, if the launch takes longer
  than two seconds, the timer closes the child's side before the child gets it. Buffered input keeps the parent's side open after the run.
* C83 a cancellation that arrives while `async with` stops the child after an exception of the body makes the block end normally: the
  exception and the cancellation are both lost (command and pipeline). A BrokenPipeError from closing standard input replaces the
  exception of the body.
* `_patch_child_watcher` (pty_util.py:265-282) sets `_shellous_patched` before it replaces `add_child_handler`. If two threads launch
  their first command on a BSD pty at the same time, the second may see the flag and go on with a watcher that is not patched yet: its child is then
  both watched and polled, and one of the two gets 255 (`C84_one_party_false`). One thread is safe (`C84_one_party_partial`).
* C87 with an empty directory in the search path (the current directory), `Options.which` answers a name without a slash and `Popen` looks for it once
  more, in the `PATH` of the child's environment: another program may run (`C87_launch_false`). `find_command("./tool")` answers `Path("tool")`, which is then
  looked for in the search path (`C87_find_run_false`).
 * C90 (with `SHELLOUS_TRACE=detail`) the wrapper of an async generator does not close the generator it wraps when the iteration is abandoned
   (`C90_generator_false`; `read_lines`, the one async generator marked, has no `try` around its `yield`, so it makes no difference there). `_platform_info`
   calls `asyncio.get_child_watcher`, which Python 3.14 does not have: there a traced `__aenter__` raises before it starts anything (`C90_message_false`).
 * C95 if the child writes bytes that cannot be decoded while `send` waits for room, the task in `_drain` that reads ends by the exception of the decoder.
   Nobody looks at that exception, and nobody reads on: `send` can hang for ever if it has no timeout (`C95_decodable_needed`).

## Plan per property

| id | model | proof |
|----|-------|-------|
| C01 | `coerce` on rose trees of arguments | structural induction against an independent leaf list |
| C02 | same, `Except` | iff between `coerce` failing and existence of a bad leaf |
| C03 | `Command.call`, `CmdContext.call` | list algebra over `coerce` (append homomorphism) |
| C04 | `Options` with all fields, `set` with optional fields | field-wise frame theorem, commutation, rejection |
| C05 | `EnvironmentDict` as insertion-ordered association list, `runtime_env` | induction over call sequences vs. "last assignment" spec |
| C06 | eq and hash of the association list | negation with witness; partial: equal insertion order |
| C07 | `Pipeline` | induction over expression trees |
| C08 | `Pipeline` setters | pointwise description of the command list |
| C09 | operand-kind dispatch | exhaustive case analysis over kinds, for all commands |
| C10 | `Command.name` | string length/suffix lemmas |
| C11 | `_setup_input`, `_setup_input_source` | case analysis per kind |
| C12 | `_setup_output`, `_start` sinks | case analysis per kind pair |
| C13 | `aiter_preflight`, `_is_multiple_capture`, `run_command` | case analysis |
| C14 | `copy_*` folds | induction over chunks |
| C15 | `copy_bytearray_limit` | induction over chunks, invariant on every prefix |
| C16 | `write_stream`, `write_reader` with a failing writer | induction over chunks and failure points |
| C17 | the above plus a canonical-mode line discipline | induction over input |
| C18 | `copy_stringio` | fold lemma |
| C19 | `readline` on chunked stream, `read_lines` | induction; negation for UTF-16 |
| C20 | `_set_position` | case analysis |
| C21,C22 | `check_result` | decision logic for all containers |
| C23,C24 | `_find_key_result`, `convert_result_list` | induction; negation with witness |
| C25 | wait status as 16 bit word | arithmetic |
| C26 | `Runner.returncode` | negation (real 255) + partial |
| C27-C31 | `harvest*` in the async monad | Hoare logic, all event lists; negation with two cancellations |
| C32-C40 | `Runner` in the async monad | invariants over all event lists |
| C41-C44 | `_RunOptions`, `_cleanup`, `close_fds` on the descriptor table (`Model/Launch`) | induction over argument list; negations for leaks |
| C45 | `_setup_pipeline` | induction |
| C46,C47 | `PipeRunner` in the async monad | Hoare logic; C47 negation: blocked for every cancel-free history |
| C48-C51 | `Prompt` as state machine over chunk/timeout/cancel events | invariants, first-occurrence lemmas |
| C52,C53 | newline and UTF-8 incremental decoders | induction over chunks |
| C54,C55 | `send`, `_log_send`, `_wait_no_echo` | direct + noninterference |
| C56 | `Command.prompt` | case analysis over block outcomes |
| C57 | context stacks keyed by (owner, task) | refinement to per-key stacks |
| C58,C59 | watcher threads | interleaving invariants |
| C60 | termios flag word | bit-vector lemmas |
| C61 | `Result.exit_signal` | arithmetic; negation for realtime signals |
| C62 | `convert_result_list` with each command's `exit_codes` | negations; partial for the defaults |
| C63 | `copy_logger`, `copy_streamwriter` machines | induction over events |
| C64,C65 | descriptors and kills in the epoll watcher's step model | invariants over histories |
| C66 | `ThreadStrategy` step model, pid reuse | invariants; fair infinite executions; negations |
| C67 | closing the epoll watcher | fair infinite executions with a decreasing measure |
| C68 | `KQueueStrategy` step model, two-step deaths, pid reuse | invariants over histories; fair infinite executions |
| C69 | launch, run and copies put together (`Spec/EndToEnd`) | composition of C12, C14-C16, C18, C20 with the run's post-condition |
| C70 | the async generator of `async for` (`Model/Iter`), step by step, in a run of a command or a pipeline | every iteration does what some `async with` block does; C19, C32-C34, C46 for it |
| C71 | each task of the pipeline (`Model/PipeRun`) executes a run of its command (`Model/Run`): `RunBy` | C46's outcome of the pipeline, C35/C36's outcome of each command, C69 for the last one |
| C72 | `raw`, `cbreak`, `cooked`, `_set_term_size` on flag words (`Model/PtyModes`), EIO as end of file | bitwise, for all words; C17 and C14 for the resulting streams |
| C73 | `effTimeout`, `expectLoop`, `readAllLoop`, `drainLoop` (`Model/Prompt`) | induction over the events before the expiration |
| C74 | `PS.logMsg` and the operations of `Model/Prompt` | simulation of the traced by the untraced session |
| C75 | Model/AuditRun: the functions of Model/Run that call `_audit_callback`, with an arbitrary callback | simulation of Model/Run up to the first raise (Lemmas/AuditRun), invariants of the world (Truthful, RExt) through the closing of the transport |
| C76 | Model/Run on endless schedules (Spec/Live) | a small logic of "ends" (Lemmas/Ends): every wait of `harvest`, `_kill`, `_close`, `__aexit__`, `_start` is for something fairness provides, an invariant carries what stays true meanwhile |
| C77 | as C76, with no fairness for the child and the streams | as C76; every wait of the clean-up has a time limit |
| C78 | Model/PipeRun on endless schedules | as C76: every wait ends or goes on for ever, and in the latter case the world at every moment is known |
| C79 | Model/Iter on endless schedules (Spec/Live, Spec/Iter) | every attempt to read after the end of the stream takes a line off the buffer (Lemmas/EndsGen); the rest as C76-C78 (Lemmas/EndsIter) |
| C80 | Model/Launch with an operating system that may refuse the n-th call | a Hoare-style predicate on code that may raise (`Told`), closed under sequencing |
| C81 | `ChildFd`, `PtyFds`, the two transports on a shared descriptor table (Model/PtyFds) | invariant over all event sequences |
| C82 | Model/Prompt | invariant PInv of C48, induction over the chunks that do not complete a prompt, one step for the chunk that does |
| C83 | Model/Run, Model/PipeRun | postcondition of `__aexit__` (XPost), outcome of a pipeline block (C46) |
| C84 | `Model/IgnoreWatcher`: any number of jobs in any threads, with the wrapper depth, the flag and the context variable of each | invariant per job and, for one thread, "the flag says that the wrapper is there or that the only busy job is installing it" |
| C85 | `Model/Flow`: programs as machines, pipes with capacities, the feeding and the reading tasks, any schedule | invariant that ties each process to its run alone; a stuck program must be waiting for input, by induction from the end of the pipeline, and then nobody before it waits; the bound comes from the end of the pipeline to its beginning |
| C86 | `Model/Flow`; the reference is `Cfg.stream`: each program, alone, on the complete stream of the one before it | the invariant of C85: each process is in the state of its run alone on the complete stream, although it has seen only a part of it |
| C87 | `Model/Find`: `shutil.which` with its set of seen directories, `str(Path(...))`, and the files that `Popen` tries | the set of seen directories does not matter; splitting and joining are inverse; `str(Path(s))` has the same root and the same components as `s` |
| C88 | `Model/Subst`: the network of a command line with process substitution, arbitrary programs as nodes | the network is a tree, by induction on the command line; a node that waits at the pipe of a child meets a child that waits at the same pipe, so all wait for their parents, and the first one has none |
| C89 | Model/Launch (`kwd_args`: close_fds, env, start_new_session, preexec_fn, pass_fds), Spec/Child | `C89_options`, `C89_child` (what one child holds), `C89_exclusive` (any interleaving, on top of the ownership invariant of C41) |
| C90 | Model/Trace (`log_method`'s wrappers as state machines driven by send/throw; `read_lines`), Spec/Trace (`unlogged`) | simulation between function and wrapper: `C90_coroutine`, `C90_generator_partial`, `C90_iteration`, `C90_read_lines`, `C90_paired`; counterexamples `C90_generator_false`, `C90_message_false` |
| C91 | Model/Prompt, Spec/Dialogue (`transcript`, `Unambiguous`, `answers`) | invariant of C48 plus uniqueness of first occurrences, induction over the session: `C91_in_order`, `C91_nth`; `C91_waits`; `C91_late_answer` |
| C92 | Model/Subst; Spec/SubstDet (`Killed`, `Calm`, `Consumes`, `Patient`) | each node's history of answers determines its state; all valid histories are compatible, and with C88 all complete ones are equal: `C92_deterministic`, `C92_ends`, `C92_patient`; `C92_unread` |
| C93 | Model/Launch; Spec/Holders (`Kernel`, `KStep`: enter / fork / exit / stitch / child), Spec/Child (`ChildHolds`) | invariant `KInv` over all interleavings, on top of the invariant of C41: `C93_one_child`, `C93_pipe_ends`, `C93_end_of_file`; a second invariant `KApart`: `C93_two_processes`. This is what Model/Flow and Model/Subst assume of the descriptors (one reader, one writer for each pipe) |
| C94 | Model/PromptRun (`withPrompt`, `withPipePrompt`) on infinite schedules; Spec/Sessions | built on the termination lemmas of C76–C78: `C94_session`, `C94_session_failed`, `C94_pipe`, `C94_pipe_cancelled` |
| C95 | `Model/SendFlow`: child, pipes, asyncio's stream buffers, `send`, `_drain` and its reader task, any schedule; Spec/SendFlow | invariant (`SInv`) that shows who can go on; a measure that each step makes smaller: `C95_no_deadlock`, `C95_ends`, `C95_gone`, `C95_completes`, `C95_rests`, `C95_expect`, `C95_intact` |

All are expressible in a model; none is marked not applicable.
