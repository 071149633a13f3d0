{
 "C04": {
  "note": "env is covered by C05; the plain int -2 is rejected like STDOUT (C04_int_minus_two)."
 },
 "C06": {
  "note": "False of the code: the hash of the environment depends on insertion order, equality does not (C06_equal_hash_false). Proved when the variables were first set in the same order."
 },
 "C12": {
  "note": "Tables proved for all kinds. False on a terminal: stdout=DEVNULL with stderr=STDOUT fails after the launch (C12_pty_stderr_only_false); with stdout redirected to a file, stderr goes to the terminal and not where stdout goes (C12_pty_default_stderr_false)."
 },
 "C13": {
  "note": "Proved without a terminal and without the undocumented redirection subprocess.PIPE, for which it is false (C13_pty_false, C13_pipe_constant_false)."
 },
 "C16": {
  "note": "Complete for bytes/str/BytesIO/StringIO. For a StreamReader source it needs that the source itself does not fail with ConnectionResetError/BrokenPipeError, which the code takes for end of input (C16_source_reset_false)."
 },
 "C17": {
  "note": "Needs lines that fit the kernel's 4095-byte line buffer (C17_long_line_false)."
 },
 "C19": {
  "note": "Proved for UTF-8 (all error handlers; with 'ignore' a line may decode to nothing). False for lines over 64 KiB (C19_long_line_false) and for encodings like UTF-16 (C19_utf16_false). C19_lines_any: for every encoding in which the byte 0x0A is the newline and nothing else is (utf8_safe, single_safe, latin1_safe, ascii_safe)."
 },
 "C26": {
  "note": "Returncode of a run: exact relation to the child's real status in every schedule, with the corners refuted by the _false theorems."
 },
 "C27": {
  "note": "Complete when harvest returns or raises anything but CancelledError and has not logged that it gave up; with CancelledError up to one interruption. Two interruptions (C27_two_cancels_false) or tasks that ignore cancellation (C27_gave_up_false) leave tasks running."
 },
 "C28": {
  "note": "Complete for the first failure in argument order. The docstring's 'first exception seen' is false (C28_first_seen_false)."
 },
 "C30": {
  "note": "Complete for a cancellation during the main wait; one that arrives during the cleanup after a failure is swallowed (C30_swallowed_false)."
 },
 "C31": {
  "note": "Order, contents and raised errors complete; the cancelled flag misses a cancellation during cleanup after a failure (C31_swallowed_false)."
 },
 "C32": {
  "note": "Start, signals, one stop, at every point and at the end of every run, however it ends. After the end nothing is announced unless the child survived its SIGKILL (partial: C32_after_false shows the corner)."
 },
 "C33": {
  "note": "Partial: needs that the wait after SIGKILL is not interrupted, and at most two cancellations during the launch; the other cases are refuted by C33_kill_cancelled_false and C33_launch_cancelled_false."
 },
 "C34": {
  "note": "Escalation order, announcement, no signal after exit, none in a normal end. C34_close_kill_false: asyncio's transport.close() may send one unannounced SIGKILL."
 },
 "C35": {
  "note": "Disarmed at the end, never fires without the option, cannot end in a normal return of await, source of every TimeoutError. C35_swallowed_false: a body may swallow the cancellation."
 },
 "C36": {
  "note": "Every exception has a listed explanation; await returns after a cancellation only in two corners (catch_cancelled with the timer; closeTimeout), both witnessed. C36_with_block_false: async with suppresses a late cancellation."
 },
 "C37": {
  "note": "Partial: at most one CancelledError in the cleanup and no surrender; both restrictions are shown necessary."
 },
 "C38": {
  "note": "First failed copy's exception is raised, unless closing stdin failed later; all copies done, child reaped."
 },
 "C39": {
  "note": "No process object, no task but the finished spawn, audits start/stop, no signal, error raised as is."
 },
 "C40": {
  "note": "Partial in the number of cancellations (one for completion, two for the child being ended); more are refuted."
 },
 "C41": {
  "note": "Proved for descriptor numbers, files opened by the library, pipe ends and the terminal's child side, for one launch and for concurrent launches of whole command trees. Needs distinct descriptors (C41_shared_descriptor_false), no hand-over overridden by a process substitution (C41_overridden_redirect_false), and excludes file objects (C41_file_object_false)."
 },
 "C42": {
  "note": "False of the code for process substitutions, path redirects, ptys and written-to pipelines (the _false theorems). C42_setup_failure_exact says exactly what leaks; proved without leak for the remaining cases. A captured pipeline cancelled while it starts closes pipe ends twice once a command has been launched (C42_pipeline_cancelled_*)."
 },
 "C44": {
  "note": "Complete for descriptor numbers (proved); an object whose close() raises stops the loop (C44_object_close_raises_false). That the collection is emptied is part of the model of the callers."
 },
 "C46": {
  "note": "C46_done_partial needs that the library did not give up and that the cleanup was interrupted at most once; C46_gave_up_false and C46_two_cancels_false show both restrictions necessary. Cancellation of the remaining commands (C46_cancelled_asked, C46_failure_asked), progress (C46_completes) and the complete lists of outcomes (C46_await_outcome, C46_block_outcome) need neither. C46_swallowed_false and C46_assertion_false are corners."
 },
 "C47": {
  "note": "False of the code: C47_hangs_false proves that no schedule without an outside cancellation ends `async with pipeline` once its first or last command has failed to launch; C47_not_raised_false: launch errors are not raised by the block; C47_setup_masked_false: errors while creating the pipes become ValueError. C47_enters_partial is what holds."
 },
 "C48": {
  "note": "C48_exact_account is complete: it accounts for all text, also lost text. Text is lost when a call is cancelled after its reader found the prompt and before the caller resumed (C48_cancel_race_false), and with strict decoding errors (C48_decode_error_false)."
 },
 "C49": {
  "note": "For non-empty prompts, every decoder, chunking and schedule."
 },
 "C50": {
  "note": "Chunk-independent only for lists where no string ends inside another (C50_chunking_false otherwise); for every list the answer is right for the text received so far."
 },
 "C51": {
  "note": "Complete for timeout, EOF, read/decode errors and read_all. For a cancelled expect it fails if the reader had found the prompt already (C51_cancel_race_false)."
 },
 "C54": {
  "note": "What is written is proved exactly. A delivery failure is reported only if the output has ended; otherwise it is swallowed (C54_drain_error_false)."
 },
 "C62": {
  "note": "False of the code in both directions (the three _false theorems): only the last command's exit_codes count, and only for the first command that failed by itself. Proved for the default exit_codes."
 },
 "C56": {
  "note": "Command and pipeline sessions, all block outcomes and schedules: same world and outcome as an async-with block (so C32-C46 carry over); cli.result RuntimeError before the end, the unchecked Result after. False when there is no result: a child killed but not reaped (C56_undead_false), a pipeline command that could not be started (C56_pipe_lost_false)."
 },
 "C57": {
  "status": "proved",
  "note": "Step model of util.py context_aenter/context_aexit: dictionaries, contexts (new, copied, shared), tasks and commands with addresses that are used again. C57_exit and C57_matching hold for every possible history without any discipline. C57_no_bookkeeping needs only that no task leaves a block it has not entered. C57_limit_* show what happens outside of that: a stray exit leaves an empty entry, a task that ends inside a block can have its run closed by a later task at the same address, and a block left by another task is not closed."
 },
 "C58": {
  "status": "proved",
  "note": "Step model of EPollStrategy (watch_pid, the thread, close), the kernel's process table, pid and descriptor reuse, other threads. At most one report per call, only after the exit, with the child's own status; C58_not_lost/C58_eventually: under a fair schedule every watched child that exits is reported. C58_status/_eventually need: nobody else reaps children, no child watched twice, no callback raises anything but RuntimeError; C58_limit_* show each of these is needed."
 },
 "C64": {
  "status": "proved",
  "note": "C64_limit_stray_write: closing while the thread is ending by itself can write one byte to a foreign descriptor; C64_limit_in_flight: a watch that is under way while the watcher is closed leaks its pidfd. Both are outside the statement (watch not completed; a callback raised)."
 },
 "C65": {
  "status": "proved",
  "note": "C65_kills_its_child needs that nobody else reaps children and no child is watched twice; assumes SIGKILL to an own child does not fail."
 },
 "C59": {
  "status": "proved",
  "note": "Step model of add_child_handler, _init_strategy and close, one step per access to shared state, any number of threads. C59_limit_*: a close() at the same time can make add_child_handler raise AssertionError or AttributeError, or watch the child with a closed strategy."
 },
 "C66": {
  "status": "partial",
  "note": "Reported exactly once, after the exit, with its own status, eventually under fair scheduling (if nobody else reaps and no child is watched twice): proved. 'A child can be watched' is false: the entry of the table is removed after the child was reaped, so a new child with the same pid can be refused with AssertionError (C66_watch_false), forever if a callback raised (C66_stale_false); C66_refused_partial says when."
 },
 "C67": {
  "status": "proved",
  "note": "For every infinite history with weakly fair scheduling of the thread and a fair epoll. (close() can itself raise EBADF or TypeError when the thread is ending at the same time: modelled as a write that goes nowhere; see C64_limit_stray_write.)"
 },
 "C68": {
  "status": "proved",
  "note": "Step model of KQueueStrategy; a child dies in two steps (begins to die; can be reaped), and the kernel is assumed to deliver NOTE_EXIT once and only for a process that has begun to die. Needs: nobody else reaps children, no child watched twice, no callback raises anything but RuntimeError, kevent registration fails only with ProcessLookupError (each needed: C68_limit_*). C68_limit_slow_death: a child that needs more than 75 ms to die after its event is never reported, only logged (in the code; excepted in the statement)."
 },
 "C61": {
  "note": "Exact for every ending of a child. False for realtime signals other than SIGRTMIN and SIGRTMAX: exit_signal raises ValueError (C61_realtime_false)."
 },
 "C63": {
  "note": "StreamWriter complete. Logger: C63_logger_any for every encoding in which the byte 0x0A is the newline and nothing else is (UTF-8, ASCII, Latin-1 and all such one-byte encodings, utf8_safe, single_safe); it cannot hold for encodings such as UTF-16, whose lines end inside a character (C19_utf16_false)."
 },
 "C69": {
  "note": "Composes Model/Launch (wiring), Model/Run (life of the run) and Model/Streams (each copy): Awaited in Spec/EndToEnd says that each background task executes the coroutine it was given. Also for loggers (UTF-8), stream writers, stream readers and the input of a terminal (Props/EndToEndSinks). Complete, except for a timeout with catch_cancelled, where it is false (C69_timeout_false). Not included: Logger and StreamWriter sinks, input from a StreamReader, input through a terminal (see C16, C17, C63)."
 },
 "C70": {
  "note": "The generator is modelled step by step (Model/Iter: attempts to read, yields, the consumer cancelled in readline or in its loop body); an iteration does what some async with block does (iterate_block). Proved: completeness at a normal end (UTF-8), prefix at any end, child collected, copies complete, audit, timeouts. False: a cancellation of the consumer while it waits for a line is swallowed and ends the loop normally (C70_cancelled_false, also for pipelines); the exit status is never looked at (C70_status_false); a timeout that goes off in the body of the loop does not reach the generator (C70_timeout_false). Not modelled: a generator closed by another task."
 },
 "C71": {
  "note": "Composes Model/PipeRun (the pipeline), Model/Run (each command: RunBy in Spec/PipeEndToEnd says that the task of a command executes the run of the command) and, for the output, C69. Proved for commands whose timer did not go off and that accept exit code 0; false otherwise (C71_timeout_false: a timeout of the last command is masked, the pipeline returns part of the output; C71_exit_codes_false). Excluded: background tasks of a command that raise ResultError (process substitutions)."
 },
 "C72": {
  "note": "Linux flag values, CPython 3.12 tty module. A size that does not fit in 16 bits raises struct.error (C72_bad_size), and then open_pty leaks both descriptors (see C42). cooked(echo=True) does not switch the echo on; it leaves it as it is."
 },
 "C73": {
  "note": "Not covered by the limit: the wait for echo to be off with no_echo (C73_echo_wait_false), up to 30 seconds. timeout=0 means no limit, not an immediate one (C73_zero_false). command applies the limit twice, once to sending and once to expecting."
 },
 "C74": {
  "note": ""
 },
 "C75": {
  "note": "Partial: C75_signal_false (a callback raising in the phase 'signal' keeps the signals from being sent, loses the exception of the body and leaves the background tasks unawaited and the child unreaped) and C75_launch_false (during a failing launch the child is left running with no signal at all). C75_child_partial covers the runs whose block has been entered; a callback called because user code calls run.send_signal raises into that code and is not modelled."
 },
 "C76": {
  "note": "Endless schedules (Spec/Live); fairness is weak: each kind of event comes again and again, in any order and with anything in between."
 },
 "C77": {
  "note": "`C77_timeout` has the condition that the return code is not known; `C77_timeout_false` shows that without it the claim is false of the code: the timer is stopped when the child exits, so a grandchild that keeps a stream open makes `await cmd` with `timeout` hang. On a BSD pty there is no such task, and `C77_timeout_bsd` needs no such condition."
 },
 "C78": {
  "note": "The condition on the launches of a block cannot be dropped: `C47_hangs_false`."
 },
 "C79": {
  "note": "Theorems C79_iter, C79_iter_cancelled, C79_pipe, C79_pipe_cancelled. The cancelled case needs a stream that has fallen silent: a stream that has a line at every attempt is never waited for."
 },
 "C80": {
  "note": "Theorems C80_launch, C80_await, C80_iter, C80_pipeline. If an object's close() raises during the clean-up, its exception replaces the reason (cf. C44)."
 },
 "C81": {
  "note": "partial: the reader watches only the terminal as long as no write fails (`C81_reader_partial`); otherwise it is false (`C81_reader_false`): the failed write closes the descriptor under the reader. `C81_given_false`: a launch that takes longer than two seconds on FreeBSD. `C81_pending_false`: buffered input keeps the parent's side open after the run."
 },
 "C82": {
  "note": "For regular expressions the theorem has the condition that the pattern does not match the untaken text after an earlier chunk (C82_regex)."
 },
 "C83": {
  "note": "Partial: false if a cancellation arrives during the cleanup (both exceptions vanish), or if a background task fails (C83_swallowed_false, C83_replaced_false, C83_pipe_swallowed_false)."
 },
 "C84": {
  "note": "partial: proved for one thread (`C84_one_party_partial`), and for any number of threads once the wrapper is installed (`C84_patched`); for children that are not on a BSD pty without conditions (`C84_others`, `C84_untouched`). With two threads that launch their first pty child at the same time it is false (`C84_one_party_false`): `_shellous_patched` is set before the wrapper is there."
 },
 "C85": {
  "note": "C85_no_deadlock: a reachable state in which nobody can do a step is one in which everything has ended; C85_ends: a bound on the number of steps that no schedule exceeds; C85_completes: every reachable state can be completed."
 },
 "C86": {
  "note": "C86_prefix (at every moment), C86_output (at the end), C86_deterministic (two runs), C86_compose (in terms of what each program yields alone)."
 },
 "C87": {
  "note": "C87_which, C87_empty, C87_direct, C87_find: what is found. C87_launch_partial: it is what runs, if no directory of the search path is empty (C87_launch_false: else not). C87_find_run: with absolute directories the answer of find_command runs; C87_find_run_partial: if the answer has a slash; C87_find_run_false: not for files of the current directory."
 },
 "C88": {
  "note": "The processes and tasks of a command line form a tree (build_tree), and in a tree nobody waits for ever: two nodes that wait for each other do so at the same pipe, which is not both empty and full. (A caller who holds several streams of one command, as in the prompt API, is not part of such a tree.)"
 },
 "C89": {
  "note": "Linux. The rules of CPython's subprocess for pass_fds, close_fds and inheritability are in Spec/Child (ChildHolds); new descriptors are not inheritable (PEP 446) and the user mentions only open descriptors (hypotheses)."
 },
 "C90": {
  "note": "Proved for every coroutine, for async generators without a try around a yield (read_lines is one) and for every async generator while the iteration goes on. False in general: an abandoned wrapper does not close the generator it wraps, and a message that cannot be formatted changes the outcome (C90_generator_false, C90_message_false)."
 },
 "C91": {
  "note": "Built on the model of C48-C51. Cancellations that lose text (C48_cancel_race_false) are excluded by hypothesis. C91_late_answer shows that 'no call failed' is needed for C91_nth."
 },
 "C92": {
  "note": "On the network of C88 (Model/Subst). Confluence (Kahn) for tree networks with bounded pipes and closing; C92_unread shows that the condition is needed. Programs are assumed to be deterministic and to communicate only through these pipes; they read one pipe at a time (no select)."
 },
 "C93": {
  "note": "Spec/Holders: between `__enter__` and `__exit__` of a command there is a separate step in which its process is created; there the other commands can prepare, fork and close. Open files have identities of their own, as descriptor numbers are used again. A child stands for itself and all its descendants. Launches that fail are not included (C41, C80 say what is closed then). `Tame`: a descriptor in the options is kept by the caller or handed over (close=True); `clean` as in C41 (C41_overridden_redirect_false)."
 },
 "C94": {
  "note": "The user's block is arbitrary and only has to end (the time limits of single calls in it: C73). For a pipeline the first and the last command have to get launched (C47_hangs_false says what happens otherwise). Fairness is in terms of Spec/Live (`Runs`, `Launches`, `Exits`, `Finishes`, `Leaves`, `Ticks`, `Yields`)."
 },
 "C95": {
  "note": "Model/SendFlow: the child as an arbitrary machine, the two pipes with capacities, the buffers of asyncio's StreamWriter (high and low water mark) and StreamReader (pause and resume), the reader task of `_drain`. `Decodable`: the decoder accepts the output of the child; C95_decodable_needed shows that without it a `send` without timeout can hang. Standard error is drained by its own task (C85). Timeouts and cancellation of send: C73."
 }
}