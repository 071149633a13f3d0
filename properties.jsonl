{"id": "C01", "title": "Command-line arguments are flattened in order", "statement": "`sh(*args)` builds a command whose argument vector is the depth-first, left-to-right list of the leaves of `args`: list/tuple/reversed/enumerate/zip containers vanish at every nesting depth, str/bytes/PathLike/Command/Pipeline leaves are passed unchanged, bytearray/memoryview become bytes, StringIO/BytesIO become their full value and every other leaf becomes its `str()`. `coerce_arg`, when set, is applied exactly once to each top-level argument and never to nested ones.", "quantifier": "every argument tree of any depth and width, every coerce_arg function", "why_tests_cant": "Argument trees are unbounded in depth and width, and coerce_arg is an arbitrary function.", "anchors": ["shellous/command.py:coerce", "shellous/command.py:CmdContext.__call__"]}
{"id": "C02", "title": "Unsupported arguments are rejected at every depth, and only those", "statement": "Building a command raises TypeError if and only if a mapping, set, generator, range, None or Ellipsis occurs anywhere in the argument tree (after coerce_arg on top-level arguments); otherwise it succeeds, except that an argument list with no leaf at all raises ValueError. No partially built command is produced.", "quantifier": "every argument tree of any depth and width, every coerce_arg function", "why_tests_cant": "The offending value can be at any depth of an unbounded tree.", "anchors": ["shellous/command.py:coerce", "shellous/command.py:Command.__post_init__"]}
{"id": "C03", "title": "Applying arguments incrementally equals applying them at once", "statement": "`cmd(*a)(*b)` and `cmd(*a, *b)` are the same command (or fail with the same error); `cmd()` is `cmd`; no call changes the options or the original command's arguments, and the program name stays first.", "quantifier": "every command, every pair of argument lists, every option setting", "why_tests_cant": "Quantifies over all argument lists and all split points.", "anchors": ["shellous/command.py:Command.__call__", "shellous/command.py:coerce"]}
{"id": "C04", "title": "Option setters are independent and last-writer-wins", "statement": "`set(...)`, `stdin`, `stdout`, `stderr` change exactly the options they name and no other option; a later setter for the same option wins; setters for different options commute. `stdin(None)`/`stdout(None)`/`stderr(None)` raise TypeError, `stdin(STDOUT)`/`stdout(STDOUT)` raise ValueError and leave nothing changed; any other target is accepted.", "quantifier": "every option record, every sequence of setter calls", "why_tests_cant": "Option records and call sequences are unbounded combinations; tests cover a few options.", "anchors": ["shellous/command.py:Options.set", "shellous/command.py:Options.set_stdin", "shellous/command.py:Options.set_stdout", "shellous/command.py:Options.set_stderr"]}
{"id": "C05", "title": "Environment seen by the child", "statement": "After any sequence of `.env(...)` and `.set(env=..., inherit_env=...)` calls, the child's value for a variable is the last one assigned by `.env`/`set(env=)` since the most recent `set(env=)`, else the parent's value if inherit_env is on, else unset. `set(env={})` clears all additions. Keys and values are converted with str().", "quantifier": "every call sequence, every parent environment, every variable name", "why_tests_cant": "Unbounded sequences of overlapping updates.", "anchors": ["shellous/command.py:Options.runtime_env", "shellous/command.py:Options.add_env", "shellous/command.py:Options.set", "shellous/util.py:EnvironmentDict", "shellous/util.py:coerce_env"]}
{"id": "C06", "title": "Equal commands hash equally", "statement": "Commands are immutable values usable as dict keys: two commands that compare equal have the same hash.", "quantifier": "every pair of commands", "why_tests_cant": "Needs all pairs of equal commands, including those built by different call orders.", "anchors": ["shellous/util.py:EnvironmentDict.__hash__", "shellous/util.py:EnvironmentDict.__eq__", "shellous/command.py:Command", "shellous/command.py:Options"]}
{"id": "C07", "title": "Pipeline composition is associative and order preserving", "statement": "Any bracketing of `c1 | c2 | ... | cn` of commands and pipelines yields the pipeline whose commands are exactly c1..cn in that order; the operands are unchanged, and no pipeline is empty.", "quantifier": "every sequence of commands and every bracketing", "why_tests_cant": "Unboundedly many expressions and bracketings.", "anchors": ["shellous/pipeline.py:Pipeline._add", "shellous/pipeline.py:Pipeline.__or__", "shellous/command.py:Command.__or__"]}
{"id": "C08", "title": "Pipeline options go to the right end", "statement": "On a pipeline, `stdin(x)` is the first command with `stdin(x)`; `stdout`, `stderr`, `.result`, `.writable` and the `options` property concern the last command; every other command is untouched and the number of commands is preserved. An invalid target raises exactly what the single command would raise.", "quantifier": "every pipeline of any length, every redirect target", "why_tests_cant": "Any pipeline length.", "anchors": ["shellous/pipeline.py:Pipeline.stdin", "shellous/pipeline.py:Pipeline.stdout", "shellous/pipeline.py:Pipeline.stderr", "shellous/pipeline.py:Pipeline._set", "shellous/pipeline.py:Pipeline.options"]}
{"id": "C09", "title": "Operator `|` and `>>` dispatch is by operand kind", "statement": "`cmd | x` and `pipe | x` redirect stdout for every documented output type, compose for commands/pipelines, and never turn a str/bytes into an output (TypeError for a command or pipeline on the left); `x | cmd` feeds stdin for every documented input type; `cmd >> x` is stdout in append mode. `cmd | x` behaves as the one-command pipeline `| x` would, on its last command.", "quantifier": "every operand kind on each side, every command and pipeline", "why_tests_cant": "Whole operand-kind table combined with arbitrary commands and pipelines.", "anchors": ["shellous/command.py:Command.__or__", "shellous/command.py:Command.__ror__", "shellous/command.py:Command.__rshift__", "shellous/pipeline.py:Pipeline.__or__", "shellous/pipeline.py:Pipeline.__ror__", "shellous/pipeline.py:Pipeline.__rshift__", "shellous/redirect.py:STDIN_TYPES", "shellous/redirect.py:STDOUT_TYPES"]}
{"id": "C10", "title": "Display names are bounded and informative", "statement": "`cmd.name` is alt_name when set; otherwise it is the program name if that has at most 31 characters, else '...' followed by exactly its last 31 characters; so it never exceeds 34 characters. A pipeline's name joins the command names with '|'.", "quantifier": "every command name of any length, every pipeline", "why_tests_cant": "Any string length.", "anchors": ["shellous/command.py:Command.name", "shellous/pipeline.py:Pipeline.name"]}
{"id": "C11", "title": "Standard input is wired to the requested source", "statement": "When a command starts, its stdin is: a pipe fed with exactly the given (encoded) bytes for bytes/bytearray/str; the opened file for a Path; the descriptor itself for an int; the parent's stdin for INHERIT; /dev/null for DEVNULL; a pipe left to the caller for CAPTURE; a pipe fed from the object for StreamReader/BytesIO/StringIO. By default it is an empty input without a pty and CAPTURE with one. BUFFER and every other object are rejected with TypeError.", "quantifier": "every stdin target kind, pty on or off, close flag on or off", "why_tests_cant": "Full cross product of kinds and option flags, with arbitrary contents.", "anchors": ["shellous/runner.py:_RunOptions._setup_input", "shellous/redirect.py:Redirect.from_default", "shellous/runner.py:Runner._setup_input_source"]}
{"id": "C12", "title": "Standard output and error are wired to the requested sink", "statement": "When a command starts, stdout/stderr go: to the Result buffer for BUFFER; to the opened file for a path; to the given descriptor or file object; to the parent's stream for INHERIT; to a stream handed to the caller for CAPTURE; into the given StringIO/BytesIO/bytearray/Logger/StreamWriter through exactly one background copy. By default both are buffered, and with a pty stderr goes where stdout goes. With stdout=DEVNULL and stderr=STDOUT the standard error is what `Result.output` holds. A sink is never read by two readers.", "quantifier": "every pair of stdout/stderr target kinds, pty on or off", "why_tests_cant": "Full cross product of sink kinds.", "anchors": ["shellous/runner.py:_RunOptions._setup_output", "shellous/runner.py:_RunOptions._setup_redirects", "shellous/runner.py:Runner._start", "shellous/runner.py:Runner._setup_output_sink"]}
{"id": "C13", "title": "Capturing both streams is refused when nobody reads them", "statement": "`async for line in cmd` and `await cmd` never run a command with both stdout and stderr captured: iteration raises RuntimeError before starting, awaiting raises ValueError before starting and closes the descriptors it was told to close; `async for` captures exactly one of the two streams, or none if the user redirected stdout.", "quantifier": "every combination of output/error redirects", "why_tests_cant": "Full cross product of redirect kinds.", "anchors": ["shellous/redirect.py:aiter_preflight", "shellous/runner.py:_is_multiple_capture", "shellous/runner.py:Runner.run_command"]}
{"id": "C14", "title": "Captured output is complete and chunk-independent", "statement": "Whatever the chunks in which the child's output arrives, the stdout buffer, a BytesIO or a bytearray sink ends with exactly the concatenation of all bytes the child wrote after the sink's starting contents, in order; interrupted at any point it holds a prefix of that.", "quantifier": "every byte stream, every split into chunks, every interruption point", "why_tests_cant": "Infinitely many splits of infinitely many streams.", "anchors": ["shellous/redirect.py:copy_bytearray", "shellous/redirect.py:copy_bytesio"]}
{"id": "C15", "title": "Buffered stderr is truncated to error_limit yet fully drained", "statement": "With error_limit = n the error buffer ends as exactly the first n bytes of the child's stderr, however it is chunked, never holds more than n bytes at any suspension point, and all of stderr is read to EOF so the child cannot block on it. With error_limit None it is the whole stream.", "quantifier": "every byte stream, every split into chunks, every limit, every suspension point", "why_tests_cant": "Boundary behaviour at every chunk/limit alignment.", "anchors": ["shellous/redirect.py:copy_bytearray_limit", "shellous/runner.py:Runner._start"]}
{"id": "C16", "title": "Input is delivered exactly once, then closed", "statement": "For bytes/str/BytesIO/StringIO/StreamReader inputs, unless the child stops reading, the bytes written to the child's stdin are exactly the input, in order, followed by closing the pipe (no bytes after close); when the child stops reading early what it received is a prefix of the input and no exception other than the documented BrokenPipeError for an already closed pipe is raised.", "quantifier": "every input, every chunking of the reader, every point at which the child stops reading", "why_tests_cant": "All chunkings and all early-close points.", "anchors": ["shellous/redirect.py:write_stream", "shellous/redirect.py:write_reader", "shellous/redirect.py:_drain"]}
{"id": "C17", "title": "Input through a terminal ends with end-of-file", "statement": "With a pty in canonical mode the program reading the terminal receives exactly the input (for input free of the EOF character and other special characters) and then end-of-file; in raw/cbreak mode no EOF character is injected.", "quantifier": "every input text, every line structure, every chunking", "why_tests_cant": "Depends on the line structure of arbitrary input (one or two EOF characters).", "anchors": ["shellous/redirect.py:write_stream", "shellous/redirect.py:write_reader", "shellous/pty_util.py:_get_eof", "shellous/runner.py:Runner._setup_input_source"]}
{"id": "C18", "title": "StringIO sinks receive the decoded text, not decoded chunks", "statement": "A StringIO sink ends with exactly the decoding of all collected bytes under the command's encoding, appended at its position, however the bytes were split (also inside a multi-byte character), and also when the copy is interrupted (then: of the bytes collected so far).", "quantifier": "every byte stream, every split, every encoding, every interruption point", "why_tests_cant": "Every split point inside every multi-byte character.", "anchors": ["shellous/redirect.py:copy_stringio", "shellous/util.py:decode_bytes"]}
{"id": "C19", "title": "Iterating lines loses nothing", "statement": "The lines produced by `async for line in cmd` concatenate to the decoding of the whole output; every line but the last ends with a newline and contains no other newline; no line is empty; the result does not depend on how the output was chunked.", "quantifier": "every byte stream, every split into chunks, every encoding", "why_tests_cant": "Every chunking of every stream; encodings where 0x0A occurs inside a character.", "anchors": ["shellous/redirect.py:read_lines", "shellous/runner.py:Runner._readlines", "shellous/command.py:Command._readlines"]}
{"id": "C20", "title": "Append and overwrite semantics for in-memory sinks", "statement": "`cmd.stdout(buf)` starts from an empty buffer, `cmd >> buf` / `append=True` keeps the old contents and writes after them, for bytearray and seekable file-like sinks whatever their current position; a non-seekable file or Logger is left alone.", "quantifier": "every initial contents and position, every output", "why_tests_cant": "All buffer states.", "anchors": ["shellous/runner.py:_set_position", "shellous/runner.py:_RunOptions._setup_output"]}
{"id": "C21", "title": "When awaiting a command raises", "statement": "Given the final state of a run: a cancelled command raises CancelledError; otherwise ResultError is raised iff the exit code is not in `exit_codes` (default: only 0), and it carries the complete result; otherwise the output (or Result) is returned.", "quantifier": "every exit code, every exit_codes container, every flag combination", "why_tests_cant": "All integers, all containers.", "anchors": ["shellous/result.py:check_result", "shellous/runner.py:Runner.result", "shellous/runner.py:Runner.run_command"]}
{"id": "C22", "title": "`.result` never raises for an exit status", "statement": "With the `.result` modifier an uncancelled command that ran to completion returns a Result for every exit status the operating system can report, and `bool(result)` is true iff it is 0.", "quantifier": "every wait status", "why_tests_cant": "All 16-bit wait statuses and signal numbers.", "anchors": ["shellous/command.py:Command.result", "shellous/result.py:check_result", "shellous/util.py:wait_pid"]}
{"id": "C23", "title": "A failing command makes the pipeline fail", "statement": "A pipeline that was not cancelled reports the exit code of the first command in pipe order that failed by itself (non-zero, not cancelled by the pipeline), and 0 only if no command failed by itself.", "quantifier": "every list of per-command results", "why_tests_cant": "Any number of commands, any mix of cancelled/failed/succeeded.", "anchors": ["shellous/result.py:_find_key_result", "shellous/result.py:_compare_result", "shellous/result.py:convert_result_list"]}
{"id": "C24", "title": "Pipeline result provenance", "statement": "A pipeline's output and encoding come from the last command, its stderr from the command whose exit code is reported; if any command raised something other than ResultError the first such exception in pipe order is what the pipeline raises; nothing else is lost or invented.", "quantifier": "every list of per-command outcomes", "why_tests_cant": "Any number of commands and any outcome mix.", "anchors": ["shellous/result.py:convert_result_list", "shellous/result.py:_get_result", "shellous/runner.py:PipeRunner.result"]}
{"id": "C25", "title": "Exit status decoding", "statement": "A child that calls exit(n), 0<=n<=255, is reported as exit code n; a child killed by signal s (with or without core dump) is reported as -s and exit_signal s; a still running child is never reported as exited; a child someone else reaped is reported as 255.", "quantifier": "every exit status, every signal, every wait outcome", "why_tests_cant": "All statuses.", "anchors": ["shellous/util.py:wait_pid", "shellous/util.py:poll_wait_pid", "shellous/result.py:Result.exit_signal"]}
{"id": "C26", "title": "The reported exit code is the child's", "statement": "`Runner.returncode` is the code the child exited with; only when the status was lost (child reaped elsewhere) after a signal was sent is it reported as killed by that signal; before launch it is None, or -1000 if the launch was cancelled.", "quantifier": "every child exit code, every history of signals sent", "why_tests_cant": "All codes and all signal histories.", "anchors": ["shellous/runner.py:Runner.returncode", "shellous/runner.py:Runner._signal"]}
{"id": "C27", "title": "After harvest returns, every awaitable is done", "statement": "When `harvest`/`harvest_results`/`harvest_wait` returns or raises, all the awaitables are done, whatever the interleaving of completions, failures, timeouts and cancellation of the caller.", "quantifier": "every number of tasks, every schedule, any number of cancellations, every suspension point", "why_tests_cant": "All interleavings of completion, timeout and cancellation.", "anchors": ["shellous/harvest.py:harvest", "shellous/harvest.py:harvest_wait", "shellous/harvest.py:_cancel_wait", "shellous/harvest.py:_cancel_waiter"]}
{"id": "C28", "title": "harvest raises a failure of one of its awaitables", "statement": "If harvest returns normally then no awaitable failed. If an awaitable failed with an exception, harvest (neither cancelled nor timed out) raises an exception that is the one of the first failed awaitable in argument order; awaitables that were cancelled never make harvest raise.", "quantifier": "every number of tasks, every schedule", "why_tests_cant": "All interleavings.", "anchors": ["shellous/harvest.py:harvest", "shellous/harvest.py:_consume_exceptions"]}
{"id": "C29", "title": "harvest times out only when it must", "statement": "harvest raises TimeoutError only if the time limit passed while some awaitable was still pending and none had failed (or an awaitable itself raised TimeoutError); without a timeout argument it never does so by itself; on a timeout it has cancelled every pending awaitable.", "quantifier": "every number of tasks, every schedule of completions and timer", "why_tests_cant": "All interleavings of completions and timer.", "anchors": ["shellous/harvest.py:harvest_wait"]}
{"id": "C30", "title": "Cancelling harvest cancels its awaitables", "statement": "If the caller is cancelled while harvest waits, every unfinished awaitable gets cancelled and harvest raises CancelledError; with cancel_finish=True none is cancelled and all are allowed to finish. A cancellation of the caller is never lost.", "quantifier": "every schedule, every cancellation point", "why_tests_cant": "All cancellation points.", "anchors": ["shellous/harvest.py:harvest_wait", "shellous/harvest.py:_cancel_wait"]}
{"id": "C31", "title": "harvest_results reports one result per awaitable in order", "statement": "harvest_results returns (cancelled, results) with results in argument order, each the value, the exception or CancelledError of its awaitable, and cancelled true iff the caller was cancelled; RuntimeError and AssertionError of an awaitable are raised, first in argument order.", "quantifier": "every number of tasks, every schedule", "why_tests_cant": "All interleavings.", "anchors": ["shellous/harvest.py:harvest_results", "shellous/harvest.py:_to_result"]}
{"id": "C32", "title": "Audit callbacks bracket every run", "statement": "For every command run the audit callback sees exactly start, then any number of signal events, then exactly one stop when the run ends, never anything after stop and never a signal before start; at any intermediate point it has seen a prefix of such a sequence.", "quantifier": "every schedule of process exit, I/O completion, cancellation, timeout, user signals; every suspension point", "why_tests_cant": "All interleavings and crash points.", "anchors": ["shellous/runner.py:Runner.__aenter__", "shellous/runner.py:Runner.__aexit__", "shellous/runner.py:Runner._audit_callback", "shellous/runner.py:Runner._signal"]}
{"id": "C33", "title": "No child process is left running", "statement": "When `await cmd` or an `async with cmd` block ends, for any reason, the child has exited and been reaped, or the run ended with RuntimeError because even SIGKILL did not end it.", "quantifier": "every schedule, every body outcome, any number of cancellations", "why_tests_cant": "All interleavings of exit, signals, timeouts and cancellations.", "anchors": ["shellous/runner.py:Runner._kill", "shellous/runner.py:Runner._kill_wait", "shellous/runner.py:Runner._wait", "shellous/runner.py:Runner._finish"]}
{"id": "C34", "title": "Signal escalation", "statement": "The library itself sends signals only on abnormal ends, and only: the configured cancel_signal (SIGKILL if None) once, then SIGKILL at most once and only if the child did not exit within cancel_timeout or the wait was disturbed; never a signal after the child was reaped; each delivered signal is announced to the audit callback first; a run that ends normally sends none.", "quantifier": "every schedule, every cancel_signal", "why_tests_cant": "All interleavings.", "anchors": ["shellous/runner.py:Runner._signal", "shellous/runner.py:Runner._kill", "shellous/runner.py:Runner._kill_wait", "shellous/runner.py:Runner.send_signal", "shellous/runner.py:Runner.cancel"]}
{"id": "C35", "title": "The timeout option", "statement": "With `timeout` set, a run that ends by TimeoutError did so because the timer fired before the run was over; if the timer fires the run does not end normally; the timer is disarmed when the run ends, so it can never cancel the caller afterwards; without `timeout` nothing of this happens.", "quantifier": "every schedule of timer, exit and cancellation", "why_tests_cant": "All races between timer and completion.", "anchors": ["shellous/runner.py:Runner._start_timer", "shellous/runner.py:Runner._set_timer_expired", "shellous/runner.py:Runner._stop_timer", "shellous/runner.py:Runner.__aexit__"]}
{"id": "C36", "title": "A cancelled command does not return normally", "statement": "If the task running `await cmd` is cancelled at any point before it completes, the await raises (CancelledError, or TimeoutError if the timeout also expired, or an error from cleaning up); it never returns output as if nothing happened.", "quantifier": "every schedule, every cancellation point, any number of cancellations", "why_tests_cant": "All cancellation points.", "anchors": ["shellous/runner.py:Runner.run_command", "shellous/runner.py:Runner.__aexit__", "shellous/result.py:check_result"]}
{"id": "C37", "title": "No background task outlives a run", "statement": "When a run that launched its process ends, every background task it started (I/O copies, waiter, process substitutions) is done.", "quantifier": "every schedule, every body outcome, any number of cancellations", "why_tests_cant": "All interleavings.", "anchors": ["shellous/runner.py:Runner.add_task", "shellous/runner.py:Runner._wait", "shellous/runner.py:Runner._kill"]}
{"id": "C38", "title": "An I/O failure ends the run and is reported", "statement": "If a background copy fails while the command runs, the process is ended and the run raises that failure (the first failed task's) instead of a result.", "quantifier": "every schedule, every failing task", "why_tests_cant": "All interleavings.", "anchors": ["shellous/runner.py:Runner._wait", "shellous/harvest.py:harvest"]}
{"id": "C39", "title": "A failed launch starts nothing", "statement": "If the program cannot be launched, `await cmd` raises the launch error, no process exists, no background task exists, the audit sequence is start, stop with the error's name, and the with-body never runs.", "quantifier": "every launch failure and cancellation point before launch", "why_tests_cant": "All failure points.", "anchors": ["shellous/runner.py:Runner.__aenter__", "shellous/runner.py:Runner._start", "shellous/runner.py:Runner._subprocess_spawn"]}
{"id": "C40", "title": "Launching is atomic under cancellation", "statement": "Cancelling the caller while the process is being spawned never abandons the spawn half way: the spawn completes, and a process that came into existence is then ended before the cancellation is reported.", "quantifier": "every cancellation point during launch, any number of cancellations", "why_tests_cant": "All cancellation points.", "anchors": ["shellous/util.py:uninterrupted", "shellous/runner.py:Runner._subprocess_spawn", "shellous/runner.py:Runner._start"]}
{"id": "C41", "title": "Descriptors handed over with close=True are closed exactly once", "statement": "Every descriptor or opened file the library takes ownership of (close=True, pass_fds_close, Path redirects, process-substitution pipe ends, pty child side) is closed exactly once by the time the launch has succeeded, and no descriptor the caller kept is closed.", "quantifier": "every option record, every argument list, every number of substitutions", "why_tests_cant": "All combinations of options and arguments.", "anchors": ["shellous/runner.py:_RunOptions.__enter__", "shellous/runner.py:_RunOptions.__exit__", "shellous/util.py:close_fds"]}
{"id": "C42", "title": "No descriptor leaks when a launch fails", "statement": "If starting the command fails at any step (pipe creation, opening a file, pty allocation, program lookup, exec), every descriptor the library opened or took ownership of has been closed.", "quantifier": "every option record, argument list and every failing step", "why_tests_cant": "All failure points crossed with all option combinations.", "anchors": ["shellous/runner.py:_RunOptions.__enter__", "shellous/runner.py:_RunOptions.__exit__", "shellous/runner.py:_cleanup"]}
{"id": "C43", "title": "Process substitution connects the right ends", "statement": "For every Command/Pipeline argument the program gets a /dev/fd path of one end of a fresh pipe that is inherited by it, and the sub-command gets the other end: its stdout for reading substitutions, its stdin for `.writable` ones; other arguments are passed unchanged at their positions.", "quantifier": "every argument list, any number and mix of substitutions", "why_tests_cant": "Any number of substitutions.", "anchors": ["shellous/runner.py:_RunOptions._setup_process_substitution", "shellous/runner.py:_is_writable"]}
{"id": "C44", "title": "close_fds closes everything it can", "statement": "close_fds attempts to close every non-negative descriptor in the collection exactly once in order even if some closes fail with OSError, skips negative ones, and leaves a list/set empty.", "quantifier": "every collection, every failure pattern", "why_tests_cant": "All failure patterns.", "anchors": ["shellous/util.py:close_fds", "shellous/pty_util.py:ChildFd.close"]}
{"id": "C45", "title": "Pipelines are wired head to tail", "statement": "Running a pipeline of n commands creates n-1 fresh pipes; command i writes to the write end of pipe i and command i+1 reads its read end, each end used by exactly one command and closed after that command launches; the first command's stdin and the last command's stdout/stderr are as configured.", "quantifier": "every pipeline of any length", "why_tests_cant": "Any number of commands.", "anchors": ["shellous/runner.py:PipeRunner._setup_pipeline"]}
{"id": "C46", "title": "A pipeline run ends only when all its commands ended", "statement": "When `await pipeline` or a pipeline `async with` block ends, every command of the pipeline has finished; if one command raised an error the others were cancelled; if the block was cancelled all were cancelled.", "quantifier": "every pipeline length, every schedule, any number of cancellations", "why_tests_cant": "All interleavings.", "anchors": ["shellous/runner.py:PipeRunner._wait", "shellous/runner.py:PipeRunner._finish", "shellous/runner.py:PipeRunner.__aenter__", "shellous/runner.py:PipeRunner.run_pipeline"]}
{"id": "C47", "title": "Entering a pipeline context terminates when a command cannot start", "statement": "`async with pipeline` (and `async for`, `.prompt()`) raises the launch error when one of its commands cannot be launched, without needing outside cancellation.", "quantifier": "every pipeline, every schedule without outside cancellation", "why_tests_cant": "Liveness over all schedules.", "anchors": ["shellous/runner.py:PipeRunner._setup_capturing", "shellous/runner.py:PipeRunner.__aenter__"]}
{"id": "C48", "title": "The prompt API neither loses, duplicates nor reorders characters", "statement": "At every moment, the text returned by expect/read_all/read_pending/command so far, with each matched prompt put back in its place, followed by `pending`, equals the decoding of the bytes read from the co-process so far, whatever operations were called, however they ended (match, EOF, timeout, cancellation) and however the bytes were chunked.", "quantifier": "every operation sequence, every chunking, every timeout/cancellation point", "why_tests_cant": "Unbounded operation histories and chunkings.", "anchors": ["shellous/prompt.py:Prompt.expect", "shellous/prompt.py:Prompt._read_to_pattern", "shellous/prompt.py:Prompt._search_pending", "shellous/prompt.py:Prompt._read_some", "shellous/prompt.py:Prompt.read_pending"]}
{"id": "C49", "title": "expect(str) finds the first occurrence, however the output is chunked", "statement": "`expect(s)` returns the text before the first occurrence of s in the (pending plus incoming) text and consumes exactly through that occurrence; it raises EOFError iff s does not occur; neither depends on how the bytes were chunked.", "quantifier": "every prompt string, every text, every chunking (including inside the prompt or a character)", "why_tests_cant": "Every chunking of every text.", "anchors": ["shellous/prompt.py:Prompt._read_to_pattern", "shellous/prompt.py:_regex_compile_exact"]}
{"id": "C50", "title": "expect(list) returns the earliest listed string", "statement": "`expect([s1, ..., sn])` returns the text before the leftmost position where one of the strings occurs, preferring the earlier listed string on ties, and does not depend on chunking.", "quantifier": "every list of prompts, every text, every chunking", "why_tests_cant": "Every chunking of every text.", "anchors": ["shellous/prompt.py:_regex_compile_exact", "shellous/prompt.py:Prompt._search_pending"]}
{"id": "C51", "title": "Failed expects keep the text", "statement": "If expect or read_all ends by timeout, EOF or cancellation, everything received is still in `pending`, later operations see it, and once EOF was seen every later expect that does not match raises EOFError without waiting.", "quantifier": "every history and schedule", "why_tests_cant": "All interruption points.", "anchors": ["shellous/prompt.py:Prompt.expect", "shellous/prompt.py:Prompt.read_all", "shellous/prompt.py:Prompt.at_eof"]}
{"id": "C52", "title": "Newline normalisation is chunk-independent", "statement": "With normalize_newlines the text seen is the decoded text with CR LF and lone CR each replaced by one LF, whatever the chunking (also between CR and LF).", "quantifier": "every text, every chunking", "why_tests_cant": "Every chunking, including splits inside CR LF.", "anchors": ["shellous/prompt.py:_make_decoder"]}
{"id": "C53", "title": "Incremental decoding equals whole decoding", "statement": "For the UTF-8 encoding with errors strict/replace/ignore, the text the prompt API sees equals decoding the whole byte stream at once, however it is chunked (in strict mode: fails iff the whole decoding fails).", "quantifier": "every byte stream, every chunking", "why_tests_cant": "Every chunking, including splits inside multi-byte or invalid sequences.", "anchors": ["shellous/prompt.py:_make_decoder", "shellous/prompt.py:Prompt._read_to_pattern"]}
{"id": "C54", "title": "send writes exactly the requested bytes", "statement": "`send(text, end=e)` writes exactly encode(text) followed by encode(e) once (nothing for end=None; raw bytes unchanged), before anything else is sent, and a failure to deliver it is reported to the caller.", "quantifier": "every text, end, encoding, and outcome of draining", "why_tests_cant": "All texts and all drain outcomes.", "anchors": ["shellous/prompt.py:Prompt.send", "shellous/prompt.py:Prompt._drain"]}
{"id": "C55", "title": "Secrets sent with no_echo are not logged or echoed", "statement": "With no_echo=True, nothing is written until terminal echo is off (else RuntimeError and nothing is written), and the log output is the same for all texts.", "quantifier": "every pair of secrets, every terminal state history", "why_tests_cant": "Noninterference over all pairs of secrets.", "anchors": ["shellous/prompt.py:Prompt.send", "shellous/prompt.py:Prompt._wait_no_echo", "shellous/prompt.py:Prompt._log_send"]}
{"id": "C56", "title": "Prompt result only after exit", "statement": "`cli.result` raises RuntimeError inside the block and after the block is the command's Result (unchecked), for every way of leaving the block.", "quantifier": "every block outcome and schedule", "why_tests_cant": "All block outcomes.", "anchors": ["shellous/prompt.py:Prompt.result", "shellous/prompt.py:Prompt._finish_", "shellous/command.py:Command.prompt"]}
{"id": "C57", "title": "Commands are re-entrant async context managers", "statement": "The same command object may be entered several times, nested and from several tasks concurrently: each exit closes the run opened by the matching enter of the same task, never another's, and when all are closed no bookkeeping remains.", "quantifier": "every interleaving of enters and exits of any number of tasks and commands", "why_tests_cant": "All interleavings.", "anchors": ["shellous/util.py:context_aenter", "shellous/util.py:context_aexit"]}
{"id": "C58", "title": "Each watched child is reported exactly once with its status", "statement": "With the default (pidfd/epoll) child watcher the callback for a watched child is called at most once, only after the child exited, and with its decoded exit status; when the watcher keeps running it is called for every watched child that exits.", "quantifier": "every interleaving of watch, exit and watcher-thread steps, any number of children", "why_tests_cant": "All thread interleavings.", "anchors": ["shellous/watcher.py:EPollStrategy", "shellous/watcher.py:_invoke_callback"]}
{"id": "C59", "title": "Only one watcher strategy is ever created", "statement": "Concurrent uses of the child watcher from several threads create exactly one strategy (one thread, one epoll) as long as the watcher is not closed, and every child is watched by it; with close() in between there is never more than one strategy that is not being closed, every strategy that was replaced is closed exactly once, and no call waits forever or fails except for an error of the strategy's constructor or a close() at the same time.", "quantifier": "every interleaving of any number of threads calling add_child_handler and close, every failure of the constructor", "why_tests_cant": "All thread interleavings.", "anchors": ["shellous/watcher.py:DefaultChildWatcher.add_child_handler", "shellous/watcher.py:DefaultChildWatcher._init_strategy", "shellous/watcher.py:DefaultChildWatcher.close"]}
{"id": "C60", "title": "Terminal echo switch", "statement": "Setting `cli.echo` to v makes `cli.echo` read v and changes no other terminal attribute; setting the current value is a no-op.", "quantifier": "every terminal attribute state", "why_tests_cant": "All attribute words.", "anchors": ["shellous/pty_util.py:set_term_echo", "shellous/pty_util.py:get_term_echo"]}
{"id": "C61", "title": "exit_signal tells how the child died", "statement": "`result.exit_signal` is None when the child exited by itself, whatever its exit code, and is the signal that killed it otherwise.", "quantifier": "every exit code and every signal number", "why_tests_cant": "All statuses, including realtime signals.", "anchors": ["shellous/result.py:Result.exit_signal", "shellous/util.py:decode_status"]}
{"id": "C62", "title": "The exit codes a pipeline accepts", "statement": "A pipeline succeeds exactly when each command's exit code is one that this command's own `exit_codes` option accepts.", "quantifier": "every pipeline, every assignment of exit_codes and of endings to its commands", "why_tests_cant": "All combinations of options and endings.", "anchors": ["shellous/runner.py:PipeRunner.result", "shellous/result.py:convert_result_list", "shellous/result.py:check_result"]}
{"id": "C63", "title": "Logger and StreamWriter sinks", "statement": "Output redirected to a logger gives exactly one message per line, in order, without trailing whitespace; output redirected to a StreamWriter arrives there byte for byte, and the writer is closed when all the output was passed on, not before.", "quantifier": "every byte sequence, chunking and interruption point", "why_tests_cant": "All inputs, chunkings and interruption points.", "anchors": ["shellous/redirect.py:copy_logger", "shellous/redirect.py:copy_streamwriter", "shellous/runner.py:Runner._setup_output_sink"]}
{"id": "C64", "title": "The child watcher's descriptors", "statement": "The child watcher never closes a descriptor it has not opened, even while other threads open and close descriptors and numbers are used again; once a child was reported its pidfd is closed; once the watcher was closed no pidfd of a completed watch and no pipe is left open; close() writes only to the watcher's own pipe.", "quantifier": "every interleaving of watch calls, the watcher thread, close and foreign open/close calls, any number of children", "why_tests_cant": "Descriptor reuse across threads depends on the schedule.", "anchors": ["shellous/watcher.py:EPollStrategy._run", "shellous/watcher.py:EPollStrategy.close", "shellous/watcher.py:EPollStrategy.watch_pid", "shellous/watcher.py:EPollStrategy._serve"]}
{"id": "C65", "title": "A child that cannot be watched is killed", "statement": "When watching a child fails, that child is sent SIGKILL before the failure is reported, and no other process is; a child whose watch succeeded is never killed by the watcher.", "quantifier": "every interleaving, failure point of a watch call and reuse of pids", "why_tests_cant": "Depends on failures of system calls and on pid reuse.", "anchors": ["shellous/watcher.py:EPollStrategy.watch_pid", "shellous/watcher.py:_poll_dead_pid"]}
{"id": "C66", "title": "A thread for every child", "statement": "With the thread strategy every watched child that exits is reported exactly once, after it has exited, with its own exit status, however process ids are used again; and a child can be watched whenever no other live child has its process id.", "quantifier": "every interleaving of watch calls, their threads, exits and reuse of process ids; any number of children", "why_tests_cant": "Depends on the schedule and on reuse of process ids.", "anchors": ["shellous/watcher.py:ThreadStrategy.watch_pid", "shellous/watcher.py:ThreadStrategy._reap_pid", "shellous/util.py:wait_pid"]}
{"id": "C67", "title": "Closing the child watcher ends it", "statement": "Once the child watcher's close() was called its thread ends, so close() returns; running children, exits, further watch calls, other close() calls and reuse of process ids and descriptors do not keep it alive.", "quantifier": "every fair interleaving", "why_tests_cant": "A liveness property over all schedules.", "anchors": ["shellous/watcher.py:EPollStrategy.close", "shellous/watcher.py:EPollStrategy._run"]}
{"id": "C68", "title": "The kqueue watcher reports every child", "statement": "With the kqueue strategy the callback for a watched child is called at most once, after the child has exited, with its own exit status, and the child is reaped; every child can be watched, also one that is already dying, however process ids are used again; no exit is lost: every watched child that exits is reported, unless it could not be reaped in the time it is given, which is logged; and close() ends the thread.", "quantifier": "every interleaving of watch calls, their tasks, the thread, dying and exiting children, close and reuse of process ids; any number of children; for 'eventually': every fair one", "why_tests_cant": "Depends on the schedule, on when a child becomes reapable, and on reuse of process ids.", "anchors": ["shellous/watcher.py:KQueueStrategy.watch_pid", "shellous/watcher.py:KQueueStrategy._kevent_failed", "shellous/watcher.py:KQueueStrategy._run", "shellous/watcher.py:KQueueStrategy._reap_pid", "shellous/watcher.py:KQueueStrategy.close", "shellous/watcher.py:_poll_dead_pid"]}
{"id": "C69", "title": "An awaited output is complete", "statement": "When `await cmd` returns normally, the child's output has ended, and the value returned contains everything the child wrote (standard error up to error_limit bytes), nothing more, in order; the same holds for what is found afterwards in a BytesIO, StringIO or bytearray to which it was redirected; all the input was written and closed; and no background copy failed or was cut short.", "quantifier": "every command and redirection, every amount and chunking of data, every schedule of child, copies and cleanup, with timeouts and cancellations at any point", "why_tests_cant": "A copy that is cut short only in some schedules loses output silently.", "anchors": ["shellous/runner.py:Runner.run_command", "shellous/runner.py:Runner._start", "shellous/runner.py:Runner._finish", "shellous/runner.py:Runner._wait", "shellous/runner.py:Runner.result", "shellous/redirect.py:copy_bytearray", "shellous/redirect.py:write_stream"]}
{"id": "C70", "title": "A loop over the lines of a command gets all of them", "statement": "When `async for line in cmd` (or over a pipeline) ends normally, the lines handed to the loop are the whole output of the command: its decoding, cut after each newline, in order, none lost, split or repeated, and by then the child has exited and been collected and every background copy has ended. However the loop ends, the lines are the first lines of the output and no child is left running. A timeout is reported, not taken for the end of the output.", "quantifier": "every command or pipeline, every output and chunking, every schedule of child, copies, consumer and cleanup, with cancellations, timeouts and exceptions at any point", "why_tests_cant": "A loop that ends early only in some schedules loses output silently.", "anchors": ["shellous/command.py:Command.__aiter__", "shellous/command.py:Command._readlines", "shellous/pipeline.py:Pipeline._readlines", "shellous/runner.py:Runner._readlines", "shellous/runner.py:PipeRunner._readlines", "shellous/runner.py:Runner.__aexit__", "shellous/redirect.py:read_lines"]}
{"id": "C71", "title": "A pipeline that returns has done all its work", "statement": "When `await (a | ... | z)` returns normally (exit_codes as by default), every command has returned normally with exit code 0 and was not cancelled, neither was the caller, the library has asked no command to cancel, the standard output of z has ended, and the value is everything z wrote to it.", "quantifier": "every pipeline of any length, every run of each command, every order of events in the commands and in the pipeline, with cancellations, timeouts and failures at any point", "why_tests_cant": "A pipeline that reports success in one of many schedules although a command failed or its output was cut loses data silently.", "anchors": ["shellous/runner.py:PipeRunner._setup_pipeline", "shellous/runner.py:PipeRunner.run_pipeline", "shellous/runner.py:PipeRunner._finish", "shellous/runner.py:Runner.run_command", "shellous/result.py:convert_result_list", "shellous/result.py:check_result", "shellous/util.py:harvest_results"]}
{"id": "C72", "title": "Terminals are in the requested mode and their output ends properly", "statement": "A command run on a pty prepared with raw(), cbreak() or cooked() has a terminal in exactly that mode and, if asked for, of exactly that size, whatever its mode was before: raw and cbreak switch off line editing and echo (raw also signals and output processing) and no EOF character is ever sent; cooked keeps line editing with ^D, so the program gets its input and then end of file, and switches echo off only if asked. The EIO with which a terminal ends after its program is gone is taken for the end of the output: all the data that arrived before it is kept.", "quantifier": "every prior state of the terminal, every size, every input, every division of the output and order of events", "why_tests_cant": "Tests use the few terminal states of one system and cannot vary all flag words or all orders of data and hang-up.", "anchors": ["shellous/pty_util.py:raw", "shellous/pty_util.py:cbreak", "shellous/pty_util.py:cooked", "shellous/pty_util.py:_set_term_size", "shellous/pty_util.py:_get_eof", "shellous/pty_util.py:set_term_echo", "shellous/pty_util.py:PtyStreamReaderProtocol"]}
{"id": "C73", "title": "Time limits of the prompt API", "statement": "A call of send, expect, read_all or command with a positive timeout (or on a prompt with a default timeout) that is still waiting when its timer expires raises TimeoutError, and nothing is lost: the text received so far stays pending, what was written stays written, and the next call carries on. A call without a limit is never ended by a timer.", "quantifier": "every operation and argument, every session before it, every order of arriving data, drains, errors, cancellations and expirations", "why_tests_cant": "Tests with timeouts try a few instants; the expiration can fall between any two events.", "anchors": ["shellous/prompt.py:Prompt.send", "shellous/prompt.py:Prompt.expect", "shellous/prompt.py:Prompt.read_all", "shellous/prompt.py:Prompt.command"]}
{"id": "C74", "title": "Tracing a prompt session changes nothing", "statement": "With SHELLOUS_TRACE=prompt every call of a session returns or raises exactly what it would have without, and the pending text, the bytes written and the end-of-file state are the same; without it nothing is logged.", "quantifier": "every session and schedule", "why_tests_cant": "Tests run with one setting; equality of all outcomes needs every session run both ways.", "anchors": ["shellous/prompt.py:Prompt", "shellous/log.py:LOG_PROMPT"]}
{"id": "C75", "title": "An audit callback that raises", "statement": "An audit_callback that does not raise does not change what a run does. If it raises in the phase 'start', nothing is launched and the statement raises that exception at once. If it raises only in the phase 'stop', the run does exactly what it would do without it - the same signals, cleanups and waits - and the statement then raises. Whatever it raises and whenever, once the block has been entered and has ended the child has exited or been sent SIGKILL.", "quantifier": "every callback (any function of the history of the run), every command configuration, every schedule of events, both ways to run a command", "why_tests_cant": "the callback is arbitrary user code that is called in the middle of launch, kill and close paths; whether its exception leaks a child depends on the exact interleaving of exits, cancellations and timeouts with those calls", "anchors": ["shellous/runner.py:Runner._audit_callback", "shellous/runner.py:Runner._signal", "shellous/runner.py:Runner._kill", "shellous/runner.py:Runner.__aenter__", "shellous/runner.py:Runner.__aexit__"]}
{"id": "C76", "title": "Runs come to an end", "statement": "`await cmd` returns or raises, and `async with cmd` is left, on every schedule on which the launch makes progress, the child exits some time and its exit is reported, every stream that is copied comes to its end and (for `async with`) the user's block ends. Cancellations, timeouts, signals and failing tasks, in any number and order, do not make the library wait for ever, and no time limit is needed for this.", "quantifier": "all configurations of a run, all endless schedules of events (event loop, operating system, tasks, user, timers) that are fair in the sense stated", "why_tests_cant": "It is a liveness property: a test can only see that a few schedules end, and a hang needs the particular interleaving of cancellation, exit and clean-up that makes a wait depend on something that never comes.", "anchors": ["shellous/runner.py:Runner.__aenter__", "shellous/runner.py:Runner.__aexit__", "shellous/runner.py:Runner._kill", "shellous/runner.py:Runner._kill_wait", "shellous/runner.py:Runner._close", "shellous/runner.py:Runner._wait", "shellous/runner.py:Runner.run_command", "shellous/harvest.py:harvest", "shellous/util.py:uninterrupted"]}
{"id": "C77", "title": "A cancelled run ends whatever the child does", "statement": "When `await cmd` is cancelled, or the block of `async with cmd` is left by an exception, and `cancel_timeout` is not None, the statement ends even if the child ignores all signals and never exits, and even if its streams never come to an end. The same holds when the `timeout` option expires, unless the child has exited by then.", "quantifier": "all configurations with a `cancel_timeout`, all endless schedules on which the event loop runs, the launch makes progress and timers go off", "why_tests_cant": "It is a liveness property over all behaviours of the child and all moments at which the cancellation arrives.", "anchors": ["shellous/runner.py:Runner._kill", "shellous/runner.py:Runner._kill_wait", "shellous/runner.py:Runner._close", "shellous/runner.py:Runner._waiter", "shellous/runner.py:Runner._set_timer", "shellous/harvest.py:harvest"]}
{"id": "C78", "title": "Pipelines come to an end", "statement": "`await pipeline` ends on every schedule on which the run of every command ends some time; when it is cancelled, or when one command has failed, it ends even if the other commands never do. `async with pipeline` ends if the first and the last command get launched, every run ends and the block ends; when it is cancelled (while the commands are being launched or in the block) it ends if the commands end when asked to.", "quantifier": "all pipelines, all endless schedules that are fair in the sense stated, every moment of a cancellation or failure", "why_tests_cant": "It is a liveness property: a hang needs a particular order of launches, failures and cancellations of several commands.", "anchors": ["shellous/runner.py:PipeRunner.__aenter__", "shellous/runner.py:PipeRunner.__aexit__", "shellous/runner.py:PipeRunner._wait", "shellous/runner.py:PipeRunner._setup_capturing", "shellous/runner.py:PipeRunner.run_pipeline", "shellous/harvest.py:harvest_results"]}
{"id": "C79", "title": "Loops over lines come to an end", "statement": "`async for line in cmd` and `async for line in pipeline` end, on every schedule on which the launch makes progress, the stream comes to its end (or fails), the child exits and the tasks end, however many lines there are and however they arrive. A loop that waits for a line and is cancelled once ends, even if the child never exits and the stream never ends.", "quantifier": "all endless schedules of events (cancellations, timeouts, signals, failures), all sequences of arrivals on the stream, all decoders, all options", "why_tests_cant": "termination on every endless schedule and every chopping of the stream is a liveness property; a test sees one finite schedule", "anchors": ["shellous/command.py:Command._readlines", "shellous/pipeline.py:Pipeline._readlines", "shellous/runner.py:Runner._readlines", "shellous/redirect.py:read_lines"]}
{"id": "C80", "title": "A failed launch tells its reason", "statement": "When the operating system refuses something a launch needs (opening a redirection target, making a pipe or a terminal, looking up the program, starting it), `await cmd`, `async with cmd`, `async for line in cmd` and pipelines raise exactly the exception of the first refusal and try nothing further; any other exception raised means that the command itself is at fault (a redirection that makes no sense, an input that cannot be encoded). This holds as long as closing the user's objects raises nothing.", "quantifier": "all commands and pipelines, all starting states, all operating systems (which call is refused, with which exception)", "why_tests_cant": "every call of every launch may be refused with any exception; the clean-up that runs in between must not replace it", "anchors": ["shellous/runner.py:_RunOptions.__enter__", "shellous/runner.py:_RunOptions.__exit__", "shellous/runner.py:Runner._start", "shellous/runner.py:PipeRunner._start", "shellous/runner.py:Runner.run_command"]}
{"id": "C81", "title": "The descriptors of a terminal are closed once, and nobody else's", "statement": "A run with pty=... never closes a descriptor that is not its own, and closes each of the two descriptors of its terminal at most once, whatever the order of first output, hangup, the two-second timer (FreeBSD), closes of stdin by the user and the end of the run, and whatever numbers the rest of the process opens meanwhile. When the run has ended and its buffered input has been written (or could not be), neither is left open. The child is given the terminal opened for it; on Linux the process keeps no descriptor of the child's side once the child is launched, on BSD none after its first output. As long as no write fails, the reader watches only the terminal.", "quantifier": "all platforms (Linux, macOS, FreeBSD), all descriptor tables and numbers, all finite sequences of events", "why_tests_cant": "A double close is only harmful when another part of the process has opened the number in between, and the order of timer, data and close depends on the schedule.", "anchors": ["shellous/pty_util.py: ChildFd, PtyFds.close, PtyStreamReaderProtocol, _open_pty_streams", "shellous/runner.py: _RunOptions._setup_pty, Runner._subprocess_spawn, Runner._close", "shellous/util.py: close_fds"]}
{"id": "C82", "title": "expect answers with the chunk that completes the prompt", "statement": "`prompt.expect(p)` for a string or a list of strings returns as soon as the received text that no earlier call has taken contains p: at once when it is already pending, otherwise with the very chunk of output that completes it, wherever the chunks are cut (inside the prompt, inside a character, between CR and LF), and no further byte is read, so an interactive co-process that waits for an answer is never waited for. The text after the prompt stays pending. While the prompt has not appeared it does not answer; with a timeout it raises TimeoutError when the timer fires, otherwise it goes on waiting. `read_all` answers at the end of the output and not before, with all the untaken text.", "quantifier": "all sessions of earlier calls, codecs with error handlers and newline modes, prompts, ways to cut the output into chunks, and events that follow", "why_tests_cant": "a test uses a few outputs and a few cuts; the claim is about every cut of every output after every session, and about not reading one chunk more", "anchors": ["shellous/prompt.py: Prompt.expect, Prompt._read_to_pattern, Prompt._search_pending, Prompt.read_all, Prompt._read_some"]}
{"id": "C83", "title": "An exception of the body comes out of `async with`", "statement": "If the body of `async with cmd as run` or `async with pipeline as run` raises an exception other than CancelledError, the block raises it after the child (or every command) has been stopped; a block never ends normally when its body has raised. For a single command a failure of a background task of the run (copying input or output, closing standard input) takes precedence, for a pipeline the exceptions of the commands do not. A CancelledError of the body is suppressed by the block (it is reported when the result is asked for), unless the timer of the option `timeout` has fired (TimeoutError).", "quantifier": "all commands and pipelines, options, exceptions, and schedules of the child, the background tasks, timers and cancellations", "why_tests_cant": "the claim is about every interleaving of the cleanup with the end of the child, of the background tasks and with cancellations", "anchors": ["shellous/runner.py: Runner.__aexit__, Runner._finish, Runner._kill, Runner._close, PipeRunner.__aexit__, PipeRunner._finish, PipeRunner._wait"]}
{"id": "C84", "title": "Exactly one party waits for each child", "statement": "Every child process is waited for by exactly one party: a command on a pseudo-terminal on BSD or macOS by its own runner, which polls it, and every other child, whether launched by shellous or directly by asyncio, by asyncio's child watcher, which is told of it once. So no exit status is lost because two parties call waitpid for the same child, and none because nobody does. Where there is no BSD pty, shellous does not touch the child watcher.", "quantifier": "all histories of any number of launches, by shellous with or without a pty and by asyncio itself, by any tasks in any order of their steps, with launches that fail", "why_tests_cant": "The context variable and the patched watcher are shared by all launches of the process; tests launch a few children in one order, on one platform, in one thread.", "anchors": ["shellous/pty_util.py:set_ignore_child_watcher", "shellous/pty_util.py:_patch_child_watcher", "shellous/runner.py:Runner._subprocess_exec", "shellous/runner.py:Runner._is_bsd_pty"]}
{"id": "C85", "title": "Data cannot deadlock a command or a pipeline", "statement": "However much the caller's input, the programs' outputs and their standard errors amount to, and however small the pipes between them are, a command or pipeline with buffered output cannot get stuck: as long as it has not ended, some process or some of the library's tasks can go on. In particular a full standard error (also beyond error_limit), a program that does not read its input, and a program that ends early never block the others. If the last program comes to its end on its input, and each program before it comes to its end or keeps writing (like `yes`), then every run ends after a bounded number of steps, whatever the schedule.", "quantifier": "all programs (deterministic byte machines), all pipeline lengths, all inputs, all pipe capacities, all error limits, all interleavings of processes and tasks", "why_tests_cant": "A test uses a few programs and one pipe size, and deadlocks depend on amounts of data, capacities and schedules; the absence of a stuck state is a statement about all of them.", "anchors": ["shellous/redirect.py: write_stream, _drain, copy_bytearray, copy_bytearray_limit", "shellous/runner.py: PipeRunner._setup_pipeline, Runner._setup_input_source, Runner._setup_output_sink"]}
{"id": "C86", "title": "A pipeline computes the composition of its programs", "statement": "What the caller reads from a pipeline is, at every moment, a beginning of what the programs compute, each applied to the complete output of the one before it, and when the pipeline has ended it is all of it: no byte is lost, doubled, reordered or invented, whatever the schedule and the capacities of the pipes. The output, the exit status of the last command and its (limited) standard error are therefore determined by the programs and the input. Every command that is not ended by SIGPIPE has the exit status and the first error_limit bytes of the standard error that it has alone.", "quantifier": "all programs (deterministic byte machines), all pipeline lengths, all inputs, all pipe capacities, all error limits, all interleavings of processes and tasks", "why_tests_cant": "A test sees one schedule and one set of pipe sizes; that the result does not depend on them is a statement about all pairs of runs.", "anchors": ["shellous/redirect.py: write_stream, _drain, copy_bytearray, copy_bytearray_limit", "shellous/runner.py: PipeRunner._setup_pipeline, PipeRunner.result"]}
{"id": "C87", "title": "The program that runs is the one that is found", "statement": "A command name without a slash is looked for in the directories of the search path in their order (the `path` option, else the parent's PATH, else the default), and the first file there that can be executed is the one that runs, whatever environment the child is given; if there is none, FileNotFoundError is raised and nothing is started. A name with a slash is run as it is. `find_command` answers a path of the same file, and a command made of its answer runs that file.", "quantifier": "all names, all search paths (with repeated, empty, relative directories), all environments of the child, all file systems", "why_tests_cant": "A test uses a few directories; the order, the repeated and empty entries and the independence of the child's environment are statements about all search paths.", "anchors": ["shellous/command.py: Options.which, CmdContext.find_command", "shellous/runner.py: _RunOptions.__enter__"]}
{"id": "C88", "title": "Process substitution cannot deadlock", "statement": "A command line may contain commands and pipelines as arguments (process substitution), nested to any depth, readable or writable, in any command of a pipeline. Whatever these programs do (in whatever order they read and write their pipes, whether they close them or exit early), however small the pipes are, and whatever the schedule: as long as not all processes and all of the library's feeding and reading tasks have ended, some of them can go on.", "quantifier": "all command lines (trees of commands, pipelines and substitutions), all programs, all pipe capacities, all states", "why_tests_cant": "Deadlocks depend on the topology, the amounts of data and the schedule; a test has one of each. The claim is about all trees and all programs.", "anchors": ["shellous/runner.py: _RunOptions._setup_process_substitution, PipeRunner._setup_pipeline, Runner._setup_input_source, Runner._setup_output_sink, Runner._subprocess_spawn"]}
{"id": "C89", "title": "A child process gets what the options say and holds nobody else's descriptors", "statement": "The environment, session and pre-exec function of a launched process are those configured (with a pty it always runs in its own session and its terminal becomes the controlling one). Beside its standard streams the process holds exactly its own ends of the pipes of its process substitutions and the `_pass_fds` of its options; never the other ends of these pipes, the parent side of a terminal, or a descriptor that belongs to another command, however many commands, pipelines and process substitutions are launched concurrently, unless the user switched `close_fds` off and the descriptor is inheritable. Hence each end of each pipe is in exactly one process, and end of file is seen when the writer exits.", "quantifier": "every command (arguments, options, nested process substitutions), every table of open descriptors, every set of inheritable descriptors, every interleaving of any number of launches", "why_tests_cant": "A leaked pipe end only shows as a hang in a particular interleaving of several launches with particular options; tests check a few commands one at a time.", "anchors": ["shellous/runner.py:_RunOptions._setup_process_substitution", "shellous/runner.py:_RunOptions._setup_redirects", "shellous/runner.py:_RunOptions._setup_pass_fds", "shellous/runner.py:_RunOptions._setup_pty1", "shellous/runner.py:Runner._subprocess_exec"]}
{"id": "C90", "title": "Tracing changes nothing but the log", "statement": "Switching tracing on (`SHELLOUS_TRACE`) changes nothing but the log: each traced coroutine does the same actions, waits, returns and raises the same at every resumption, whatever is sent or thrown into it (cancellation included), and so does the async line iterator, also if the iteration is abandoned. The log has one line when a traced function starts and one when it ends, with the exception it raised.", "quantifier": "every coroutine and async generator body, every sequence of resumptions (values, exceptions, cancellation, abandonment)", "why_tests_cant": "Transparency must hold for every body and every sequence of resumptions; the test suite runs a few programs with tracing on.", "anchors": ["shellous/log.py:log_method", "shellous/redirect.py:read_lines"]}
{"id": "C91", "title": "Each command of a dialogue gets its answer", "statement": "In a prompt session with an interactive program that writes a greeting and answers, each followed by its prompt, the calls of `expect(prompt)` and `command(line)` that succeed return the greeting and the answers in order, none twice and none left out, whatever the chunks in which they arrive, whether they arrive while a line is being sent or after, and whichever calls in between time out or fail without losing text. As long as no call fails, the n-th command returns the n-th answer. A command whose line was sent waits only as long as the prompt has not been received. (If a call timed out, the late answer goes to the next command.)", "quantifier": "every list of answers in which the prompt is not ambiguous, every session of expect/command/send/close calls, every chunking, every schedule of reads, drains, timeouts, cancellations and errors", "why_tests_cant": "An answer given to the wrong command depends on chunk boundaries and on whether output is read during the drain; tests see a few timings.", "anchors": ["shellous/prompt.py:Prompt.command", "shellous/prompt.py:Prompt.expect", "shellous/prompt.py:Prompt.send", "shellous/prompt.py:Prompt._drain"]}
{"id": "C92", "title": "A command line with process substitution computes one result", "statement": "When a command or pipeline with process substitutions (nested in any way) can be run in one order to the end such that no process is killed by SIGPIPE and everything that is written is read, then in every order of steps and with pipes of any capacity no process is killed, the run ends after at most as many steps, and every process and every task of the library reads, writes and finishes with the same data: the result does not depend on scheduling or on the size of the pipe buffers. If each program reads its inputs to the end, every complete run is of this kind. (If a process leaves data unread, how far its writer gets does depend on timing.)", "quantifier": "every tree of commands, pipelines and substitutions in both directions, all deterministic programs, all capacities, all schedules", "why_tests_cant": "The orders in which processes connected by pipes can run are too many to test, and tests only use one pipe capacity.", "anchors": ["shellous/runner.py:_RunOptions._setup_process_substitution", "shellous/runner.py:PipeRunner._setup_pipeline", "shellous/runner.py:Runner._setup_output_sink", "shellous/runner.py:Runner._setup_input_source"]}
{"id": "C93", "title": "Each end of each pipe ends up in exactly one process", "statement": "For commands and pipelines with nested process substitutions that are launched at the same time, in any interleaving: an open file that is not one of those the caller keeps is given to one child process at most, and when the launch of that child is over, the calling process has closed it. When all is launched, each end of each pipe that the library made has been given to exactly one child, and no other child and not the calling process has it, and no child has both ends; so when that child closes the write end or exits, the reader gets end of file.", "quantifier": "every list of commands and pipelines (all arguments, options, nestings), all interleavings of their launches, all descriptor numbers chosen by the system (also used again after being closed), all times at which children close descriptors or exit", "why_tests_cant": "A descriptor that leaks into another child only shows as a hang, when launches interleave in a special way (after fork and before close), and tests run few interleavings.", "anchors": ["shellous/runner.py:_RunOptions.__exit__", "shellous/runner.py:_RunOptions._setup_process_substitution", "shellous/runner.py:_RunOptions._setup_pass_fds", "shellous/runner.py:PipeRunner._setup_pipeline", "shellous/runner.py:Runner._start"]}
{"id": "C94", "title": "Prompt sessions come to an end", "statement": "`async with cmd.prompt() as cli` and `async with pipeline.prompt() as cli` do not hang: if the block ends, the child exits and its streams come to their ends, the statement ends, whatever cancellations, timeouts, signals and failures happen meanwhile. If the block is left by an exception (such as the timeout of `expect`) or cancelled, the statement ends even if the child never exits by itself and never closes its streams, as long as cancel_timeout is set.", "quantifier": "every configuration of the command or pipeline, every infinite schedule in which the event loop keeps running and the events named in the statement happen (any other events may happen at any time)", "why_tests_cant": "Termination is a statement about all infinite schedules; a test that passes shows one finite one.", "anchors": ["shellous/command.py:Command.prompt", "shellous/pipeline.py:Pipeline.prompt", "shellous/prompt.py:Prompt._finish_", "shellous/prompt.py:Prompt.close", "shellous/runner.py:Runner.__aexit__", "shellous/runner.py:PipeRunner.__aexit__"]}
{"id": "C95", "title": "send cannot deadlock with the child", "statement": "In a prompt session `await cli.send(data)` does not deadlock with a child that writes a lot before it reads on: as long as the call waits, it, the event loop or the child can go on, however much is sent, however much the child writes, and however small the pipes and buffers are. If the child always comes back to reading its input (or closes it, or exits), the call ends after a bounded number of steps, whatever the schedule; if the child closes its input or exits, the call ends, too. Meanwhile the child reads exactly what was sent and the session receives exactly what the child wrote, both in order. When `expect` waits and nobody can go on, the child waits for input although it has read all that was sent, and the session has received all that it wrote. (The output of the child has to be decodable; otherwise the call can hang.)", "quantifier": "every program of the child, all data and all capacities and limits (down to one byte), every sequence of send and expect calls, all schedules", "why_tests_cant": "The deadlock depends on the sizes of pipes and buffers, on what the program does, and on the schedule; a test tries one of each.", "anchors": ["shellous/prompt.py:Prompt.send", "shellous/prompt.py:Prompt._drain", "shellous/prompt.py:Prompt._read_some", "shellous/prompt.py:Prompt._read_to_pattern"]}
