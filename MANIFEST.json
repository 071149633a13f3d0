{
 "claims": [
  {
   "property": "C01",
   "status": "proved",
   "theorems": [
    "Shellous.Props.C01_arguments_flattened"
   ],
   "note": ""
  },
  {
   "property": "C02",
   "status": "proved",
   "theorems": [
    "Shellous.Props.C02_unsupported_rejected"
   ],
   "note": ""
  },
  {
   "property": "C03",
   "status": "proved",
   "theorems": [
    "Shellous.Props.C03_incremental_application",
    "Shellous.Props.C03_incremental_from_context",
    "Shellous.Props.C03_frame"
   ],
   "note": ""
  },
  {
   "property": "C04",
   "status": "proved",
   "theorems": [
    "Shellous.Props.C04_last_writer_wins",
    "Shellous.Props.C04_set_frame",
    "Shellous.Props.C04_set_commute",
    "Shellous.Props.C04_rejections",
    "Shellous.Props.C04_int_minus_two",
    "Shellous.Props.C04_constants",
    "Shellous.Props.C04_defaults",
    "Shellous.Props.C04_command_setters"
   ],
   "note": "env is covered by C05; the plain int -2 is rejected like STDOUT (C04_int_minus_two)."
  },
  {
   "property": "C05",
   "status": "proved",
   "theorems": [
    "Shellous.Props.C05_child_environment"
   ],
   "note": ""
  },
  {
   "property": "C06",
   "status": "partial",
   "theorems": [
    "Shellous.Props.C06_equal_hash_false",
    "Shellous.Props.C06_equal_hash_partial"
   ],
   "note": "False of the code: the hash of the environment depends on insertion order, equality does not (C06_equal_hash_false). Proved when the variables were first set in the same order."
  },
  {
   "property": "C07",
   "status": "proved",
   "theorems": [
    "Shellous.Props.C07_pipeline_composition",
    "Shellous.Props.C07_assoc",
    "Shellous.Props.C07_nonempty",
    "Shellous.Props.C07_call"
   ],
   "note": ""
  },
  {
   "property": "C08",
   "status": "proved",
   "theorems": [
    "Shellous.Props.C08_stdin_first",
    "Shellous.Props.C08_last_command"
   ],
   "note": ""
  },
  {
   "property": "C09",
   "status": "proved",
   "theorems": [
    "Shellous.Props.C09_command_operators",
    "Shellous.Props.C09_pipeline_operators",
    "Shellous.Props.C09_command_as_pipeline"
   ],
   "note": ""
  },
  {
   "property": "C10",
   "status": "proved",
   "theorems": [
    "Shellous.Props.C10_name",
    "Shellous.Props.C10_pipeline_name"
   ],
   "note": ""
  },
  {
   "property": "C11",
   "status": "proved",
   "theorems": [
    "Shellous.C11_stdin",
    "Shellous.C11_rejected"
   ],
   "note": ""
  },
  {
   "property": "C12",
   "status": "partial",
   "theorems": [
    "Shellous.C12_positioned",
    "Shellous.C12_set_up",
    "Shellous.C12_rejected",
    "Shellous.C12_pty_stderr_only_false",
    "Shellous.C12_pty_default_stderr_false",
    "Shellous.C12_terminal",
    "Shellous.C12_stdout",
    "Shellous.C12_stderr",
    "Shellous.C12_stderr_only",
    "Shellous.C12_single_reader"
   ],
   "note": "Tables proved for all kinds. False on a terminal: stdout=DEVNULL with stderr=STDOUT fails after the launch (C12_pty_stderr_only_false); with stdout redirected to a file, stderr goes to the terminal and not where stdout goes (C12_pty_default_stderr_false)."
  },
  {
   "property": "C13",
   "status": "partial",
   "theorems": [
    "Shellous.C13_iteration_refused",
    "Shellous.C13_iteration_accepted",
    "Shellous.C13_iteration_command",
    "Shellous.C13_iteration_stdout",
    "Shellous.C13_iteration_stderr",
    "Shellous.C13_iteration_single",
    "Shellous.C13_pipeline_refused",
    "Shellous.C13_await_refused",
    "Shellous.C13_pipeline_ends_accepted",
    "Shellous.C13_await_accepted",
    "Shellous.C13_await_single",
    "Shellous.C13_pipe_constant_false",
    "Shellous.C13_pty_false",
    "Shellous.C13_iteration_keeps_descriptors"
   ],
   "note": "Proved without a terminal and without the undocumented redirection subprocess.PIPE, for which it is false (C13_pty_false, C13_pipe_constant_false)."
  },
  {
   "property": "C14",
   "status": "proved",
   "theorems": [
    "Shellous.Props.C14_interrupted",
    "Shellous.Props.C14_bytearray_sink",
    "Shellous.Props.C14_bytesio_sink",
    "Shellous.Props.C14_complete"
   ],
   "note": ""
  },
  {
   "property": "C15",
   "status": "proved",
   "theorems": [
    "Shellous.Props.C15_error_limit",
    "Shellous.Props.C15_drained"
   ],
   "note": ""
  },
  {
   "property": "C16",
   "status": "partial",
   "theorems": [
    "Shellous.Props.C16_bytes",
    "Shellous.Props.C16_reader_partial",
    "Shellous.Props.C16_source_reset_false",
    "Shellous.Props.C16_bytes_delivered",
    "Shellous.Props.C16_reader_delivered"
   ],
   "note": "Complete for bytes/str/BytesIO/StringIO. For a StreamReader source it needs that the source itself does not fail with ConnectionResetError/BrokenPipeError, which the code takes for end of input (C16_source_reset_false)."
  },
  {
   "property": "C17",
   "status": "partial",
   "theorems": [
    "Shellous.Props.C17_eof_character",
    "Shellous.Props.C17_canonical_bytes",
    "Shellous.Props.C17_canonical_reader",
    "Shellous.Props.C17_raw",
    "Shellous.Props.C17_long_line_false"
   ],
   "note": "Needs lines that fit the kernel's 4095-byte line buffer (C17_long_line_false)."
  },
  {
   "property": "C18",
   "status": "proved",
   "theorems": [
    "Shellous.Props.C18_interrupted",
    "Shellous.Props.C18_stringio_sink"
   ],
   "note": ""
  },
  {
   "property": "C19",
   "status": "partial",
   "theorems": [
    "Shellous.Props.C19_lines_any",
    "Shellous.Props.C19_lines_partial",
    "Shellous.Props.C19_prefix",
    "Shellous.Props.C19_chunk_independent",
    "Shellous.Props.C19_terminates",
    "Shellous.Props.C19_long_line_false",
    "Shellous.Props.C19_utf16_false"
   ],
   "note": "Proved for UTF-8 (all error handlers; with 'ignore' a line may decode to nothing). False for lines over 64 KiB (C19_long_line_false) and for encodings like UTF-16 (C19_utf16_false). C19_lines_any: for every encoding in which the byte 0x0A is the newline and nothing else is (utf8_safe, single_safe, latin1_safe, ascii_safe)."
  },
  {
   "property": "C20",
   "status": "proved",
   "theorems": [
    "Shellous.Props.C20_append_overwrite",
    "Shellous.Props.C20_not_seekable"
   ],
   "note": ""
  },
  {
   "property": "C21",
   "status": "proved",
   "theorems": [
    "Shellous.Props.C21_await_outcome",
    "Shellous.Props.C21_no_result_before_exit",
    "Shellous.Props.C21_exit_codes_containers",
    "Shellous.Props.C21_inside_pipeline",
    "Shellous.Props.C21_unchecked"
   ],
   "note": ""
  },
  {
   "property": "C22",
   "status": "proved",
   "theorems": [
    "Shellous.Props.C22_result_never_raises"
   ],
   "note": ""
  },
  {
   "property": "C23",
   "status": "proved",
   "theorems": [
    "Shellous.Props.C23_first_failure_reported",
    "Shellous.Props.C23_zero_means_no_failure",
    "Shellous.Props.C23_otherwise",
    "Shellous.Props.C23_all_cancelled_corner"
   ],
   "note": ""
  },
  {
   "property": "C24",
   "status": "proved",
   "theorems": [
    "Shellous.Props.C24_provenance",
    "Shellous.Props.C24_first_other_exception",
    "Shellous.Props.C24_pipeline_outcome"
   ],
   "note": ""
  },
  {
   "property": "C25",
   "status": "proved",
   "theorems": [
    "Shellous.Props.C25_exit_status_decoding",
    "Shellous.Props.C25_decoding_injective",
    "Shellous.Props.C25_poll"
   ],
   "note": ""
  },
  {
   "property": "C26",
   "status": "partial",
   "theorems": [
    "Shellous.Props.C26_returncode_false",
    "Shellous.Props.C26_returncode_partial",
    "Shellous.Props.C26_before_exit",
    "Shellous.Props.C26_reported_partial",
    "Shellous.Props.C26_await_partial",
    "Shellous.Props.C26_last_look"
   ],
   "note": "Returncode of a run: exact relation to the child's real status in every schedule, with the corners refuted by the _false theorems."
  },
  {
   "property": "C27",
   "status": "partial",
   "theorems": [
    "Shellous.Props.C27_done_unless_cancelled",
    "Shellous.Props.C27_harvest_partial",
    "Shellous.Props.C27_harvest_wait_partial",
    "Shellous.Props.C27_two_cancels_false",
    "Shellous.Props.C27_gave_up_false",
    "Shellous.Props.C27_harvest_results"
   ],
   "note": "Complete when harvest returns or raises anything but CancelledError and has not logged that it gave up; with CancelledError up to one interruption. Two interruptions (C27_two_cancels_false) or tasks that ignore cancellation (C27_gave_up_false) leave tasks running."
  },
  {
   "property": "C28",
   "status": "partial",
   "theorems": [
    "Shellous.Props.C28_normal_means_no_failure",
    "Shellous.Props.C28_raises_first",
    "Shellous.Props.C28_failure_is_raised",
    "Shellous.Props.C28_first_seen_false"
   ],
   "note": "Complete for the first failure in argument order. The docstring's 'first exception seen' is false (C28_first_seen_false)."
  },
  {
   "property": "C29",
   "status": "proved",
   "theorems": [
    "Shellous.Props.C29_timeout_only_when_due",
    "Shellous.Props.C29_no_timeout_argument",
    "Shellous.Props.C29_timeout_fires"
   ],
   "note": ""
  },
  {
   "property": "C30",
   "status": "partial",
   "theorems": [
    "Shellous.Props.C30_cancel_reaches_all",
    "Shellous.Props.C30_cancel_finish",
    "Shellous.Props.C30_normal_means_not_cancelled",
    "Shellous.Props.C30_swallowed_false"
   ],
   "note": "Complete for a cancellation during the main wait; one that arrives during the cleanup after a failure is swallowed (C30_swallowed_false)."
  },
  {
   "property": "C31",
   "status": "partial",
   "theorems": [
    "Shellous.Props.C31_results_in_order",
    "Shellous.Props.C31_flag_partial",
    "Shellous.Props.C31_swallowed_false",
    "Shellous.Props.C31_raises_serious"
   ],
   "note": "Order, contents and raised errors complete; the cancelled flag misses a cancellation during cleanup after a failure (C31_swallowed_false)."
  },
  {
   "property": "C32",
   "status": "partial",
   "theorems": [
    "Shellous.Props.C32_running",
    "Shellous.Props.C32_ended",
    "Shellous.Props.C32_prefix",
    "Shellous.Props.C32_after_partial",
    "Shellous.Props.C32_after_false"
   ],
   "note": "Start, signals, one stop, at every point and at the end of every run, however it ends. After the end nothing is announced unless the child survived its SIGKILL (partial: C32_after_false shows the corner)."
  },
  {
   "property": "C33",
   "status": "partial",
   "theorems": [
    "Shellous.Props.C33_partial",
    "Shellous.Props.C33_killed_partial",
    "Shellous.Props.C33_result",
    "Shellous.Props.C33_kill_cancelled_false",
    "Shellous.Props.C33_launch_cancelled_false"
   ],
   "note": "Partial: needs that the wait after SIGKILL is not interrupted, and at most two cancellations during the launch; the other cases are refuted by C33_kill_cancelled_false and C33_launch_cancelled_false."
  },
  {
   "property": "C34",
   "status": "partial",
   "theorems": [
    "Shellous.Props.C34_escalation",
    "Shellous.Props.C34_announced",
    "Shellous.Props.C34_not_after_exit",
    "Shellous.Props.C34_not_after_exit_later",
    "Shellous.Props.C34_normal_end",
    "Shellous.Props.C34_close_kill",
    "Shellous.Props.C34_close_kill_false"
   ],
   "note": "Escalation order, announcement, no signal after exit, none in a normal end. C34_close_kill_false: asyncio's transport.close() may send one unannounced SIGKILL."
  },
  {
   "property": "C35",
   "status": "partial",
   "theorems": [
    "Shellous.Props.C35_disarmed",
    "Shellous.Props.C35_no_timeout",
    "Shellous.Props.C35_fired",
    "Shellous.Props.C35_swallowed_false",
    "Shellous.Props.C35_source"
   ],
   "note": "Disarmed at the end, never fires without the option, cannot end in a normal return of await, source of every TimeoutError. C35_swallowed_false: a body may swallow the cancellation."
  },
  {
   "property": "C36",
   "status": "partial",
   "theorems": [
    "Shellous.Props.C36_explained",
    "Shellous.Props.C36_await_partial",
    "Shellous.Props.C36_catch",
    "Shellous.Props.C36_close_timeout_false",
    "Shellous.Props.C36_with_block_false"
   ],
   "note": "Every exception has a listed explanation; await returns after a cancellation only in two corners (catch_cancelled with the timer; closeTimeout), both witnessed. C36_with_block_false: async with suppresses a late cancellation."
  },
  {
   "property": "C37",
   "status": "partial",
   "theorems": [
    "Shellous.Props.C37_partial",
    "Shellous.Props.C37_cancels_false",
    "Shellous.Props.C37_gave_up_false"
   ],
   "note": "Partial: at most one CancelledError in the cleanup and no surrender; both restrictions are shown necessary."
  },
  {
   "property": "C38",
   "status": "proved",
   "theorems": [
    "Shellous.Props.C38_reported",
    "Shellous.Props.C38_no_failure"
   ],
   "note": "First failed copy's exception is raised, unless closing stdin failed later; all copies done, child reaped."
  },
  {
   "property": "C39",
   "status": "proved",
   "theorems": [
    "Shellous.Props.C39_nothing",
    "Shellous.Props.C39_error",
    "Shellous.Props.C39_setup"
   ],
   "note": "No process object, no task but the finished spawn, audits start/stop, no signal, error raised as is."
  },
  {
   "property": "C40",
   "status": "partial",
   "theorems": [
    "Shellous.Props.C40_over",
    "Shellous.Props.C40_completes_partial",
    "Shellous.Props.C40_ended_partial",
    "Shellous.Props.C40_completes_false",
    "Shellous.Props.C40_ended_false"
   ],
   "note": "Partial in the number of cancellations (one for completion, two for the child being ended); more are refuted."
  },
  {
   "property": "C41",
   "status": "partial",
   "theorems": [
    "Shellous.C41_closed_exactly_once",
    "Shellous.C41_concurrent_launches",
    "Shellous.C41_kept_never_closed",
    "Shellous.C41_file_object_false",
    "Shellous.C41_overridden_redirect_false",
    "Shellous.C41_shared_descriptor_false"
   ],
   "note": "Proved for descriptor numbers, files opened by the library, pipe ends and the terminal's child side, for one launch and for concurrent launches of whole command trees. Needs distinct descriptors (C41_shared_descriptor_false), no hand-over overridden by a process substitution (C41_overridden_redirect_false), and excludes file objects (C41_file_object_false)."
  },
  {
   "property": "C42",
   "status": "partial",
   "theorems": [
    "Shellous.C42_setup_failure_exact",
    "Shellous.C42_setup_failure_partial",
    "Shellous.C42_process_substitution_false",
    "Shellous.C42_path_false",
    "Shellous.C42_pty_false",
    "Shellous.C42_writable_pipeline_false",
    "Shellous.C42_spawn_failure_partial",
    "Shellous.C42_spawn_pty_false",
    "Shellous.C42_pipeline_setup_failure",
    "Shellous.C42_pipeline_owned_false",
    "Shellous.C42_pipeline_cancelled_partial",
    "Shellous.C42_pipeline_cancelled_twice_false",
    "Shellous.C42_pipeline_cancelled_foreign_false"
   ],
   "note": "False of the code for process substitutions, path redirects, ptys and written-to pipelines (the _false theorems). C42_setup_failure_exact says exactly what leaks; proved without leak for the remaining cases. A captured pipeline cancelled while it starts closes pipe ends twice once a command has been launched (C42_pipeline_cancelled_*)."
  },
  {
   "property": "C43",
   "status": "proved",
   "theorems": [
    "Shellous.C43_process_substitution"
   ],
   "note": ""
  },
  {
   "property": "C44",
   "status": "partial",
   "theorems": [
    "Shellous.C44_close_fds",
    "Shellous.C44_object_close_raises_false"
   ],
   "note": "Complete for descriptor numbers (proved); an object whose close() raises stops the loop (C44_object_close_raises_false). That the collection is emptied is part of the model of the callers."
  },
  {
   "property": "C45",
   "status": "proved",
   "theorems": [
    "Shellous.C45_head_to_tail"
   ],
   "note": ""
  },
  {
   "property": "C46",
   "status": "partial",
   "theorems": [
    "Shellous.Props.C46_completes",
    "Shellous.Props.C46_gave_up_false",
    "Shellous.Props.C46_two_cancels_false",
    "Shellous.Props.C46_swallowed_false",
    "Shellous.Props.C46_assertion_false",
    "Shellous.Props.C46_await_outcome",
    "Shellous.Props.C46_block_outcome",
    "Shellous.Props.C46_done_partial",
    "Shellous.Props.C46_cancelled_asked",
    "Shellous.Props.C46_failure_asked"
   ],
   "note": "C46_done_partial needs that the library did not give up and that the cleanup was interrupted at most once; C46_gave_up_false and C46_two_cancels_false show both restrictions necessary. Cancellation of the remaining commands (C46_cancelled_asked, C46_failure_asked), progress (C46_completes) and the complete lists of outcomes (C46_await_outcome, C46_block_outcome) need neither. C46_swallowed_false and C46_assertion_false are corners."
  },
  {
   "property": "C47",
   "status": "partial",
   "theorems": [
    "Shellous.Props.C47_hangs_false",
    "Shellous.Props.C47_enters_partial",
    "Shellous.Props.C47_not_raised_false",
    "Shellous.Props.C47_middle_false",
    "Shellous.Props.C47_setup_masked_false"
   ],
   "note": "False of the code: C47_hangs_false proves that no schedule without an outside cancellation ends `async with pipeline` once its first or last command has failed to launch; C47_not_raised_false: launch errors are not raised by the block; C47_setup_masked_false: errors while creating the pipes become ValueError. C47_enters_partial is what holds."
  },
  {
   "property": "C48",
   "status": "partial",
   "theorems": [
    "Shellous.Props.C48_exact_account",
    "Shellous.Props.C48_text_preserved_partial",
    "Shellous.Props.C48_cancel_race_false",
    "Shellous.Props.C48_decode_error_false"
   ],
   "note": "C48_exact_account is complete: it accounts for all text, also lost text. Text is lost when a call is cancelled after its reader found the prompt and before the caller resumed (C48_cancel_race_false), and with strict decoding errors (C48_decode_error_false)."
  },
  {
   "property": "C49",
   "status": "proved",
   "theorems": [
    "Shellous.Props.C49_first_occurrence",
    "Shellous.Props.C49_any_schedule"
   ],
   "note": "For non-empty prompts, every decoder, chunking and schedule."
  },
  {
   "property": "C50",
   "status": "partial",
   "theorems": [
    "Shellous.Props.C50_first_of_list_partial",
    "Shellous.Props.C50_in_received_text",
    "Shellous.Props.C50_chunking_false",
    "Shellous.Props.C50_stable_regex"
   ],
   "note": "Chunk-independent only for lists where no string ends inside another (C50_chunking_false otherwise); for every list the answer is right for the text received so far."
  },
  {
   "property": "C51",
   "status": "partial",
   "theorems": [
    "Shellous.Props.C51_expect_failure_keeps_text",
    "Shellous.Props.C51_expect_cancelled_keeps_text_partial",
    "Shellous.Props.C51_read_all_failure_keeps_text",
    "Shellous.Props.C51_after_eof",
    "Shellous.Props.C51_cancel_race_false",
    "Shellous.Props.C51_expect_reason",
    "Shellous.Props.C51_expect_cancelled",
    "Shellous.Props.C51_expect_times_out",
    "Shellous.Props.C51_read_all_reason",
    "Shellous.Props.C51_read_all_cancelled",
    "Shellous.Props.C51_at_eof"
   ],
   "note": "Complete for timeout, EOF, read/decode errors and read_all. For a cancelled expect it fails if the reader had found the prompt already (C51_cancel_race_false)."
  },
  {
   "property": "C52",
   "status": "proved",
   "theorems": [
    "Shellous.Props.C52_newline_normalisation"
   ],
   "note": ""
  },
  {
   "property": "C53",
   "status": "proved",
   "theorems": [
    "Shellous.Props.C53_incremental_decoding",
    "Shellous.Props.C53_any_codec",
    "Shellous.Props.C53_roundtrip",
    "Shellous.Props.C53_prefix",
    "Shellous.Props.C53_error_handlers",
    "Shellous.Props.C53_roundtrip_any",
    "Shellous.Props.C53_strict_sound"
   ],
   "note": ""
  },
  {
   "property": "C54",
   "status": "partial",
   "theorems": [
    "Shellous.Props.C54_send_interrupted",
    "Shellous.Props.C54_close",
    "Shellous.Props.C54_send_writes_exactly",
    "Shellous.Props.C54_any_encoding",
    "Shellous.Props.C54_session_writes_in_order",
    "Shellous.Props.C54_command_writes_exactly",
    "Shellous.Props.C54_failure_reported_partial",
    "Shellous.Props.C54_drain_error_false"
   ],
   "note": "What is written is proved exactly. A delivery failure is reported only if the output has ended; otherwise it is swallowed (C54_drain_error_false)."
  },
  {
   "property": "C55",
   "status": "proved",
   "theorems": [
    "Shellous.Props.C55_waits_for_echo_off",
    "Shellous.Props.C55_echo_stays_on",
    "Shellous.Props.C55_secrets_not_logged"
   ],
   "note": ""
  },
  {
   "property": "C56",
   "status": "partial",
   "theorems": [
    "Shellous.Props.C56_pipe_session",
    "Shellous.Props.C56_pipe_inside",
    "Shellous.Props.C56_pipe_after_partial",
    "Shellous.Props.C56_pipe_lost_false",
    "Shellous.Props.C56_session",
    "Shellous.Props.C56_inside",
    "Shellous.Props.C56_after_partial",
    "Shellous.Props.C56_no_cli",
    "Shellous.Props.C56_undead_false"
   ],
   "note": "Command and pipeline sessions, all block outcomes and schedules: same world and outcome as an async-with block (so C32-C46 carry over); cli.result RuntimeError before the end, the unchecked Result after. False when there is no result: a child killed but not reaped (C56_undead_false), a pipeline command that could not be started (C56_pipe_lost_false)."
  },
  {
   "property": "C57",
   "status": "proved",
   "theorems": [
    "Shellous.Props.C57_exit",
    "Shellous.Props.C57_matching",
    "Shellous.Props.C57_stray",
    "Shellous.Props.C57_isolated",
    "Shellous.Props.C57_no_bookkeeping",
    "Shellous.Props.C57_limit_stray_exit",
    "Shellous.Props.C57_limit_address_reuse",
    "Shellous.Props.C57_limit_other_task"
   ],
   "note": "Step model of util.py context_aenter/context_aexit: dictionaries, contexts (new, copied, shared), tasks and commands with addresses that are used again. C57_exit and C57_matching hold for every possible history without any discipline. C57_no_bookkeeping needs only that no task leaves a block it has not entered. C57_limit_* show what happens outside of that: a stray exit leaves an empty entry, a task that ends inside a block can have its run closed by a later task at the same address, and a block left by another task is not closed."
  },
  {
   "property": "C58",
   "status": "proved",
   "theorems": [
    "Shellous.Props.C58_at_most_once",
    "Shellous.Props.C58_after_exit",
    "Shellous.Props.C58_status",
    "Shellous.Props.C58_decode_exited",
    "Shellous.Props.C58_decode_signaled",
    "Shellous.Props.C58_reaped",
    "Shellous.Props.C58_thread_lives",
    "Shellous.Props.C58_not_lost",
    "Shellous.Props.C58_eventually",
    "Shellous.Props.C58_limit_reaped_elsewhere",
    "Shellous.Props.C58_limit_reused_pid",
    "Shellous.Props.C58_limit_callback_raises"
   ],
   "note": "Step model of EPollStrategy (watch_pid, the thread, close), the kernel's process table, pid and descriptor reuse, other threads. At most one report per call, only after the exit, with the child's own status; C58_not_lost/C58_eventually: under a fair schedule every watched child that exits is reported. C58_status/_eventually need: nobody else reaps children, no child watched twice, no callback raises anything but RuntimeError; C58_limit_* show each of these is needed."
  },
  {
   "property": "C59",
   "status": "proved",
   "theorems": [
    "Shellous.Props.C59_one",
    "Shellous.Props.C59_no_error",
    "Shellous.Props.C59_bound",
    "Shellous.Props.C59_one_open",
    "Shellous.Props.C59_closed_once",
    "Shellous.Props.C59_all_closed",
    "Shellous.Props.C59_error_needs_close",
    "Shellous.Props.C59_watch_current",
    "Shellous.Props.C59_no_deadlock",
    "Shellous.Props.C59_bounded",
    "Shellous.Props.C59_limit_assertion",
    "Shellous.Props.C59_limit_attribute",
    "Shellous.Props.C59_limit_watch_closed"
   ],
   "note": "Step model of add_child_handler, _init_strategy and close, one step per access to shared state, any number of threads. C59_limit_*: a close() at the same time can make add_child_handler raise AssertionError or AttributeError, or watch the child with a closed strategy."
  },
  {
   "property": "C60",
   "status": "proved",
   "theorems": [
    "Shellous.Props.C60_set_echo",
    "Shellous.Props.C60_no_terminal",
    "Shellous.Props.C60_eof_unchanged"
   ],
   "note": ""
  },
  {
   "property": "C61",
   "status": "partial",
   "theorems": [
    "Shellous.Props.C61_exit_signal_partial",
    "Shellous.Props.C61_realtime_false"
   ],
   "note": "Exact for every ending of a child. False for realtime signals other than SIGRTMIN and SIGRTMAX: exit_signal raises ValueError (C61_realtime_false)."
  },
  {
   "property": "C62",
   "status": "partial",
   "theorems": [
    "Shellous.Props.C62_success_partial",
    "Shellous.Props.C62_all_zero_partial",
    "Shellous.Props.C62_own_ignored_false",
    "Shellous.Props.C62_own_rejected_false",
    "Shellous.Props.C62_later_failure_false"
   ],
   "note": "False of the code in both directions (the three _false theorems): only the last command's exit_codes count, and only for the first command that failed by itself. Proved for the default exit_codes."
  },
  {
   "property": "C63",
   "status": "partial",
   "theorems": [
    "Shellous.Props.C63_logger_any",
    "Shellous.Props.C63_logger_complete_partial",
    "Shellous.Props.C63_logger_prefix",
    "Shellous.Props.C63_streamwriter",
    "Shellous.Props.C63_streamwriter_interrupted"
   ],
   "note": "StreamWriter complete. Logger: C63_logger_any for every encoding in which the byte 0x0A is the newline and nothing else is (UTF-8, ASCII, Latin-1 and all such one-byte encodings, utf8_safe, single_safe); it cannot hold for encodings such as UTF-16, whose lines end inside a character (C19_utf16_false)."
  },
  {
   "property": "C64",
   "status": "proved",
   "theorems": [
    "Shellous.Props.C64_closes_own",
    "Shellous.Props.C64_reported_closed",
    "Shellous.Props.C64_all_closed",
    "Shellous.Props.C64_pipe_cleared",
    "Shellous.Props.C64_writes_own",
    "Shellous.Props.C64_limit_stray_write",
    "Shellous.Props.C64_limit_in_flight"
   ],
   "note": "C64_limit_stray_write: closing while the thread is ending by itself can write one byte to a foreign descriptor; C64_limit_in_flight: a watch that is under way while the watcher is closed leaks its pidfd. Both are outside the statement (watch not completed; a callback raised)."
  },
  {
   "property": "C65",
   "status": "proved",
   "theorems": [
    "Shellous.Props.C65_kills_its_child",
    "Shellous.Props.C65_kills_unwatched",
    "Shellous.Props.C65_failed_killed"
   ],
   "note": "C65_kills_its_child needs that nobody else reaps children and no child is watched twice; assumes SIGKILL to an own child does not fail."
  },
  {
   "property": "C66",
   "status": "partial",
   "theorems": [
    "Shellous.Props.C66_at_most_once",
    "Shellous.Props.C66_after_exit",
    "Shellous.Props.C66_status",
    "Shellous.Props.C66_reaped",
    "Shellous.Props.C66_stale_entries",
    "Shellous.Props.C66_not_blocked",
    "Shellous.Props.C66_eventually",
    "Shellous.Props.C66_refused_partial",
    "Shellous.Props.C66_watch_false",
    "Shellous.Props.C66_stale_false"
   ],
   "note": "Reported exactly once, after the exit, with its own status, eventually under fair scheduling (if nobody else reaps and no child is watched twice): proved. 'A child can be watched' is false: the entry of the table is removed after the child was reaped, so a new child with the same pid can be refused with AssertionError (C66_watch_false), forever if a callback raised (C66_stale_false); C66_refused_partial says when."
  },
  {
   "property": "C67",
   "status": "proved",
   "theorems": [
    "Shellous.Props.C67_thread_ends",
    "Shellous.Props.C67_close_heard"
   ],
   "note": "For every infinite history with weakly fair scheduling of the thread and a fair epoll. (close() can itself raise EBADF or TypeError when the thread is ending at the same time: modelled as a write that goes nowhere; see C64_limit_stray_write.)"
  },
  {
   "property": "C68",
   "status": "proved",
   "theorems": [
    "Shellous.Props.C68_close_ends",
    "Shellous.Props.C68_failed_eventually",
    "Shellous.Props.C68_limit_slow_death",
    "Shellous.Props.C68_limit_reaped_elsewhere",
    "Shellous.Props.C68_limit_watched_twice",
    "Shellous.Props.C68_limit_callback_raises",
    "Shellous.Props.C68_limit_register_raises",
    "Shellous.Props.C68_at_most_once",
    "Shellous.Props.C68_after_exit",
    "Shellous.Props.C68_status",
    "Shellous.Props.C68_reaped",
    "Shellous.Props.C68_never_refused",
    "Shellous.Props.C68_not_lost",
    "Shellous.Props.C68_eventually",
    "Shellous.Props.C68_critical",
    "Shellous.Props.C68_failed_not_lost",
    "Shellous.Props.C68_thread_lives"
   ],
   "note": "Step model of KQueueStrategy; a child dies in two steps (begins to die; can be reaped), and the kernel is assumed to deliver NOTE_EXIT once and only for a process that has begun to die. Needs: nobody else reaps children, no child watched twice, no callback raises anything but RuntimeError, kevent registration fails only with ProcessLookupError (each needed: C68_limit_*). C68_limit_slow_death: a child that needs more than 75 ms to die after its event is never reported, only logged (in the code; excepted in the statement)."
  },
  {
   "property": "C69",
   "status": "partial",
   "theorems": [
    "Shellous.Props.C69_copies_ended",
    "Shellous.Props.C69_block_copies_ended",
    "Shellous.Props.C69_stdout",
    "Shellous.Props.C69_stderr_only",
    "Shellous.Props.C69_stderr",
    "Shellous.Props.C69_stdin",
    "Shellous.Props.C69_bytesIO",
    "Shellous.Props.C69_bytearray",
    "Shellous.Props.C69_stringIO",
    "Shellous.Props.C69_elsewhere",
    "Shellous.Props.C69_timeout_false",
    "Shellous.Props.C69_logger",
    "Shellous.Props.C69_streamWriter",
    "Shellous.Props.C69_reader",
    "Shellous.Props.C69_pty_stdin"
   ],
   "note": "Composes Model/Launch (wiring), Model/Run (life of the run) and Model/Streams (each copy): Awaited in Spec/EndToEnd says that each background task executes the coroutine it was given. Also for loggers (UTF-8), stream writers, stream readers and the input of a terminal (Props/EndToEndSinks). Complete, except for a timeout with catch_cancelled, where it is false (C69_timeout_false). Not included: Logger and StreamWriter sinks, input from a StreamReader, input through a terminal (see C16, C17, C63)."
  },
  {
   "property": "C70",
   "status": "partial",
   "theorems": [
    "Shellous.Props.C70_complete_partial",
    "Shellous.Props.C70_timeout",
    "Shellous.Props.C70_prefix",
    "Shellous.Props.C70_run_ended",
    "Shellous.Props.C70_child_partial",
    "Shellous.Props.C70_audits",
    "Shellous.Props.C70_stdout_partial",
    "Shellous.Props.C70_stderr_partial",
    "Shellous.Props.C70_redirected",
    "Shellous.Props.C70_pipe_complete_partial",
    "Shellous.Props.C70_pipe_prefix",
    "Shellous.Props.C70_status_false",
    "Shellous.Props.C70_cancelled_false",
    "Shellous.Props.C70_timeout_false",
    "Shellous.Props.C70_pipe_status_false",
    "Shellous.Props.C70_pipe_cancelled_false"
   ],
   "note": "The generator is modelled step by step (Model/Iter: attempts to read, yields, the consumer cancelled in readline or in its loop body); an iteration does what some async with block does (iterate_block). Proved: completeness at a normal end (UTF-8), prefix at any end, child collected, copies complete, audit, timeouts. False: a cancellation of the consumer while it waits for a line is swallowed and ends the loop normally (C70_cancelled_false, also for pipelines); the exit status is never looked at (C70_status_false); a timeout that goes off in the body of the loop does not reach the generator (C70_timeout_false). Not modelled: a generator closed by another task."
  },
  {
   "property": "C71",
   "status": "partial",
   "theorems": [
    "Shellous.Props.C71_all_succeeded",
    "Shellous.Props.C71_output",
    "Shellous.Props.C71_timeout_false",
    "Shellous.Props.C71_exit_codes_false"
   ],
   "note": "Composes Model/PipeRun (the pipeline), Model/Run (each command: RunBy in Spec/PipeEndToEnd says that the task of a command executes the run of the command) and, for the output, C69. Proved for commands whose timer did not go off and that accept exit code 0; false otherwise (C71_timeout_false: a timeout of the last command is masked, the pipeline returns part of the output; C71_exit_codes_false). Excluded: background tasks of a command that raise ResultError (process substitutions)."
  },
  {
   "property": "C72",
   "status": "proved",
   "theorems": [
    "Shellous.Props.C72_raw",
    "Shellous.Props.C72_cbreak",
    "Shellous.Props.C72_cooked",
    "Shellous.Props.C72_bad_size",
    "Shellous.Props.C72_cooked_input",
    "Shellous.Props.C72_raw_input",
    "Shellous.Props.C72_output_end",
    "Shellous.Props.C72_output_complete",
    "Shellous.Props.C72_output_error"
   ],
   "note": "Linux flag values, CPython 3.12 tty module. A size that does not fit in 16 bits raises struct.error (C72_bad_size), and then open_pty leaks both descriptors (see C42). cooked(echo=True) does not switch the echo on; it leaves it as it is."
  },
  {
   "property": "C73",
   "status": "partial",
   "theorems": [
    "Shellous.Props.Time.C73_no_limit",
    "Shellous.Props.Time.C73_limit_partial",
    "Shellous.Props.Time.C73_echo_wait_false",
    "Shellous.Props.Time.C73_zero_false"
   ],
   "note": "Not covered by the limit: the wait for echo to be off with no_echo (C73_echo_wait_false), up to 30 seconds. timeout=0 means no limit, not an immediate one (C73_zero_false). command applies the limit twice, once to sending and once to expecting."
  },
  {
   "property": "C74",
   "status": "proved",
   "theorems": [
    "Shellous.Props.C74_journal",
    "Shellous.Props.Time.C74_transparent",
    "Shellous.Props.Time.C74_off"
   ],
   "note": ""
  },
  {
   "property": "C75",
   "status": "partial",
   "theorems": [
    "Shellous.Props.C75_silent",
    "Shellous.Props.C75_start",
    "Shellous.Props.C75_stop",
    "Shellous.Props.C75_child_partial",
    "Shellous.Props.C75_signal_false",
    "Shellous.Props.C75_launch_false"
   ],
   "note": "Partial: C75_signal_false (a callback raising in the phase 'signal' keeps the signals from being sent, loses the exception of the body and leaves the background tasks unawaited and the child unreaped) and C75_launch_false (during a failing launch the child is left running with no signal at all). C75_child_partial covers the runs whose block has been entered; a callback called because user code calls run.send_signal raises into that code and is not modelled."
  },
  {
   "property": "C76",
   "status": "proved",
   "theorems": [
    "Shellous.Props.C76_await",
    "Shellous.Props.C76_block"
   ],
   "note": "Endless schedules (Spec/Live); fairness is weak: each kind of event comes again and again, in any order and with anything in between."
  },
  {
   "property": "C77",
   "status": "partial",
   "theorems": [
    "Shellous.Props.C77_await",
    "Shellous.Props.C77_block",
    "Shellous.Props.C77_timeout_bsd",
    "Shellous.Props.C77_timeout",
    "Shellous.Props.C77_timeout_false"
   ],
   "note": "`C77_timeout` has the condition that the return code is not known; `C77_timeout_false` shows that without it the claim is false of the code: the timer is stopped when the child exits, so a grandchild that keeps a stream open makes `await cmd` with `timeout` hang. On a BSD pty there is no such task, and `C77_timeout_bsd` needs no such condition."
  },
  {
   "property": "C78",
   "status": "proved",
   "theorems": [
    "Shellous.Props.C78_await",
    "Shellous.Props.C78_await_cancelled",
    "Shellous.Props.C78_await_failed",
    "Shellous.Props.C78_block",
    "Shellous.Props.C78_block_cancelled"
   ],
   "note": "The condition on the launches of a block cannot be dropped: `C47_hangs_false`."
  },
  {
   "property": "C79",
   "status": "proved",
   "theorems": [
    "Shellous.Props.C79_iter",
    "Shellous.Props.C79_iter_cancelled",
    "Shellous.Props.C79_pipe",
    "Shellous.Props.C79_pipe_cancelled"
   ],
   "note": "Theorems C79_iter, C79_iter_cancelled, C79_pipe, C79_pipe_cancelled. The cancelled case needs a stream that has fallen silent: a stream that has a line at every attempt is never waited for."
  },
  {
   "property": "C80",
   "status": "proved",
   "theorems": [
    "Shellous.Props.C80_launch",
    "Shellous.Props.C80_await",
    "Shellous.Props.C80_iter",
    "Shellous.Props.C80_pipeline",
    "Shellous.Props.C80_pipeline_captured"
   ],
   "note": "Theorems C80_launch, C80_await, C80_iter, C80_pipeline. If an object's close() raises during the clean-up, its exception replaces the reason (cf. C44)."
  },
  {
   "property": "C81",
   "status": "partial",
   "theorems": [
    "Shellous.PtyFds.C81_only_ours",
    "Shellous.PtyFds.C81_released",
    "Shellous.PtyFds.C81_flushed",
    "Shellous.PtyFds.C81_child_released",
    "Shellous.PtyFds.C81_given",
    "Shellous.PtyFds.C81_linux",
    "Shellous.PtyFds.C81_failed",
    "Shellous.PtyFds.C81_failed_parent_false",
    "Shellous.PtyFds.C81_bsd",
    "Shellous.PtyFds.C81_freebsd",
    "Shellous.PtyFds.C81_timer_stopped",
    "Shellous.PtyFds.C81_reader_partial",
    "Shellous.PtyFds.C81_hangup",
    "Shellous.PtyFds.C81_timer_once",
    "Shellous.PtyFds.C81_reader_false",
    "Shellous.PtyFds.C81_given_false",
    "Shellous.PtyFds.C81_pending_false"
   ],
   "note": "partial: the reader watches only the terminal as long as no write fails (`C81_reader_partial`); otherwise it is false (`C81_reader_false`): the failed write closes the descriptor under the reader. `C81_given_false`: a launch that takes longer than two seconds on FreeBSD. `C81_pending_false`: buffered input keeps the parent's side open after the run."
  },
  {
   "property": "C82",
   "status": "proved",
   "theorems": [
    "Shellous.Props.C82_regex",
    "Shellous.Props.C82_list",
    "Shellous.Props.C82_found",
    "Shellous.Props.C82_pending",
    "Shellous.Props.C82_waits",
    "Shellous.Props.C82_read_all"
   ],
   "note": "For regular expressions the theorem has the condition that the pattern does not match the untaken text after an earlier chunk (C82_regex)."
  },
  {
   "property": "C83",
   "status": "partial",
   "theorems": [
    "Shellous.Props.C83_block_partial",
    "Shellous.Props.C83_block",
    "Shellous.Props.C83_block_cancelled",
    "Shellous.Props.C83_pipe_partial",
    "Shellous.Props.C83_swallowed_false",
    "Shellous.Props.C83_replaced_false",
    "Shellous.Props.C83_pipe_swallowed_false"
   ],
   "note": "Partial: false if a cancellation arrives during the cleanup (both exceptions vanish), or if a background task fails (C83_swallowed_false, C83_replaced_false, C83_pipe_swallowed_false)."
  },
  {
   "property": "C84",
   "status": "partial",
   "theorems": [
    "Shellous.Ign.C84_others",
    "Shellous.Ign.C84_patched",
    "Shellous.Ign.C84_one_party_partial",
    "Shellous.Ign.C84_once_partial",
    "Shellous.Ign.C84_once_false",
    "Shellous.Ign.C84_untouched",
    "Shellous.Ign.C84_one_party_false"
   ],
   "note": "partial: proved for one thread (`C84_one_party_partial`), and for any number of threads once the wrapper is installed (`C84_patched`); for children that are not on a BSD pty without conditions (`C84_others`, `C84_untouched`). With two threads that launch their first pty child at the same time it is false (`C84_one_party_false`): `_shellous_patched` is set before the wrapper is there."
  },
  {
   "property": "C85",
   "status": "proved",
   "theorems": [
    "Shellous.Flow.C85_no_deadlock",
    "Shellous.Flow.C85_ends",
    "Shellous.Flow.C85_completes"
   ],
   "note": "C85_no_deadlock: a reachable state in which nobody can do a step is one in which everything has ended; C85_ends: a bound on the number of steps that no schedule exceeds; C85_completes: every reachable state can be completed."
  },
  {
   "property": "C86",
   "status": "proved",
   "theorems": [
    "Shellous.Flow.C86_prefix",
    "Shellous.Flow.C86_output",
    "Shellous.Flow.C86_deterministic",
    "Shellous.Flow.C86_compose"
   ],
   "note": "C86_prefix (at every moment), C86_output (at the end), C86_deterministic (two runs), C86_compose (in terms of what each program yields alone)."
  },
  {
   "property": "C87",
   "status": "partial",
   "theorems": [
    "Shellous.Find.C87_which",
    "Shellous.Find.C87_empty",
    "Shellous.Find.C87_direct",
    "Shellous.Find.C87_launch_partial",
    "Shellous.Find.C87_launch_false",
    "Shellous.Find.C87_find",
    "Shellous.Find.C87_find_run_partial",
    "Shellous.Find.C87_find_run",
    "Shellous.Find.C87_find_run_false"
   ],
   "note": "C87_which, C87_empty, C87_direct, C87_find: what is found. C87_launch_partial: it is what runs, if no directory of the search path is empty (C87_launch_false: else not). C87_find_run: with absolute directories the answer of find_command runs; C87_find_run_partial: if the answer has a slash; C87_find_run_false: not for files of the current directory."
  },
  {
   "property": "C88",
   "status": "proved",
   "theorems": [
    "Shellous.Subst.C88_no_deadlock"
   ],
   "note": "The processes and tasks of a command line form a tree (build_tree), and in a tree nobody waits for ever: two nodes that wait for each other do so at the same pipe, which is not both empty and full. (A caller who holds several streams of one command, as in the prompt API, is not part of such a tree.)"
  },
  {
   "property": "C89",
   "status": "proved",
   "theorems": [
    "Shellous.Props.C89_options",
    "Shellous.Props.C89_child",
    "Shellous.Props.C89_exclusive"
   ],
   "note": "Linux. The rules of CPython's subprocess for pass_fds, close_fds and inheritability are in Spec/Child (ChildHolds); new descriptors are not inheritable (PEP 446) and the user mentions only open descriptors (hypotheses)."
  },
  {
   "property": "C90",
   "status": "partial",
   "theorems": [
    "Shellous.Trace.C90_coroutine",
    "Shellous.Trace.C90_generator_partial",
    "Shellous.Trace.C90_iteration",
    "Shellous.Trace.C90_read_lines",
    "Shellous.Trace.C90_paired",
    "Shellous.Trace.C90_brackets",
    "Shellous.Trace.C90_generator_false",
    "Shellous.Trace.C90_message_false"
   ],
   "note": "Proved for every coroutine, for async generators without a try around a yield (read_lines is one) and for every async generator while the iteration goes on. False in general: an abandoned wrapper does not close the generator it wraps, and a message that cannot be formatted changes the outcome (C90_generator_false, C90_message_false)."
  },
  {
   "property": "C91",
   "status": "proved",
   "theorems": [
    "Shellous.Props.C91_in_order",
    "Shellous.Props.C91_nth",
    "Shellous.Props.C91_waits",
    "Shellous.Props.C91_late_answer"
   ],
   "note": "Built on the model of C48-C51. Cancellations that lose text (C48_cancel_race_false) are excluded by hypothesis. C91_late_answer shows that 'no call failed' is needed for C91_nth."
  },
  {
   "property": "C92",
   "status": "proved",
   "theorems": [
    "Shellous.Subst.C92_deterministic",
    "Shellous.Subst.C92_ends",
    "Shellous.Subst.C92_patient",
    "Shellous.Subst.C92_unread"
   ],
   "note": "On the network of C88 (Model/Subst). Confluence (Kahn) for tree networks with bounded pipes and closing; C92_unread shows that the condition is needed. Programs are assumed to be deterministic and to communicate only through these pipes; they read one pipe at a time (no select)."
  },
  {
   "property": "C93",
   "status": "proved",
   "theorems": [
    "Shellous.C93_one_child",
    "Shellous.C93_pipe_ends",
    "Shellous.C93_end_of_file",
    "Shellous.C93_two_processes"
   ],
   "note": "Spec/Holders: between `__enter__` and `__exit__` of a command there is a separate step in which its process is created; there the other commands can prepare, fork and close. Open files have identities of their own, as descriptor numbers are used again. A child stands for itself and all its descendants. Launches that fail are not included (C41, C80 say what is closed then). `Tame`: a descriptor in the options is kept by the caller or handed over (close=True); `clean` as in C41 (C41_overridden_redirect_false)."
  },
  {
   "property": "C94",
   "status": "proved",
   "theorems": [
    "Shellous.Props.C94_session",
    "Shellous.Props.C94_session_failed",
    "Shellous.Props.C94_pipe",
    "Shellous.Props.C94_pipe_cancelled"
   ],
   "note": "The user's block is arbitrary and only has to end (the time limits of single calls in it: C73). For a pipeline the first and the last command have to get launched (C47_hangs_false says what happens otherwise). Fairness is in terms of Spec/Live (`Runs`, `Launches`, `Exits`, `Finishes`, `Leaves`, `Ticks`, `Yields`)."
  },
  {
   "property": "C95",
   "status": "proved",
   "theorems": [
    "Shellous.Props.SendFlow.C95_intact",
    "Shellous.Props.SendFlow.C95_no_deadlock",
    "Shellous.Props.SendFlow.C95_ends",
    "Shellous.Props.SendFlow.C95_gone",
    "Shellous.Props.SendFlow.C95_completes",
    "Shellous.Props.SendFlow.C95_expect",
    "Shellous.Props.SendFlow.C95_rests",
    "Shellous.Props.SendFlow.C95_decodable_needed"
   ],
   "note": "Model/SendFlow: the child as an arbitrary machine, the two pipes with capacities, the buffers of asyncio's StreamWriter (high and low water mark) and StreamReader (pause and resume), the reader task of `_drain`. `Decodable`: the decoder accepts the output of the child; C95_decodable_needed shows that without it a `send` without timeout can hang. Standard error is drained by its own task (C85). Timeouts and cancellation of send: C73."
  }
 ]
}
