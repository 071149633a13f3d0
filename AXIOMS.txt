Shellous.Props.C01_arguments_flattened depends on axioms: [propext, Classical.choice, Quot.sound]
Shellous.Props.C02_unsupported_rejected depends on axioms: [propext, Classical.choice, Quot.sound]
Shellous.Props.C03_incremental_application depends on axioms: [propext, Quot.sound]
Shellous.Props.C03_incremental_from_context depends on axioms: [propext, Quot.sound]
Shellous.Props.C03_frame depends on axioms: [propext]
Shellous.Props.C04_last_writer_wins depends on axioms: [propext, Classical.choice, Quot.sound]
Shellous.Props.C04_set_frame depends on axioms: [propext, Classical.choice, Quot.sound]
Shellous.Props.C04_set_commute depends on axioms: [propext, Classical.choice, Quot.sound]
Shellous.Props.C04_rejections depends on axioms: [propext, Quot.sound]
Shellous.Props.C04_int_minus_two depends on axioms: [propext]
Shellous.Props.C04_constants depends on axioms: [propext, Quot.sound]
Shellous.Props.C04_defaults depends on axioms: [propext]
Shellous.Props.C04_command_setters depends on axioms: [propext, Classical.choice, Quot.sound]
Shellous.Props.C05_child_environment depends on axioms: [propext, Classical.choice, Quot.sound]
Shellous.Props.C06_equal_hash_false depends on axioms: [propext, Classical.choice, Quot.sound]
Shellous.Props.C06_equal_hash_partial depends on axioms: [propext]
Shellous.Props.C07_pipeline_composition depends on axioms: [propext, Quot.sound]
Shellous.Props.C07_assoc depends on axioms: [propext, Quot.sound]
Shellous.Props.C07_nonempty depends on axioms: [propext]
Shellous.Props.C07_call does not depend on any axioms
Shellous.Props.C08_stdin_first depends on axioms: [propext]
Shellous.Props.C08_last_command depends on axioms: [propext, Classical.choice, Quot.sound]
Shellous.Props.C09_command_operators depends on axioms: [propext]
Shellous.Props.C09_pipeline_operators depends on axioms: [propext]
Shellous.Props.C09_command_as_pipeline depends on axioms: [propext, Quot.sound]
Shellous.Props.C10_name depends on axioms: [propext, Classical.choice, Quot.sound]
Shellous.Props.C10_pipeline_name depends on axioms: [propext, Classical.choice, Quot.sound]
Shellous.C11_stdin depends on axioms: [propext, Classical.choice, Quot.sound]
Shellous.C11_rejected depends on axioms: [propext, Classical.choice, Quot.sound]
Shellous.C12_positioned depends on axioms: [propext, Classical.choice, Quot.sound]
Shellous.C12_set_up depends on axioms: [propext, Classical.choice, Quot.sound]
Shellous.C12_rejected depends on axioms: [propext, Classical.choice, Quot.sound]
Shellous.C12_pty_stderr_only_false depends on axioms: [propext, Classical.choice, Quot.sound]
Shellous.C12_pty_default_stderr_false depends on axioms: [propext, Classical.choice, Quot.sound]
Shellous.C12_terminal depends on axioms: [propext, Classical.choice, Quot.sound]
Shellous.C12_stdout depends on axioms: [propext, Classical.choice, Quot.sound]
Shellous.C12_stderr depends on axioms: [propext, Classical.choice, Quot.sound]
Shellous.C12_stderr_only depends on axioms: [propext, Classical.choice, Quot.sound]
Shellous.C12_single_reader depends on axioms: [propext, Classical.choice, Quot.sound]
Shellous.C13_iteration_refused depends on axioms: [propext, Classical.choice, Quot.sound]
Shellous.C13_iteration_accepted depends on axioms: [propext, Classical.choice, Quot.sound]
Shellous.C13_iteration_command depends on axioms: [propext, Classical.choice, Quot.sound]
Shellous.C13_iteration_stdout depends on axioms: [propext, Classical.choice, Quot.sound]
Shellous.C13_iteration_stderr depends on axioms: [propext, Classical.choice, Quot.sound]
Shellous.C13_iteration_single depends on axioms: [propext, Classical.choice, Quot.sound]
Shellous.C13_pipeline_refused depends on axioms: [propext]
Shellous.C13_await_refused depends on axioms: [propext, Classical.choice, Quot.sound]
Shellous.C13_pipeline_ends_accepted depends on axioms: [propext, Classical.choice, Quot.sound]
Shellous.C13_await_accepted depends on axioms: [propext, Classical.choice, Quot.sound]
Shellous.C13_await_single depends on axioms: [propext, Classical.choice, Quot.sound]
Shellous.C13_pipe_constant_false depends on axioms: [propext, Classical.choice, Quot.sound]
Shellous.C13_pty_false depends on axioms: [propext, Classical.choice, Quot.sound]
Shellous.C13_iteration_keeps_descriptors depends on axioms: [propext, Classical.choice, Quot.sound]
Shellous.Props.C14_interrupted depends on axioms: [propext, Quot.sound]
Shellous.Props.C14_bytearray_sink depends on axioms: [propext, Quot.sound]
Shellous.Props.C14_bytesio_sink depends on axioms: [propext, Quot.sound]
Shellous.Props.C14_complete depends on axioms: [propext, Quot.sound]
Shellous.Props.C15_error_limit depends on axioms: [propext, Quot.sound]
Shellous.Props.C15_drained depends on axioms: [propext, Quot.sound]
Shellous.Props.C16_bytes depends on axioms: [propext, Quot.sound]
Shellous.Props.C16_reader_partial depends on axioms: [propext, Quot.sound]
Shellous.Props.C16_source_reset_false depends on axioms: [propext]
Shellous.Props.C16_bytes_delivered depends on axioms: [propext, Quot.sound]
Shellous.Props.C16_reader_delivered depends on axioms: [propext, Quot.sound]
Shellous.Props.C17_eof_character depends on axioms: [propext, Quot.sound]
Shellous.Props.C17_canonical_bytes depends on axioms: [propext, Quot.sound]
Shellous.Props.C17_canonical_reader depends on axioms: [propext, Quot.sound]
Shellous.Props.C17_raw depends on axioms: [propext, Quot.sound]
Shellous.Props.C17_long_line_false depends on axioms: [propext, Quot.sound]
Shellous.Props.C18_interrupted depends on axioms: [propext, Quot.sound]
Shellous.Props.C18_stringio_sink depends on axioms: [propext, Quot.sound]
Shellous.Props.C19_lines_any depends on axioms: [propext, Classical.choice, Quot.sound]
Shellous.Props.C19_lines_partial depends on axioms: [propext, Classical.choice, Quot.sound]
Shellous.Props.C19_prefix depends on axioms: [propext, Classical.choice, Quot.sound]
Shellous.Props.C19_chunk_independent depends on axioms: [propext, Classical.choice, Quot.sound]
Shellous.Props.C19_terminates depends on axioms: [propext, Classical.choice, Quot.sound]
Shellous.Props.C19_long_line_false depends on axioms: [propext, Quot.sound]
Shellous.Props.C19_utf16_false depends on axioms: [propext, Quot.sound]
Shellous.Props.C20_append_overwrite depends on axioms: [propext, Quot.sound]
Shellous.Props.C20_not_seekable depends on axioms: [propext]
Shellous.Props.C21_await_outcome depends on axioms: [propext, Quot.sound]
Shellous.Props.C21_no_result_before_exit depends on axioms: [propext]
Shellous.Props.C21_exit_codes_containers depends on axioms: [propext, Quot.sound]
Shellous.Props.C21_inside_pipeline depends on axioms: [propext, Quot.sound]
Shellous.Props.C21_unchecked depends on axioms: [propext]
Shellous.Props.C22_result_never_raises depends on axioms: [propext, Classical.choice, Quot.sound]
Shellous.Props.C23_first_failure_reported depends on axioms: [propext, Quot.sound]
Shellous.Props.C23_zero_means_no_failure depends on axioms: [propext, Quot.sound]
Shellous.Props.C23_otherwise depends on axioms: [propext, Quot.sound]
Shellous.Props.C23_all_cancelled_corner depends on axioms: [propext]
Shellous.Props.C24_provenance depends on axioms: [propext, Quot.sound]
Shellous.Props.C24_first_other_exception depends on axioms: [propext, Quot.sound]
Shellous.Props.C24_pipeline_outcome depends on axioms: [propext, Quot.sound]
Shellous.Props.C25_exit_status_decoding depends on axioms: [propext, Quot.sound]
Shellous.Props.C25_decoding_injective depends on axioms: [propext, Quot.sound]
Shellous.Props.C25_poll depends on axioms: [propext, Quot.sound]
Shellous.Props.C26_returncode_false does not depend on any axioms
Shellous.Props.C26_returncode_partial depends on axioms: [propext]
Shellous.Props.C26_before_exit depends on axioms: [propext]
Shellous.Props.C26_reported_partial depends on axioms: [propext, Quot.sound]
Shellous.Props.C26_await_partial depends on axioms: [propext, Classical.choice, Quot.sound]
Shellous.Props.C26_last_look depends on axioms: [propext]
Shellous.Props.C27_done_unless_cancelled depends on axioms: [propext, Classical.choice, Quot.sound]
Shellous.Props.C27_harvest_partial depends on axioms: [propext, Classical.choice, Quot.sound]
Shellous.Props.C27_harvest_wait_partial depends on axioms: [propext, Classical.choice, Quot.sound]
Shellous.Props.C27_two_cancels_false depends on axioms: [propext]
Shellous.Props.C27_gave_up_false depends on axioms: [propext]
Shellous.Props.C27_harvest_results depends on axioms: [propext, Classical.choice, Quot.sound]
Shellous.Props.C28_normal_means_no_failure depends on axioms: [propext, Classical.choice, Quot.sound]
Shellous.Props.C28_raises_first depends on axioms: [propext, Classical.choice, Quot.sound]
Shellous.Props.C28_failure_is_raised depends on axioms: [propext, Classical.choice, Quot.sound]
Shellous.Props.C28_first_seen_false depends on axioms: [propext]
Shellous.Props.C29_timeout_only_when_due depends on axioms: [propext, Classical.choice, Quot.sound]
Shellous.Props.C29_no_timeout_argument depends on axioms: [propext, Classical.choice, Quot.sound]
Shellous.Props.C29_timeout_fires depends on axioms: [propext, Classical.choice, Quot.sound]
Shellous.Props.C30_cancel_reaches_all depends on axioms: [propext, Classical.choice, Quot.sound]
Shellous.Props.C30_cancel_finish depends on axioms: [propext, Classical.choice, Quot.sound]
Shellous.Props.C30_normal_means_not_cancelled depends on axioms: [propext, Classical.choice, Quot.sound]
Shellous.Props.C30_swallowed_false depends on axioms: [propext]
Shellous.Props.C31_results_in_order depends on axioms: [propext, Classical.choice, Quot.sound]
Shellous.Props.C31_flag_partial depends on axioms: [propext, Classical.choice, Quot.sound]
Shellous.Props.C31_swallowed_false depends on axioms: [propext]
Shellous.Props.C31_raises_serious depends on axioms: [propext, Classical.choice, Quot.sound]
Shellous.Props.C32_running depends on axioms: [propext, Classical.choice, Quot.sound]
Shellous.Props.C32_ended depends on axioms: [propext, Classical.choice, Quot.sound]
Shellous.Props.C32_prefix depends on axioms: [propext, Classical.choice, Quot.sound]
Shellous.Props.C32_after_partial depends on axioms: [propext, Classical.choice, Quot.sound]
Shellous.Props.C32_after_false depends on axioms: [propext, Classical.choice, Quot.sound]
Shellous.Props.C33_partial depends on axioms: [propext, Classical.choice, Quot.sound]
Shellous.Props.C33_killed_partial depends on axioms: [propext, Classical.choice, Quot.sound]
Shellous.Props.C33_result depends on axioms: [propext, Classical.choice, Quot.sound]
Shellous.Props.C33_kill_cancelled_false depends on axioms: [propext, Classical.choice, Quot.sound]
Shellous.Props.C33_launch_cancelled_false depends on axioms: [propext, Classical.choice, Quot.sound]
Shellous.Props.C34_escalation depends on axioms: [propext, Classical.choice, Quot.sound]
Shellous.Props.C34_announced depends on axioms: [propext, Quot.sound]
Shellous.Props.C34_not_after_exit depends on axioms: [propext, Classical.choice, Quot.sound]
Shellous.Props.C34_not_after_exit_later depends on axioms: [propext, Classical.choice, Quot.sound]
Shellous.Props.C34_normal_end depends on axioms: [propext, Classical.choice, Quot.sound]
Shellous.Props.C34_close_kill depends on axioms: [propext, Classical.choice, Quot.sound]
Shellous.Props.C34_close_kill_false depends on axioms: [propext, Classical.choice, Quot.sound]
Shellous.Props.C35_disarmed depends on axioms: [propext, Classical.choice, Quot.sound]
Shellous.Props.C35_no_timeout depends on axioms: [propext, Classical.choice, Quot.sound]
Shellous.Props.C35_fired depends on axioms: [propext, Classical.choice, Quot.sound]
Shellous.Props.C35_swallowed_false depends on axioms: [propext, Classical.choice, Quot.sound]
Shellous.Props.C35_source depends on axioms: [propext, Classical.choice, Quot.sound]
Shellous.Props.C36_explained depends on axioms: [propext, Classical.choice, Quot.sound]
Shellous.Props.C36_await_partial depends on axioms: [propext, Classical.choice, Quot.sound]
Shellous.Props.C36_catch depends on axioms: [propext, Classical.choice, Quot.sound]
Shellous.Props.C36_close_timeout_false depends on axioms: [propext, Classical.choice, Quot.sound]
Shellous.Props.C36_with_block_false depends on axioms: [propext, Classical.choice, Quot.sound]
Shellous.Props.C37_partial depends on axioms: [propext, Classical.choice, Quot.sound]
Shellous.Props.C37_cancels_false depends on axioms: [propext, Classical.choice, Quot.sound]
Shellous.Props.C37_gave_up_false depends on axioms: [propext, Classical.choice, Quot.sound]
Shellous.Props.C38_reported depends on axioms: [propext, Classical.choice, Quot.sound]
Shellous.Props.C38_no_failure depends on axioms: [propext, Classical.choice, Quot.sound]
Shellous.Props.C39_nothing depends on axioms: [propext, Classical.choice, Quot.sound]
Shellous.Props.C39_error depends on axioms: [propext, Classical.choice, Quot.sound]
Shellous.Props.C39_setup depends on axioms: [propext]
Shellous.Props.C40_over depends on axioms: [propext, Classical.choice, Quot.sound]
Shellous.Props.C40_completes_partial depends on axioms: [propext, Classical.choice, Quot.sound]
Shellous.Props.C40_ended_partial depends on axioms: [propext, Classical.choice, Quot.sound]
Shellous.Props.C40_completes_false depends on axioms: [propext, Classical.choice, Quot.sound]
Shellous.Props.C40_ended_false depends on axioms: [propext, Classical.choice, Quot.sound]
Shellous.C41_closed_exactly_once depends on axioms: [propext, Classical.choice, Quot.sound]
Shellous.C41_concurrent_launches depends on axioms: [propext, Classical.choice, Quot.sound]
Shellous.C41_kept_never_closed depends on axioms: [propext, Classical.choice, Quot.sound]
Shellous.C41_file_object_false depends on axioms: [propext, Classical.choice, Quot.sound]
Shellous.C41_overridden_redirect_false depends on axioms: [propext, Classical.choice, Quot.sound]
Shellous.C41_shared_descriptor_false depends on axioms: [propext, Classical.choice, Quot.sound]
Shellous.C42_setup_failure_exact depends on axioms: [propext, Classical.choice, Quot.sound]
Shellous.C42_setup_failure_partial depends on axioms: [propext, Classical.choice, Quot.sound]
Shellous.C42_process_substitution_false depends on axioms: [propext, Classical.choice, Quot.sound]
Shellous.C42_path_false depends on axioms: [propext, Classical.choice, Quot.sound]
Shellous.C42_pty_false depends on axioms: [propext, Classical.choice, Quot.sound]
Shellous.C42_writable_pipeline_false depends on axioms: [propext, Classical.choice, Quot.sound]
Shellous.C42_spawn_failure_partial depends on axioms: [propext, Classical.choice, Quot.sound]
Shellous.C42_spawn_pty_false depends on axioms: [propext, Classical.choice, Quot.sound]
Shellous.C42_pipeline_setup_failure depends on axioms: [propext, Classical.choice, Quot.sound]
Shellous.C42_pipeline_owned_false depends on axioms: [propext, Classical.choice, Quot.sound]
Shellous.C42_pipeline_cancelled_partial depends on axioms: [propext, Classical.choice, Quot.sound]
Shellous.C42_pipeline_cancelled_twice_false depends on axioms: [propext, Classical.choice, Quot.sound]
Shellous.C42_pipeline_cancelled_foreign_false depends on axioms: [propext, Classical.choice, Quot.sound]
Shellous.C43_process_substitution depends on axioms: [propext, Classical.choice, Quot.sound]
Shellous.C44_close_fds depends on axioms: [propext, Classical.choice, Quot.sound]
Shellous.C44_object_close_raises_false depends on axioms: [propext, Quot.sound]
Shellous.C45_head_to_tail depends on axioms: [propext, Classical.choice, Quot.sound]
Shellous.Props.C46_completes depends on axioms: [propext, Classical.choice, Quot.sound]
Shellous.Props.C46_gave_up_false depends on axioms: [propext, Classical.choice, Quot.sound]
Shellous.Props.C46_two_cancels_false depends on axioms: [propext, Classical.choice, Quot.sound]
Shellous.Props.C46_swallowed_false depends on axioms: [propext, Classical.choice, Quot.sound]
Shellous.Props.C46_assertion_false depends on axioms: [propext, Classical.choice, Quot.sound]
Shellous.Props.C46_await_outcome depends on axioms: [propext, Classical.choice, Quot.sound]
Shellous.Props.C46_block_outcome depends on axioms: [propext, Classical.choice, Quot.sound]
Shellous.Props.C46_done_partial depends on axioms: [propext, Classical.choice, Quot.sound]
Shellous.Props.C46_cancelled_asked depends on axioms: [propext, Classical.choice, Quot.sound]
Shellous.Props.C46_failure_asked depends on axioms: [propext, Classical.choice, Quot.sound]
Shellous.Props.C47_hangs_false depends on axioms: [propext, Classical.choice, Quot.sound]
Shellous.Props.C47_enters_partial depends on axioms: [propext, Classical.choice, Quot.sound]
Shellous.Props.C47_not_raised_false depends on axioms: [propext, Classical.choice, Quot.sound]
Shellous.Props.C47_middle_false depends on axioms: [propext, Classical.choice, Quot.sound]
Shellous.Props.C47_setup_masked_false depends on axioms: [propext, Classical.choice, Quot.sound]
Shellous.Props.C48_exact_account depends on axioms: [propext, Classical.choice, Quot.sound]
Shellous.Props.C48_text_preserved_partial depends on axioms: [propext, Classical.choice, Quot.sound]
Shellous.Props.C48_cancel_race_false depends on axioms: [propext, Quot.sound]
Shellous.Props.C48_decode_error_false depends on axioms: [propext, Quot.sound]
Shellous.Props.C49_first_occurrence depends on axioms: [propext, Classical.choice, Quot.sound]
Shellous.Props.C49_any_schedule depends on axioms: [propext, Classical.choice, Quot.sound]
Shellous.Props.C50_first_of_list_partial depends on axioms: [propext, Classical.choice, Quot.sound]
Shellous.Props.C50_in_received_text depends on axioms: [propext, Classical.choice, Quot.sound]
Shellous.Props.C50_chunking_false depends on axioms: [propext, Quot.sound]
Shellous.Props.C50_stable_regex depends on axioms: [propext, Classical.choice, Quot.sound]
Shellous.Props.C51_expect_failure_keeps_text depends on axioms: [propext, Classical.choice, Quot.sound]
Shellous.Props.C51_expect_cancelled_keeps_text_partial depends on axioms: [propext, Classical.choice, Quot.sound]
Shellous.Props.C51_read_all_failure_keeps_text depends on axioms: [propext, Classical.choice, Quot.sound]
Shellous.Props.C51_after_eof depends on axioms: [propext, Quot.sound]
Shellous.Props.C51_cancel_race_false depends on axioms: [propext, Quot.sound]
Shellous.Props.C51_expect_reason depends on axioms: [propext, Quot.sound]
Shellous.Props.C51_expect_cancelled depends on axioms: [propext, Quot.sound]
Shellous.Props.C51_expect_times_out depends on axioms: [propext, Quot.sound]
Shellous.Props.C51_read_all_reason depends on axioms: [propext, Quot.sound]
Shellous.Props.C51_read_all_cancelled depends on axioms: [propext, Quot.sound]
Shellous.Props.C51_at_eof depends on axioms: [propext, Quot.sound]
Shellous.Props.C52_newline_normalisation depends on axioms: [propext, Quot.sound]
Shellous.Props.C53_incremental_decoding depends on axioms: [propext, Quot.sound]
Shellous.Props.C53_any_codec depends on axioms: [propext, Quot.sound]
Shellous.Props.C53_roundtrip depends on axioms: [propext, Classical.choice, Quot.sound]
Shellous.Props.C53_prefix depends on axioms: [propext, Quot.sound]
Shellous.Props.C53_error_handlers depends on axioms: [propext, Quot.sound]
Shellous.Props.C53_roundtrip_any depends on axioms: [propext, Quot.sound]
Shellous.Props.C53_strict_sound depends on axioms: [propext, Quot.sound]
Shellous.Props.C54_send_interrupted depends on axioms: [propext, Quot.sound]
Shellous.Props.C54_close depends on axioms: [propext, Quot.sound]
Shellous.Props.C54_send_writes_exactly depends on axioms: [propext, Quot.sound]
Shellous.Props.C54_any_encoding depends on axioms: [propext, Quot.sound]
Shellous.Props.C54_session_writes_in_order depends on axioms: [propext, Quot.sound]
Shellous.Props.C54_command_writes_exactly depends on axioms: [propext, Quot.sound]
Shellous.Props.C54_failure_reported_partial depends on axioms: [propext, Quot.sound]
Shellous.Props.C54_drain_error_false depends on axioms: [propext, Quot.sound]
Shellous.Props.C55_waits_for_echo_off depends on axioms: [propext, Quot.sound]
Shellous.Props.C55_echo_stays_on depends on axioms: [propext, Quot.sound]
Shellous.Props.C55_secrets_not_logged depends on axioms: [propext, Quot.sound]
Shellous.Props.C56_pipe_session depends on axioms: [propext, Classical.choice, Quot.sound]
Shellous.Props.C56_pipe_inside depends on axioms: [propext, Classical.choice, Quot.sound]
Shellous.Props.C56_pipe_after_partial depends on axioms: [propext, Classical.choice, Quot.sound]
Shellous.Props.C56_pipe_lost_false depends on axioms: [propext, Classical.choice, Quot.sound]
Shellous.Props.C56_session depends on axioms: [propext, Classical.choice, Quot.sound]
Shellous.Props.C56_inside depends on axioms: [propext, Classical.choice, Quot.sound]
Shellous.Props.C56_after_partial depends on axioms: [propext, Classical.choice, Quot.sound]
Shellous.Props.C56_no_cli depends on axioms: [propext, Classical.choice, Quot.sound]
Shellous.Props.C56_undead_false depends on axioms: [propext, Classical.choice, Quot.sound]
Shellous.Props.C57_exit depends on axioms: [propext, Classical.choice, Quot.sound]
Shellous.Props.C57_matching depends on axioms: [propext, Classical.choice, Quot.sound]
Shellous.Props.C57_stray depends on axioms: [propext, Classical.choice, Quot.sound]
Shellous.Props.C57_isolated depends on axioms: [propext, Classical.choice, Quot.sound]
Shellous.Props.C57_no_bookkeeping depends on axioms: [propext, Classical.choice, Quot.sound]
Shellous.Props.C57_limit_stray_exit depends on axioms: [propext, Quot.sound]
Shellous.Props.C57_limit_address_reuse depends on axioms: [propext, Quot.sound]
Shellous.Props.C57_limit_other_task depends on axioms: [propext, Quot.sound]
Shellous.Props.C58_at_most_once depends on axioms: [propext, Classical.choice, Quot.sound]
Shellous.Props.C58_after_exit depends on axioms: [propext, Classical.choice, Quot.sound]
Shellous.Props.C58_status depends on axioms: [propext, Classical.choice, Quot.sound]
Shellous.Props.C58_decode_exited depends on axioms: [propext, Quot.sound]
Shellous.Props.C58_decode_signaled depends on axioms: [propext, Quot.sound]
Shellous.Props.C58_reaped depends on axioms: [propext, Classical.choice, Quot.sound]
Shellous.Props.C58_thread_lives depends on axioms: [propext, Classical.choice, Quot.sound]
Shellous.Props.C58_not_lost depends on axioms: [propext, Classical.choice, Quot.sound]
Shellous.Props.C58_eventually depends on axioms: [propext, Classical.choice, Quot.sound]
Shellous.Props.C58_limit_reaped_elsewhere depends on axioms: [propext, Quot.sound]
Shellous.Props.C58_limit_reused_pid depends on axioms: [propext, Quot.sound]
Shellous.Props.C58_limit_callback_raises depends on axioms: [propext, Classical.choice, Quot.sound]
Shellous.Props.C59_one depends on axioms: [propext, Classical.choice, Quot.sound]
Shellous.Props.C59_no_error depends on axioms: [propext, Classical.choice, Quot.sound]
Shellous.Props.C59_bound depends on axioms: [propext, Classical.choice, Quot.sound]
Shellous.Props.C59_one_open depends on axioms: [propext, Classical.choice, Quot.sound]
Shellous.Props.C59_closed_once depends on axioms: [propext, Classical.choice, Quot.sound]
Shellous.Props.C59_all_closed depends on axioms: [propext, Classical.choice, Quot.sound]
Shellous.Props.C59_error_needs_close depends on axioms: [propext, Classical.choice, Quot.sound]
Shellous.Props.C59_watch_current depends on axioms: [propext, Classical.choice, Quot.sound]
Shellous.Props.C59_no_deadlock depends on axioms: [propext, Classical.choice, Quot.sound]
Shellous.Props.C59_bounded depends on axioms: [propext, Classical.choice, Quot.sound]
Shellous.Props.C59_limit_assertion depends on axioms: [propext]
Shellous.Props.C59_limit_attribute depends on axioms: [propext]
Shellous.Props.C59_limit_watch_closed depends on axioms: [propext]
Shellous.Props.C60_set_echo depends on axioms: [propext, Classical.choice, Quot.sound]
Shellous.Props.C60_no_terminal depends on axioms: [propext, Quot.sound]
Shellous.Props.C60_eof_unchanged depends on axioms: [propext, Quot.sound]
Shellous.Props.C61_exit_signal_partial depends on axioms: [propext, Classical.choice, Quot.sound]
Shellous.Props.C61_realtime_false depends on axioms: [propext, Classical.choice, Quot.sound]
Shellous.Props.C62_success_partial depends on axioms: [propext, Classical.choice, Quot.sound]
Shellous.Props.C62_all_zero_partial depends on axioms: [propext, Classical.choice, Quot.sound]
Shellous.Props.C62_own_ignored_false depends on axioms: [propext, Classical.choice, Quot.sound]
Shellous.Props.C62_own_rejected_false depends on axioms: [propext, Classical.choice, Quot.sound]
Shellous.Props.C62_later_failure_false depends on axioms: [propext, Classical.choice, Quot.sound]
Shellous.Props.C63_logger_any depends on axioms: [propext, Classical.choice, Quot.sound]
Shellous.Props.C63_logger_complete_partial depends on axioms: [propext, Classical.choice, Quot.sound]
Shellous.Props.C63_logger_prefix depends on axioms: [propext, Classical.choice, Quot.sound]
Shellous.Props.C63_streamwriter depends on axioms: [propext, Quot.sound]
Shellous.Props.C63_streamwriter_interrupted depends on axioms: [propext, Quot.sound]
Shellous.Props.C64_closes_own depends on axioms: [propext, Classical.choice, Quot.sound]
Shellous.Props.C64_reported_closed depends on axioms: [propext, Classical.choice, Quot.sound]
Shellous.Props.C64_all_closed depends on axioms: [propext, Classical.choice, Quot.sound]
Shellous.Props.C64_pipe_cleared depends on axioms: [propext, Classical.choice, Quot.sound]
Shellous.Props.C64_writes_own depends on axioms: [propext, Classical.choice, Quot.sound]
Shellous.Props.C64_limit_stray_write depends on axioms: [propext, Quot.sound]
Shellous.Props.C64_limit_in_flight depends on axioms: [propext, Quot.sound]
Shellous.Props.C65_kills_its_child depends on axioms: [propext, Classical.choice, Quot.sound]
Shellous.Props.C65_kills_unwatched depends on axioms: [propext, Classical.choice, Quot.sound]
Shellous.Props.C65_failed_killed depends on axioms: [propext, Classical.choice, Quot.sound]
Shellous.Props.C66_at_most_once depends on axioms: [propext, Classical.choice, Quot.sound]
Shellous.Props.C66_after_exit depends on axioms: [propext, Classical.choice, Quot.sound]
Shellous.Props.C66_status depends on axioms: [propext, Classical.choice, Quot.sound]
Shellous.Props.C66_reaped depends on axioms: [propext, Classical.choice, Quot.sound]
Shellous.Props.C66_stale_entries depends on axioms: [propext, Classical.choice, Quot.sound]
Shellous.Props.C66_not_blocked depends on axioms: [propext, Classical.choice, Quot.sound]
Shellous.Props.C66_eventually depends on axioms: [propext, Classical.choice, Quot.sound]
Shellous.Props.C66_refused_partial depends on axioms: [propext, Classical.choice, Quot.sound]
Shellous.Props.C66_watch_false depends on axioms: [propext, Quot.sound]
Shellous.Props.C66_stale_false depends on axioms: [propext, Quot.sound]
Shellous.Props.C67_thread_ends depends on axioms: [propext, Classical.choice, Quot.sound]
Shellous.Props.C67_close_heard depends on axioms: [propext, Classical.choice, Quot.sound]
Shellous.Props.C68_close_ends depends on axioms: [propext, Classical.choice, Quot.sound]
Shellous.Props.C68_failed_eventually depends on axioms: [propext, Classical.choice, Quot.sound]
Shellous.Props.C68_limit_slow_death depends on axioms: [propext, Quot.sound]
Shellous.Props.C68_limit_reaped_elsewhere depends on axioms: [propext, Quot.sound]
Shellous.Props.C68_limit_watched_twice depends on axioms: [propext, Quot.sound]
Shellous.Props.C68_limit_callback_raises depends on axioms: [propext, Quot.sound]
Shellous.Props.C68_limit_register_raises depends on axioms: [propext, Quot.sound]
Shellous.Props.C68_at_most_once depends on axioms: [propext, Classical.choice, Quot.sound]
Shellous.Props.C68_after_exit depends on axioms: [propext, Classical.choice, Quot.sound]
Shellous.Props.C68_status depends on axioms: [propext, Classical.choice, Quot.sound]
Shellous.Props.C68_reaped depends on axioms: [propext, Classical.choice, Quot.sound]
Shellous.Props.C68_never_refused depends on axioms: [propext, Classical.choice, Quot.sound]
Shellous.Props.C68_not_lost depends on axioms: [propext, Classical.choice, Quot.sound]
Shellous.Props.C68_eventually depends on axioms: [propext, Classical.choice, Quot.sound]
Shellous.Props.C68_critical depends on axioms: [propext, Classical.choice, Quot.sound]
Shellous.Props.C68_failed_not_lost depends on axioms: [propext, Classical.choice, Quot.sound]
Shellous.Props.C68_thread_lives depends on axioms: [propext, Classical.choice, Quot.sound]
Shellous.Props.C69_copies_ended depends on axioms: [propext, Classical.choice, Quot.sound]
Shellous.Props.C69_block_copies_ended depends on axioms: [propext, Classical.choice, Quot.sound]
Shellous.Props.C69_stdout depends on axioms: [propext, Classical.choice, Quot.sound]
Shellous.Props.C69_stderr_only depends on axioms: [propext, Classical.choice, Quot.sound]
Shellous.Props.C69_stderr depends on axioms: [propext, Classical.choice, Quot.sound]
Shellous.Props.C69_stdin depends on axioms: [propext, Classical.choice, Quot.sound]
Shellous.Props.C69_bytesIO depends on axioms: [propext, Classical.choice, Quot.sound]
Shellous.Props.C69_bytearray depends on axioms: [propext, Classical.choice, Quot.sound]
Shellous.Props.C69_stringIO depends on axioms: [propext, Classical.choice, Quot.sound]
Shellous.Props.C69_elsewhere depends on axioms: [propext, Classical.choice, Quot.sound]
Shellous.Props.C69_timeout_false depends on axioms: [propext, Classical.choice, Quot.sound]
Shellous.Props.C69_logger depends on axioms: [propext, Classical.choice, Quot.sound]
Shellous.Props.C69_streamWriter depends on axioms: [propext, Classical.choice, Quot.sound]
Shellous.Props.C69_reader depends on axioms: [propext, Classical.choice, Quot.sound]
Shellous.Props.C69_pty_stdin depends on axioms: [propext, Classical.choice, Quot.sound]
Shellous.Props.C70_complete_partial depends on axioms: [propext, Classical.choice, Quot.sound]
Shellous.Props.C70_timeout depends on axioms: [propext, Classical.choice, Quot.sound]
Shellous.Props.C70_prefix depends on axioms: [propext, Classical.choice, Quot.sound]
Shellous.Props.C70_run_ended depends on axioms: [propext, Classical.choice, Quot.sound]
Shellous.Props.C70_child_partial depends on axioms: [propext, Classical.choice, Quot.sound]
Shellous.Props.C70_audits depends on axioms: [propext, Classical.choice, Quot.sound]
Shellous.Props.C70_stdout_partial depends on axioms: [propext, Classical.choice, Quot.sound]
Shellous.Props.C70_stderr_partial depends on axioms: [propext, Classical.choice, Quot.sound]
Shellous.Props.C70_redirected depends on axioms: [propext, Classical.choice, Quot.sound]
Shellous.Props.C70_pipe_complete_partial depends on axioms: [propext, Classical.choice, Quot.sound]
Shellous.Props.C70_pipe_prefix depends on axioms: [propext, Classical.choice, Quot.sound]
Shellous.Props.C70_status_false depends on axioms: [propext, Classical.choice, Quot.sound]
Shellous.Props.C70_cancelled_false depends on axioms: [propext, Classical.choice, Quot.sound]
Shellous.Props.C70_timeout_false depends on axioms: [propext, Classical.choice, Quot.sound]
Shellous.Props.C70_pipe_status_false depends on axioms: [propext, Classical.choice, Quot.sound]
Shellous.Props.C70_pipe_cancelled_false depends on axioms: [propext, Classical.choice, Quot.sound]
Shellous.Props.C71_all_succeeded depends on axioms: [propext, Classical.choice, Quot.sound]
Shellous.Props.C71_output depends on axioms: [propext, Classical.choice, Quot.sound]
Shellous.Props.C71_timeout_false depends on axioms: [propext, Classical.choice, Quot.sound]
Shellous.Props.C71_exit_codes_false depends on axioms: [propext, Classical.choice, Quot.sound]
Shellous.Props.C72_raw depends on axioms: [propext, Classical.choice, Quot.sound]
Shellous.Props.C72_cbreak depends on axioms: [propext, Classical.choice, Quot.sound]
Shellous.Props.C72_cooked depends on axioms: [propext, Classical.choice, Quot.sound]
Shellous.Props.C72_bad_size depends on axioms: [propext, Classical.choice, Quot.sound]
Shellous.Props.C72_cooked_input depends on axioms: [propext, Classical.choice, Quot.sound]
Shellous.Props.C72_raw_input depends on axioms: [propext, Classical.choice, Quot.sound]
Shellous.Props.C72_output_end depends on axioms: [propext, Quot.sound]
Shellous.Props.C72_output_complete depends on axioms: [propext, Quot.sound]
Shellous.Props.C72_output_error depends on axioms: [propext, Quot.sound]
Shellous.Props.Time.C73_no_limit depends on axioms: [propext, Quot.sound]
Shellous.Props.Time.C73_limit_partial depends on axioms: [propext, Quot.sound]
Shellous.Props.Time.C73_echo_wait_false depends on axioms: [propext, Quot.sound]
Shellous.Props.Time.C73_zero_false depends on axioms: [propext, Classical.choice, Quot.sound]
Shellous.Props.C74_journal depends on axioms: [propext, Quot.sound]
Shellous.Props.Time.C74_transparent depends on axioms: [propext, Quot.sound]
Shellous.Props.Time.C74_off depends on axioms: [propext, Quot.sound]
Shellous.Props.C75_silent depends on axioms: [propext, Classical.choice, Quot.sound]
Shellous.Props.C75_start depends on axioms: [propext]
Shellous.Props.C75_stop depends on axioms: [propext, Quot.sound]
Shellous.Props.C75_child_partial depends on axioms: [propext, Classical.choice, Quot.sound]
Shellous.Props.C75_signal_false depends on axioms: [propext, Classical.choice, Quot.sound]
Shellous.Props.C75_launch_false depends on axioms: [propext, Classical.choice, Quot.sound]
Shellous.Props.C76_await depends on axioms: [propext, Classical.choice, Quot.sound]
Shellous.Props.C76_block depends on axioms: [propext, Classical.choice, Quot.sound]
Shellous.Props.C77_await depends on axioms: [propext, Classical.choice, Quot.sound]
Shellous.Props.C77_block depends on axioms: [propext, Classical.choice, Quot.sound]
Shellous.Props.C77_timeout_bsd depends on axioms: [propext, Classical.choice, Quot.sound]
Shellous.Props.C77_timeout depends on axioms: [propext, Classical.choice, Quot.sound]
Shellous.Props.C77_timeout_false depends on axioms: [propext, Classical.choice, Quot.sound]
Shellous.Props.C78_await depends on axioms: [propext, Classical.choice, Quot.sound]
Shellous.Props.C78_await_cancelled depends on axioms: [propext, Classical.choice, Quot.sound]
Shellous.Props.C78_await_failed depends on axioms: [propext, Classical.choice, Quot.sound]
Shellous.Props.C78_block depends on axioms: [propext, Classical.choice, Quot.sound]
Shellous.Props.C78_block_cancelled depends on axioms: [propext, Classical.choice, Quot.sound]
Shellous.Props.C79_iter depends on axioms: [propext, Classical.choice, Quot.sound]
Shellous.Props.C79_iter_cancelled depends on axioms: [propext, Classical.choice, Quot.sound]
Shellous.Props.C79_pipe depends on axioms: [propext, Classical.choice, Quot.sound]
Shellous.Props.C79_pipe_cancelled depends on axioms: [propext, Classical.choice, Quot.sound]
Shellous.Props.C80_launch depends on axioms: [propext, Classical.choice, Quot.sound]
Shellous.Props.C80_await depends on axioms: [propext, Classical.choice, Quot.sound]
Shellous.Props.C80_iter depends on axioms: [propext, Classical.choice, Quot.sound]
Shellous.Props.C80_pipeline depends on axioms: [propext, Classical.choice, Quot.sound]
Shellous.Props.C80_pipeline_captured depends on axioms: [propext, Classical.choice, Quot.sound]
Shellous.PtyFds.C81_only_ours depends on axioms: [propext, Classical.choice, Quot.sound]
Shellous.PtyFds.C81_released depends on axioms: [propext, Classical.choice, Quot.sound]
Shellous.PtyFds.C81_flushed depends on axioms: [propext, Classical.choice, Quot.sound]
Shellous.PtyFds.C81_child_released depends on axioms: [propext, Classical.choice, Quot.sound]
Shellous.PtyFds.C81_given depends on axioms: [propext, Classical.choice, Quot.sound]
Shellous.PtyFds.C81_linux depends on axioms: [propext, Classical.choice, Quot.sound]
Shellous.PtyFds.C81_failed depends on axioms: [propext, Classical.choice, Quot.sound]
Shellous.PtyFds.C81_failed_parent_false depends on axioms: [propext]
Shellous.PtyFds.C81_bsd depends on axioms: [propext, Classical.choice, Quot.sound]
Shellous.PtyFds.C81_freebsd depends on axioms: [propext, Classical.choice, Quot.sound]
Shellous.PtyFds.C81_timer_stopped depends on axioms: [propext, Classical.choice, Quot.sound]
Shellous.PtyFds.C81_reader_partial depends on axioms: [propext, Classical.choice, Quot.sound]
Shellous.PtyFds.C81_hangup depends on axioms: [propext, Classical.choice, Quot.sound]
Shellous.PtyFds.C81_timer_once depends on axioms: [propext, Classical.choice, Quot.sound]
Shellous.PtyFds.C81_reader_false depends on axioms: [propext]
Shellous.PtyFds.C81_given_false depends on axioms: [propext]
Shellous.PtyFds.C81_pending_false depends on axioms: [propext]
Shellous.Props.C82_regex depends on axioms: [propext, Classical.choice, Quot.sound]
Shellous.Props.C82_list depends on axioms: [propext, Classical.choice, Quot.sound]
Shellous.Props.C82_found depends on axioms: [propext, Classical.choice, Quot.sound]
Shellous.Props.C82_pending depends on axioms: [propext, Quot.sound]
Shellous.Props.C82_waits depends on axioms: [propext, Classical.choice, Quot.sound]
Shellous.Props.C82_read_all depends on axioms: [propext, Classical.choice, Quot.sound]
Shellous.Props.C83_block_partial depends on axioms: [propext, Classical.choice, Quot.sound]
Shellous.Props.C83_block depends on axioms: [propext, Classical.choice, Quot.sound]
Shellous.Props.C83_block_cancelled depends on axioms: [propext, Classical.choice, Quot.sound]
Shellous.Props.C83_pipe_partial depends on axioms: [propext, Classical.choice, Quot.sound]
Shellous.Props.C83_swallowed_false depends on axioms: [propext, Classical.choice, Quot.sound]
Shellous.Props.C83_replaced_false depends on axioms: [propext, Classical.choice, Quot.sound]
Shellous.Props.C83_pipe_swallowed_false depends on axioms: [propext, Classical.choice, Quot.sound]
Shellous.Ign.C84_others depends on axioms: [propext, Classical.choice, Quot.sound]
Shellous.Ign.C84_patched depends on axioms: [propext, Classical.choice, Quot.sound]
Shellous.Ign.C84_one_party_partial depends on axioms: [propext, Classical.choice, Quot.sound]
Shellous.Ign.C84_once_partial depends on axioms: [propext, Classical.choice, Quot.sound]
Shellous.Ign.C84_once_false depends on axioms: [propext]
Shellous.Ign.C84_untouched depends on axioms: [propext, Quot.sound]
Shellous.Ign.C84_one_party_false depends on axioms: [propext, Classical.choice, Quot.sound]
Shellous.Flow.C85_no_deadlock depends on axioms: [propext, Classical.choice, Quot.sound]
Shellous.Flow.C85_ends depends on axioms: [propext, Classical.choice, Quot.sound]
Shellous.Flow.C85_completes depends on axioms: [propext, Classical.choice, Quot.sound]
Shellous.Flow.C86_prefix depends on axioms: [propext, Classical.choice, Quot.sound]
Shellous.Flow.C86_output depends on axioms: [propext, Classical.choice, Quot.sound]
Shellous.Flow.C86_deterministic depends on axioms: [propext, Classical.choice, Quot.sound]
Shellous.Flow.C86_compose depends on axioms: [propext, Classical.choice, Quot.sound]
Shellous.Find.C87_which depends on axioms: [propext, Quot.sound]
Shellous.Find.C87_empty depends on axioms: [propext]
Shellous.Find.C87_direct depends on axioms: [propext]
Shellous.Find.C87_launch_partial depends on axioms: [propext, Quot.sound]
Shellous.Find.C87_launch_false depends on axioms: [propext, Quot.sound]
Shellous.Find.C87_find depends on axioms: [propext, Quot.sound]
Shellous.Find.C87_find_run_partial depends on axioms: [propext, Quot.sound]
Shellous.Find.C87_find_run depends on axioms: [propext, Quot.sound]
Shellous.Find.C87_find_run_false depends on axioms: [propext]
Shellous.Subst.C88_no_deadlock depends on axioms: [propext, Quot.sound]
Shellous.Props.C89_options depends on axioms: [propext, Classical.choice, Quot.sound]
Shellous.Props.C89_child depends on axioms: [propext, Classical.choice, Quot.sound]
Shellous.Props.C89_exclusive depends on axioms: [propext, Classical.choice, Quot.sound]
Shellous.Trace.C90_coroutine depends on axioms: [propext]
Shellous.Trace.C90_generator_partial depends on axioms: [propext]
Shellous.Trace.C90_iteration depends on axioms: [propext]
Shellous.Trace.C90_read_lines depends on axioms: [propext]
Shellous.Trace.C90_paired depends on axioms: [propext, Classical.choice, Quot.sound]
Shellous.Trace.C90_brackets depends on axioms: [propext, Quot.sound]
Shellous.Trace.C90_generator_false depends on axioms: [propext]
Shellous.Trace.C90_message_false depends on axioms: [propext]
Shellous.Props.C91_in_order depends on axioms: [propext, Classical.choice, Quot.sound]
Shellous.Props.C91_nth depends on axioms: [propext, Classical.choice, Quot.sound]
Shellous.Props.C91_waits depends on axioms: [propext, Classical.choice, Quot.sound]
Shellous.Props.C91_late_answer depends on axioms: [propext, Quot.sound]
Shellous.Subst.C92_deterministic depends on axioms: [propext, Classical.choice, Quot.sound]
Shellous.Subst.C92_ends depends on axioms: [propext, Classical.choice, Quot.sound]
Shellous.Subst.C92_patient depends on axioms: [propext, Quot.sound]
Shellous.Subst.C92_unread depends on axioms: [propext]
Shellous.C93_one_child depends on axioms: [propext, Classical.choice, Quot.sound]
Shellous.C93_pipe_ends depends on axioms: [propext, Classical.choice, Quot.sound]
Shellous.C93_end_of_file depends on axioms: [propext, Classical.choice, Quot.sound]
Shellous.C93_two_processes depends on axioms: [propext, Classical.choice, Quot.sound]
Shellous.Props.C94_session depends on axioms: [propext, Classical.choice, Quot.sound]
Shellous.Props.C94_session_failed depends on axioms: [propext, Classical.choice, Quot.sound]
Shellous.Props.C94_pipe depends on axioms: [propext, Classical.choice, Quot.sound]
Shellous.Props.C94_pipe_cancelled depends on axioms: [propext, Classical.choice, Quot.sound]
Shellous.Props.SendFlow.C95_intact depends on axioms: [propext, Quot.sound]
Shellous.Props.SendFlow.C95_no_deadlock depends on axioms: [propext, Classical.choice, Quot.sound]
Shellous.Props.SendFlow.C95_ends depends on axioms: [propext, Classical.choice, Quot.sound]
Shellous.Props.SendFlow.C95_gone depends on axioms: [propext, Quot.sound]
Shellous.Props.SendFlow.C95_completes depends on axioms: [propext, Classical.choice, Quot.sound]
Shellous.Props.SendFlow.C95_expect depends on axioms: [propext, Quot.sound]
Shellous.Props.SendFlow.C95_rests depends on axioms: [propext, Classical.choice, Quot.sound]
Shellous.Props.SendFlow.C95_decodable_needed depends on axioms: [propext, Quot.sound] 