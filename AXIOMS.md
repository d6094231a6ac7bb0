# Axioms of every theorem in MANIFEST.json

(`#print axioms`, written by tools/axioms.py)

| theorem | axioms |
|---|---|
| C01_dependency_order | propext, Classical.choice, Quot.sound |
| C02_started_once_partial | propext, Classical.choice, Quot.sound |
| C02_single_run_partial | propext, Classical.choice, Quot.sound |
| C02_roots_single_run_partial | propext, Classical.choice, Quot.sound |
| C02_exactly_these | propext, Classical.choice, Quot.sound |
| C02_refuted | propext |
| C03_result_completeness | propext, Classical.choice, Quot.sound |
| C04_workflow_outcome | propext, Classical.choice, Quot.sound |
| C05_dependents_run_anyway | propext, Classical.choice, Quot.sound |
| C06_no_infinite_schedule | propext, Classical.choice, Quot.sound |
| C06_acyclic_returns_partial | propext, Classical.choice, Quot.sound |
| C06_parsed_workflows | propext, Classical.choice, Quot.sound |
| C06_returns_exactly_acyclic | propext, Classical.choice, Quot.sound |
| C06_refuted | propext, Classical.choice, Quot.sound |
| C07_workflow_bracket | propext, Classical.choice, Quot.sound |
| C08_skipped_workflow | propext, Classical.choice, Quot.sound |
| C09_independent_jobs_start_at_once | propext, Classical.choice, Quot.sound |
| C10_one_result_per_step | propext, Classical.choice, Quot.sound |
| C11_failure_skips | propext, Classical.choice, Quot.sound |
| C12_cancel_skips | propext, Classical.choice, Quot.sound |
| C13_job_outcome | propext, Classical.choice, Quot.sound |
| C13_skipped_job | propext |
| C14_event_bracket | propext, Classical.choice, Quot.sound |
| C14_every_schedule_is_sequential | propext, Classical.choice, Quot.sound |
| C14_progress | propext, Quot.sound |
| C15_runner_calls | propext, Classical.choice, Quot.sound |
| C16_step_life_cycle | propext, Quot.sound |
| C17_logs_complete | propext, Classical.choice, Quot.sound |
| C17_logs_in_order | propext, Classical.choice, Quot.sound |
| C18_exit_code_mapping | propext, Quot.sound |
| C19_silent_step_partial | propext |
| C19_refuted | propext, Quot.sound |
| C20_timeout_only_after_idle_period | propext, Classical.choice, Quot.sound |
| C20_idle_step_is_signalled | propext, Classical.choice, Quot.sound |
| C21_cancel_semantics | propext, Classical.choice, Quot.sound |
| C21_cancel_interrupted | propext, Quot.sound |
| C22_cancel_partial | propext, Classical.choice, Quot.sound |
| C22_refuted | propext |
| C23_cancel_forwarded_once | propext, Classical.choice, Quot.sound |
| C23_cancelled_step_ends_job | propext, Classical.choice, Quot.sound |
| C24_first_write_wins | propext |
| C25_delivered_at_most_once | propext, Quot.sound |
| C25_delivered_to_next_poll | propext, Classical.choice, Quot.sound |
| C26_no_lost_wakeup | propext, Quot.sound |
| C27_exactly_once_fifo | propext, Classical.choice, Quot.sound |
| C27_complete_at_end | propext, Classical.choice, Quot.sound |
| C28_no_lost_wakeup | propext, Classical.choice, Quot.sound |
| C29_result_write_once_partial | propext, Quot.sound |
| C29_sequential_first_end_wins | propext |
| C29_refuted | propext |
| C30_condition_semantics | propext, Classical.choice, Quot.sound |
| C31_invalid_glob | propext, Classical.choice, Quot.sound |
| C31_no_changed_files | propext |
| C32_fail_open | propext, Classical.choice, Quot.sound |
| C32_otherwise_evaluated | propext, Classical.choice, Quot.sound |
| C33_lookup_until_success | propext, Classical.choice, Quot.sound |
| C33_no_success | propext, Classical.choice, Quot.sound |
| C33_no_context | propext |
| C34_validator_decision | propext, Classical.choice, Quot.sound |
| C35_all_dependent_rejected_partial | propext, Classical.choice, Quot.sound |
| C35_refuted | propext, Classical.choice, Quot.sound |
| C36_parsed_identifiers | propext, Quot.sound |
| C37_expansion_order | propext, Classical.choice, Quot.sound |
| C38_workflow_fields | propext, Quot.sound |
| C38_defaults | propext, Classical.choice, Quot.sound |
| C39_action_resolution | propext, Classical.choice, Quot.sound |
| C39_parse_succeeds_iff | propext, Classical.choice, Quot.sound |
| C39_parse_error | propext, Classical.choice, Quot.sound |
| C39_build | propext, Classical.choice, Quot.sound |
| C40_parse_print | propext, Classical.choice, Quot.sound |
| C40_parse_exact | propext, Classical.choice, Quot.sound |
| C40_print_injective | propext, Classical.choice, Quot.sound |
| C40_slash_collision | propext, Classical.choice, Quot.sound |
| C41_step_command | propext |
| C42_every_observer_every_notification | propext, Quot.sound |
| C42_seen_by | propext, Classical.choice, Quot.sound |
| C43_before_step_rewriting | propext, Quot.sound |
| C44_capability_partial | propext, Classical.choice, Quot.sound |
| C44_refuted | propext, Classical.choice, Quot.sound |
| C45_least_loaded | propext, Classical.choice, Quot.sound |
| C45_fewest_running | propext, Classical.choice, Quot.sound |
| C46_job_affinity | propext, Classical.choice, Quot.sound |
| C47_finds_iff_one_fits | propext, Classical.choice, Quot.sound |
| C47_calls_finish | propext, Classical.choice, Quot.sound |
| C48_load_accounting | propext, Classical.choice, Quot.sound |
| C48_leak_when_rescheduled | propext, Classical.choice, Quot.sound |
| C49_refuted | propext, Classical.choice, Quot.sound |
| C49_limit_ignored | propext, Classical.choice, Quot.sound |
| C50_one_result | propext, Classical.choice, Quot.sound |
| C50_result_is_final | propext, Classical.choice, Quot.sound |
| C50_ends_after_the_stream | propext, Classical.choice, Quot.sound |
| C50_dispatch | propext, Classical.choice, Quot.sound |
| C51_logs_preserved | propext, Classical.choice, Quot.sound |
| C52_refuted | propext, Classical.choice, Quot.sound |
| C52_load_never_released | propext, Classical.choice, Quot.sound |
| C53_in_order_partial | propext, Classical.choice, Quot.sound |
| C53_refuted | propext, Classical.choice, Quot.sound |
| C54_client_sends_own_signal | propext, Classical.choice, Quot.sound |
| C54_only_own_step | propext, Classical.choice, Quot.sound |
| C54_delivered | propext, Classical.choice, Quot.sound |
| C54_unknown_ignored | propext, Quot.sound |
| C55_registration | propext, Classical.choice, Quot.sound |
| C56_remote_hook | propext |
| C56_server_hook | propext, Quot.sound |
| C57_json_grammar | propext, Classical.choice, Quot.sound |
| C57_received | propext, Classical.choice, Quot.sound |
| C57_unambiguous | propext, Classical.choice, Quot.sound |
| C57_json_text | propext, Classical.choice, Quot.sound |
| C57_event_bytes_partial | propext, Classical.choice, Quot.sound |
| C57_context_bytes_partial | propext, Classical.choice, Quot.sound |
| C57_command_bytes_partial | propext, Classical.choice, Quot.sound |
| C57_response_bytes | propext, Classical.choice, Quot.sound |
| C57_metadata_bytes | propext, Classical.choice, Quot.sound |
| C57_deep_refuted | propext, Classical.choice, Quot.sound |
| C57_truncated | propext, Classical.choice, Quot.sound |
| C57_truncated_messages | propext, Classical.choice, Quot.sound |
| C57_event_partial | propext, Classical.choice, Quot.sound |
| C57_context_partial | propext, Classical.choice, Quot.sound |
| C57_command_partial | propext, Classical.choice, Quot.sound |
| C57_response | propext, Classical.choice, Quot.sound |
| C57_metadata | propext, Classical.choice, Quot.sound |
| C57_refuted | propext |
| C57_refused_exactly | propext, Classical.choice, Quot.sound |
| C57_fields | propext, Classical.choice, Quot.sound |
| C57_sequence | propext, Quot.sound |
| C57_sequence_parts | propext, Quot.sound |
| C57_variants | propext |
| C57_variant_sequences | propext, Quot.sound |
| C57_maps | propext, Classical.choice, Quot.sound |
| C57_names | propext, Classical.choice, Quot.sound |
| C57_meaning | propext, Classical.choice, Quot.sound |
| C58_host | propext, Classical.choice, Quot.sound |
| C58_docker | propext, Classical.choice, Quot.sound |
| C58_scheduled | propext, Classical.choice, Quot.sound |
| C59_words | propext, Classical.choice, Quot.sound |
| C59_argv | propext, Classical.choice, Quot.sound |
| C60_determined_partial | propext, Classical.choice, Quot.sound |
| C60_literal_partial | propext, Classical.choice, Quot.sound |
| C60_refuted | propext, Classical.choice, Quot.sound |
| C61_isolated_partial | propext, Classical.choice, Quot.sound |
| C61_path_meaning | propext, Classical.choice, Quot.sound |
| C61_places | propext, Classical.choice, Quot.sound |
| C61_refuted | propext, Classical.choice, Quot.sound |
| C62_confined_partial | propext, Classical.choice, Quot.sound |
| C62_others_stay_partial | propext, Classical.choice, Quot.sound |
| C62_refuted | propext, Classical.choice, Quot.sound |
| C63_result_partial | propext, Classical.choice, Quot.sound |
| C63_once | propext |
| C63_bounded | propext, Classical.choice, Quot.sound |
| C63_ends | propext, Classical.choice, Quot.sound |
| C63_refuted | propext, Classical.choice, Quot.sound |
| C64_never_cleaned_refuted | propext, Classical.choice, Quot.sound |
| C64_cleaned_partial | propext, Classical.choice, Quot.sound |
| C65_in_order_partial | propext, Classical.choice, Quot.sound |
| C65_refuted | propext, Classical.choice, Quot.sound |
| C66_content_partial | propext, Classical.choice, Quot.sound |
| C66_prefix | propext, Classical.choice, Quot.sound |
| C66_error | propext, Classical.choice, Quot.sound |
| C66_progress | propext, Classical.choice, Quot.sound |
| C66_returns_in_time | propext, Classical.choice, Quot.sound |
| C66_unfinished_refuted | propext, Classical.choice, Quot.sound |
| C66_lost_error_refuted | propext, Classical.choice, Quot.sound |
| C66_started_with_entrypoint | propext, Classical.choice, Quot.sound |
| C67_nothing_started | propext, Classical.choice, Quot.sound |
| C68_dispatched | propext, Classical.choice, Quot.sound |
| C68_in_order | propext, Classical.choice, Quot.sound |
| C68_requests | propext, Classical.choice, Quot.sound |
| C68_progress | propext, Quot.sound |
| C69_server_builder | propext, Quot.sound |
| C70_before_run | propext, Classical.choice, Quot.sound |
| C70_after_run | propext |
| C71_docker_killed_partial | propext, Classical.choice, Quot.sound |
| C71_refuted | propext, Classical.choice, Quot.sound |
| C72_runner_builder | propext, Classical.choice, Quot.sound |
| C72_default_directory | propext, Classical.choice, Quot.sound |
| C73_last_event_partial | propext, Quot.sound |
| C73_refuted | propext, Quot.sound |
| C74_engine_builder | propext, Quot.sound |
| C74_action_used | propext, Quot.sound |
| C74_plugins_resolve | propext, Classical.choice, Quot.sound |
| C75_context_builder | propext, Quot.sound |
| C76_plugin_builder | propext, Quot.sound |
| C77_workflow_builder | propext, Quot.sound |
| C78_server_signals | propext, Classical.choice, Quot.sound |
| C79_meaning | propext, Classical.choice, Quot.sound |
| C79_round_trip | propext, Classical.choice, Quot.sound |
| C79_documented_keys | propext, Classical.choice, Quot.sound |
| C79_step_kind | propext, Classical.choice, Quot.sound |
| C79_accepts | propext, Classical.choice, Quot.sound |
| C79_unknown_event | propext, Classical.choice, Quot.sound |
| C79_empty_value | propext, Classical.choice, Quot.sound |
| C79_sequence | propext, Quot.sound |
| C79_repeated_key | propext, Quot.sound |
| C80_runs_do_not_interfere_partial | propext, Classical.choice, Quot.sound |
| C80_dependency_order | propext, Classical.choice, Quot.sound |
| C80_returned | propext, Classical.choice, Quot.sound |
| C80_refuted | propext |
| C81_nested | propext, Classical.choice, Quot.sound |
| C81_dependents | propext, Classical.choice, Quot.sound |
| C81_dependents_in_result_partial | propext, Classical.choice, Quot.sound |
| C81_dependents_refuted | propext |
| C81_workflow_start | propext, Classical.choice, Quot.sound |
| C81_workflow_end | propext, Classical.choice, Quot.sound |
| C81_job_clock | propext, Classical.choice, Quot.sound |
| C81_step_clock | propext, Classical.choice, Quot.sound |
| C82_answers | propext, Classical.choice, Quot.sound |
| C82_refused_changes_nothing | propext |
| C82_only_the_named_job | propext, Classical.choice, Quot.sound |
| C82_reaches_the_job_partial | propext, Classical.choice, Quot.sound |
| C82_refuted | propext |
| C83_every_run_can_return | propext, Classical.choice, Quot.sound |
| C83_stuck_means_returned | propext, Classical.choice, Quot.sound |
| C84_is_waiting | propext |
| C84_is_terminal | propext |
| C84_job_notifications | propext, Classical.choice, Quot.sound |
| C84_job_answers | propext, Classical.choice, Quot.sound |
| C84_workflow_notifications | propext, Classical.choice, Quot.sound |
| C84_returned_states | propext, Classical.choice, Quot.sound |
| C85_answers | propext, Classical.choice, Quot.sound |
| C85_progress | propext, Classical.choice, Quot.sound |
| C85_no_lookup_after_success | propext, Classical.choice, Quot.sound |
| C85_fixed_partial | propext, Classical.choice, Quot.sound |
| C85_refuted | propext |
| C86_same_outcome | propext, Classical.choice, Quot.sound |
| C86_engine_sees_the_end | propext, Classical.choice, Quot.sound |
| C87_both_views | propext, Classical.choice, Quot.sound |
| C87_result | propext, Classical.choice, Quot.sound |
| C87_bounded | propext, Classical.choice, Quot.sound |
| C87_progress | propext, Classical.choice, Quot.sound |
| C87_plan | propext, Classical.choice, Quot.sound |
| C88_cancel | propext, Classical.choice, Quot.sound |
| C88_job | propext, Classical.choice, Quot.sound |
| C89_idle_timeout | propext, Classical.choice, Quot.sound |
| C90_process | propext, Classical.choice, Quot.sound |
| C90_step_environment | propext, Classical.choice, Quot.sound |
| C90_exec_ok | propext, Classical.choice, Quot.sound |
| C90_exec_error | propext, Classical.choice, Quot.sound |
| C90_refused | propext, Classical.choice, Quot.sound |
| C90_kill | propext, Classical.choice, Quot.sound |
| C91_equivalence | propext, Classical.choice, Quot.sound |
| C91_message | propext, Classical.choice, Quot.sound |
| C91_io | propext, Quot.sound |
| C91_read_back | propext, Classical.choice, Quot.sound |
| C92_delivered_partial | propext, Classical.choice, Quot.sound |
| C92_typed | propext |
| C92_never_wrong | propext, Classical.choice, Quot.sound |
| C92_same_type | propext, Classical.choice, Quot.sound |
| C92_text | propext, Classical.choice, Quot.sound |
| C92_reads | propext, Quot.sound |
| C92_refuted | propext, Classical.choice, Quot.sound |
| C93_level | propext, Classical.choice, Quot.sound |
| C93_printed | propext, Classical.choice, Quot.sound |
| C93_environment | propext, Classical.choice, Quot.sound |
| C93_progress | propext, Classical.choice, Quot.sound |
| C93_bounded | propext, Classical.choice, Quot.sound |
| C93_foreign | propext, Classical.choice, Quot.sound |
| C93_explicit | propext, Classical.choice, Quot.sound |
| C94_bounded | propext, Classical.choice, Quot.sound |
| C94_runner_never_waits | propext, Quot.sound |
| C94_waits_only_for_room | propext, Classical.choice, Quot.sound |
| C94_vanished_client | propext, Classical.choice, Quot.sound |
| C94_finishes | propext, Classical.choice, Quot.sound |
| C94_nothing_dropped | propext, Classical.choice, Quot.sound |
| C95_job | propext, Classical.choice, Quot.sound |
| C95_both_views | propext, Classical.choice, Quot.sound |
| C95_result | propext, Classical.choice, Quot.sound |
| C95_no_runner | propext, Classical.choice, Quot.sound |
| C95_signal_only_from_engine | propext, Classical.choice, Quot.sound |
| C95_signal_carried | propext, Classical.choice, Quot.sound |
| C95_signal_bounded | propext, Classical.choice, Quot.sound |
| C95_progress | propext, Classical.choice, Quot.sound |
| C95_only_call | propext, Classical.choice, Quot.sound |
| C96_both_views | propext, Classical.choice, Quot.sound |
| C96_result | propext, Classical.choice, Quot.sound |
| C96_failure | propext, Classical.choice, Quot.sound |
| C96_starts | propext, Classical.choice, Quot.sound |
| C96_progress | propext, Classical.choice, Quot.sound |
| C96_signal | propext, Classical.choice, Quot.sound |
| C96_cancel | propext, Classical.choice, Quot.sound |
| C96_bounded | propext, Classical.choice, Quot.sound |
| C96_job | propext, Classical.choice, Quot.sound |
| C97_idle_timeout | propext, Classical.choice, Quot.sound |
| C98_both_views | propext, Classical.choice, Quot.sound |
| C98_server | propext, Classical.choice, Quot.sound |
| C98_refused | propext, Classical.choice, Quot.sound |
| C98_progress | propext, Classical.choice, Quot.sound |
| C99_docker_partial | propext, Classical.choice, Quot.sound |
| C99_after_docker_partial | propext, Classical.choice, Quot.sound |
| C99_refuted | propext, Classical.choice, Quot.sound |
| C100_both_views | propext, Classical.choice, Quot.sound |
| C100_job | propext, Classical.choice, Quot.sound |
| C100_workflow | propext, Classical.choice, Quot.sound |
| C100_executing | propext, Classical.choice, Quot.sound |
| C101_stuck_means_returned | propext, Classical.choice, Quot.sound |
| C102_job_partial | propext, Classical.choice, Quot.sound |
| C102_returned_partial | propext, Classical.choice, Quot.sound |
| C102_refuted | propext, Classical.choice, Quot.sound |
| C103_cancelled_because_asked | propext, Classical.choice, Quot.sound |
| C103_result | propext, Classical.choice, Quot.sound |
| C104_cancel_answered | propext, Classical.choice, Quot.sound |
| C104_only_run_once | propext, Classical.choice, Quot.sound |
| C104_only_run | propext, Classical.choice, Quot.sound |
| C104_alone | propext, Classical.choice, Quot.sound |
| C104_never_panics | propext, Classical.choice, Quot.sound |
| C104_logs_in_order | propext, Classical.choice, Quot.sound |
| C104_logs_complete | propext, Classical.choice, Quot.sound |
| C104_cancel_once | propext, Classical.choice, Quot.sound |
| C104_cancel_passed_on | propext, Classical.choice, Quot.sound |
| C105_cancel | propext, Classical.choice, Quot.sound |
| C105_idle_timeout | propext, Classical.choice, Quot.sound |
| C105_bounded | propext, Classical.choice, Quot.sound |
| C105_job | propext, Classical.choice, Quot.sound |
| C106_asleep | propext, Classical.choice, Quot.sound |
| C106_wakes | propext, Classical.choice, Quot.sound |
| C106_not_stuck | propext, Quot.sound |
| C106_ends | propext, Classical.choice, Quot.sound |
| C106_over | propext, Classical.choice, Quot.sound |
| C106_told | propext, Classical.choice, Quot.sound |
| C106_only | propext, Classical.choice, Quot.sound |
| C106_refines | propext, Quot.sound |
| C106_exact | propext, Quot.sound |
| C107_one | propext, Classical.choice, Quot.sound |
| C107_last_partial | propext, Classical.choice, Quot.sound |
| C107_asleep | propext, Quot.sound |
| C107_late | propext, Classical.choice, Quot.sound |
| C107_refuted | propext, Classical.choice, Quot.sound |
| C108_goes_quiet | propext, Classical.choice, Quot.sound |
| C108_jobs_go_on | propext, Classical.choice, Quot.sound |
| C108_cancel_still_works | propext, Classical.choice, Quot.sound |
| C108_result_is_lost | propext, Classical.choice, Quot.sound |
| C109_others_return_partial | propext, Classical.choice, Quot.sound |
| C109_silent | propext, Classical.choice, Quot.sound |
| C109_runner_goes_on | propext, Quot.sound |
| C109_every_job_answered | propext, Classical.choice, Quot.sound |
| C109_hangs | propext, Classical.choice, Quot.sound |
| C109_dependents_never_start | propext, Classical.choice, Quot.sound |
| C109_cancel_into_the_void | propext, Classical.choice, Quot.sound |
| C109_refuted | propext, Classical.choice, Quot.sound |
| C110_routes | propext |
| C110_unknown | propext, Classical.choice, Quot.sound |
| C110_one_method | propext, Classical.choice, Quot.sound |
| C110_call_partial | propext, Classical.choice, Quot.sound |
| C110_refused | propext, Classical.choice, Quot.sound |
| C110_told | propext, Quot.sound |
| C110_not_run | propext, Classical.choice, Quot.sound |
| C110_unary | propext, Classical.choice, Quot.sound |
| C110_unary_error | propext, Classical.choice, Quot.sound |
| C110_refuted | propext, Classical.choice, Quot.sound |
| C111_each_call_once | propext, Classical.choice, Quot.sound |
| C111_since_start | propext, Classical.choice, Quot.sound |
| C111_copies | propext, Classical.choice, Quot.sound |
| C111_once_partial | propext, Classical.choice, Quot.sound |
| C111_registered | propext, Classical.choice, Quot.sound |
| C111_everybody | propext, Classical.choice, Quot.sound |
| C111_none_lost | propext, Classical.choice, Quot.sound |
| C111_refuted | propext, Classical.choice, Quot.sound |
| C112_fair_runs_return | propext, Classical.choice, Quot.sound |
| C112_fair_futures | propext, Classical.choice, Quot.sound |
| C113_processes_end_runs_return | propext, Classical.choice, Quot.sound |
| C113_fair_futures | propext, Classical.choice, Quot.sound |
| C113_all_runs_can_return | propext, Classical.choice, Quot.sound |
| C114_both_views | propext, Classical.choice, Quot.sound |
| C114_job | propext, Classical.choice, Quot.sound |
| C114_workflow | propext, Classical.choice, Quot.sound |
| C114_executing | propext, Classical.choice, Quot.sound |
| C115_stuck_means_returned | propext, Classical.choice, Quot.sound |
| C116_cancelled_because_asked | propext, Classical.choice, Quot.sound |
| C116_signal_only_from_engine | propext, Classical.choice, Quot.sound |
| C117_signal_carried_partial | propext, Classical.choice, Quot.sound |
| C117_moves_bounded | propext, Classical.choice, Quot.sound |
| C117_cancellation_partial | propext, Classical.choice, Quot.sound |
| C117_refuted | propext, Quot.sound |
| C118_servers_end_runs_return | propext, Classical.choice, Quot.sound |
| C118_fair_futures | propext, Classical.choice, Quot.sound |
| C118_all_runs_can_return | propext, Classical.choice, Quot.sound |
| C119_meaning | propext, Classical.choice, Quot.sound |
| C119_lines_of_text | propext, Classical.choice, Quot.sound |
| C119_logged | propext, Classical.choice, Quot.sound |
| C119_complete | propext, Classical.choice, Quot.sound |
| C119_undecodable | propext, Classical.choice, Quot.sound |
| C119_finite | propext, Classical.choice, Quot.sound |
| C119_not_blocked_partial | propext, Classical.choice, Quot.sound |
| C119_result | propext, Classical.choice, Quot.sound |
| C119_undecodable_blocks_refuted | propext, Classical.choice, Quot.sound |
| C119_closed_early_refuted | propext, Classical.choice, Quot.sound |
| C119_refines | propext, Classical.choice, Quot.sound |
| C120_asleep | propext, Classical.choice, Quot.sound |
| C120_told | propext, Classical.choice, Quot.sound |
| C120_not_stuck | propext, Classical.choice, Quot.sound |
| C120_no_spin | propext, Classical.choice, Quot.sound |
| C120_settles | propext, Classical.choice, Quot.sound |
| C120_ends | propext, Classical.choice, Quot.sound |
| C120_refines | propext, Classical.choice, Quot.sound |
| C120_exact | propext, Classical.choice, Quot.sound |
| C121_asleep | propext, Classical.choice, Quot.sound |
| C121_not_stuck | propext, Classical.choice, Quot.sound |
| C121_no_spin | propext, Classical.choice, Quot.sound |
| C121_settles | propext, Classical.choice, Quot.sound |
| C121_rests | propext, Classical.choice, Quot.sound |
| C121_ends | propext, Classical.choice, Quot.sound |
| C121_refines | propext, Classical.choice, Quot.sound |
| C122_local | propext, Classical.choice, Quot.sound |
| C122_remote | propext, Classical.choice, Quot.sound |
| C122_cycle_never_carried_out | propext, Classical.choice, Quot.sound |
| C122_local_returns_iff | propext, Classical.choice, Quot.sound |
| C122_remote_returns_iff | propext, Classical.choice, Quot.sound |
| C122_local_can_be_run | propext, Classical.choice, Quot.sound |
| C122_remote_can_be_run | propext, Classical.choice, Quot.sound |
| C123_silent_processes_runs_return | propext, Classical.choice, Quot.sound |
| C123_fair_futures | propext, Classical.choice, Quot.sound |
| C123_hanging_processes_runs_can_return | propext, Classical.choice, Quot.sound |
| C124_cancelled_steps_end_once | propext, Classical.choice, Quot.sound |
| C124_cancelled_steps_end | propext, Classical.choice, Quot.sound |
| C124_fair_futures | propext, Classical.choice, Quot.sound |
| C125_spread_evenly | propext, Classical.choice, Quot.sound |
| C125_sharp | propext, Classical.choice, Quot.sound |
| C126_servers_told_or_steps_end_once | propext, Classical.choice, Quot.sound |
| C126_servers_told_or_steps_end | propext, Classical.choice, Quot.sound |
| C126_fair_futures | propext, Classical.choice, Quot.sound |
| C127_silent_servers_runs_return_once | propext, Classical.choice, Quot.sound |
| C127_silent_servers_runs_return | propext, Classical.choice, Quot.sound |
| C127_fair_futures | propext, Classical.choice, Quot.sound |
| C127_hanging_servers_runs_can_return | propext, Classical.choice, Quot.sound |
| C128_local | propext, Classical.choice, Quot.sound |
| C128_remote_once | propext, Classical.choice, Quot.sound |
| C128_remote | propext, Classical.choice, Quot.sound |
| C128_local_can_be_run | propext, Classical.choice, Quot.sound |
| C128_remote_can_be_run | propext, Classical.choice, Quot.sound |
| C129_dialogue | propext, Classical.choice, Quot.sound |
| C129_credentials | propext, Classical.choice, Quot.sound |
| C129_at_most | propext, Classical.choice, Quot.sound |
| C129_answers | propext, Classical.choice, Quot.sound |
| C129_waits_for_github | propext, Classical.choice, Quot.sound |
| C129_asked_once | propext, Classical.choice, Quot.sound |
| C129_lookups_in_one_piece | propext, Classical.choice, Quot.sound |
