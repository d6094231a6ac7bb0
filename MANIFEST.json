{
 "claims": [
  {
   "property": "C01",
   "status": "proved",
   "theorems": [
    "AstroRun.C01_dependency_order"
   ],
   "note": ""
  },
  {
   "property": "C02",
   "status": "partial",
   "theorems": [
    "AstroRun.C02_started_once_partial",
    "AstroRun.C02_single_run_partial",
    "AstroRun.C02_roots_single_run_partial",
    "AstroRun.C02_exactly_these",
    "AstroRun.C02_refuted"
   ],
   "note": "Full claim is false of the code: a waiting job stays in the waiting list until its own result arrives, so every later result starts it again (C02_refuted: accepted configuration, job c runs twice). Proved: exactly which dependency graphs never start a job twice (C02_exactly_these), and jobs without dependencies never run twice. C02_started_once_partial: the same for the runs of a busy engine."
  },
  {
   "property": "C03",
   "status": "proved",
   "theorems": [
    "AstroRun.C03_result_completeness"
   ],
   "note": ""
  },
  {
   "property": "C04",
   "status": "proved",
   "theorems": [
    "AstroRun.C04_workflow_outcome"
   ],
   "note": ""
  },
  {
   "property": "C05",
   "status": "proved",
   "theorems": [
    "AstroRun.C05_dependents_run_anyway"
   ],
   "note": ""
  },
  {
   "property": "C06",
   "status": "partial",
   "theorems": [
    "AstroRun.C06_no_infinite_schedule",
    "AstroRun.C06_acyclic_returns_partial",
    "AstroRun.C06_parsed_workflows",
    "AstroRun.C06_returns_exactly_acyclic",
    "AstroRun.C06_refuted"
   ],
   "note": "Full claim is false of the code: the validator accepts cycles and a workflow with a cycle never returns (C06_refuted). Proved: no infinite schedule for any workflow; workflows without cycles cannot get stuck before returning; a workflow can return exactly when its dependencies form no cycle (C06_returns_exactly_acyclic); every accepted acyclic configuration meets the conditions (C06_parsed_workflows). Assumes before-step hooks keep the job part of a step's id (a hook that rewrites it makes the step's signal lookup panic)."
  },
  {
   "property": "C07",
   "status": "proved",
   "theorems": [
    "AstroRun.C07_workflow_bracket"
   ],
   "note": ""
  },
  {
   "property": "C08",
   "status": "proved",
   "theorems": [
    "AstroRun.C08_skipped_workflow"
   ],
   "note": ""
  },
  {
   "property": "C09",
   "status": "proved",
   "theorems": [
    "AstroRun.C09_independent_jobs_start_at_once"
   ],
   "note": ""
  },
  {
   "property": "C10",
   "status": "proved",
   "theorems": [
    "AstroRun.C10_one_result_per_step"
   ],
   "note": ""
  },
  {
   "property": "C11",
   "status": "proved",
   "theorems": [
    "AstroRun.C11_failure_skips"
   ],
   "note": ""
  },
  {
   "property": "C12",
   "status": "proved",
   "theorems": [
    "AstroRun.C12_cancel_skips"
   ],
   "note": ""
  },
  {
   "property": "C13",
   "status": "proved",
   "theorems": [
    "AstroRun.C13_job_outcome",
    "AstroRun.C13_skipped_job"
   ],
   "note": ""
  },
  {
   "property": "C14",
   "status": "proved",
   "theorems": [
    "AstroRun.C14_event_bracket",
    "AstroRun.C14_every_schedule_is_sequential",
    "AstroRun.C14_progress"
   ],
   "note": ""
  },
  {
   "property": "C15",
   "status": "proved",
   "theorems": [
    "AstroRun.C15_runner_calls"
   ],
   "note": ""
  },
  {
   "property": "C16",
   "status": "proved",
   "theorems": [
    "AstroRun.C16_step_life_cycle"
   ],
   "note": ""
  },
  {
   "property": "C17",
   "status": "proved",
   "theorems": [
    "AstroRun.C17_logs_complete",
    "AstroRun.C17_logs_in_order"
   ],
   "note": ""
  },
  {
   "property": "C18",
   "status": "proved",
   "theorems": [
    "AstroRun.C18_exit_code_mapping"
   ],
   "note": ""
  },
  {
   "property": "C19",
   "status": "partial",
   "theorems": [
    "AstroRun.C19_silent_step_partial",
    "AstroRun.C19_refuted"
   ],
   "note": "Full claim is false of the code: the timer is created anew in every select! iteration, so each log line restarts it (C19_refuted: a step running arbitrarily long past its timeout, not signalled). Proved: a step that stays silent is signalled after `timeout`."
  },
  {
   "property": "C20",
   "status": "proved",
   "theorems": [
    "AstroRun.C20_timeout_only_after_idle_period",
    "AstroRun.C20_idle_step_is_signalled"
   ],
   "note": ""
  },
  {
   "property": "C21",
   "status": "proved",
   "theorems": [
    "AstroRun.C21_cancel_semantics",
    "AstroRun.C21_cancel_interrupted"
   ],
   "note": ""
  },
  {
   "property": "C22",
   "status": "partial",
   "theorems": [
    "AstroRun.C22_cancel_partial",
    "AstroRun.C22_refuted"
   ],
   "note": "Full claim is false of the code: a cancel is only a request to the runner; a runner that ignores it and ends Succeeded lets the remaining steps run (C22_refuted). Proved: a successful cancel reaches (or can reach) the waiting step, and if any step ends Cancelled the job ends Cancelled."
  },
  {
   "property": "C23",
   "status": "proved",
   "theorems": [
    "AstroRun.C23_cancel_forwarded_once",
    "AstroRun.C23_cancelled_step_ends_job"
   ],
   "note": ""
  },
  {
   "property": "C24",
   "status": "proved",
   "theorems": [
    "AstroRun.C24_first_write_wins"
   ],
   "note": ""
  },
  {
   "property": "C25",
   "status": "proved",
   "theorems": [
    "AstroRun.C25_delivered_at_most_once",
    "AstroRun.C25_delivered_to_next_poll"
   ],
   "note": ""
  },
  {
   "property": "C26",
   "status": "proved",
   "theorems": [
    "AstroRun.C26_no_lost_wakeup"
   ],
   "note": ""
  },
  {
   "property": "C27",
   "status": "proved",
   "theorems": [
    "AstroRun.C27_exactly_once_fifo",
    "AstroRun.C27_complete_at_end"
   ],
   "note": ""
  },
  {
   "property": "C28",
   "status": "proved",
   "theorems": [
    "AstroRun.C28_no_lost_wakeup"
   ],
   "note": ""
  },
  {
   "property": "C29",
   "status": "partial",
   "theorems": [
    "AstroRun.C29_result_write_once_partial",
    "AstroRun.C29_sequential_first_end_wins",
    "AstroRun.C29_refuted"
   ],
   "note": "Full claim is false of the code: end() stores the result and clears has_result in two steps under separate locks, so two concurrent end() calls can both store. Proved: write-once when ends do not overlap; refutation exhibits the overlapping schedule."
  },
  {
   "property": "C30",
   "status": "proved",
   "theorems": [
    "AstroRun.C30_condition_semantics"
   ],
   "note": ""
  },
  {
   "property": "C31",
   "status": "proved",
   "theorems": [
    "AstroRun.C31_invalid_glob",
    "AstroRun.C31_no_changed_files"
   ],
   "note": ""
  },
  {
   "property": "C32",
   "status": "proved",
   "theorems": [
    "AstroRun.C32_fail_open",
    "AstroRun.C32_otherwise_evaluated"
   ],
   "note": ""
  },
  {
   "property": "C33",
   "status": "proved",
   "theorems": [
    "AstroRun.C33_lookup_until_success",
    "AstroRun.C33_no_success",
    "AstroRun.C33_no_context"
   ],
   "note": ""
  },
  {
   "property": "C34",
   "status": "proved",
   "theorems": [
    "AstroRun.C34_validator_decision"
   ],
   "note": ""
  },
  {
   "property": "C35",
   "status": "partial",
   "theorems": [
    "AstroRun.C35_all_dependent_rejected_partial",
    "AstroRun.C35_refuted"
   ],
   "note": "Full claim is false of the code (validator only rejects 'all jobs have dependencies'); accepted cyclic configuration exhibited in C35_refuted. Proved: rejected when every job has a dependency."
  },
  {
   "property": "C36",
   "status": "proved",
   "theorems": [
    "AstroRun.C36_parsed_identifiers"
   ],
   "note": ""
  },
  {
   "property": "C37",
   "status": "proved",
   "theorems": [
    "AstroRun.C37_expansion_order"
   ],
   "note": ""
  },
  {
   "property": "C38",
   "status": "proved",
   "theorems": [
    "AstroRun.C38_workflow_fields",
    "AstroRun.C38_defaults"
   ],
   "note": ""
  },
  {
   "property": "C39",
   "status": "proved",
   "theorems": [
    "AstroRun.C39_action_resolution",
    "AstroRun.C39_parse_succeeds_iff",
    "AstroRun.C39_parse_error",
    "AstroRun.C39_build"
   ],
   "note": ""
  },
  {
   "property": "C40",
   "status": "proved",
   "theorems": [
    "AstroRun.C40_parse_print",
    "AstroRun.C40_parse_exact",
    "AstroRun.C40_print_injective",
    "AstroRun.C40_slash_collision"
   ],
   "note": ""
  },
  {
   "property": "C41",
   "status": "proved",
   "theorems": [
    "AstroRun.C41_step_command"
   ],
   "note": ""
  },
  {
   "property": "C42",
   "status": "proved",
   "theorems": [
    "AstroRun.C42_every_observer_every_notification",
    "AstroRun.C42_seen_by"
   ],
   "note": ""
  },
  {
   "property": "C43",
   "status": "proved",
   "theorems": [
    "AstroRun.C43_before_step_rewriting"
   ],
   "note": ""
  },
  {
   "property": "C44",
   "status": "partial",
   "theorems": [
    "AstroRun.C44_capability_partial",
    "AstroRun.C44_refuted"
   ],
   "note": "Full claim is false of the code: for a job bound to a runner by an earlier docker step, '&&'/'||' precedence skips the host-support check when the platform is given as host/os-arch (C44_refuted). Proved: the returned runner was offered; docker steps get docker support (if a runner id never changes its docker support between offers); host steps get the right platform, and host support in all other cases."
  },
  {
   "property": "C45",
   "status": "proved",
   "theorems": [
    "AstroRun.C45_least_loaded",
    "AstroRun.C45_fewest_running"
   ],
   "note": ""
  },
  {
   "property": "C46",
   "status": "proved",
   "theorems": [
    "AstroRun.C46_job_affinity"
   ],
   "note": ""
  },
  {
   "property": "C47",
   "status": "proved",
   "theorems": [
    "AstroRun.C47_finds_iff_one_fits",
    "AstroRun.C47_calls_finish"
   ],
   "note": ""
  },
  {
   "property": "C48",
   "status": "proved",
   "theorems": [
    "AstroRun.C48_load_accounting",
    "AstroRun.C48_leak_when_rescheduled"
   ],
   "note": ""
  },
  {
   "property": "C49",
   "status": "partial",
   "theorems": [
    "AstroRun.C49_refuted",
    "AstroRun.C49_limit_ignored"
   ],
   "note": "Full claim is false of the code: max_runs is never read. C49_refuted: for every docker runner, whatever its limit, and every n there is a history with n running steps on it; C49_limit_ignored: changing the limits changes nothing."
  },
  {
   "property": "C50",
   "status": "proved",
   "theorems": [
    "AstroRun.C50_one_result",
    "AstroRun.C50_result_is_final",
    "AstroRun.C50_ends_after_the_stream",
    "AstroRun.C50_dispatch"
   ],
   "note": ""
  },
  {
   "property": "C51",
   "status": "proved",
   "theorems": [
    "AstroRun.C51_logs_preserved"
   ],
   "note": ""
  },
  {
   "property": "C52",
   "status": "partial",
   "theorems": [
    "AstroRun.C52_refuted",
    "AstroRun.C52_load_never_released"
   ],
   "note": "False of the code: on_step_completed/on_job_completed of the remote client only broadcast, they never call the scheduler (client.rs:74-92). C52_refuted exhibits a wrong choice of runner; C52_load_never_released gives the general behaviour."
  },
  {
   "property": "C53",
   "status": "partial",
   "theorems": [
    "AstroRun.C53_in_order_partial",
    "AstroRun.C53_refuted"
   ],
   "note": "False in general: the forwarding loop ends for good when it falls more than 32 events behind (client.rs:194 stops on Lagged). Proved: in order, without gaps, complete as long as it does not lag; C53_refuted shows the failure."
  },
  {
   "property": "C54",
   "status": "proved",
   "theorems": [
    "AstroRun.C54_client_sends_own_signal",
    "AstroRun.C54_only_own_step",
    "AstroRun.C54_delivered",
    "AstroRun.C54_unknown_ignored"
   ],
   "note": ""
  },
  {
   "property": "C55",
   "status": "proved",
   "theorems": [
    "AstroRun.C55_registration"
   ],
   "note": ""
  },
  {
   "property": "C56",
   "status": "proved",
   "theorems": [
    "AstroRun.C56_remote_hook",
    "AstroRun.C56_server_hook"
   ],
   "note": ""
  },
  {
   "property": "C57",
   "status": "partial",
   "theorems": [
    "AstroRun.C57_json_grammar",
    "AstroRun.C57_received",
    "AstroRun.C57_unambiguous",
    "AstroRun.C57_json_text",
    "AstroRun.C57_event_bytes_partial",
    "AstroRun.C57_context_bytes_partial",
    "AstroRun.C57_command_bytes_partial",
    "AstroRun.C57_response_bytes",
    "AstroRun.C57_metadata_bytes",
    "AstroRun.C57_deep_refuted",
    "AstroRun.C57_truncated",
    "AstroRun.C57_truncated_messages",
    "AstroRun.C57_event_partial",
    "AstroRun.C57_context_partial",
    "AstroRun.C57_command_partial",
    "AstroRun.C57_response",
    "AstroRun.C57_metadata",
    "AstroRun.C57_refuted",
    "AstroRun.C57_refused_exactly",
    "AstroRun.C57_fields",
    "AstroRun.C57_sequence",
    "AstroRun.C57_sequence_parts",
    "AstroRun.C57_variants",
    "AstroRun.C57_variant_sequences",
    "AstroRun.C57_maps",
    "AstroRun.C57_names",
    "AstroRun.C57_meaning"
   ],
   "note": "Full claim is false of the code: a non-finite f64 environment number (a user can write .nan in the workflow file) is written as null and does not decode (C57_refuted), and a payload nested deeper than serde_json's limit is written but not read (C57_deep_refuted). Proved, down to the characters of the JSON text: every other event, context, command, response and registration round-trips, under lawful (round-tripping) time text and payload codecs; every proper prefix of a message is refused; the texts read are exactly those of RFC 8259's grammar (stated independently) nested at most 127 deep. The decimal text of a float is a parameter; each float in the message is assumed to be read back from its text (serde_json without float_roundtrip does not promise that for every float)."
  },
  {
   "property": "C58",
   "status": "proved",
   "theorems": [
    "AstroRun.C58_host",
    "AstroRun.C58_docker",
    "AstroRun.C58_scheduled"
   ],
   "note": ""
  },
  {
   "property": "C59",
   "status": "proved",
   "theorems": [
    "AstroRun.C59_words",
    "AstroRun.C59_argv"
   ],
   "note": ""
  },
  {
   "property": "C60",
   "status": "partial",
   "theorems": [
    "AstroRun.C60_determined_partial",
    "AstroRun.C60_literal_partial",
    "AstroRun.C60_refuted"
   ],
   "note": "False of the code: double quotes in a value are not escaped (C60_refuted: two environments, one command line). Proved: without double quotes the command line determines the environment; for shell-plain names and values docker receives every entry literally, through a word-splitting specification of sh."
  },
  {
   "property": "C61",
   "status": "partial",
   "theorems": [
    "AstroRun.C61_isolated_partial",
    "AstroRun.C61_path_meaning",
    "AstroRun.C61_places",
    "AstroRun.C61_refuted"
   ],
   "note": "False of the code for job keys with '/' (C61_refuted, an accepted workflow). Proved for job keys and workflow ids that are single path components; container names differ for all job keys. File systems without symbolic links."
  },
  {
   "property": "C62",
   "status": "partial",
   "theorems": [
    "AstroRun.C62_confined_partial",
    "AstroRun.C62_others_stay_partial",
    "AstroRun.C62_refuted"
   ],
   "note": "False of the code: the workflow id is not checked (ids 'caches', '..', absolute paths; C62_refuted). Proved for ids that are single path components; other workflows and caches stay when both workflows carry an event or neither does and the id is not 'caches'. File systems without symbolic links."
  },
  {
   "property": "C63",
   "status": "partial",
   "theorems": [
    "AstroRun.C63_result_partial",
    "AstroRun.C63_once",
    "AstroRun.C63_bounded",
    "AstroRun.C63_ends",
    "AstroRun.C63_refuted"
   ],
   "note": "Proved: the result is unique, never changes, equals the observed exit status (or signal, or Failed 1), the task takes boundedly many steps of its own and always ends once its process is over. False of the code: a step cancelled before the executor starts ends Failed 1, not Cancelled (C63_refuted)."
  },
  {
   "property": "C64",
   "status": "partial",
   "theorems": [
    "AstroRun.C64_never_cleaned_refuted",
    "AstroRun.C64_cleaned_partial"
   ],
   "note": "False of the code: a step whose process exits normally is never cleaned up and on_after_run is never called, because the select! branch only matches Err and keeps waiting for a signal. Proved for runs ended by a signal or an executor error."
  },
  {
   "property": "C65",
   "status": "partial",
   "theorems": [
    "AstroRun.C65_in_order_partial",
    "AstroRun.C65_refuted"
   ],
   "note": "Proved: per-stream order, no invention, and at least one stream complete. False of the code: the reader stops at the end of either pipe, so lines left in the other one are lost (C65_refuted)."
  },
  {
   "property": "C66",
   "status": "partial",
   "theorems": [
    "AstroRun.C66_content_partial",
    "AstroRun.C66_prefix",
    "AstroRun.C66_error",
    "AstroRun.C66_progress",
    "AstroRun.C66_returns_in_time",
    "AstroRun.C66_unfinished_refuted",
    "AstroRun.C66_lost_error_refuted",
    "AstroRun.C66_started_with_entrypoint"
   ],
   "note": "Proved: content once the background write is over; a prefix of it at any time; errors only on OS failures; no hang (C66_progress, and C66_returns_in_time bounds the number of moves). False of the code: tokio's File is dropped without flush, so the call can return Ok before the script is in the file, and a failing last write is not reported. C66_started_with_entrypoint: a process is started only after the directory was made and the entrypoint file written without an error being returned."
  },
  {
   "property": "C67",
   "status": "proved",
   "theorems": [
    "AstroRun.C67_nothing_started"
   ],
   "note": ""
  },
  {
   "property": "C68",
   "status": "proved",
   "theorems": [
    "AstroRun.C68_dispatched",
    "AstroRun.C68_in_order",
    "AstroRun.C68_requests",
    "AstroRun.C68_progress"
   ],
   "note": ""
  },
  {
   "property": "C69",
   "status": "proved",
   "theorems": [
    "AstroRun.C69_server_builder"
   ],
   "note": ""
  },
  {
   "property": "C70",
   "status": "proved",
   "theorems": [
    "AstroRun.C70_before_run",
    "AstroRun.C70_after_run"
   ],
   "note": ""
  },
  {
   "property": "C71",
   "status": "partial",
   "theorems": [
    "AstroRun.C71_docker_killed_partial",
    "AstroRun.C71_refuted"
   ],
   "note": "Docker: exactly one kill of the right container is issued before the end. Host: the process is left running (C71_refuted). That docker kill stops the container is outside the model."
  },
  {
   "property": "C72",
   "status": "proved",
   "theorems": [
    "AstroRun.C72_runner_builder",
    "AstroRun.C72_default_directory"
   ],
   "note": ""
  },
  {
   "property": "C73",
   "status": "partial",
   "theorems": [
    "AstroRun.C73_last_event_partial",
    "AstroRun.C73_refuted"
   ],
   "note": "Proved: which event is remembered. False of the code: it is never removed (C73_refuted)."
  },
  {
   "property": "C74",
   "status": "proved",
   "theorems": [
    "AstroRun.C74_engine_builder",
    "AstroRun.C74_action_used",
    "AstroRun.C74_plugins_resolve"
   ],
   "note": ""
  },
  {
   "property": "C75",
   "status": "proved",
   "theorems": [
    "AstroRun.C75_context_builder"
   ],
   "note": ""
  },
  {
   "property": "C76",
   "status": "proved",
   "theorems": [
    "AstroRun.C76_plugin_builder"
   ],
   "note": ""
  },
  {
   "property": "C77",
   "status": "proved",
   "theorems": [
    "AstroRun.C77_workflow_builder"
   ],
   "note": ""
  },
  {
   "property": "C78",
   "status": "proved",
   "theorems": [
    "AstroRun.C78_server_signals"
   ],
   "note": "ServerState is the shared state of the server; the operations are read off the schedule (Spec.srvOps), independent of the state."
  },
  {
   "property": "C79",
   "status": "proved",
   "theorems": [
    "AstroRun.C79_meaning",
    "AstroRun.C79_round_trip",
    "AstroRun.C79_documented_keys",
    "AstroRun.C79_step_kind",
    "AstroRun.C79_accepts",
    "AstroRun.C79_unknown_event",
    "AstroRun.C79_empty_value",
    "AstroRun.C79_sequence",
    "AstroRun.C79_repeated_key"
   ],
   "note": "YAML values as trees with text keys; the text of YAML, anchors, tags and serde_yaml's reading of unquoted scalars as texts are not modelled. The value of `with` is a parameter with a round-trip law; repeated keys inside it are not checked in the model. C79_meaning holds for every value, without any hypothesis."
  },
  {
   "property": "C80",
   "status": "partial",
   "theorems": [
    "AstroRun.C80_runs_do_not_interfere_partial",
    "AstroRun.C80_dependency_order",
    "AstroRun.C80_returned",
    "AstroRun.C80_refuted"
   ],
   "note": "Proved for all schedules whose concurrent runs have different workflow ids (job ids carry the workflow id, hooks do not move steps to other workflows). C80_refuted shows the unrestricted claim is false of the code: two runs of one workflow id share signal-table entries and the second never returns."
  },
  {
   "property": "C81",
   "status": "partial",
   "theorems": [
    "AstroRun.C81_nested",
    "AstroRun.C81_dependents",
    "AstroRun.C81_dependents_in_result_partial",
    "AstroRun.C81_dependents_refuted",
    "AstroRun.C81_workflow_start",
    "AstroRun.C81_workflow_end",
    "AstroRun.C81_job_clock",
    "AstroRun.C81_step_clock"
   ],
   "note": "Nesting, order and origin of all stamps are proved for all schedules. C81_dependents: the delivered result a job waited for completed before the job started. In the returned result this holds only if no job ran twice (C02); C81_dependents_refuted gives an accepted configuration and a schedule in which the result shows a dependent starting before its dependency completed."
  },
  {
   "property": "C82",
   "status": "partial",
   "theorems": [
    "AstroRun.C82_answers",
    "AstroRun.C82_refused_changes_nothing",
    "AstroRun.C82_only_the_named_job",
    "AstroRun.C82_reaches_the_job_partial",
    "AstroRun.C82_refuted"
   ],
   "note": "Proved for all schedules in which at most one job run announced the cancelled job. C82_refuted: a job started twice (C02) has two waiting steps of which an accepted cancel_job reaches only one."
  },
  {
   "property": "C83",
   "status": "proved",
   "theorems": [
    "AstroRun.C83_every_run_can_return",
    "AstroRun.C83_stuck_means_returned"
   ],
   "note": "Assumes what C80 and C06 need: distinct workflow ids, hooks keep the job part of step ids, unique jobs, defined and acyclic dependencies."
  },
  {
   "property": "C84",
   "status": "proved",
   "theorems": [
    "AstroRun.C84_is_waiting",
    "AstroRun.C84_is_terminal",
    "AstroRun.C84_job_notifications",
    "AstroRun.C84_job_answers",
    "AstroRun.C84_workflow_notifications",
    "AstroRun.C84_returned_states"
   ],
   "note": ""
  },
  {
   "property": "C85",
   "status": "partial",
   "theorems": [
    "AstroRun.C85_answers",
    "AstroRun.C85_progress",
    "AstroRun.C85_no_lookup_after_success",
    "AstroRun.C85_fixed_partial",
    "AstroRun.C85_refuted"
   ],
   "note": "Everything is proved except that the first successful lookup fixes the files, which is false of the code (C85_refuted); C85_fixed_partial proves it once no lookup is in flight."
  },
  {
   "property": "C86",
   "status": "proved",
   "theorems": [
    "AstroRun.C86_same_outcome",
    "AstroRun.C86_engine_sees_the_end"
   ],
   "note": ""
  },
  {
   "property": "C87",
   "status": "proved",
   "theorems": [
    "AstroRun.C87_both_views",
    "AstroRun.C87_result",
    "AstroRun.C87_bounded",
    "AstroRun.C87_progress",
    "AstroRun.C87_plan"
   ],
   "note": ""
  },
  {
   "property": "C88",
   "status": "proved",
   "theorems": [
    "AstroRun.C88_cancel",
    "AstroRun.C88_job"
   ],
   "note": ""
  },
  {
   "property": "C89",
   "status": "proved",
   "theorems": [
    "AstroRun.C89_idle_timeout"
   ],
   "note": ""
  },
  {
   "property": "C90",
   "status": "proved",
   "theorems": [
    "AstroRun.C90_process",
    "AstroRun.C90_step_environment",
    "AstroRun.C90_exec_ok",
    "AstroRun.C90_exec_error",
    "AstroRun.C90_refused",
    "AstroRun.C90_kill"
   ],
   "note": "Names of variables must not contain '=', as the operating system requires; the Windows branch of build_command is not modelled."
  },
  {
   "property": "C91",
   "status": "proved",
   "theorems": [
    "AstroRun.C91_equivalence",
    "AstroRun.C91_message",
    "AstroRun.C91_io",
    "AstroRun.C91_read_back"
   ],
   "note": "An I/O error is a kind and a text, both arbitrary."
  },
  {
   "property": "C92",
   "status": "partial",
   "theorems": [
    "AstroRun.C92_delivered_partial",
    "AstroRun.C92_typed",
    "AstroRun.C92_never_wrong",
    "AstroRun.C92_same_type",
    "AstroRun.C92_text",
    "AstroRun.C92_reads",
    "AstroRun.C92_refuted"
   ],
   "note": "Full claim is false of the code: a payload that JSON does not preserve panics the run (C92_refuted). Proved: every payload that survives JSON reaches every hook, every job and the remote message unchanged, and a payload is never replaced by a different one of the same tag."
  },
  {
   "property": "C93",
   "status": "proved",
   "theorems": [
    "AstroRun.C93_level",
    "AstroRun.C93_printed",
    "AstroRun.C93_environment",
    "AstroRun.C93_progress",
    "AstroRun.C93_bounded",
    "AstroRun.C93_foreign",
    "AstroRun.C93_explicit"
   ],
   "note": "The log crate's global logger and level are modelled as two cells that start unset; other code may install a logger at any time but does not call set_max_level. C93_explicit: if all initialisations name the same level, it is the level of the process."
  },
  {
   "property": "C94",
   "status": "proved",
   "theorems": [
    "AstroRun.C94_bounded",
    "AstroRun.C94_runner_never_waits",
    "AstroRun.C94_waits_only_for_room",
    "AstroRun.C94_vanished_client",
    "AstroRun.C94_finishes",
    "AstroRun.C94_nothing_dropped"
   ],
   "note": ""
  },
  {
   "property": "C95",
   "status": "proved",
   "theorems": [
    "AstroRun.C95_job",
    "AstroRun.C95_both_views",
    "AstroRun.C95_result",
    "AstroRun.C95_no_runner",
    "AstroRun.C95_signal_only_from_engine",
    "AstroRun.C95_signal_carried",
    "AstroRun.C95_signal_bounded",
    "AstroRun.C95_progress",
    "AstroRun.C95_only_call"
   ],
   "note": ""
  },
  {
   "property": "C96",
   "status": "proved",
   "theorems": [
    "AstroRun.C96_both_views",
    "AstroRun.C96_result",
    "AstroRun.C96_failure",
    "AstroRun.C96_starts",
    "AstroRun.C96_progress",
    "AstroRun.C96_signal",
    "AstroRun.C96_cancel",
    "AstroRun.C96_bounded",
    "AstroRun.C96_job"
   ],
   "note": "The local runner's plugins and environment enter as in C63; cancel/timeout claims need the ids of the steps handed out to be distinct (true of a parsed workflow, C01) because the server keeps its signals by step id."
  },
  {
   "property": "C97",
   "status": "proved",
   "theorems": [
    "AstroRun.C97_idle_timeout"
   ],
   "note": "Needs distinct step ids as C96."
  },
  {
   "property": "C98",
   "status": "proved",
   "theorems": [
    "AstroRun.C98_both_views",
    "AstroRun.C98_server",
    "AstroRun.C98_refused",
    "AstroRun.C98_progress"
   ],
   "note": "The scheduler is the default one; what other jobs ask is arbitrary."
  },
  {
   "property": "C99",
   "status": "partial",
   "theorems": [
    "AstroRun.C99_docker_partial",
    "AstroRun.C99_after_docker_partial",
    "AstroRun.C99_refuted"
   ],
   "note": "False of the code for host steps before the first docker step (C99_refuted). Proved: all docker steps share a server; steps after a docker step that suit its server go there."
  },
  {
   "property": "C100",
   "status": "proved",
   "theorems": [
    "AstroRun.C100_both_views",
    "AstroRun.C100_job",
    "AstroRun.C100_workflow",
    "AstroRun.C100_executing"
   ],
   "note": ""
  },
  {
   "property": "C101",
   "status": "proved",
   "theorems": [
    "AstroRun.C101_stuck_means_returned"
   ],
   "note": ""
  },
  {
   "property": "C102",
   "status": "partial",
   "theorems": [
    "AstroRun.C102_job_partial",
    "AstroRun.C102_returned_partial",
    "AstroRun.C102_refuted"
   ],
   "note": "C102_job_partial and C102_returned_partial: containers of job runs with a result, and of runs that ran no job twice. Missing: false in general (C102_refuted: job started twice), and for host processes (C71_refuted)."
  },
  {
   "property": "C103",
   "status": "proved",
   "theorems": [
    "AstroRun.C103_cancelled_because_asked",
    "AstroRun.C103_result"
   ],
   "note": ""
  },
  {
   "property": "C104",
   "status": "proved",
   "theorems": [
    "AstroRun.C104_cancel_answered",
    "AstroRun.C104_only_run_once",
    "AstroRun.C104_only_run",
    "AstroRun.C104_alone",
    "AstroRun.C104_never_panics",
    "AstroRun.C104_logs_in_order",
    "AstroRun.C104_logs_complete",
    "AstroRun.C104_cancel_once",
    "AstroRun.C104_cancel_passed_on"
   ],
   "note": "C104_only_run: a job of a workflow with distinct job keys and ids is run at most once while runs are kept apart, so C104's NoOther is implied by conditions on inputs. C104_only_run_once: or if the run in question has started the job once, whatever its shape."
  },
  {
   "property": "C105",
   "status": "proved",
   "theorems": [
    "AstroRun.C105_cancel",
    "AstroRun.C105_idle_timeout",
    "AstroRun.C105_bounded",
    "AstroRun.C105_job"
   ],
   "note": ""
  },
  {
   "property": "C106",
   "status": "proved",
   "theorems": [
    "AstroRun.C106_asleep",
    "AstroRun.C106_wakes",
    "AstroRun.C106_not_stuck",
    "AstroRun.C106_ends",
    "AstroRun.C106_over",
    "AstroRun.C106_told",
    "AstroRun.C106_only",
    "AstroRun.C106_refines",
    "AstroRun.C106_exact"
   ],
   "note": "Poll-level model of the select! loop with wakers; refinement with JobM in both directions (C106_refines, C106_exact)."
  },
  {
   "property": "C107",
   "status": "partial",
   "theorems": [
    "AstroRun.C107_one",
    "AstroRun.C107_last_partial",
    "AstroRun.C107_asleep",
    "AstroRun.C107_late",
    "AstroRun.C107_refuted"
   ],
   "note": "the full claim (everybody waiting is told) is false of the code, C107_refuted; proved: exactly who is told and that the others sleep forever"
  },
  {
   "property": "C108",
   "status": "proved",
   "theorems": [
    "AstroRun.C108_goes_quiet",
    "AstroRun.C108_jobs_go_on",
    "AstroRun.C108_cancel_still_works",
    "AstroRun.C108_result_is_lost"
   ],
   "note": "C108_goes_quiet, C108_jobs_go_on, C108_cancel_still_works, C108_result_is_lost: for every schedule with drops and panics."
  },
  {
   "property": "C109",
   "status": "partial",
   "theorems": [
    "AstroRun.C109_others_return_partial",
    "AstroRun.C109_silent",
    "AstroRun.C109_runner_goes_on",
    "AstroRun.C109_every_job_answered",
    "AstroRun.C109_hangs",
    "AstroRun.C109_dependents_never_start",
    "AstroRun.C109_cancel_into_the_void",
    "AstroRun.C109_refuted"
   ],
   "note": "The claim that run returns is false (C109_refuted, C109_hangs). Proved: other runs unaffected (C109_others_return_partial), silence of the panicked job, every result of a returned run comes from a job run that did not panic, dependents never start, cancel_job answered into the void."
  },
  {
   "property": "C110",
   "status": "partial",
   "theorems": [
    "AstroRun.C110_routes",
    "AstroRun.C110_unknown",
    "AstroRun.C110_one_method",
    "AstroRun.C110_call_partial",
    "AstroRun.C110_refused",
    "AstroRun.C110_told",
    "AstroRun.C110_not_run",
    "AstroRun.C110_unary",
    "AstroRun.C110_unary_error",
    "AstroRun.C110_refuted"
   ],
   "note": "Routing (every path), exactly-once delivery of the request, and the answer, for all four methods on top of the byte-level codec of C57. Partial because the code violates the full claim for messages over 4 MB (C110_refuted). tonic's behaviour (limits, status, streams) is an assumption stated in Model/Grpc."
  },
  {
   "property": "C111",
   "status": "partial",
   "theorems": [
    "AstroRun.C111_each_call_once",
    "AstroRun.C111_since_start",
    "AstroRun.C111_copies",
    "AstroRun.C111_once_partial",
    "AstroRun.C111_registered",
    "AstroRun.C111_everybody",
    "AstroRun.C111_none_lost",
    "AstroRun.C111_refuted"
   ],
   "note": "Full for each start; 'at most once, in order' for the client as a whole holds only for a client started once (C111_once_partial), C111_refuted shows the code breaks it for two starts."
  },
  {
   "property": "C112",
   "status": "proved",
   "theorems": [
    "AstroRun.C112_fair_runs_return",
    "AstroRun.C112_fair_futures"
   ],
   "note": "Proved for all endless fair executions; C112_fair_futures shows that every reachable state has a fair future (so the fairness hypotheses are satisfiable after any history). Assumes as C83: distinct workflow ids, hooks that keep job ids, defined acyclic dependencies, at least one job."
  },
  {
   "property": "C113",
   "status": "proved",
   "theorems": [
    "AstroRun.C113_processes_end_runs_return",
    "AstroRun.C113_fair_futures",
    "AstroRun.C113_all_runs_can_return"
   ],
   "note": "Full. Fairness is assumed only of the run's own tasks; OS failures may happen at any time; other runs may hang forever. The fairness hypotheses are met after every history (C113_fair_futures, for all runs at once)."
  },
  {
   "property": "C114",
   "status": "proved",
   "theorems": [
    "AstroRun.C114_both_views",
    "AstroRun.C114_job",
    "AstroRun.C114_workflow",
    "AstroRun.C114_executing"
   ],
   "note": ""
  },
  {
   "property": "C115",
   "status": "proved",
   "theorems": [
    "AstroRun.C115_stuck_means_returned"
   ],
   "note": ""
  },
  {
   "property": "C116",
   "status": "proved",
   "theorems": [
    "AstroRun.C116_cancelled_because_asked",
    "AstroRun.C116_signal_only_from_engine"
   ],
   "note": ""
  },
  {
   "property": "C117",
   "status": "partial",
   "theorems": [
    "AstroRun.C117_signal_carried_partial",
    "AstroRun.C117_moves_bounded",
    "AstroRun.C117_cancellation_partial",
    "AstroRun.C117_refuted"
   ],
   "note": "signal_carried and cancellation proved for steps whose id no other call has (and jobs announced once); C117_refuted: with a job started twice on one server the signal goes to the other execution"
  },
  {
   "property": "C118",
   "status": "proved",
   "theorems": [
    "AstroRun.C118_servers_end_runs_return",
    "AstroRun.C118_fair_futures",
    "AstroRun.C118_all_runs_can_return"
   ],
   "note": "Full. Fairness is assumed only of the run's own tasks and calls; failures may happen at any time; other runs may hang forever. That broken connections are noticed is an assumption about the transport (HTTP/2 keepalive or TCP). All hypotheses are met after every history (C118_fair_futures, for all runs at once)."
  },
  {
   "property": "C119",
   "status": "partial",
   "theorems": [
    "AstroRun.C119_meaning",
    "AstroRun.C119_lines_of_text",
    "AstroRun.C119_logged",
    "AstroRun.C119_complete",
    "AstroRun.C119_undecodable",
    "AstroRun.C119_finite",
    "AstroRun.C119_not_blocked_partial",
    "AstroRun.C119_result",
    "AstroRun.C119_undecodable_blocks_refuted",
    "AstroRun.C119_closed_early_refuted",
    "AstroRun.C119_refines"
   ],
   "note": "proved: the log for every chunking and interleaving, completeness at end of pipe, finiteness, no deadlock and the right result for processes that write text and keep their pipes until done, simulation into the line-level model. Refuted by the code: an undecodable line or an early close leaves the process blocked for ever."
  },
  {
   "property": "C120",
   "status": "proved",
   "theorems": [
    "AstroRun.C120_asleep",
    "AstroRun.C120_told",
    "AstroRun.C120_not_stuck",
    "AstroRun.C120_no_spin",
    "AstroRun.C120_settles",
    "AstroRun.C120_ends",
    "AstroRun.C120_refines",
    "AstroRun.C120_exact"
   ],
   "note": "All parts, for the loop of one call. That tonic's response stream wakes the task of a pending poll when it gets ready is part of the model (the contract of Stream), not proved of tonic."
  },
  {
   "property": "C121",
   "status": "proved",
   "theorems": [
    "AstroRun.C121_asleep",
    "AstroRun.C121_not_stuck",
    "AstroRun.C121_no_spin",
    "AstroRun.C121_settles",
    "AstroRun.C121_rests",
    "AstroRun.C121_ends",
    "AstroRun.C121_refines"
   ],
   "note": "All parts, for the task of one step. That tokio's pipes and child handle wake the task of a pending poll when they get ready is part of the model (their contract), not proved of tokio. The simulation is one way: LocalRun allows a signal to win over a line that one poll of Command::run would read first."
  },
  {
   "property": "C122",
   "status": "proved",
   "theorems": [
    "AstroRun.C122_local",
    "AstroRun.C122_remote",
    "AstroRun.C122_cycle_never_carried_out",
    "AstroRun.C122_local_returns_iff",
    "AstroRun.C122_remote_returns_iff",
    "AstroRun.C122_local_can_be_run",
    "AstroRun.C122_remote_can_be_run"
   ],
   "note": "End to end. The specification (Spec/EndToEnd: JobMeans, CarriedOut, LeftOut) speaks about the configuration, the notifications and the result only. Runs whose ids clash, and hooks that move steps to other jobs, are excluded (Apart, HooksKeepJobs; see C80)."
  },
  {
   "property": "C123",
   "status": "proved",
   "theorems": [
    "AstroRun.C123_silent_processes_runs_return",
    "AstroRun.C123_fair_futures",
    "AstroRun.C123_hanging_processes_runs_can_return"
   ],
   "note": "C123_silent_processes_runs_return: fairness, passing time and finitely many lines per process suffice; C123_fair_futures and C123_hanging_processes_runs_can_return: such executions exist after every history, with processes that never do anything again."
  },
  {
   "property": "C124",
   "status": "proved",
   "theorems": [
    "AstroRun.C124_cancelled_steps_end_once",
    "AstroRun.C124_cancelled_steps_end",
    "AstroRun.C124_fair_futures"
   ],
   "note": "C124_cancelled_steps_end: for every endless execution of the engine on the local runner, under weak fairness of the tasks and strong fairness of the select! branches that see the cancellation and the end of the stream. C124_fair_futures: such executions exist after every history, with processes that never end and write for ever. The _once version needs no condition on the shape of the workflow, only that the run starts the job once."
  },
  {
   "property": "C125",
   "status": "proved",
   "theorems": [
    "AstroRun.C125_spread_evenly",
    "AstroRun.C125_sharp"
   ],
   "note": "C125_spread_evenly for every k and every history; C125_sharp: for every k a history attains the bound."
  },
  {
   "property": "C126",
   "status": "proved",
   "theorems": [
    "AstroRun.C126_servers_told_or_steps_end_once",
    "AstroRun.C126_servers_told_or_steps_end",
    "AstroRun.C126_fair_futures"
   ],
   "note": "C126_servers_told_or_steps_end: for every endless execution of the engine on the remote runner, under weak fairness of the job's and the client's task and strong fairness of the select! branches that see the cancellation and the end of the stream. C126_fair_futures: such executions exist after every history, with servers that never end their streams and write for ever. What the runner on the server makes of the signal is its own business (C124 for the local runner). The _once version needs no condition on the shape of the workflow, only that the run starts the job once."
  },
  {
   "property": "C127",
   "status": "proved",
   "theorems": [
    "AstroRun.C127_silent_servers_runs_return_once",
    "AstroRun.C127_silent_servers_runs_return",
    "AstroRun.C127_fair_futures",
    "AstroRun.C127_hanging_servers_runs_can_return"
   ],
   "note": "Liveness with servers that hang: under weak fairness of the tasks, the timer and the calls, strong fairness of reading, passing time, and servers that obey signals, every run with distinct step ids and no parallel dependents returns. C127_fair_futures and C127_hanging_servers_runs_can_return show that the hypotheses can be met after every history (hooks that keep ids). The _once version needs no condition on the shape of the workflow, only that the run starts no job twice; an example shows such a run of a workflow whose shape does not exclude it."
  },
  {
   "property": "C128",
   "status": "proved",
   "theorems": [
    "AstroRun.C128_local",
    "AstroRun.C128_remote_once",
    "AstroRun.C128_remote",
    "AstroRun.C128_local_can_be_run",
    "AstroRun.C128_remote_can_be_run"
   ],
   "note": "C122 for processes and servers that hang. The remote theorem needs InOneLine (jobs that can be started twice may lose signals: C02, C117), stated about the configuration. C128_*_can_be_run: the hypotheses can be met by every accepted configuration in every history. C128_remote_once: configurations of any shape, if the run starts no job twice."
  },
  {
   "property": "C129",
   "status": "proved",
   "theorems": [
    "AstroRun.C129_dialogue",
    "AstroRun.C129_credentials",
    "AstroRun.C129_at_most",
    "AstroRun.C129_answers",
    "AstroRun.C129_waits_for_github",
    "AstroRun.C129_asked_once",
    "AstroRun.C129_lookups_in_one_piece"
   ],
   "note": "GitHub and the HTTP client are the environment: any answer of the kind asked for, or failure, at any time. The texts of the errors are not modelled (logged only)."
  }
 ]
}