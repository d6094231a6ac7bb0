# Formal model of astro-run in Lean 4 — design

(Assembled by `tools/design.py` from `tools/design_head.md`, `tools/plan.tsv`, `MANIFEST.json`, `tools/design_tail.md`.)

## Trusted base
* Lean 4.33.0's kernel (and the elaborator only insofar as it produces the terms the kernel checks).
* Axioms: each theorem named in MANIFEST.json depends on at most `propext`, `Classical.choice` and `Quot.sound`, Lean core's
  three; `AXIOMS.md` lists them theorem by theorem (output of `#print axioms`). No axiom of our own, no
  `native_decide`, no `bv_decide`, no unsafe or partial definitions.
* The reading of /repo into the model: every definition in `lean/Verif/Model/*.lean` cites file and lines and names its
  simplifications. The code is not executed here; the tie between model and code is this reading.
* The specification vocabulary in `lean/Verif/Spec/*.lean`: what the words of the English claims mean. It is short, it
  mentions types of the model (configuration, events, results) and, where it can, none of its functions.

## Layout
* `Verif/Model/*.lean` – the model: definitions only, each citing the code.
* `Verif/Spec/*.lean` – the specification vocabulary the theorems are stated with.
* `Verif/Lemmas/*.lean` – helper lemmas and invariants.
* `Verif/Props/*.lean` – property theorems (`Cnn_...`) with `example`s beside them showing that concrete, non-trivial cases
  meet their hypotheses.
* Naming: `_partial` = a weaker statement than the English claim (what is missing is below); `_refuted` = a proof that the
  full English claim is false of the modelled code, by a reachable counterexample.
* `seeded/LOG.jsonl` – wrong programs tried against the theorems, what failed and what was tightened.

## How the code is modelled
* **Concurrency.** A tokio program is a transition system whose actions are the stretches between two points where the task can
  yield or another thread can intervene (await points, lock acquisitions). Theorems quantify over every list of actions, so over
  every schedule, every number of worker threads and every crash point (a schedule may stop anywhere). A parking_lot critical
  section is one atomic action. Where two critical sections follow each other the model splits them (stream `end`, signal
  manager `cancel`, scheduler `schedule`, workflow bookkeeping).
* **Time** is a natural number that an action may advance by any amount; a timer firing is an action guarded by the clock.
* **Outside world.** Runner implementations, hooks, plugins, GitHub, gRPC streams, processes, docker and the file system are
  parameters or arbitrary action sequences: the theorems hold for whatever they do. Hooks have memory (a function of the
  history of what they have seen).
* **HashMap** iteration order is an arbitrary list order with unique keys; where the order matters the theorem quantifies
  over it.
* **Panics** are modelled where the code has them (`unwrap`/`expect` on missing jobs and signals): the task stops.
* **Text** is Lean `String`; paths are texts joined as `std::path::Path::join` does (absolute second argument replaces the first).

### Modelled
| crate | parts |
|---|---|
| astro-run | `workflow/{mod,job,step,builder,parser}.rs`, `execution_context/*` (run loop, condition matcher with GitHub as the environment, request by request, builder), `astro_run.rs`, `signals/*`, `stream.rs`, `plugins/*`, `actions.rs`, `user_config.rs` (validation; decoding at the YAML value level), `types/*` (ids, conditions, envs, results, serde mapping) |
| scheduler | `DefaultScheduler` with all its calls interleaved |
| remote-runner | client (run, events, signals, hooks, registration, builder), server (connection, dispatch, runs, signals, builder) |
| protocol | every message, down to the bytes of the JSON text (serde_json's writer and reader; decimal text of floats is a parameter) |
| logger | initialisation and the level filter |
| runner | processes and their environments, their output byte by byte through pipes of limited capacity, executor choice, docker and host command lines, directories, clean-up, entrypoint file, run task, memory, plugins, builder |

### Not modelled
* serde_yaml text syntax, tonic/h2 framing, compression and metadata, TLS; the decimal text of floats, humantime, glob and chrono are parameters.
* The logger crate's output format and colours, the test crate, examples, metrics of tracing.
* The contents of docker images, what `docker kill` does to a container, symbolic links, permissions.
* Memory exhaustion, integer overflow of counters (usize/u64 are natural numbers). Panics of user code that is called by the tasks of the engine (hooks, actions, runners, a scheduler or a local plugin's `on_before_run`, which are called from there) are modelled in Model/Faults (C108, C109), panics of payloads in C92, the death of a server's task for a call as `srvCrash` (Model/Remote). A panic of `on_after_run` or of an observer on a server ends a task nobody waits for: to the models this is a schedule in which that task makes no more moves, and the theorems that do not ask for fairness speak of it as well.

## Plan and outcome per property

`Model/X` and `Props/Y` are below `lean/Verif/`. "Missing" says what separates a partial claim from the full one.

### C01 Dependency order — proved
* Modelled: `Workflow`: `Workflow::run` as a transition system: main loop, one task per started job, bounded channel; an action is one poll between two await points. Proof: invariant over all reachable states: a task exists only when the results of its dependencies are booked.
* Theorems (`Props/Workflow`): `C01_dependency_order`.

### C02 At most one run per job — partial
* Modelled: as C01; a run of a job is a spawned task. Proof: refuted by a 3-job witness; partial: at-most-once exactly for graphs where no dependent can be started twice (`NoParallelDependents`), both directions.
* Theorems (`Props/FairCancel`, `Props/WorkflowTerm`): `C02_started_once_partial`, `C02_single_run_partial`, `C02_roots_single_run_partial`, `C02_exactly_these`, `C02_refuted`.
* Missing: Full claim is false of the code: a waiting job stays in the waiting list until its own result arrives, so every later result starts it again (C02_refuted: accepted configuration, job c runs twice). Proved: exactly which dependency graphs never start a job twice (C02_exactly_these), and jobs without dependencies never run twice. C02_started_once_partial: the same for the runs of a busy engine.

### C03 Result completeness — proved
* Modelled: as C01. Proof: invariant: results booked = results received; domain equality at return.
* Theorems (`Props/Workflow`): `C03_result_completeness`.

### C04 Workflow outcome aggregation — proved
* Modelled: as C01, result states from `Job`. Proof: invariant on the running state of the fold over received results, read off the returned record.
* Theorems (`Props/Workflow`): `C04_workflow_outcome`.

### C05 Dependents run whatever the dependency's outcome — proved
* Modelled: as C01. Proof: the start condition never inspects a result's state: lemma on the rescan of waiting jobs.
* Theorems (`Props/Workflow`): `C05_dependents_run_anyway`.

### C06 Workflow termination — partial
* Modelled: as C01. Proof: well-founded measure on states (no infinite schedule); progress lemma + acyclicity (pigeonhole on dependency chains); cyclic witness refutes.
* Theorems (`Props/WorkflowTerm`): `C06_no_infinite_schedule`, `C06_acyclic_returns_partial`, `C06_parsed_workflows`, `C06_returns_exactly_acyclic`, `C06_refuted`.
* Missing: Full claim is false of the code: the validator accepts cycles and a workflow with a cycle never returns (C06_refuted). Proved: no infinite schedule for any workflow; workflows without cycles cannot get stuck before returning; a workflow can return exactly when its dependencies form no cycle (C06_returns_exactly_acyclic); every accepted acyclic configuration meets the conditions (C06_parsed_workflows). Assumes before-step hooks keep the job part of a step's id (a hook that rewrites it makes the step's signal lookup panic).

### C07 Workflow event bracket — proved
* Modelled: as C01, with the notification trace. Proof: invariant on the trace: shape `start ++ middle ++ end`.
* Theorems (`Props/Workflow`): `C07_workflow_bracket`.

### C08 Skipped workflow has no effect — proved
* Modelled: as C01. Proof: case analysis on the skip branch.
* Theorems (`Props/Workflow`): `C08_skipped_workflow`.

### C09 Independent jobs start at once — proved
* Modelled: as C01. Proof: the first scan spawns every job without dependency; invariant.
* Theorems (`Props/Workflow`): `C09_independent_jobs_start_at_once`.

### C10 One step result per configured step — proved
* Modelled: `Job`: `Job::run` as a function over an arbitrary step oracle; `JobMachine`: the same as a small-step machine. Proof: induction over the step list; machine refines function (C14).
* Theorems (`Props/Job`): `C10_one_result_per_step`.

### C11 Failure skips later steps unless continue-on-error — proved
* Modelled: as C10. Proof: induction over the step list with the carried failure flag.
* Theorems (`Props/Job`): `C11_failure_skips`.

### C12 Cancellation skips all later steps — proved
* Modelled: as C10. Proof: as C11.
* Theorems (`Props/Job`): `C12_cancel_skips`.

### C13 Job outcome aggregation — proved
* Modelled: as C10. Proof: induction; fold of the step states.
* Theorems (`Props/Job`): `C13_job_outcome`, `C13_skipped_job`.

### C14 Job event bracket — proved
* Modelled: as C10, with the trace; `JobMachine` interleaves the step loop with the signal/log tasks. Proof: induction over steps; refinement: every complete schedule of the machine gives the trace and result of the function.
* Theorems (`Props/Job`, `Props/JobMachine`): `C14_event_bracket`, `C14_every_schedule_is_sequential`, `C14_progress`.

### C15 Skipped steps never reach the runner — proved
* Modelled: as C14. Proof: trace projection on runner calls.
* Theorems (`Props/Job`): `C15_runner_calls`.

### C16 Step life cycle — proved
* Modelled: as C14. Proof: trace projection per step.
* Theorems (`Props/Job`): `C16_step_life_cycle`.

### C17 Step logs complete and in order — proved
* Modelled: as C14 plus the stream of `Run`. Proof: projection of the trace on log notifications = the lines received.
* Theorems (`Props/JobMachine`): `C17_logs_complete`, `C17_logs_in_order`.

### C18 Exit code mapping — proved
* Modelled: `Run`. Proof: decision logic.
* Theorems (`Props/Job`): `C18_exit_code_mapping`.

### C19 Step timeout — partial
* Modelled: `Run`: the `select!` loop over an arbitrary timed event list. Proof: refuted (timer re-armed by every log line); partial for silent steps.
* Theorems (`Props/JobMachine`): `C19_silent_step_partial`, `C19_refuted`.
* Missing: Full claim is false of the code: the timer is created anew in every select! iteration, so each log line restarts it (C19_refuted: a step running arbitrarily long past its timeout, not signalled). Proved: a step that stays silent is signalled after `timeout`.

### C20 Idle timeout — proved
* Modelled: as C19. Proof: induction over the event list with last-event time.
* Theorems (`Props/JobMachine`): `C20_timeout_only_after_idle_period`, `C20_idle_step_is_signalled`.

### C21 Cancel semantics of the API — proved
* Modelled: `SignalManager`: the map, with interrupted (non-atomic) cancels. Proof: refinement to an abstract job map over histories.
* Theorems (`Props/SignalManager`): `C21_cancel_semantics`, `C21_cancel_interrupted`.

### C22 Cancellation takes effect — partial
* Modelled: `SignalManager` + `JobMachine`. Proof: refuted by a runner ignoring the signal; partial: forwarding and aggregation.
* Theorems (`Props/JobMachine`): `C22_cancel_partial`, `C22_refuted`.
* Missing: Full claim is false of the code: a cancel is only a request to the runner; a runner that ignores it and ends Succeeded lets the remaining steps run (C22_refuted). Proved: a successful cancel reaches (or can reach) the waiting step, and if any step ends Cancelled the job ends Cancelled.

### C23 Cancel reaches a step that is running — proved
* Modelled: `Run`, `JobMachine`. Proof: invariant: forwarded flag set at most once.
* Theorems (`Props/JobMachine`): `C23_cancel_forwarded_once`, `C23_cancelled_step_ends_job`.

### C24 Signal: first write wins — proved
* Modelled: `Signal`: poll-level machine of AstroRunSignal. Proof: invariant over histories.
* Theorems (`Props/Signal`): `C24_first_write_wins`.

### C25 Signal: delivered at most once — proved
* Modelled: as C24. Proof: invariant over histories.
* Theorems (`Props/Signal`): `C25_delivered_at_most_once`, `C25_delivered_to_next_poll`.

### C26 Signal: no lost wake-up — proved
* Modelled: as C24 with wakers. Proof: invariant: pending signal implies woken or no registered waiter.
* Theorems (`Props/Signal`): `C26_no_lost_wakeup`.

### C27 Stream: exactly-once FIFO — proved
* Modelled: `Stream`: poll-level machine of the stream/sender pair. Proof: refinement to a FIFO queue.
* Theorems (`Props/Stream`): `C27_exactly_once_fifo`, `C27_complete_at_end`.

### C28 Stream: no lost wake-up — proved
* Modelled: as C27 with wakers. Proof: invariant.
* Theorems (`Props/Stream`): `C28_no_lost_wakeup`.

### C29 Stream: result is write-once — partial
* Modelled: as C27, `end` split at its two critical sections. Proof: refuted by overlapping ends; partial for non-overlapping ends.
* Theorems (`Props/Stream`): `C29_result_write_once_partial`, `C29_sequential_first_end_wins`, `C29_refuted`.
* Missing: Full claim is false of the code: end() stores the result and clears has_result in two steps under separate locks, so two concurrent end() calls can both store. Proved: write-once when ends do not overlap; refutation exhibits the overlapping schedule.

### C30 Condition semantics — proved
* Modelled: `Condition`; glob matching a parameter `GlobLang`. Proof: induction over pattern and file lists against an independent specification.
* Theorems (`Props/Condition`): `C30_condition_semantics`.

### C31 Invalid glob makes the list fail closed — proved
* Modelled: as C30. Proof: as C30 with invalid patterns.
* Theorems (`Props/Condition`): `C31_invalid_glob`, `C31_no_changed_files`.

### C32 Conditions are fail-open without context — proved
* Modelled: `Matcher`. Proof: case analysis over available context.
* Theorems (`Props/Matcher`): `C32_fail_open`, `C32_otherwise_evaluated`.

### C33 Changed files are looked up until one lookup succeeds, then fixed — proved
* Modelled: `Matcher`: cached lookup, GitHub a parameter (arbitrary answer sequence). Proof: induction over the query history.
* Theorems (`Props/Matcher`): `C33_lookup_until_success`, `C33_no_success`, `C33_no_context`.

### C34 Validator decision — proved
* Modelled: `Config.validate` over any iteration order. Proof: iff with `WellFormed`, permutation invariance.
* Theorems (`Props/Config`): `C34_validator_decision`.

### C35 Dependency cycles are rejected — partial
* Modelled: as C34. Proof: refuted by witness; partial.
* Theorems (`Props/Config`): `C35_all_dependent_rejected_partial`, `C35_refuted`.
* Missing: Full claim is false of the code (validator only rejects 'all jobs have dependencies'); accepted cyclic configuration exhibited in C35_refuted. Proved: rejected when every job has a dependency.

### C36 Parsed identifiers — proved
* Modelled: `Parser`. Proof: induction over the normalised step list.
* Theorems (`Props/Parser`): `C36_parsed_identifiers`.

### C37 Action expansion order — proved
* Modelled: `Parser`: action normalisation loop with pre/run/post. Proof: induction; equality with `pre ++ body ++ reverse post`.
* Theorems (`Props/Parser`): `C37_expansion_order`.

### C38 Defaults and inheritance — proved
* Modelled: `Parser`. Proof: field-by-field equations against a relational specification `Denotes`.
* Theorems (`Props/Parser`): `C38_workflow_fields`, `C38_defaults`.

### C39 Action resolution — proved
* Modelled: `Parser`. Proof: iff characterisation of success, error analysis.
* Theorems (`Props/Parser`): `C39_action_resolution`, `C39_parse_succeeds_iff`, `C39_parse_error`, `C39_build`.

### C40 Identifier text round trip — proved
* Modelled: `Id`: text on `List Char`/`String`. Proof: round trip, exact characterisation of parseable text, injectivity and collision.
* Theorems (`Props/Id`): `C40_parse_print`, `C40_parse_exact`, `C40_print_injective`, `C40_slash_collision`.

### C41 Step/command conversion — proved
* Modelled: `Types`. Proof: round trip.
* Theorems (`Props/Id`): `C41_step_command`.

### C42 Every plugin sees every notification — proved
* Modelled: `Plugin`: drivers over arbitrary hooks with memory. Proof: induction over the plugin list.
* Theorems (`Props/Plugin`): `C42_every_observer_every_notification`, `C42_seen_by`.

### C43 Before-step rewriting — proved
* Modelled: as C42. Proof: fold characterisation.
* Theorems (`Props/Plugin`): `C43_before_step_rewriting`.

### C44 Scheduler capability — partial
* Modelled: `Scheduler`. Proof: refuted; partial by invariant over histories.
* Theorems (`Props/Scheduler`): `C44_capability_partial`, `C44_refuted`.
* Missing: Full claim is false of the code: for a job bound to a runner by an earlier docker step, '&&'/'||' precedence skips the host-support check when the platform is given as host/os-arch (C44_refuted). Proved: the returned runner was offered; docker steps get docker support (if a runner id never changes its docker support between offers); host steps get the right platform, and host support in all other cases.

### C45 Scheduler: least loaded — proved
* Modelled: as C44. Proof: minimum over the offered list.
* Theorems (`Props/Scheduler`): `C45_least_loaded`, `C45_fewest_running`.

### C46 Scheduler: job affinity — proved
* Modelled: as C44. Proof: history induction.
* Theorems (`Props/Scheduler`): `C46_job_affinity`.

### C47 Scheduler: finds a runner iff one fits — proved
* Modelled: as C44. Proof: iff, termination of the retry loop.
* Theorems (`Props/Scheduler`): `C47_finds_iff_one_fits`, `C47_calls_finish`.

### C48 Scheduler: load accounting — proved
* Modelled: as C44; interleaved schedule/complete calls. Proof: ghost-count invariant over histories.
* Theorems (`Props/Scheduler`): `C48_load_accounting`, `C48_leak_when_rescheduled`.

### C49 Scheduler: capacity limit — partial
* Modelled: as C44. Proof: refuted for every limit and every n.
* Theorems (`Props/Scheduler`): `C49_refuted`, `C49_limit_ignored`.
* Missing: Full claim is false of the code: max_runs is never read. C49_refuted: for every docker runner, whatever its limit, and every n there is a history with n running steps on it; C49_limit_ignored: changing the limits changes nothing.

### C50 Remote run always ends — proved
* Modelled: `Remote`: client `run`, the response stream arbitrary. Proof: induction over the stream; machine with crash/closed connections.
* Theorems (`Props/Remote`): `C50_one_result`, `C50_result_is_final`, `C50_ends_after_the_stream`, `C50_dispatch`.

### C51 Remote logs are preserved — proved
* Modelled: as C50. Proof: projection of the trace.
* Theorems (`Props/Remote`): `C51_logs_preserved`.

### C52 Remote completion releases scheduler load — partial
* Modelled: as C50 + `Scheduler`. Proof: refuted.
* Theorems (`Props/Remote`): `C52_refuted`, `C52_load_never_released`.
* Missing: False of the code: on_step_completed/on_job_completed of the remote client only broadcast, they never call the scheduler (client.rs:74-92). C52_refuted exhibits a wrong choice of runner; C52_load_never_released gives the general behaviour.

### C53 Remote events reach the runners — partial
* Modelled: `Remote`: broadcast channel of capacity 32 with lag. Proof: induction over the send/receive history; refuted on lag.
* Theorems (`Props/RemoteEvents`): `C53_in_order_partial`, `C53_refuted`.
* Missing: False in general: the forwarding loop ends for good when it falls more than 32 events behind (client.rs:194 stops on Lagged). Proved: in order, without gaps, complete as long as it does not lag; C53_refuted shows the failure.

### C54 Remote signal routing — proved
* Modelled: `Remote`. Proof: routing lemma over the pending map.
* Theorems (`Props/RemoteEvents`): `C54_client_sends_own_signal`, `C54_only_own_step`, `C54_delivered`, `C54_unknown_ignored`.

### C55 Remote registration — proved
* Modelled: `Remote`. Proof: history induction.
* Theorems (`Props/RemoteEvents`): `C55_registration`.

### C56 Remote before-step hook — proved
* Modelled: `Remote`, `Plugin`. Proof: fold characterisation.
* Theorems (`Props/RemoteEvents`): `C56_remote_hook`, `C56_server_hook`.

### C57 Wire format round trip — partial
* Modelled: `Wire`: serde's data model mapping; `JsonText`: serde_json's writer and reader as an automaton over characters, with its depth limit, and the codec. Proof: round trip by structural induction on values, then on texts; NaN and nesting beyond 127 refute the unconditional claim; the reader is proved sound and complete for an independent grammar (RFC 8259); every decoder is proved equal to a declarative meaning of messages (Spec/WireMeaning) on all JSON values.
* Theorems (`Props/JsonGrammar`, `Props/JsonText`, `Props/JsonTruncated`, `Props/Wire`, `Props/WireFields`, `Props/WireMeaning`): `C57_json_grammar`, `C57_received`, `C57_unambiguous`, `C57_json_text`, `C57_event_bytes_partial`, `C57_context_bytes_partial`, `C57_command_bytes_partial`, `C57_response_bytes`, `C57_metadata_bytes`, `C57_deep_refuted`, `C57_truncated`, `C57_truncated_messages`, `C57_event_partial`, `C57_context_partial`, `C57_command_partial`, `C57_response`, `C57_metadata`, `C57_refuted`, `C57_refused_exactly`, `C57_fields`, `C57_sequence`, `C57_sequence_parts`, `C57_variants`, `C57_variant_sequences`, `C57_maps`, `C57_names`, `C57_meaning`.
* Missing: Full claim is false of the code: a non-finite f64 environment number (a user can write .nan in the workflow file) is written as null and does not decode (C57_refuted), and a payload nested deeper than serde_json's limit is written but not read (C57_deep_refuted). Proved, down to the characters of the JSON text: every other event, context, command, response and registration round-trips, under lawful (round-tripping) time text and payload codecs; every proper prefix of a message is refused; the texts read are exactly those of RFC 8259's grammar (stated independently) nested at most 127 deep. The decimal text of a float is a parameter; each float in the message is assumed to be read back from its text (serde_json without float_roundtrip does not promise that for every float).

### C58 Executor choice — proved
* Modelled: `Runner`. Proof: decision logic.
* Theorems (`Props/Runner`): `C58_host`, `C58_docker`, `C58_scheduled`.

### C59 Docker command line — proved
* Modelled: `Runner`: text of the docker command. Proof: word lists; `argv` through a word-splitting specification of sh.
* Theorems (`Props/Runner`): `C59_words`, `C59_argv`.

### C60 Docker environment is passed literally — partial
* Modelled: as C59. Proof: refuted (quotes); injectivity/literalness for plain texts.
* Theorems (`Props/Runner`): `C60_determined_partial`, `C60_literal_partial`, `C60_refuted`.
* Missing: False of the code: double quotes in a value are not escaped (C60_refuted: two environments, one command line). Proved: without double quotes the command line determines the environment; for shell-plain names and values docker receives every entry literally, through a word-splitting specification of sh.

### C61 Step isolation on disk — partial
* Modelled: `Runner`, paths. Proof: injectivity of path construction, prefix-freeness; refuted for '/'.
* Theorems (`Props/Runner`): `C61_isolated_partial`, `C61_path_meaning`, `C61_places`, `C61_refuted`.
* Missing: False of the code for job keys with '/' (C61_refuted, an accepted workflow). Proved for job keys and workflow ids that are single path components; container names differ for all job keys. File systems without symbolic links.

### C62 Workflow clean-up is confined — partial
* Modelled: `Runner`: file system as a set of paths. Proof: confinement of removal; refuted for ids such as '..'.
* Theorems (`Props/Runner`): `C62_confined_partial`, `C62_others_stay_partial`, `C62_refuted`.
* Missing: False of the code: the workflow id is not checked (ids 'caches', '..', absolute paths; C62_refuted). Proved for ids that are single path components; other workflows and caches stay when both workflows carry an event or neither does and the id is not 'caches'. File systems without symbolic links.

### C63 Local run always ends — partial
* Modelled: `LocalRun`: the runner's task, process and signal as a machine. Proof: invariants, bounded own steps.
* Theorems (`Props/LocalRun`): `C63_result_partial`, `C63_once`, `C63_bounded`, `C63_ends`, `C63_refuted`.
* Missing: Proved: the result is unique, never changes, equals the observed exit status (or signal, or Failed 1), the task takes boundedly many steps of its own and always ends once its process is over. False of the code: a step cancelled before the executor starts ends Failed 1, not Cancelled (C63_refuted).

### C64 Post-run clean-up — partial
* Modelled: as C63. Proof: refuted for normal exit; partial otherwise.
* Theorems (`Props/LocalRun`): `C64_never_cleaned_refuted`, `C64_cleaned_partial`.
* Missing: False of the code: a step whose process exits normally is never cleaned up and on_after_run is never called, because the select! branch only matches Err and keeps waiting for a signal. Proved for runs ended by a signal or an executor error.

### C65 Process output is complete — partial
* Modelled: as C63 with two pipes. Proof: invariant (prefix order); refuted completeness.
* Theorems (`Props/LocalRun`): `C65_in_order_partial`, `C65_refuted`.
* Missing: Proved: per-stream order, no invention, and at least one stream complete. False of the code: the reader stops at the end of either pipe, so lines left in the other one are lost (C65_refuted).

### C66 Entrypoint script — partial
* Modelled: `Entry`: tokio `File` with background writes. Proof: invariant over schedules.
* Theorems (`Props/Entry`, `Props/LocalRun`): `C66_content_partial`, `C66_prefix`, `C66_error`, `C66_progress`, `C66_returns_in_time`, `C66_unfinished_refuted`, `C66_lost_error_refuted`, `C66_started_with_entrypoint`.
* Missing: Proved: content once the background write is over; a prefix of it at any time; errors only on OS failures; no hang (C66_progress, and C66_returns_in_time bounds the number of moves). False of the code: tokio's File is dropped without flush, so the call can return Ok before the script is in the file, and a failing last write is not reported. C66_started_with_entrypoint: a process is started only after the directory was made and the entrypoint file written without an error being returned.

### C67 Cancelled before start — proved
* Modelled: `LocalRun`, `Entry`. Proof: case analysis.
* Theorems (`Props/LocalRun`): `C67_nothing_started`.

### C68 Server dispatches every event — proved
* Modelled: `Server`: connection task with dispatch of every event. Proof: invariant over schedules.
* Theorems (`Props/Server`): `C68_dispatched`, `C68_in_order`, `C68_requests`, `C68_progress`.

### C69 Server construction and metadata — proved
* Modelled: `Server`, `Builders`. Proof: fold over builder calls.
* Theorems (`Props/Server`): `C69_server_builder`.

### C70 Local runner plugins — proved
* Modelled: `Builders` (runner plugins). Proof: induction over the plugin list.
* Theorems (`Props/Builders`): `C70_before_run`, `C70_after_run`.

### C71 Cancelled or timed-out work is stopped — partial
* Modelled: `LocalRun`. Proof: invariant on issued kills; refuted for host processes.
* Theorems (`Props/LocalRun`): `C71_docker_killed_partial`, `C71_refuted`.
* Missing: Docker: exactly one kill of the right container is issued before the end. Host: the process is left running (C71_refuted). That docker kill stops the container is outside the model.

### C72 Local runner construction — proved
* Modelled: `Builders`. Proof: induction over the sequence of builder calls, last call wins.
* Theorems (`Props/Builders`): `C72_runner_builder`, `C72_default_directory`.

### C73 Local runner memory — partial
* Modelled: `Builders`. Proof: induction over the sequence of builder calls, last call wins.
* Theorems (`Props/Builders`): `C73_last_event_partial`, `C73_refuted`.
* Missing: Proved: which event is remembered. False of the code: it is never removed (C73_refuted).

### C74 Engine construction — proved
* Modelled: `Builders`. Proof: induction over the sequence of builder calls, last call wins.
* Theorems (`Props/Builders`): `C74_engine_builder`, `C74_action_used`, `C74_plugins_resolve`.

### C75 Execution context construction — proved
* Modelled: `Builders`. Proof: induction over the sequence of builder calls, last call wins.
* Theorems (`Props/Builders`): `C75_context_builder`.

### C76 Plugins made of closures — proved
* Modelled: `Builders`. Proof: induction over the sequence of builder calls, last call wins.
* Theorems (`Props/Builders`): `C76_plugin_builder`.

### C77 Workflow builder — proved
* Modelled: `Builders`. Proof: induction over the sequence of builder calls, last call wins.
* Theorems (`Props/Builders`): `C77_workflow_builder`.

### C78 Signals on a remote runner server — proved
* Modelled: `Server`. Proof: refinement of the shared map to the history of operations.
* Theorems (`Props/ServerSignals`): `C78_server_signals`.
* Note: ServerState is the shared state of the server; the operations are read off the schedule (Spec.srvOps), independent of the state.

### C79 Configuration documents mean what they say — proved
* Modelled: `UserDecode`: serde data model of the configuration over YAML values. Proof: round trip, exact characterisation of untagged variants, lookup congruence; the reader is proved equal to a declarative meaning of documents (Spec/UserDecode), by structural induction.
* Theorems (`Props/UserDecode`): `C79_meaning`, `C79_round_trip`, `C79_documented_keys`, `C79_step_kind`, `C79_accepts`, `C79_unknown_event`, `C79_empty_value`, `C79_sequence`, `C79_repeated_key`.
* Note: YAML values as trees with text keys; the text of YAML, anchors, tags and serde_yaml's reading of unquoted scalars as texts are not modelled. The value of `with` is a parameter with a round-trip law; repeated keys inside it are not checked in the model. C79_meaning holds for every value, without any hypothesis.

### C80 Workflows running at the same time do not interfere — partial
* Modelled: `System`: one engine, any number of runs, step-level job tasks, shared signal table and clock. Proof: refinement: every run of the engine simulates the workflow machine of C01–C09, with a prophecy of the rest of each job run; refuted for runs sharing a workflow id.
* Theorems (`Props/System`): `C80_runs_do_not_interfere_partial`, `C80_dependency_order`, `C80_returned`, `C80_refuted`.
* Missing: Proved for all schedules whose concurrent runs have different workflow ids (job ids carry the workflow id, hooks do not move steps to other workflows). C80_refuted shows the unrestricted claim is false of the code: two runs of one workflow id share signal-table entries and the second never returns.

### C81 Time stamps are ordered, nested and the clock's — partial
* Modelled: `System`: the clock and the stamps of tasks and runs. Proof: invariant over all schedules (intervals), plus persistence of each stamp from the move that took it; refuted for dependency stamps in the final result when a job runs twice.
* Theorems (`Props/Timing`): `C81_nested`, `C81_dependents`, `C81_dependents_in_result_partial`, `C81_dependents_refuted`, `C81_workflow_start`, `C81_workflow_end`, `C81_job_clock`, `C81_step_clock`.
* Missing: Nesting, order and origin of all stamps are proved for all schedules. C81_dependents: the delivered result a job waited for completed before the job started. In the returned result this holds only if no job ran twice (C02); C81_dependents_refuted gives an accepted configuration and a schedule in which the result shows a dependent starting before its dependency completed.

### C82 Cancelling one job of a busy engine — partial
* Modelled: `System`: shared signal table, `cancel_job`. Proof: invariant with a ghost list of who registered each signal; refuted for a job announced twice.
* Theorems (`Props/SystemCancel`): `C82_answers`, `C82_refused_changes_nothing`, `C82_only_the_named_job`, `C82_reaches_the_job_partial`, `C82_refuted`.
* Missing: Proved for all schedules in which at most one job run announced the cancelled job. C82_refuted: a job started twice (C02) has two waiting steps of which an accepted cancel_job reaches only one.

### C83 No run is held up by the others — proved
* Modelled: `System`. Proof: well-founded induction on the measure of the workflow machine, with what is left to do in each job task; stuck states by C06 through the refinement.
* Theorems (`Props/SystemLive`): `C83_every_run_can_return`, `C83_stuck_means_returned`.
* Note: Assumes what C80 and C06 need: distinct workflow ids, hooks keep the job part of step ids, unique jobs, defined and acyclic dependencies.

### C84 Life cycle of states and notifications — proved
* Modelled: `System`: notifications. Proof: invariant over all schedules: every notification is allowed after those before it.
* Theorems (`Props/Lifecycle`): `C84_is_waiting`, `C84_is_terminal`, `C84_job_notifications`, `C84_job_answers`, `C84_workflow_notifications`, `C84_returned_states`.

### C85 Concurrent condition checks — partial
* Modelled: `MatcherConc`: the shared matcher, any number of checks, split critical sections. Proof: invariant giving each answer its cause; refuted for "the first success fixes the files".
* Theorems (`Props/MatcherConc`): `C85_answers`, `C85_progress`, `C85_no_lookup_after_success`, `C85_fixed_partial`, `C85_refuted`.
* Missing: Everything is proved except that the first successful lookup fixes the files, which is false of the code (C85_refuted); C85_fixed_partial proves it once no lookup is in flight.

### C86 Remote execution is transparent — proved
* Modelled: `Remote`: runner, server task, channel, client task, engine. Proof: invariant over fault-free schedules; potential function for the bound.
* Theorems (`Props/RemoteTransparent`): `C86_same_outcome`, `C86_engine_sees_the_end`.

### C87 A step on the local runner ends when, and as, its process ended — proved
* Modelled: the job machine composed with the tasks of the local runner: shared signal and stream, any number of tasks. Proof: invariant linking both views, projections to both machines, decreasing measure.
* Theorems (`Props/LocalStack`): `C87_both_views`, `C87_result`, `C87_bounded`, `C87_progress`, `C87_plan`.

### C88 Cancelling a job stops the running process and ends step and job as cancelled — proved
* Modelled: same composition. Proof: invariant over all schedules after the cancel: pending, struck, ended.
* Theorems (`Props/LocalStack`): `C88_cancel`, `C88_job`.

### C89 A silent step on the local runner is killed when its timeout is over — proved
* Modelled: same composition. Proof: invariant over all schedules after the deadline: expired, struck, ended.
* Theorems (`Props/LocalStack`): `C89_idle_timeout`.

### C90 The process of a command — proved
* Modelled: the builder, `build_command` (non-Windows), the inherited environment as `std` passes it (list of NAME=value), `getenv`, UTF-8 decoding and `trim`, `exec` against an arbitrary operating system. Proof: induction on the call history; environment lookup shown independent of order because names are distinct; trimming characterised and shown unique.
* Theorems (`Props/Process`): `C90_process`, `C90_step_environment`, `C90_exec_ok`, `C90_exec_error`, `C90_refused`, `C90_kill`.
* Note: Names of variables must not contain '=', as the operating system requires; the Windows branch of build_command is not modelled.

### C91 Errors, log types and signals as text — proved
* Modelled: `ErrorText`: `Error` with its text and `==`, `WorkflowLogType` and `Signal` texts. Proof: case analysis; the texts before the message form a prefix code.
* Theorems (`Props/ErrorText`): `C91_equivalence`, `C91_message`, `C91_io`, `C91_read_back`.
* Note: An I/O error is a kind and a text, both arbitrary.

### C92 The user's payload arrives unchanged everywhere — partial
* Modelled: `Payload`: typetag payloads, their clone by JSON, and what hooks and jobs get. Proof: round trip of the JSON text (C57) carried through the copies.
* Theorems (`Props/Payload`): `C92_delivered_partial`, `C92_typed`, `C92_never_wrong`, `C92_same_type`, `C92_text`, `C92_reads`, `C92_refuted`.
* Missing: Full claim is false of the code: a payload that JSON does not preserve panics the run (C92_refuted). Proved: every payload that survives JSON reaches every hook, every job and the remote message unchanged, and a payload is never replaced by a different one of the same tag.

### C93 One log level per process, whoever initialises — proved
* Modelled: `Logger`: any number of racing initialisations, other loggers and log lines. Proof: invariant over all schedules.
* Theorems (`Props/Logger`): `C93_level`, `C93_printed`, `C93_environment`, `C93_progress`, `C93_bounded`, `C93_foreign`, `C93_explicit`.
* Note: The log crate's global logger and level are modelled as two cells that start unset; other code may install a logger at any time but does not call set_max_level. C93_explicit: if all initialisations name the same level, it is the level of the process.

### C94 A slow or vanished client does not stall the server — proved
* Modelled: `Remote`: server task, queue of capacity 30, disappearing receiver. Proof: invariants over all schedules; potential function for the number of moves.
* Theorems (`Props/RemoteServer`): `C94_bounded`, `C94_runner_never_waits`, `C94_waits_only_for_room`, `C94_vanished_client`, `C94_finishes`, `C94_nothing_dropped`.

### C95 A job on remote runners gets what the runners there produce, and they get its signals — proved
* Modelled: the job machine composed with client task, transport and server task of every call, the servers' signal maps and the notifications that clear them (`RemoteStack`). Proof: invariants linking the two views of stream and signal; projections to `JobReach` and `RemoteReach`; counting of moves.
* Theorems (`Props/RemoteHost`, `Props/RemoteStack`): `C95_job`, `C95_both_views`, `C95_result`, `C95_no_runner`, `C95_signal_only_from_engine`, `C95_signal_carried`, `C95_signal_bounded`, `C95_progress`, `C95_only_call`.

### C96 A job on remote runners that execute steps locally behaves as if its steps ran here — proved
* Modelled: job machine, client, network and server of every call (`RemoteStack`) composed with the task of the local runner on the server (`RemoteHost`). Proof: projections to `RemoteStackReach` and `LocalReach`; link between the two copies of stream and signal; invariant for a step to which a signal was sent; potential function for the number of moves.
* Theorems (`Props/RemoteHost`): `C96_both_views`, `C96_result`, `C96_failure`, `C96_starts`, `C96_progress`, `C96_signal`, `C96_cancel`, `C96_bounded`, `C96_job`.
* Note: The local runner's plugins and environment enter as in C63; cancel/timeout claims need the ids of the steps handed out to be distinct (true of a parsed workflow, C01) because the server keeps its signals by step id.

### C97 A step that is silent on a remote server times out there — proved
* Modelled: `RemoteHost`. Proof: invariant of an expired wait in which nothing is in flight, carried over to the one for a step that got a timeout signal.
* Theorems (`Props/RemoteTimeout`): `C97_idle_timeout`.
* Note: Needs distinct step ids as C96.

### C98 Steps of a job on a fleet of servers are placed on servers that can execute them — proved
* Modelled: client table of servers, scheduler with the calls of all jobs, and `RemoteStack` composed (`RemoteFleet`). Proof: projections to `RemoteStackReach` and `SchedReach`; invariant linking the table to the history of connections, offers to the table, placements to finished calls.
* Theorems (`Props/RemoteFleet`): `C98_both_views`, `C98_server`, `C98_refused`, `C98_progress`.
* Note: The scheduler is the default one; what other jobs ask is arbitrary.

### C99 All steps of a job run on the same server — partial
* Modelled: `RemoteFleet`. Proof: invariant: the entry of the job in the table of bound jobs is the server of its docker steps; counterexample.
* Theorems (`Props/RemoteFleet`): `C99_docker_partial`, `C99_after_docker_partial`, `C99_refuted`.
* Missing: False of the code for host steps before the first docker step (C99_refuted). Proved: all docker steps share a server; steps after a docker step that suit its server go there.

### C100 In an engine with the local runner every step ends as its process ended — proved
* Modelled: the whole engine (`Sys`: any number of runs) composed with the runner and the task and process of every step (`LocalEngine`). Proof: invariant per job task: ended steps, their runner tasks and their results agree; link between the two copies of stream and signal; projections to `SysReach` and `LocalReach`.
* Theorems (`Props/LocalEngine`): `C100_both_views`, `C100_job`, `C100_workflow`, `C100_executing`.

### C101 A workflow on the local runner returns when its processes have ended — proved
* Modelled: `LocalEngine`. Proof: a run in which nothing moves and whose processes are over executes no step; then C83.
* Theorems (`Props/LocalEngine`): `C101_stuck_means_returned`.

### C102 When a workflow has returned, none of its processes is left running — partial
* Modelled: `LocalEngine`. Proof: every task of an ended step wrote its result, which it does only after the exit of the process, a kill or a failed wait; counterexample.
* Theorems (`Props/LocalEngine`): `C102_job_partial`, `C102_returned_partial`, `C102_refuted`.
* Missing: C102_job_partial and C102_returned_partial: containers of job runs with a result, and of runs that ran no job twice. Missing: false in general (C102_refuted: job started twice), and for host processes (C71_refuted).

### C103 A step is stopped as cancelled only if somebody cancelled its job — proved
* Modelled: `LocalEngine`. Proof: invariant: a cancel signal in a runner task implies the answered call, by C82 for the step being executed.
* Theorems (`Props/LocalEngine`): `C103_cancelled_because_asked`, `C103_result`.

### C104 A job in a busy engine behaves exactly as that job alone — proved
* Modelled: Model/System against Model/JobMachine. Proof: stepwise simulation: every move of the engine is nothing, or the same move, or (registering and removing the signal, which the engine does while announcing) a delayed move of the job alone; the job-level theorems C17 and C23 are then carried over.
* Theorems (`Props/CancelAnswer`, `Props/FairCancel`, `Props/SystemAlone`): `C104_cancel_answered`, `C104_only_run_once`, `C104_only_run`, `C104_alone`, `C104_never_panics`, `C104_logs_in_order`, `C104_logs_complete`, `C104_cancel_once`, `C104_cancel_passed_on`.
* Note: C104_only_run: a job of a workflow with distinct job keys and ids is run at most once while runs are kept apart, so C104's NoOther is implied by conditions on inputs. C104_only_run_once: or if the run in question has started the job once, whatever its shape.

### C105 Cancelling and time limits work for one step of a busy engine on the local runner — proved
* Modelled: `LocalEngine` against `LocalStack`. Proof: stepwise simulation (as C104) of the engine by the job alone on a runner that other jobs may use too; C87, C88 and C89 are carried over; the announcements, which the job alone does not make separately, are bounded by what is owed.
* Theorems (`Props/LocalEngineAlone`): `C105_cancel`, `C105_idle_timeout`, `C105_bounded`, `C105_job`.

### C106 A running step never oversleeps its runner, its signal or its timeout — proved
* Modelled: Model/SelectLoop: the loop of ExecutionContext::run with its three futures, wakers, the timer driver and the executor, one move per poll of a branch; JobM. Proof: invariant: every branch already polled in the current pass has left a waker and is pending, or the task was woken since; simulation in both directions with the job machine by induction over schedules.
* Theorems (`Props/SelectLoop`): `C106_asleep`, `C106_wakes`, `C106_not_stuck`, `C106_ends`, `C106_over`, `C106_told`, `C106_only`, `C106_refines`, `C106_exact`.
* Note: Poll-level model of the select! loop with wakers; refinement with JobM in both directions (C106_refines, C106_exact).

### C107 Everybody who waits for a signal is told — partial
* Modelled: Model/SignalMany: one signal, any number of waiting tasks, one waker slot. Proof: invariant over schedules: the slot holds the last poller; delivered is set at most once; counterexamples.
* Theorems (`Props/SignalMany`): `C107_one`, `C107_last_partial`, `C107_asleep`, `C107_late`, `C107_refuted`.
* Missing: the full claim (everybody waiting is told) is false of the code, C107_refuted; proved: exactly who is told and that the others sleep forever

### C108 A run whose future is dropped stops; the jobs it started do not — proved
* Modelled: Model/Faults on top of the whole engine (Model/System): a run can be dropped at any time, a job task can panic while it calls user code, a task whose run is gone gives up. Proof: frozen-state invariants over schedules; every schedule with faults is, without them, a schedule of the engine; termination measure of the job (as in C83) for jobs_go_on; C104 for cancellation.
* Theorems (`Props/Faults`): `C108_goes_quiet`, `C108_jobs_go_on`, `C108_cancel_still_works`, `C108_result_is_lost`.
* Note: C108_goes_quiet, C108_jobs_go_on, C108_cancel_still_works, C108_result_is_lost: for every schedule with drops and panics.

### C109 A panic in the user code of one job is contained — partial
* Modelled: Model/Faults. Proof: messages come from tasks that answered, a panicked task never does; C02, C80, C83, C104 carried over; counterexample by invariant over all continuations.
* Theorems (`Props/Faults`): `C109_others_return_partial`, `C109_silent`, `C109_runner_goes_on`, `C109_every_job_answered`, `C109_hangs`, `C109_dependents_never_start`, `C109_cancel_into_the_void`, `C109_refuted`.
* Missing: The claim that run returns is false (C109_refuted, C109_hangs). Proved: other runs unaffected (C109_others_return_partial), silence of the panicked job, every result of a returned run comes from a job run that did not panic, dependents never start, cancel_job answered into the void.

### C110 A remote call reaches the method of its name and its answer comes back — partial
* Modelled: Model/Grpc: paths, routing, message limit, codec, unary and streaming answers, the client's reading of a run. Proof: cases over the four methods on top of the C57 byte round trips; induction over the stream; size lower bound of the text of a line for the counterexample.
* Theorems (`Props/Grpc`): `C110_routes`, `C110_unknown`, `C110_one_method`, `C110_call_partial`, `C110_refused`, `C110_told`, `C110_not_run`, `C110_unary`, `C110_unary_error`, `C110_refuted`.
* Missing: Routing (every path), exactly-once delivery of the request, and the answer, for all four methods on top of the byte-level codec of C57. Partial because the code violates the full claim for messages over 4 MB (C110_refuted). tonic's behaviour (limits, status, streams) is an assumption stated in Model/Grpc.

### C111 A remote client that is started more than once — partial
* Modelled: Model/RemoteStarts: the client and its clones, the broadcast channel, every call of start with its receiver position and its walk over the table. Proof: invariant over all runs (positions, what is delivered, what is still to be sent); counting the copies; a concrete schedule with two starts refutes the full claim.
* Theorems (`Props/RemoteStarts`): `C111_each_call_once`, `C111_since_start`, `C111_copies`, `C111_once_partial`, `C111_registered`, `C111_everybody`, `C111_none_lost`, `C111_refuted`.
* Missing: Full for each start; 'at most once, in order' for the client as a whole holds only for a client started once (C111_once_partial), C111_refuted shows the code breaks it for two starts.

### C112 Fair executions bring every run to its return — proved
* Modelled: endless executions of the engine of C80 (`Sys`), weak and strong fairness of its tasks. Proof: the distance to the return (`far`) never grows and only finitely often shrinks, so from some point on it is constant; a fair main task then waits in its loop, some job task is not done (C83), and either it can move for good (contradiction to weak fairness) or it waits for a runner that ends its stream (contradiction to strong fairness of `recv`).
* Theorems (`Props/Fair`): `C112_fair_runs_return`, `C112_fair_futures`.
* Note: Proved for all endless fair executions; C112_fair_futures shows that every reachable state has a fair future (so the fairness hypotheses are satisfiable after any history). Assumes as C83: distinct workflow ids, hooks that keep job ids, defined acyclic dependencies, at least one job.

### C113 On the local runner, runs return when their processes end — proved
* Modelled: endless executions of the engine with local runner of C100 (`LocalEngine`), processes that end. Proof: every move is seen by the engine alone as one of its moves (or no move); the fairness hypotheses carry over; a step that is never left has a runner task whose remaining work shrinks with each of its moves once its process is over, so its task comes to a stop, has ended the stream (C63), and C112 applies; existence: a scheduler for countably many kinds of moves that takes, of those possible, one of the kind taken least often (plus its number) is strongly fair to all of them (`FairSched.fair_future`).
* Theorems (`Props/FairLocal`, `Props/FairLocalFutures`): `C113_processes_end_runs_return`, `C113_fair_futures`, `C113_all_runs_can_return`.
* Note: Full. Fairness is assumed only of the run's own tasks; OS failures may happen at any time; other runs may hang forever. The fairness hypotheses are met after every history (C113_fair_futures, for all runs at once).

### C114 A whole engine on the remote runner: every step ends as its runner on the server ended it — proved
* Modelled: Model/RemoteEngine: the engine of C80 with the client, all its calls, the network, the servers and their signal maps. Proof: each move of the whole is a sequence of moves of the engine alone and, per call, of the remote execution alone; an invariant links every job task with its calls (stream contents, indices, signals), so the theorems of C80 and C86 apply to both sides.
* Theorems (`Props/RemoteEngine`): `C114_both_views`, `C114_job`, `C114_workflow`, `C114_executing`.

### C115 On the remote runner, a run never gets stuck once its runners have ended — proved
* Modelled: as C114. Proof: a stuck call whose server is over has ended its stream (invariants of C86), so the engine alone is stuck, and C83 applies.
* Theorems (`Props/RemoteEngine`): `C115_stuck_means_returned`.

### C116 On the remote runner, only steps of a cancelled job are told to stop as cancelled — proved
* Modelled: as C114, with the answers of cancel_job. Proof: invariant over the servers' maps: every signal on a server has a source call with the same step id and server; C82 for the source.
* Theorems (`Props/RemoteEngine`): `C116_cancelled_because_asked`, `C116_signal_only_from_engine`.

### C117 On the remote runner, a signal gets to the runner that executes the step — partial
* Modelled: as C114, the moves that carry a signal on. Proof: invariant: a signal the client sent for the only call of a step is held on its server; case analysis over where the client is; counting; a concrete schedule with a job started twice refutes the full claim.
* Theorems (`Props/RemoteEngine`): `C117_signal_carried_partial`, `C117_moves_bounded`, `C117_cancellation_partial`, `C117_refuted`.
* Missing: signal_carried and cancellation proved for steps whose id no other call has (and jobs announced once); C117_refuted: with a job started twice on one server the signal goes to the other execution

### C118 On the remote runner, runs return when the servers are done with them — proved
* Modelled: endless executions of the engine with remote runner of C114 (`RemoteEngine`), servers whose runners end. Proof: every move is seen by the engine alone as up to three of its moves (writes to the stream, the answer to `run`); the fairness hypotheses carry over to this finer execution; a step that is never left has a call whose remaining work (unread, queued and travelling messages, phases of the tasks) shrinks with each move once its runner writes no more, so the call comes to a stop, has ended the stream (lemma of C115), and C112 applies; existence of fair executions: the scheduler of C113 (`FairSched.fair_future_en`), for which noticing a broken connection is due only when the connection is broken.
* Theorems (`Props/FairRemote`, `Props/FairRemoteFutures`): `C118_servers_end_runs_return`, `C118_fair_futures`, `C118_all_runs_can_return`.
* Note: Full. Fairness is assumed only of the run's own tasks and calls; failures may happen at any time; other runs may hang forever. That broken connections are noticed is an assumption about the transport (HTTP/2 keepalive or TCP). All hypotheses are met after every history (C118_fair_futures, for all runs at once).

### C119 Process output is logged line by line whatever the chunks, and reading it never blocks the process — partial
* Modelled: Model/CmdBytes: pipes of limited capacity, BufReader and Lines, the process a byte at a time, the select loop and child.wait of Command::run. Proof: Invariants over all schedules against the relation Shows (lines of a byte sequence, UTF-8 by Lean core); a decreasing measure; deadlock freedom for proper text processes; two processes that hang refute the rest; simulation into LocalRun.
* Theorems (`Props/CmdBytes`): `C119_meaning`, `C119_lines_of_text`, `C119_logged`, `C119_complete`, `C119_undecodable`, `C119_finite`, `C119_not_blocked_partial`, `C119_result`, `C119_undecodable_blocks_refuted`, `C119_closed_early_refuted`, `C119_refines`.
* Missing: proved: the log for every chunking and interleaving, completeness at end of pipe, finiteness, no deadlock and the right result for processes that write text and keep their pipes until done, simulation into the line-level model. Refuted by the code: an undecodable line or an early close leaves the process blocked for ever.

### C120 The remote client never misses an answer or a signal, does not spin, and ends — proved
* Modelled: `CliLoop` (Model/ClientLoop): the `select!` of the remote client poll by poll (order, wakers of the response stream and of the signal, executor, connection failure) around `RemoteRun`; tonic's stream by its `Stream` contract (ready / uses the waker of a pending poll). Proof: Invariant on which waker is held by which branch; a decreasing work measure for client moves; simulation with `RemoteRun` in both directions.
* Theorems (`Props/ClientLoop`): `C120_asleep`, `C120_told`, `C120_not_stuck`, `C120_no_spin`, `C120_settles`, `C120_ends`, `C120_refines`, `C120_exact`.
* Note: All parts, for the loop of one call. That tonic's response stream wakes the task of a pending poll when it gets ready is part of the model (the contract of Stream), not proved of tonic.

### C121 The local runner never misses output, exit or signal of a step, does not spin, and ends — proved
* Modelled: `RunLoop` (Model/RunnerLoop): the task of the local runner poll by poll: the executor's `select!`, the `select!` on the pipes inside `Command::run`, orders, wakers held by pipes, child handle and signal, executor, failing reads, around `LocalRun`; tokio's pipes and child by their contract. Proof: Invariant on which waker is held by which branch and that nobody who holds one is ready; a decreasing work measure for moves of the task; simulation by `LocalRun`.
* Theorems (`Props/RunnerLoop`): `C121_asleep`, `C121_not_stuck`, `C121_no_spin`, `C121_settles`, `C121_rests`, `C121_ends`, `C121_refines`.
* Note: All parts, for the task of one step. That tokio's pipes and child handle wake the task of a pending poll when they get ready is part of the model (their contract), not proved of tokio. The simulation is one way: LocalRun allows a signal to win over a line that one poll of Command::run would read first.

### C122 From a configuration to a returned result — proved
* Modelled: `buildWorkflow` (Model/Config, Model/Parser) composed with `LocalEngine` and `RemoteEngine`. Proof: The parser discharges the conditions of C113/C118 (C06, C34, C36, C38); the outcome by composing C80, C04, C07, C08, C37, C100, C114; a cycle never starts (C06); fair continuations from C113/C118 after one more start.
* Theorems (`Props/EndToEnd`): `C122_local`, `C122_remote`, `C122_cycle_never_carried_out`, `C122_local_returns_iff`, `C122_remote_returns_iff`, `C122_local_can_be_run`, `C122_remote_can_be_run`.
* Note: End to end. The specification (Spec/EndToEnd: JobMeans, CarriedOut, LeftOut) speaks about the configuration, the notifications and the result only. Runs whose ids clash, and hooks that move steps to other jobs, are excluded (Apart, HooksKeepJobs; see C80).

### C123 Silent processes do not hold a run up — proved
* Modelled: endless executions of `LocalEngine` (engine, runner tasks, processes, clock); `ProcessesFallSilent`, `TimePasses` in `Spec/FairLocal`. Proof: C112 reduces it to the runner ending the step; the runner task’s work only grows by lines written, so it stops; if the stream had not ended, the job task would come to rest in its `select!` (`toGo` decreases), its timer would expire and the signal would make the runner task move: contradiction. Futures by the fair scheduler of `Lemmas/FairSched`.
* Theorems (`Props/FairSilent`): `C123_silent_processes_runs_return`, `C123_fair_futures`, `C123_hanging_processes_runs_can_return`.
* Note: C123_silent_processes_runs_return: fairness, passing time and finitely many lines per process suffice; C123_fair_futures and C123_hanging_processes_runs_can_return: such executions exist after every history, with processes that never do anything again.

### C124 A cancelled step ends, whatever its process does — proved
* Modelled: endless executions of `LocalEngine`; `engineSignalOf`, `runnerSignalOf`, `neverEnding` in `Spec/FairLocal`. Proof: The only run of the job (C104_only_run) holds the registered signal, so the call is answered true and the cancellation waits for the `select!` of the step (strong fairness: each line leads back to it); signalled, the runner ignores output and kills (`stage` decreases), closes the stream, and the end of the stream is noticed. Futures by the fair scheduler of `Lemmas/FairSched`.
* Theorems (`Props/FairCancel`): `C124_cancelled_steps_end_once`, `C124_cancelled_steps_end`, `C124_fair_futures`.
* Note: C124_cancelled_steps_end: for every endless execution of the engine on the local runner, under weak fairness of the tasks and strong fairness of the select! branches that see the cancellation and the end of the stream. C124_fair_futures: such executions exist after every history, with processes that never end and write for ever. The _once version needs no condition on the shape of the workflow, only that the run starts the job once.

### C125 Work is spread evenly over the servers — proved
* Modelled: `SchedM` (interleaved `schedule` calls); `given`, `AtMostAtOnce`, `OneShot` in `Spec/Scheduler`. Proof: Invariant: steps given to a server plus calls that have decided for it exceed the steps given to any docker-capable server by at most k; sharpness by an explicit family of histories.
* Theorems (`Props/Balance`): `C125_spread_evenly`, `C125_sharp`.
* Note: C125_spread_evenly for every k and every history; C125_sharp: for every k a history attains the bound.

### C126 A cancelled remote step ends, or its server is told — proved
* Modelled: endless executions of `RemoteEngine`; `remoteSignalOf`, `clientOf`, `serversNeverEnd` in `Spec/FairRemote`. Proof: The shadow of the execution in the engine alone (three moves for one) passes the cancellation to the step as in C124; a step id used once in its job has one call only (`Lemmas/OnlyCall`), so the signal can always be carried on (C117) and only boundedly often; a stream that ended at the client is noticed. Futures by the fair scheduler.
* Theorems (`Props/FairRemoteCancel`): `C126_servers_told_or_steps_end_once`, `C126_servers_told_or_steps_end`, `C126_fair_futures`.
* Note: C126_servers_told_or_steps_end: for every endless execution of the engine on the remote runner, under weak fairness of the job's and the client's task and strong fairness of the select! branches that see the cancellation and the end of the stream. C126_fair_futures: such executions exist after every history, with servers that never end their streams and write for ever. What the runner on the server makes of the signal is its own business (C124 for the local runner). The _once version needs no condition on the shape of the workflow, only that the run starts the job once.

### C127 Runs return even if the servers hang, thanks to the timeouts — proved
* Modelled: endless executions of `RemoteEngine`; `remoteTimerOf`, `RemoteTimePasses`, `ServersFallSilent`, `ServersObey`, `ServersOnlyObey` in `Spec/FairRemote`. Proof: A step that waits forever times out (the engine alone, as in C123, through the shadow of the execution); its signal is then carried to the server as in C126, which obeys; so every call ends and C118 applies. That step ids are used once follows from `DistinctSteps` along the execution. Futures by the fair scheduler.
* Theorems (`Props/FairRemoteSilent`): `C127_silent_servers_runs_return_once`, `C127_silent_servers_runs_return`, `C127_fair_futures`, `C127_hanging_servers_runs_can_return`.
* Note: Liveness with servers that hang: under weak fairness of the tasks, the timer and the calls, strong fairness of reading, passing time, and servers that obey signals, every run with distinct step ids and no parallel dependents returns. C127_fair_futures and C127_hanging_servers_runs_can_return show that the hypotheses can be met after every history (hooks that keep ids). The _once version needs no condition on the shape of the workflow, only that the run starts no job twice; an example shows such a run of a workflow whose shape does not exclude it.

### C128 From a configuration to a returned result, though processes and servers hang — proved
* Modelled: `FairSilentLocalRun`, `FairSilentRemoteRun`, `InOneLine` in `Spec/EndToEnd`; parser, engine and both runners as in C122. Proof: C122 with C123 and C127 in place of C113 and C118; that step ids are distinct and job ids own ones is what the parser guarantees (C36), dependencies of the workflow are those of the configuration.
* Theorems (`Props/EndToEndSilent`): `C128_local`, `C128_remote_once`, `C128_remote`, `C128_local_can_be_run`, `C128_remote_can_be_run`.
* Note: C122 for processes and servers that hang. The remote theorem needs InOneLine (jobs that can be started twice may lose signals: C02, C117), stated about the configuration. C128_*_can_be_run: the hypotheses can be met by every accepted configuration in every history. C128_remote_once: configurations of any shape, if the run starts no job twice.

### C129 GitHub is asked only what the event calls for, with the right credentials — proved
* Modelled: the dialogue of `ConditionMatcher` with GitHub, request by request, with any number of concurrent checks (`Model/MatcherDialog`); `questions`, `filesNamed`, `Hopeless`, `MayAsk` in `Spec/MatcherDialog`. Proof: Invariant over all schedules: where a check is, what it has asked and what it was answered determine each other; refinement to the matcher of C85, in which a lookup is one move.
* Theorems (`Props/MatcherDialog`): `C129_dialogue`, `C129_credentials`, `C129_at_most`, `C129_answers`, `C129_waits_for_github`, `C129_asked_once`, `C129_lookups_in_one_piece`.
* Note: GitHub and the HTTP client are the environment: any answer of the kind asked for, or failure, at any time. The texts of the errors are not modelled (logged only).

## Findings: claims that are false of the code
Each is a theorem `Cnn_..._refuted` with a reachable counterexample in the model.

| id | theorem | what happens | where |
|----|---------|--------------|-------|
| C02 | `C02_refuted` | a waiting job whose dependencies are done is started again by every further result | workflow/mod.rs |
| C06, C35 | `C06_refuted`, `C35_refuted` | the validator accepts dependency cycles; such a workflow never returns | user_config.rs:110-114 |
| C19 | `C19_refuted` | every log line restarts the step timeout | execution_context/mod.rs `select!` |
| C22 | `C22_refuted` | cancel is only a request; a step that ends Succeeded lets the rest run | job, signals |
| C29 | `C29_refuted` | two overlapping `end` calls both store a result | stream.rs |
| C44 | `C44_refuted` | `&&`/`||` precedence lets a host step run on a docker-only runner | scheduler |
| C49 | `C49_refuted` | `max_runs` is never consulted | scheduler |
| C52 | `C52_refuted` | the remote client never tells the scheduler about completions | remote-runner client.rs:74-92 |
| C53 | `C53_refuted` | a forwarder that lags 32 events behind stops for good | client.rs:194 |
| C57 | `C57_refuted` | a NaN environment value makes the message undecodable | types/envs.rs, protocol |
| C60 | `C60_refuted` | a double quote in a value changes the docker command line | runner docker executor |
| C61, C62 | `C61_refuted`, `C62_refuted` | job keys and workflow ids are used as path components unchecked | runner metadata/cleanup |
| C63 | `C63_refuted` | a step cancelled before the executor starts ends Failed(1) | runner |
| C64 | `C64_never_cleaned_refuted` | a normally ending step is never cleaned up, `on_after_run` is not called | runner |
| C65 | `C65_refuted` | output left in one pipe is lost when the other closes first | runner command |
| C66 | `C66_unfinished_refuted`, `C66_lost_error_refuted` | the entrypoint file is dropped without flush | runner |
| C71 | `C71_refuted` | cancelling a host step leaves its process running | runner host executor |
| C73 | `C73_refuted` | remembered trigger events are never removed | runner |
| C80 | `C80_refuted` | the engine's signal table is keyed by job id only: of two concurrent runs of one workflow the first's completion removes the second's signal, the second panics inside its job and never returns | signals/mod.rs:19-25, execution_context/mod.rs:50-54 |
| C81 | `C81_dependents_refuted` | a job started twice (C02) overwrites the result its dependents waited for: the final result shows a dependent starting before its dependency completed | workflow/mod.rs:89-119 |
| C82 | `C82_refuted` | an accepted `cancel_job` reaches only the last registered signal of a job that was started twice | signals/mod.rs:19-39, workflow/mod.rs:104-119 |
| C85 | `C85_refuted` | a lookup of changed files that was in flight when another succeeded replaces the stored files: later checks of one run are decided on different files | condition_matcher.rs:34-43 |
| C57 | `C57_deep_refuted` | a payload nested deeper than serde_json's limit is written but not read | protocol/common/json_codec.rs |
| C92 | `C92_refuted` | a payload that does not survive JSON (for example one with a NaN) panics the run when it is copied for the first hook | execution_context/context_payload.rs:35-44 |
| C99 | `C99_refuted` | a host step does not bind its job to a server, so the docker step after it goes to another, less loaded one, without the files | scheduler/default.rs:79-94 |
| C102 | `C102_refuted` | a job started twice (C02): the workflow returns while the container of the second start is running and nobody stops it | workflow/mod.rs:89-119 |
| C107 | `C107_refuted` | a signal has room for one waker and is delivered once: of several tasks that await it only the last to poll is woken, and if that one was dropped nobody is; the others sleep forever | signals/signal.rs:16-21, 95 |
| C109 | `C109_refuted` | a plugin, matcher or runner that panics inside a job: the job's task dies unnoticed, nothing is ever sent for the job, and `Workflow::run` waits forever; the job also stays in the signal table for good | workflow/mod.rs:58, 92, 153-161 |
| C110 | `C110_refuted` | a line of more than 4 MB on the run stream is refused by the client's decoder (the limit is nowhere raised): line and result are lost, the step is reported as failed although it succeeded | proto/remote_runner.RemoteRunner.rs:71, 220; remote-runner/client.rs:276-283 |
| C111 | `C111_refuted` | a client that is started again (for more urls, or a clone) forwards every event once per start to all runners: they hear of it several times and of old events after newer ones | remote-runner/client.rs:21-26, 170-205 |
| C117 | `C117_refuted` | a job started twice (C02), both starts on one server: the servers' signal table is keyed by step id, so the signal for one execution is given to the other, and the runner that should stop hears nothing | remote-runner/runner_server.rs:88-91, 169-185; workflow/mod.rs:89-119 |
| C119 | `C119_undecodable_blocks_refuted`, `C119_closed_early_refuted` | after the first line that is not UTF-8, or the end of one pipe, nobody reads the pipes, but they stay open: a process that goes on writing blocks in `write` for ever, and the step never ends by itself | runner/command.rs:82-117 |
