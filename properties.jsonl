{"id": "C01", "title": "Dependency order", "statement": "While a workflow runs, a job is never started (no on_run_job, no job state event, no Runner::run for its steps) before every job named in its depends_on has finished running and delivered its result.", "quantifier": "all workflows (any number of jobs, any depends_on lists, any map iteration order), all interleavings of job completion and result delivery", "why_tests_cant": "a test sees one schedule; the claim must survive every completion order of concurrently running jobs", "anchors": ["crates/astro-run/src/workflow/mod.rs: Workflow::run", "crates/astro-run/src/workflow/mod.rs: Workflow::run_job"]}
{"id": "C02", "title": "At most one run per job", "statement": "During one Workflow::run every job is started at most once.", "quantifier": "every interleaving of job tasks with the workflow's receive loop, every number of jobs, every dependency graph and every job outcome", "why_tests_cant": "the duplicate start only appears for particular completion orders of three or more jobs; tests use the benign orders", "anchors": ["crates/astro-run/src/workflow/mod.rs: Workflow::run"]}
{"id": "C03", "title": "Result completeness", "statement": "When Workflow::run returns a workflow that was not skipped, the result's jobs map has exactly one entry for every configured job and no other entry, and each entry is a result that a run of that very job produced.", "quantifier": "every interleaving of job tasks with the workflow's receive loop, every number of jobs, every dependency graph and every job outcome", "why_tests_cant": "must hold at every possible return point of every schedule", "anchors": ["crates/astro-run/src/workflow/mod.rs: Workflow::run"]}
{"id": "C04", "title": "Workflow outcome aggregation", "statement": "The state of a returned, non-skipped workflow is Succeeded exactly when no job result it received was Failed or Cancelled; otherwise it equals the state of the last received Failed-or-Cancelled job result. It is never InProgress, Pending or Queued.", "quantifier": "every interleaving of job tasks with the workflow's receive loop, every number of jobs, every dependency graph and every job outcome", "why_tests_cant": "depends on the arrival order of results over all schedules", "anchors": ["crates/astro-run/src/workflow/mod.rs: Workflow::run"]}
{"id": "C05", "title": "Dependents run whatever the dependency's outcome", "statement": "A job whose dependencies finished Failed, Cancelled or Skipped is still started: in every returned non-skipped workflow every configured job has actually been started, and a failed dependency does not prevent it.", "quantifier": "every interleaving of job tasks with the workflow's receive loop, every number of jobs, every dependency graph and every job outcome", "why_tests_cant": "all outcome combinations of all graphs", "anchors": ["crates/astro-run/src/workflow/mod.rs: Workflow::run"]}
{"id": "C06", "title": "Workflow termination", "statement": "Every workflow accepted by the configuration validator, whose job runs all terminate, eventually returns: no schedule runs forever and no schedule gets stuck before returning.", "quantifier": "all validated workflows, all fair schedules", "why_tests_cant": "termination and deadlock freedom quantify over all infinite behaviours and all graphs, including cyclic ones", "anchors": ["crates/astro-run/src/workflow/mod.rs: Workflow::run", "crates/astro-run/src/user_config.rs: UserWorkflow::validate"]}
{"id": "C07", "title": "Workflow event bracket", "statement": "In every schedule the observers of a non-skipped workflow see on_run_workflow first, then the workflow's InProgress state, then exactly one terminal workflow state and exactly one on_workflow_completed carrying the returned result, with the two final notifications adjacent in the workflow's own order; no workflow-level notification follows.", "quantifier": "every interleaving of job tasks with the workflow's receive loop, every number of jobs, every dependency graph and every job outcome", "why_tests_cant": "ordering over every interleaving", "anchors": ["crates/astro-run/src/workflow/mod.rs: Workflow::run", "crates/astro-run/src/execution_context/mod.rs: call_on_workflow_completed"]}
{"id": "C08", "title": "Skipped workflow has no effect", "statement": "If the workflow's `on` condition does not match, the run returns Skipped with no timestamps and no jobs, emits exactly one notification (workflow state Skipped), and starts no job.", "quantifier": "all workflows, all conditions and payloads", "why_tests_cant": "quantifies over all job graphs and environments", "anchors": ["crates/astro-run/src/workflow/mod.rs: Workflow::run", "crates/astro-run/src/workflow/mod.rs: should_skip"]}
{"id": "C09", "title": "Independent jobs start at once", "statement": "Every job without dependencies is started before the first job result is waited for, so independent jobs run concurrently: no job without dependencies ever waits for another job.", "quantifier": "all workflows and schedules", "why_tests_cant": "a test cannot rule out a hidden ordering in some graph", "anchors": ["crates/astro-run/src/workflow/mod.rs: Workflow::run"]}
{"id": "C10", "title": "One step result per configured step", "statement": "A job run that is not skipped returns exactly one step result per configured step, in configuration order, and a skipped step's result carries its own id, no exit code and no timestamps.", "quantifier": "all step lists, all runner behaviours", "why_tests_cant": "all lengths and outcome combinations", "anchors": ["crates/astro-run/src/workflow/job.rs: Job::run"]}
{"id": "C11", "title": "Failure skips later steps unless continue-on-error", "statement": "Once a step has Failed (and none is Cancelled), every later step without continue_on_error is Skipped, and a later step with continue_on_error runs iff its own condition matches.", "quantifier": "all step lists, outcomes, positions of the failure", "why_tests_cant": "all positions and combinations", "anchors": ["crates/astro-run/src/workflow/job.rs: Job::run"]}
{"id": "C12", "title": "Cancellation skips all later steps", "statement": "Once a step result is Cancelled every later step of the job is Skipped, with or without continue_on_error.", "quantifier": "all step lists and outcomes", "why_tests_cant": "all positions", "anchors": ["crates/astro-run/src/workflow/job.rs: Job::run"]}
{"id": "C13", "title": "Job outcome aggregation", "statement": "The state of a non-skipped job is Cancelled if some step result is Cancelled, otherwise Failed if some step result is Failed, otherwise Succeeded (also if all steps were skipped or there are none).", "quantifier": "all step lists and outcomes", "why_tests_cant": "all combinations", "anchors": ["crates/astro-run/src/workflow/job.rs: Job::run"]}
{"id": "C14", "title": "Job event bracket", "statement": "The notifications of one non-skipped job run are exactly: on_run_job, job InProgress, the notifications of the steps in order without interleaving, one terminal job state, on_job_completed with the returned result. A skipped job emits only its Skipped state.", "quantifier": "all jobs, all runner behaviours", "why_tests_cant": "all traces", "anchors": ["crates/astro-run/src/workflow/job.rs: Job::run", "crates/astro-run/src/execution_context/mod.rs: call_on_run_job, call_on_job_completed"]}
{"id": "C15", "title": "Skipped steps never reach the runner", "statement": "Runner::run is invoked exactly once for each step that is not skipped, in step order, one at a time (the next call is made only after the previous step completed), and never for a skipped step.", "quantifier": "all jobs, all runner behaviours", "why_tests_cant": "all traces", "anchors": ["crates/astro-run/src/workflow/job.rs: Job::run", "crates/astro-run/src/execution_context/mod.rs: ExecutionContext::run"]}
{"id": "C16", "title": "Step life cycle", "statement": "For every executed step the observed state sequence is Queued, InProgress, then one terminal state, or Queued, Failed when the runner refuses the step; on_step_completed is delivered exactly once, after the terminal state, with the same state as the returned result.", "quantifier": "all steps, all sequences of log, timeout, cancel and end events", "why_tests_cant": "all event orders in the select loop", "anchors": ["crates/astro-run/src/execution_context/mod.rs: ExecutionContext::run"]}
{"id": "C17", "title": "Step logs complete and in order", "statement": "Every log entry the runner writes before it ends the step is delivered to on_log exactly once, in write order, after InProgress and before the terminal state of that step.", "quantifier": "all log sequences, all poll timings", "why_tests_cant": "delivery must hold for every interleaving of writer and reader", "anchors": ["crates/astro-run/src/execution_context/mod.rs: ExecutionContext::run", "crates/astro-run/src/stream.rs: StreamReceiver::poll_next"]}
{"id": "C18", "title": "Exit code mapping", "statement": "A step result is Succeeded with no exit code iff the runner ended with Succeeded, Failed with code c iff it ended with Failed c, Cancelled with no exit code iff it ended Cancelled, and Failed with exit code 1 if the runner returned an error; executed steps always carry both timestamps.", "quantifier": "all runner results and all exit codes", "why_tests_cant": "all i32 codes and outcomes", "anchors": ["crates/astro-run/src/execution_context/mod.rs: ExecutionContext::run"]}
{"id": "C19", "title": "Step timeout", "statement": "A step that is still running `timeout` after it started is signalled Timeout.", "quantifier": "all timeouts, all timings of log output", "why_tests_cant": "depends on every timing of log lines against the timer", "anchors": ["crates/astro-run/src/execution_context/mod.rs: ExecutionContext::run"]}
{"id": "C20", "title": "Idle timeout", "statement": "If during a step no log line, cancel or end arrives for a full `timeout` period, the runner's signal becomes Timeout (unless already signalled), and if the gaps are always shorter than `timeout` the engine itself never signals Timeout.", "quantifier": "all timed event sequences", "why_tests_cant": "all timings", "anchors": ["crates/astro-run/src/execution_context/mod.rs: ExecutionContext::run"]}
{"id": "C21", "title": "Cancel semantics of the API", "statement": "cancel_job(id) succeeds iff the job is currently between its start notification and its completion and has not been cancelled before; otherwise it returns an error (`Job {id} not found` when it is not running) and changes nothing.", "quantifier": "all histories of register, unregister and cancel over all jobs", "why_tests_cant": "all histories", "anchors": ["crates/astro-run/src/signals/mod.rs: SignalManager", "crates/astro-run/src/execution_context/mod.rs: cancel_job"]}
{"id": "C22", "title": "Cancellation takes effect", "statement": "After a successful cancel_job, the job runs no further step to success: the running step gets the signal and all later steps are skipped.", "quantifier": "all timings of cancel against step boundaries, all runner behaviours", "why_tests_cant": "all cancel points", "anchors": ["crates/astro-run/src/execution_context/mod.rs: ExecutionContext::run", "crates/astro-run/src/workflow/job.rs: Job::run"]}
{"id": "C23", "title": "Cancel reaches a step that is running", "statement": "A cancel_job that succeeds while a step of that job is executing (or before the job's next step) is forwarded exactly once to the signal of the first step that polls after it; and if that runner answers a Cancel signal by ending Cancelled, all later steps are Skipped and the job is Cancelled.", "quantifier": "all timings of cancel, all step lists", "why_tests_cant": "all cancel points", "anchors": ["crates/astro-run/src/execution_context/mod.rs: ExecutionContext::run", "crates/astro-run/src/workflow/job.rs: Job::run"]}
{"id": "C24", "title": "Signal: first write wins", "statement": "On one signal object the first cancel()/timeout() succeeds and fixes the value forever; all later ones fail without effect; is_cancelled/is_timeout agree with that value.", "quantifier": "all operation histories from any number of clones", "why_tests_cant": "all histories", "anchors": ["crates/astro-run/src/signals/signal.rs: AstroRunSignal"]}
{"id": "C25", "title": "Signal: delivered at most once", "statement": "Over all receivers of a signal at most one poll ever yields, and it yields the first written value.", "quantifier": "all histories of polls and writes from any number of receivers", "why_tests_cant": "all histories", "anchors": ["crates/astro-run/src/signals/signal.rs: Receiver::poll"]}
{"id": "C26", "title": "Signal: no lost wake-up", "statement": "With a single waiting receiver, if a signal is set while the receiver is waiting, the receiver is woken and its next poll yields; there is no interleaving of poll and set in which the receiver sleeps forever.", "quantifier": "all interleavings of one receiver task with any number of setters", "why_tests_cant": "interleavings", "anchors": ["crates/astro-run/src/signals/signal.rs"]}
{"id": "C27", "title": "Stream: exactly-once FIFO", "statement": "A stream receiver yields exactly the log entries in the order they were pushed, never skipping or repeating one, and reports end-of-stream only when a result is set and every entry pushed so far was yielded.", "quantifier": "all histories of pushes, ends and polls", "why_tests_cant": "all histories", "anchors": ["crates/astro-run/src/stream.rs"]}
{"id": "C28", "title": "Stream: no lost wake-up", "statement": "Whenever the stream's consumer is parked and a log or the result arrives, the consumer is woken; a parked, un-woken consumer implies there is nothing to deliver.", "quantifier": "all interleavings of one consumer with any number of producers", "why_tests_cant": "interleavings", "anchors": ["crates/astro-run/src/stream.rs"]}
{"id": "C29", "title": "Stream: result is write-once", "statement": "The first end() (or succeeded/failed/cancelled/timeout) fixes the result and later ones do not change it.", "quantifier": "all interleavings of end calls from any number of sender clones", "why_tests_cant": "the check and the write are two critical sections; only some interleavings break it", "anchors": ["crates/astro-run/src/stream.rs: StreamSender::end"]}
{"id": "C30", "title": "Condition semantics", "statement": "A condition matches a payload iff: for an event list, the event is in it; for a config, the event is push or pull_request, that section is present, and each given pattern list (branches against the branch, paths against the changed files) has some value matched by some pattern, all patterns being valid globs.", "quantifier": "all conditions, payloads and pattern languages", "why_tests_cant": "unbounded inputs", "anchors": ["crates/astro-run/src/types/condition.rs"]}
{"id": "C31", "title": "Invalid glob makes the list fail closed", "statement": "A pattern list containing an invalid glob matches only if a pattern listed before the first invalid one matches the first value; otherwise the condition does not match, and an empty changed-file list never matches a path list.", "quantifier": "all pattern lists and values", "why_tests_cant": "unbounded inputs", "anchors": ["crates/astro-run/src/types/condition.rs: is_match_patterns"]}
{"id": "C32", "title": "Conditions are fail-open without context", "statement": "Without GitHub authorization, without a trigger event, for an event other than push/pull_request, for a pull request without number, or when the GitHub lookup fails, every condition matches and nothing is skipped on its account.", "quantifier": "all conditions, all events, all lookup failures", "why_tests_cant": "all combinations", "anchors": ["crates/astro-run/src/execution_context/condition_matcher.rs"]}
{"id": "C33", "title": "Changed files are looked up until one lookup succeeds, then fixed", "statement": "After the first successful lookup no further lookup is made by sequential checks and every later condition is decided on the same payload; failures are not remembered.", "quantifier": "all sequences of condition checks and lookup outcomes", "why_tests_cant": "all histories", "anchors": ["crates/astro-run/src/execution_context/condition_matcher.rs: is_match"]}
{"id": "C34", "title": "Validator decision", "statement": "A configuration is accepted iff it has at least one job, every job has at least one step, every dependency names a configured job, and at least one job has no dependencies; acceptance does not depend on the iteration order of the job map.", "quantifier": "all configurations, all map iteration orders", "why_tests_cant": "hash map order varies per process", "anchors": ["crates/astro-run/src/user_config.rs: validate"]}
{"id": "C35", "title": "Dependency cycles are rejected", "statement": "A configuration whose job dependencies form a cycle is rejected.", "quantifier": "all configurations", "why_tests_cant": "all graphs", "anchors": ["crates/astro-run/src/user_config.rs: validate"]}
{"id": "C36", "title": "Parsed identifiers", "statement": "In a successfully parsed workflow, the job map has exactly the configured keys, job `k` has id (workflow id, k), and its steps are numbered 0..n-1 in order with ids (workflow id, k, i); hence all step ids are distinct.", "quantifier": "all configurations and action expansions", "why_tests_cant": "unbounded sizes", "anchors": ["crates/astro-run/src/workflow/parser.rs: parse"]}
{"id": "C37", "title": "Action expansion order", "statement": "The steps of a job are: the pre steps of its actions in order, then the steps/action bodies in configured order, then the post steps in reverse order.", "quantifier": "all step lists and actions", "why_tests_cant": "unbounded sizes", "anchors": ["crates/astro-run/src/workflow/parser.rs: try_normalize_user_steps"]}
{"id": "C38", "title": "Defaults and inheritance", "statement": "Each parsed step has the step's container or else the job's (normalised), the given timeout or 60 minutes, continue_on_error default false, empty environments and secrets by default, and its own condition; job-level depends_on and working directories default to empty.", "quantifier": "all configurations", "why_tests_cant": "unbounded inputs", "anchors": ["crates/astro-run/src/workflow/parser.rs: parse", "crates/astro-run/src/user_config.rs: Container::normalize"]}
{"id": "C39", "title": "Action resolution", "statement": "A `uses` step is resolved by the registered action of that name if there is one, otherwise by the first plugin that offers one (plugins that fail or decline are passed over), otherwise parsing fails with \"Action `x` is not found\"; an action that expands to another action, or an unparsable timeout, makes parsing fail.", "quantifier": "all action registries, plugin lists and configurations", "why_tests_cant": "unbounded inputs", "anchors": ["crates/astro-run/src/workflow/parser.rs: try_normalize_action", "crates/astro-run/src/actions.rs", "crates/astro-run/src/plugins/plugin_driver.rs: on_resolve_dynamic_action"]}
{"id": "C40", "title": "Identifier text round trip", "statement": "Printing a workflow, job or step id and parsing the text back gives the same id whenever its parts contain no '/', its workflow id is not empty and its step number fits the machine's word; parsing accepts only such texts, and distinct ids with '/'-free parts print differently.", "quantifier": "all identifier parts and step numbers", "why_tests_cant": "unbounded strings", "anchors": ["crates/astro-run/src/types/id.rs"]}
{"id": "C41", "title": "Step/command conversion", "statement": "Converting a step to the command sent to a runner and back keeps every field except the condition, which is dropped.", "quantifier": "all steps", "why_tests_cant": "all inputs", "anchors": ["crates/astro-run/src/workflow/step.rs"]}
{"id": "C42", "title": "Every plugin sees every notification", "statement": "For each notification every registered plugin is called exactly once in registration order, then the runner, even when earlier plugins or the runner return errors; a hook error never changes the outcome of a run.", "quantifier": "all plugin lists, error patterns and traces", "why_tests_cant": "all combinations", "anchors": ["crates/astro-run/src/plugins/plugin_driver.rs", "crates/astro-run/src/execution_context/mod.rs"]}
{"id": "C43", "title": "Before-step rewriting", "statement": "The step that is executed is the configured step passed through the plugins' on_before_run_step in order and then the runner's; a failing hook leaves the step as it was before that hook.", "quantifier": "all plugin lists and hook functions", "why_tests_cant": "all functions", "anchors": ["crates/astro-run/src/plugins/plugin_driver.rs: on_before_run_step", "crates/astro-run/src/execution_context/mod.rs: call_on_before_run_step"]}
{"id": "C44", "title": "Scheduler capability", "statement": "The scheduler only returns a runner from the offered list that can execute the step: docker steps go to runners with docker support, host steps to runners with host support whose os (or os-arch) matches.", "quantifier": "all runner lists, all scheduling histories", "why_tests_cant": "histories", "anchors": ["crates/scheduler/src/default.rs: schedule"]}
{"id": "C45", "title": "Scheduler: least loaded", "statement": "A docker step of a job that is not pinned goes to a docker-capable offered runner with the minimal number of running steps, the first such in the list.", "quantifier": "all runner lists and load states", "why_tests_cant": "unbounded inputs", "anchors": ["crates/scheduler/src/default.rs: pick_docker_runner"]}
{"id": "C46", "title": "Scheduler: job affinity", "statement": "Consecutive docker steps of a job are sent to the same runner as long as it is offered and the job has not completed.", "quantifier": "all histories of schedule/complete over all jobs", "why_tests_cant": "histories", "anchors": ["crates/scheduler/src/default.rs: schedule"]}
{"id": "C47", "title": "Scheduler: finds a runner iff one fits", "statement": "schedule returns none exactly when no offered runner is suitable (for a job not pinned to an offered runner).", "quantifier": "all runner lists and states", "why_tests_cant": "unbounded inputs", "anchors": ["crates/scheduler/src/default.rs"]}
{"id": "C48", "title": "Scheduler: load accounting", "statement": "The number of running steps recorded for a runner equals the number of steps scheduled to it and not yet completed; it is never negative and idle runners have no entry.", "quantifier": "all histories in which a step is not scheduled again while it is running", "why_tests_cant": "histories", "anchors": ["crates/scheduler/src/default.rs: on_step_completed"]}
{"id": "C49", "title": "Scheduler: capacity limit", "statement": "A runner never has more running steps than its max_runs.", "quantifier": "all histories", "why_tests_cant": "histories", "anchors": ["crates/scheduler/src/default.rs", "crates/scheduler/src/lib.rs: RunnerMetadata"]}
{"id": "C50", "title": "Remote run always ends", "statement": "A step dispatched through the remote runner client always ends with exactly one result once the RPC stream ends or fails: the first result sent by the server, or Failed 1 with an error log if none was sent; with no suitable runner it ends Failed 1 with the log \"No runner available\".", "quantifier": "all response streams, RPC failures and signal timings", "why_tests_cant": "all stream prefixes and failure points", "anchors": ["crates/remote-runner/src/client.rs: run"]}
{"id": "C51", "title": "Remote logs are preserved", "statement": "The logs the engine receives for a remote step are exactly the logs the server sent, with type and order preserved, up to the end of the stream.", "quantifier": "all response streams and signal timings", "why_tests_cant": "all streams", "anchors": ["crates/remote-runner/src/client.rs: run", "crates/remote-runner/src/runner_server.rs: run"]}
{"id": "C52", "title": "Remote completion releases scheduler load", "statement": "When a step dispatched through the remote runner client completes, the scheduler's load for that runner is released.", "quantifier": "all histories", "why_tests_cant": "histories", "anchors": ["crates/remote-runner/src/client.rs: on_step_completed"]}
{"id": "C53", "title": "Remote events reach the runners", "statement": "Every notification emitted after start() subscribed reaches every connected runner in emission order.", "quantifier": "all interleavings of senders and the forwarding task", "why_tests_cant": "depends on lag of the forwarding task", "anchors": ["crates/remote-runner/src/client.rs: start"]}
{"id": "C54", "title": "Remote signal routing", "statement": "A cancel or timeout for a remote step is sent only to the runner executing it, there it sets the signal of exactly that step; a signal for a step that is unknown or completed changes nothing.", "quantifier": "all histories of run, signal and completion events", "why_tests_cant": "histories", "anchors": ["crates/remote-runner/src/client.rs: run", "crates/remote-runner/src/runner_server.rs: send_event"]}
{"id": "C55", "title": "Remote registration", "statement": "Only servers with the client's own protocol version become available, at most one connection exists per runner id (the first one), and connection failures do not affect the others.", "quantifier": "all url lists and server answers", "why_tests_cant": "all combinations", "anchors": ["crates/remote-runner/src/client.rs: start, connect"]}
{"id": "C56", "title": "Remote before-step hook", "statement": "The remote before-step hook passes the step through every connected runner in turn; if any of them fails the step is left as the plugins produced it; if all succeed the executed step has no condition.", "quantifier": "all client sets and hook behaviours", "why_tests_cant": "all functions", "anchors": ["crates/remote-runner/src/client.rs: on_before_run_step", "crates/remote-runner/src/runner_server.rs: call_before_run_step_hook"]}
{"id": "C57", "title": "Wire format round trip", "statement": "Every message of the remote protocol decodes from its JSON encoding to the same value; and a message is received only from bytes that are a JSON text of a message: a cut-off, garbled or otherwise malformed text is refused. A value is read as a message exactly when it says so under the published names: each field holds what was written for it, a required field may not be missing, an optional one is empty without it, and no field may be given twice. Fields this version does not know have no effect and the order of the fields does not matter; in a map with a repeated key the last entry counts. A sequence with one value per field in the order of the fields is read as the message with those fields, and any other length is refused.", "quantifier": "all messages, all JSON values, all byte strings", "why_tests_cant": "unbounded inputs", "anchors": ["crates/protocol/src/lib.rs", "crates/protocol/src/common/json_codec.rs"]}
{"id": "C58", "title": "Executor choice", "statement": "A step runs directly on the host iff its container is named host/<os> or host/<os>-<arch> of the runner's platform; every other step runs in docker, with image ubuntu when no container is given.", "quantifier": "all container names", "why_tests_cant": "unbounded strings", "anchors": ["crates/runner/src/astro_runner.rs: create_executor", "crates/runner/src/executors/docker.rs: into_command"]}
{"id": "C59", "title": "Docker command line", "statement": "The generated docker command consists, in order, of docker run --tty, --rm, all security options, all volumes, all environment entries, working directory, entrypoint, name, and the image as last word; every configured security option, two-part volume and environment entry appears exactly once.", "quantifier": "all steps and containers", "why_tests_cant": "unbounded inputs", "anchors": ["crates/runner/src/docker.rs: generate_docker_command", "crates/runner/src/executors/docker.rs: into_command"]}
{"id": "C60", "title": "Docker environment is passed literally", "statement": "The docker command line determines the environment: two different environments never give the same command line.", "quantifier": "all environment values", "why_tests_cant": "quoting must hold for every string", "anchors": ["crates/runner/src/docker.rs"]}
{"id": "C61", "title": "Step isolation on disk", "statement": "Two different steps of one workflow never share a step directory, entrypoint or container name; steps of one job share one data directory and steps of different jobs do not, and no step's directory is inside another step's.", "quantifier": "all job keys and step numbers", "why_tests_cant": "unbounded strings", "anchors": ["crates/runner/src/metadata.rs"]}
{"id": "C62", "title": "Workflow clean-up is confined", "statement": "When a workflow completes, the runner removes exactly the directory tree of that workflow and nothing outside it; other workflows' directories and the caches stay.", "quantifier": "all workflow ids and directory contents", "why_tests_cant": "unbounded ids", "anchors": ["crates/runner/src/astro_runner.rs: cleanup_workflow_working_directory"]}
{"id": "C63", "title": "Local run always ends", "statement": "A step given to the local runner ends with exactly one result whatever the executor does (spawn failure, io error, exit, signal): exit 0 gives Succeeded, exit c gives Failed c, a killed process Failed 1, an executor error Failed 1, a cancel Cancelled, a timeout Failed 123.", "quantifier": "all executor behaviours and signal timings", "why_tests_cant": "all interleavings", "anchors": ["crates/runner/src/astro_runner.rs: run", "crates/runner/src/executors/*.rs", "crates/runner/src/command.rs: run"]}
{"id": "C64", "title": "Post-run clean-up", "statement": "After a step given to the local runner has ended, its step directory is removed and on_after_run is called.", "quantifier": "all executor behaviours and signal timings", "why_tests_cant": "all interleavings", "anchors": ["crates/runner/src/executors/docker.rs: execute", "crates/runner/src/astro_runner.rs: run"]}
{"id": "C65", "title": "Process output is complete", "statement": "Every line the child process writes to stdout and stderr is logged, each stream's lines in order, stderr lines as errors.", "quantifier": "all interleavings of the two pipes", "why_tests_cant": "select order", "anchors": ["crates/runner/src/command.rs: run"]}
{"id": "C66", "title": "Entrypoint script", "statement": "The entrypoint file contains the step's script verbatim, preceded by a #!/bin/sh line iff the script has no shebang of its own; re-creating the file replaces it. A process is started only after the step's directory has been made and (for docker) the entrypoint file been written, and never after a failure to do so.", "quantifier": "all scripts and previous contents; every schedule of a step on the local runner", "why_tests_cant": "unbounded strings", "anchors": ["crates/runner/src/utils.rs", "crates/runner/src/executors/docker.rs:46-49"]}
{"id": "C67", "title": "Cancelled before start", "statement": "A step whose signal is already set when the local executor starts runs no process, touches no directory, and ends.", "quantifier": "all signals", "why_tests_cant": "all timings", "anchors": ["crates/runner/src/executors/docker.rs", "crates/runner/src/executors/host.rs"]}
{"id": "C68", "title": "Server dispatches every event", "statement": "Every notification a remote runner server receives is handed exactly once to each of its plugins in registration order and then to its runner, whatever they answer and whatever other requests are handled meanwhile, and is then acknowledged with success; a cancel or timeout is acknowledged without calling them; no request blocks another.", "quantifier": "all numbers of plugins, hook behaviours, requests and interleavings", "why_tests_cant": "interleavings of handlers", "anchors": ["crates/remote-runner/src/runner_server.rs: send_event"]}
{"id": "C69", "title": "Server construction and metadata", "statement": "Building a server fails exactly when no runner or no id was set; otherwise it reports the last id, max_runs (default 5), support_docker (default: whether docker works), support_host (default true) given and its own os, arch and version, uses the last runner given and all plugins in order.", "quantifier": "all sequences of builder calls", "why_tests_cant": "all sequences", "anchors": ["crates/remote-runner/src/runner_server.rs: AstroRunRemoteRunnerServerBuilder, get_runner_metadata"]}
{"id": "C70", "title": "Local runner plugins", "statement": "Before a step the local runner passes the context through its plugins in order, each seeing what the previous ones produced and a failing one changing nothing; what is executed is the outcome. After the step every plugin is called once, in order, with that context, whatever the others answer.", "quantifier": "all plugin lists, all plugin functions and histories", "why_tests_cant": "all functions", "anchors": ["crates/runner/src/plugin.rs", "crates/runner/src/astro_runner.rs: run"]}
{"id": "C71", "title": "Cancelled or timed-out work is stopped", "statement": "When a step executed by the local runner ends because of a cancel or a timeout, the process it started has been stopped: the container is killed by its name, a host process no longer runs.", "quantifier": "all executors, schedules and signal timings", "why_tests_cant": "all interleavings", "anchors": ["crates/runner/src/executors/docker.rs: execute", "crates/runner/src/executors/host.rs: execute"]}
{"id": "C72", "title": "Local runner construction", "statement": "The local runner works in the last working directory given, or else in astro-run in the home directory; if there is neither, building fails; plugins keep their order.", "quantifier": "all sequences of builder calls", "why_tests_cant": "all sequences", "anchors": ["crates/runner/src/astro_runner.rs: AstroRunnerBuilder"]}
{"id": "C73", "title": "Local runner memory", "statement": "The local runner remembers for each running workflow the event of its last step run with one, and forgets it when the workflow completes.", "quantifier": "all histories of runs and completions", "why_tests_cant": "histories", "anchors": ["crates/runner/src/astro_runner.rs: run, cleanup_workflow_working_directory"]}
{"id": "C74", "title": "Engine construction", "statement": "Building an engine panics exactly when no runner was given; otherwise it uses the last runner, all plugins in order, the last action registered under each name and the last GitHub authorization.", "quantifier": "all sequences of builder calls", "why_tests_cant": "all sequences", "anchors": ["crates/astro-run/src/astro_run.rs: AstroRunBuilder", "crates/astro-run/src/actions.rs"]}
{"id": "C75", "title": "Execution context construction", "statement": "A context made by an engine runs with the engine's runner and plugins, the last event and payload given, and the last authorization given or else the engine's; it has looked nothing up yet.", "quantifier": "all sequences of builder calls", "why_tests_cant": "all sequences", "anchors": ["crates/astro-run/src/astro_run.rs: execution_context", "crates/astro-run/src/execution_context/builder.rs"]}
{"id": "C76", "title": "Plugins made of closures", "statement": "A plugin made with the plugin builder answers each kind of notification, the before-step question and the action question with the last closure given for it, and succeeds without effect where none was given.", "quantifier": "all sequences of builder calls, all closures", "why_tests_cant": "all sequences", "anchors": ["crates/astro-run/src/plugins/plugin.rs"]}
{"id": "C77", "title": "Workflow builder", "statement": "A workflow is built from the last configuration text given under the last id given, or a fresh one; no configuration, or text that cannot be decoded, makes building fail with an error that says so.", "quantifier": "all sequences of builder calls, all texts", "why_tests_cant": "all sequences", "anchors": ["crates/astro-run/src/workflow/builder.rs"]}
{"id": "C78", "title": "Signals on a remote runner server", "statement": "The signal given to each step execution on a remote runner server is set exactly by the first cancel or timeout event for its step that the server handles after starting the execution and before it starts the step again or handles its completion; every other signal event changes nothing.", "quantifier": "all interleavings of run requests and event requests, any number of concurrent executions and duplicate step ids", "why_tests_cant": "requests are handled by independent tasks; the claim must hold for every order of handling", "anchors": ["crates/remote-runner/src/runner_server.rs: send_event", "crates/remote-runner/src/runner_server.rs: run"]}
{"id": "C79", "title": "Configuration documents mean what they say", "statement": "Writing any workflow configuration as a document (with the published key names) and reading it with UserWorkflow::try_from gives back exactly that configuration. Keys that are not documented have no effect and the order of keys does not matter; a key without a value is the same as no key, except that `steps:` and `jobs:` are then empty. A step with a text under `run` and sound other keys is a command with that text even if it also has `uses`; otherwise a step with a text under `uses` is an action; anything else is rejected. A document is accepted exactly when it can be read and passes validation, and every rejection is a configuration error. A condition mapping that names neither `push` nor `pull_request` is accepted and then never matches any event. Every value of a document ends up in the field it was written for and nothing else is accepted: a document is read as a configuration exactly when it has the required keys (`jobs`; in a job `steps`; in a step `run` or `uses`) and every documented key holds a value of the documented shape. A sequence with exactly one value per key, in the published order of the keys, may stand for a mapping and is read as that mapping; a sequence of any other length is rejected. A mapping that repeats a documented key is rejected (a step that repeats `run` or `container` may still be an action); where names of jobs or environment variables are repeated the last entry counts.", "quantifier": "all workflow configurations, all document values, all mappings with any keys in any order, repeated keys included", "why_tests_cant": "the set of documents is infinite, and the outcome depends on the interplay of untagged variants, optional keys and extra keys at every nesting level", "anchors": ["crates/astro-run/src/user_config.rs:UserWorkflow", "crates/astro-run/src/user_config.rs:UserStep", "crates/astro-run/src/user_config.rs:Container", "crates/astro-run/src/user_config.rs:try_from", "crates/astro-run/src/types/condition.rs:Condition"]}
{"id": "C80", "title": "Workflows running at the same time do not interfere", "statement": "One engine may run any number of workflows at the same time, together with cancel_job calls. What an observer sees of one run (its notifications, the results delivered to it and its returned result) is always something that run could also do alone; in particular the dependency order, the completeness of results, the outcome and the event bracket hold for every run of every interleaving.", "quantifier": "all interleavings of any number of workflow runs, their job tasks, runner behaviours, hook answers, clock ticks and cancel_job calls on one engine", "why_tests_cant": "the number of runs, their sizes and their interleavings are unbounded; the shared signal table couples the runs", "anchors": ["crates/astro-run/src/astro_run.rs:AstroRun", "crates/astro-run/src/workflow/mod.rs:run", "crates/astro-run/src/workflow/job.rs:run", "crates/astro-run/src/execution_context/mod.rs:run", "crates/astro-run/src/signals/mod.rs:SignalManager"]}
{"id": "C81", "title": "Time stamps are ordered, nested and the clock's", "statement": "A returned workflow result is skipped with no stamps and no jobs, or carries a start and an end stamp; every job result in it is skipped without stamps, or lies within the workflow's interval; every step result lies within its job's interval or is skipped without stamps, and steps follow one another. The start stamp of a workflow or job is the time its condition was checked, of a step the time the job went on to it; the end stamp of a workflow is the time it received its last job result, of a job the time it had no more steps, of a step the time its result was added. A job starts no earlier than the completion of the jobs it depends on.", "quantifier": "all reachable states of the engine with any number of concurrent runs, all schedules and clock advances, all workflows", "why_tests_cant": "the stamps are taken at scheduling-dependent moments by concurrent tasks; a test sees one interleaving", "anchors": ["crates/astro-run/src/workflow/mod.rs:run", "crates/astro-run/src/workflow/job.rs:run", "crates/astro-run/src/execution_context/mod.rs:run"]}
{"id": "C82", "title": "Cancelling one job of a busy engine", "statement": "Every call of cancel_job is answered; a refused one changes nothing. A step learns of a cancellation only if the job its id names was successfully cancelled, whatever other runs, jobs and cancellations are going on. Once cancel_job has succeeded, a step of the job that is waiting for its runner can be told at any time, unless a step of the job has been told already.", "quantifier": "all reachable states of an engine with any number of concurrent runs, all schedules of cancel_job calls", "why_tests_cant": "the signal table is shared by all concurrent runs; a test exercises one interleaving of registrations, cancellations and completions", "anchors": ["crates/astro-run/src/signals/mod.rs:SignalManager", "crates/astro-run/src/execution_context/mod.rs:run", "crates/astro-run/src/astro_run.rs:cancel_job"]}
{"id": "C83", "title": "No run is held up by the others", "statement": "Whatever the engine has been doing and wherever its other runs are, every run of a workflow without dependency cycles can be brought to its return by its own tasks and the runner working for it alone; a run that has no move left has returned. (Runs with different workflow ids, hooks that leave the job part of step ids alone.)", "quantifier": "all reachable states of the engine, all runs in them", "why_tests_cant": "it concerns every state that any interleaving of any number of runs can reach", "anchors": ["crates/astro-run/src/workflow/mod.rs:run", "crates/astro-run/src/workflow/job.rs:run", "crates/astro-run/src/execution_context/mod.rs:run", "crates/astro-run/src/signals/mod.rs:SignalManager"]}
{"id": "C84", "title": "Life cycle of states and notifications", "statement": "The notifications of every job run come in a fixed order: the job is announced first, reported in progress, its steps one after the other are announced, queued, handed to the runner, in progress, logged, reported final and completed, then the job is reported final and completed; or it is skipped and that is all. Completion directly follows the final report and agrees with it. All states in answers and returned results are terminal, and the terminal states are Succeeded, Failed, Cancelled and Skipped. The main task reports run, in progress, final, completed, or just skipped.", "quantifier": "all reachable states of the engine, all concurrent runs and job runs", "why_tests_cant": "the order must hold on every path through skip, refuse, accept, cancel and time-out in any interleaving", "anchors": ["crates/astro-run/src/types/workflow_state.rs:is_terminal", "crates/astro-run/src/workflow/job.rs:run", "crates/astro-run/src/workflow/mod.rs:run", "crates/astro-run/src/execution_context/mod.rs:run"]}
{"id": "C85", "title": "Concurrent condition checks", "statement": "However the condition checks of a run's tasks interleave: a check without authorization or event answers true and makes no lookup; otherwise it makes at most one lookup, answers true if that fails, and otherwise answers its condition evaluated on the files of its own lookup or, if it made none, on those some other check of the run got; a check made after a success makes no lookup, no check gets stuck, and the first successful lookup fixes the files for the rest of the run.", "quantifier": "all numbers of concurrent checks, all interleavings of their critical sections, all answers and failures of GitHub at each lookup", "why_tests_cant": "races between two lookups in flight depend on the schedule and on GitHub's timing", "anchors": ["crates/astro-run/src/execution_context/condition_matcher.rs: ConditionMatcher::is_match, condition_payload, get_changed_files", "crates/astro-run/src/workflow/mod.rs: run_job"]}
{"id": "C86", "title": "Remote execution is transparent", "statement": "If neither network nor server fails, a step run through the remote runner gives the engine what the runner would have given it in its own process: the result the runner ended its stream with first, every line it wrote before that, in order and with its type, nothing it did not write; and once the runner has ended, the engine sees the end after a bounded number of moves, whatever signals are sent meanwhile.", "quantifier": "all interleavings of runner, server task, channel, client task, engine and signals, all logs and results", "why_tests_cant": "all interleavings of five concurrent parties", "anchors": ["crates/remote-runner/src/client.rs: run", "crates/remote-runner/src/runner_server.rs: run", "crates/astro-run/src/stream.rs"]}
{"id": "C87", "title": "A step on the local runner ends when, and as, its process ended", "statement": "For a job executed with AstroRunner as the engine's runner: when the process of a step has exited and closed its pipes, the engine and the runner's task go on until the step has ended; the recorded result is the process's exit status (0: Succeeded, c: Failed c, killed: Failed 1), or what the signal that stopped it calls for, and observers are shown exactly the log the runner wrote, in order. The process run is the one for that step.", "quantifier": "every job, every interleaving of the engine, the runner's tasks (including those of earlier steps), their processes, the clock, API users and operating system failures", "why_tests_cant": "needs every interleaving of two tasks, a process and the clock; a test sees one", "anchors": ["crates/runner/src/astro_runner.rs:39-70", "crates/astro-run/src/execution_context/mod.rs:50-195", "crates/runner/src/executors/docker.rs", "crates/runner/src/command.rs:59-133"]}
{"id": "C88", "title": "Cancelling a job stops the running process and ends step and job as cancelled", "statement": "When cancel_job answers Ok while the process of the job's current step runs on the local runner (and no timeout was signalled), then unless the process exits by itself, the operating system fails or the step times out, the engine and the runner go on until the step has ended as Cancelled, with `docker kill` of its container issued for docker steps; if the job then ends it ends as Cancelled with all later steps skipped.", "quantifier": "every reachable state in which a step's process runs, every schedule after the cancel", "why_tests_cant": "the cancel passes through the job signal, the select loop, the step signal and the runner's select; each hop races with logs, other branches and other tasks", "anchors": ["crates/astro-run/src/signals/mod.rs:31-39", "crates/astro-run/src/execution_context/mod.rs:108-140", "crates/runner/src/executors/docker.rs:50-79"]}
{"id": "C89", "title": "A silent step on the local runner is killed when its timeout is over", "statement": "When the engine waits for a step whose process runs, everything it wrote has been read and reported and no signal is on its way, then once the time of the wait is over, unless the process writes or exits, the operating system fails or the job is cancelled, the engine and the runner go on until the step has ended as Failed with exit code 123, with `docker kill` issued for docker steps.", "quantifier": "every such reachable state, every schedule afterwards", "why_tests_cant": "depends on the timer branch racing with every other branch and on two tasks sharing a signal", "anchors": ["crates/astro-run/src/execution_context/mod.rs:108-124", "crates/runner/src/executors/docker.rs:50-79", "crates/runner/src/executors/host.rs:42-58", "crates/astro-run/src/stream.rs:93-104"]}
{"id": "C90", "title": "The process of a command", "statement": "Whatever sequence of `env` and `dir` calls a runner `Command` was built with, it is started as `sh -c <text>` in the directory set last; in the process, every variable has the value set for it last and otherwise the runner's own value, so for a host step every configured variable has its configured value in any configuration order. The start is refused exactly for NUL characters in what is used. `exec` answers Ok exactly when the process ran, exited 0 and wrote UTF-8, with its output trimmed on both sides; otherwise the error carries stderr or the reason. The command that stops a docker step names exactly that step's container.", "quantifier": "every command text, every sequence of builder calls, every environment of the runner, every order of the child's environment block, every outcome of the operating system, every step", "why_tests_cant": "the space of call sequences, environments, byte outputs and exit states is unbounded; a test runs a handful of echo commands", "anchors": ["crates/runner/src/command.rs: Command::new, env, dir, exec, build_command", "crates/runner/src/executors/host.rs: into_command", "crates/runner/src/executors/docker.rs: execute"]}
{"id": "C91", "title": "Errors, log types and signals as text", "statement": "Comparing two errors with == is an equivalence relation. Two errors that are not both I/O errors are equal exactly if they print the same message; two I/O errors are equal exactly if they have the same kind. A log type or signal printed as text is read back as itself; any other text is read as the log type `log`, and is no signal (reading it panics).", "quantifier": "all errors with all messages, exit codes, I/O kinds and texts; all texts", "why_tests_cant": "the repository's tests compare a handful of literals; the claim is about all pairs and triples of errors with arbitrary messages", "anchors": ["crates/astro-run/src/types/error.rs", "crates/astro-run/src/types/mod.rs WorkflowLogType", "crates/astro-run/src/signals/signal.rs Signal"]}
{"id": "C92", "title": "The user's payload arrives unchanged everywhere", "statement": "A payload attached to an execution context reaches every hook and every plugin of the run, every job's context and the text sent to a remote runner as the same typed value, and can be taken out as its own type only.", "quantifier": "all programs of payload types, all payload values, any number of hooks", "why_tests_cant": "payload types are the user's; the copy goes through JSON text, so the claim ranges over all types and values", "anchors": ["crates/astro-run/src/execution_context/context_payload.rs", "crates/astro-run/src/execution_context/mod.rs"]}
{"id": "C93", "title": "One log level per process, whoever initialises", "statement": "However many threads initialise the logger, with whatever levels and in whatever interleaving, once one of them has returned the process has one level, that of one of the calls, and from then on a line is printed exactly if its level is at most that; later calls change nothing. Only lines that were logged are printed, and none without an initialisation. An initialisation from the environment uses the level RUST_LOG names in any case, otherwise info. Initialisations do not block each other for ever, each ends after finitely many steps, and one panics only if other code has set a logger.", "quantifier": "all numbers of threads, levels, environment texts and interleavings, including other code that sets a logger", "why_tests_cant": "the logger is set once per process, so a test process sees one interleaving; the repository's three tests race with each other", "anchors": ["crates/logger/src/lib.rs init_logger", "crates/logger/src/lib.rs init_logger_with_level", "crates/logger/src/lib.rs Logger"]}
{"id": "C94", "title": "A slow or vanished client does not stall the server", "statement": "However slowly the client reads, the server holds at most thirty messages for it and drops none while somebody may still read them; the runner never waits for the client, it can write and end at any moment. When the runner has ended its stream the server's task can always move, unless thirty messages wait to be read, and then one message read is enough; once the client is gone it can always move. The task makes at most four moves of its own plus two per line written, so it always comes to an end.", "quantifier": "all interleavings of runner, server task, transport and client, all numbers of lines, every moment at which the client stops reading or disappears", "why_tests_cant": "depends on the relative speed of runner, transport and client and on the moment of disconnection", "anchors": ["crates/remote-runner/src/runner_server.rs: run (43-72, 80-98)"]}
{"id": "C95", "title": "A job on remote runners gets what the runners there produce, and they get its signals", "statement": "When a step executed through a remote server ends, its recorded result is the first result the runner on that server ended its stream with, or a failure of the client's own that the step's log shows; observers see what that runner wrote, in order, followed by at most that one line; without faults nothing written before the end is missing, and the step does end. A step for which there is no runner fails with exit code 1 and says so. A runner on a server only ever gets a signal the engine sent for an execution of that step there, and when the job is cancelled or the step times out the signal gets there within four moves unless the client has stopped listening to the server.", "quantifier": "all jobs, all interleavings of engine, API users, clock, client tasks, network, servers, runners and step notifications, all failures and all assignments of steps to servers", "why_tests_cant": "combines three concurrent parties and every point at which any of them may fail; depends on the order in which registration, signal and completion notifications reach a server", "anchors": ["crates/remote-runner/src/client.rs: run (30-62), handle_run (237-301)", "crates/remote-runner/src/runner_server.rs: run (40-98), send_event (106-186)", "crates/astro-run/src/execution_context/mod.rs: run (25-196)"]}
{"id": "C96", "title": "A job on remote runners that execute steps locally behaves as if its steps ran here", "statement": "With servers whose runner is the local runner: when a step ends and neither network nor server failed in its call, its recorded result is the one the exit status of its process on the server, or the signal that stopped it, calls for, and observers saw exactly the log of that execution, in order; whatever fails, they saw a beginning of that log and at most one line of the client's own, and a failure that is not the process's is reported as such. The execution is started, and once its process is over the step ends. Cancelling the job, or its step timing out, reaches the process on the server: the step ends as cancelled (or failed 123), with its container killed there. After a cancelled step the job ends as cancelled and later steps are skipped.", "quantifier": "all jobs, all servers' configurations, all interleavings of engine, clock, API users, clients, network, servers, local runners and processes, all failures", "why_tests_cant": "combines the interleavings of five parties and every point of failure; needs two streams, two queues and two signals to stay consistent at every moment", "anchors": ["crates/remote-runner/src/runner_server.rs: run (40-98), send_event (106-186)", "crates/remote-runner/src/client.rs: run (30-62), handle_run (237-301)", "crates/runner/src/astro_runner.rs: run (39-70)", "crates/runner/src/command.rs", "crates/astro-run/src/execution_context/mod.rs: run (25-196)"]}
{"id": "C97", "title": "A step that is silent on a remote server times out there", "statement": "If a step's process keeps running on a remote server without writing anything, everything it wrote has reached the engine and no signal is on its way, then once the step's timeout has passed since the last thing the engine received, whatever else happens short of output, an exit, a failure or a cancel, the step ends as failed with exit code 123 and its container is killed on the server, or work towards that can go on (and not forever).", "quantifier": "all jobs, servers, schedules and lengths of the silence", "why_tests_cant": "depends on when engine, client task, server and local runner are scheduled relative to the clock, and on nothing being held up in any queue between them", "anchors": ["crates/astro-run/src/execution_context/mod.rs: run (98-154)", "crates/remote-runner/src/client.rs: handle_run (237-301)", "crates/remote-runner/src/runner_server.rs: send_event (169-185)", "crates/runner/src/command.rs"]}
{"id": "C98", "title": "Steps of a job on a fleet of servers are placed on servers that can execute them", "statement": "In an engine that uses the remote runner with the default scheduler, however servers are connected, and whatever other jobs ask the scheduler meanwhile, each step of a job is sent to a server that was connected, has the client's version and supports docker, or for a host step has the platform asked for and supports host steps (or, the exception of C44, got a docker step of the job before and was named with its architecture). A step ends with 'No runner available' only if none of the servers connected when it was scheduled can execute it. Scheduling never blocks and never panics.", "quantifier": "all jobs, servers, connection histories, hash map orders, interleavings with the schedule calls of other jobs", "why_tests_cant": "depends on the interleaving of connecting servers, concurrent schedule calls of any number of jobs, and the iteration order of a hash map", "anchors": ["crates/remote-runner/src/client.rs: run (30-62), start (166-205), connect (207-236)", "crates/scheduler/src/default.rs: schedule (41-101)"]}
{"id": "C99", "title": "All steps of a job run on the same server", "statement": "If a job is run once, all its steps that one server can execute are sent to the same server, so that they share the job's working directory. (Proved for docker steps, and for every step after a docker step that suits that step's server; false for host steps before the first docker step.)", "quantifier": "all jobs, servers, connection histories, interleavings with other jobs", "why_tests_cant": "depends on the load other jobs put on the servers and on servers connected while the job runs", "anchors": ["crates/scheduler/src/default.rs: schedule (41-101)", "crates/remote-runner/src/client.rs: run (30-62)"]}
{"id": "C100", "title": "In an engine with the local runner every step ends as its process ended", "statement": "In an engine that runs any number of workflows at the same time with the local runner, the results of the steps of a job that were not skipped, the steps observers saw handed to the runner, and the processes started for the job correspond one to one and in order. Of each, observers were shown exactly the log its task wrote, and the recorded result is the exit status of its own process or the signal that stopped it. While a step is being executed, observers have been shown a beginning of its log.", "quantifier": "all workflows, numbers of concurrent runs, interleavings of engine, runner tasks, processes, API users and clock, failures of the operating system", "why_tests_cant": "mix-ups of streams, signals or results between concurrent jobs and runs depend on the interleaving of all tasks", "anchors": ["crates/astro-run/src/execution_context/mod.rs: run (26-195)", "crates/astro-run/src/workflow/mod.rs: run, run_job", "crates/astro-run/src/stream.rs", "crates/runner/src/astro_runner.rs: run (39-70)", "crates/runner/src/command.rs"]}
{"id": "C101", "title": "A workflow on the local runner returns when its processes have ended", "statement": "In an engine with the local runner, once all processes of a run have exited, the run (a valid, acyclic workflow whose id no other run uses) can always go on until it has returned its result; what other runs do, or that their processes never end, does not hold it up.", "quantifier": "all valid workflows, concurrent runs, interleavings, failures of the operating system", "why_tests_cant": "a deadlock shows only in particular interleavings of main task, job tasks, runner tasks and processes", "anchors": ["crates/astro-run/src/workflow/mod.rs: run", "crates/astro-run/src/execution_context/mod.rs: run", "crates/runner/src/astro_runner.rs: run"]}
{"id": "C102", "title": "When a workflow has returned, none of its processes is left running", "statement": "When a workflow run with the local runner has returned, every process started for it has exited or has been told to stop with docker kill, unless waiting for it failed and its step failed. (Proved for containers of runs that ran no job twice, and of every job with a result; false when a job with dependencies is started twice, and for processes on the host.)", "quantifier": "all workflows, concurrent runs, interleavings", "why_tests_cant": "the orphaned process exists only in interleavings in which a job is started a second time", "anchors": ["crates/astro-run/src/workflow/mod.rs: run (89-119)", "crates/runner/src/astro_runner.rs", "crates/runner/src/executors/docker.rs"]}
{"id": "C103", "title": "A step is stopped as cancelled only if somebody cancelled its job", "statement": "In an engine with the local runner, a process is stopped because of a cancellation, and a step recorded as cancelled, only if cancel_job was called with the id of the job of that very step and answered Ok; cancelling one job never stops steps of other jobs or runs.", "quantifier": "all workflows, concurrent runs, cancel_job calls, interleavings", "why_tests_cant": "depends on the interleaving of cancel_job calls with registering and removing signals of all concurrent jobs", "anchors": ["crates/astro-run/src/signals/mod.rs", "crates/astro-run/src/execution_context/mod.rs: run (50-140)", "crates/runner/src/astro_runner.rs"]}
{"id": "C104", "title": "A job in a busy engine behaves exactly as that job alone", "statement": "Let the engine run any number of workflows with any number of jobs, with any calls of cancel_job. A job run whose workflow id and job key no other job run has announced behaves, apart from being delayed, as if its job were the only thing the engine ever did: whenever it is not in the middle of announcing something, its notifications, step results, the signal and log stream of its current step, and the answers of cancel_job for it are those the job alone reaches by the same moves of the job and its runner. So its steps never panic for want of a signal, the log notifications of a step are exactly the entries its runner wrote, in order, and complete before the step's result, at most one cancel_job for it is answered Ok, and that one can be passed on to the step that is waiting.", "quantifier": "all sets of concurrent workflow runs, all interleavings of their tasks, runners, clock and cancel_job calls, all job runs", "why_tests_cant": "the interleavings of many runs with each other and with cancellation are unbounded; a test shows one schedule", "anchors": ["crates/astro-run/src/workflow/job.rs: Job::run", "crates/astro-run/src/execution_context/mod.rs: ExecutionContext::run", "crates/astro-run/src/signals/mod.rs: SignalManager", "crates/astro-run/src/workflow/mod.rs: Workflow::run"]}
{"id": "C105", "title": "Cancelling and time limits work for one step of a busy engine on the local runner", "statement": "Let one engine with the local runner run any number of workflows at once. While a job run (whose job no other job run has) waits for the process of its step: if cancel_job is answered Ok, then, whatever everyone else does and as long as the process does not exit by itself, at every later point either the step has ended Cancelled and its container was told to stop with docker kill, or someone who works for the step can move; if instead time passes up to the step's limit without output, the same holds with Failed, code 123. Those who work for the step can only make a bounded number of moves when the process does nothing more, so both outcomes are reached under fair scheduling. Once a step has ended Cancelled, the job's result is Cancelled, contains that step's result, and has only Skipped steps after it.", "quantifier": "all sets of concurrent workflow runs on one local runner, all schedules before and after the cancel or the deadline, all processes' outputs", "why_tests_cant": "needs all interleavings of unboundedly many workflows, containers, log lines and API calls around the cancel or deadline", "anchors": ["crates/astro-run/src/execution_context/mod.rs: ExecutionContext::run", "crates/astro-run/src/signals/mod.rs: SignalManager::cancel_job", "crates/runner/src/astro_runner.rs: AstroRunner::run", "crates/runner/src/executors/mod.rs", "crates/astro-run/src/workflow/job.rs: Job::run"]}
{"id": "C106", "title": "A running step never oversleeps its runner, its signal or its timeout", "statement": "While a step runs, the engine's task sleeps only when nothing is left to do: every log line the runner wrote has been handed to the log hooks, the runner has not ended the step, no cancellation of the job waits to be received, and a wake-up is booked for the very time at which the step times out. A log line, the end of the step, a cancel_job and the timeout all wake it, at whatever point between two polls they come and in whatever order select! polls. Once the runner has ended the step the engine can always finish it with that result and all log lines; a cancellation, when everything has come to rest, has been received by the runner (unless a timeout came first), and the runner receives a timeout only after the step's time limit and a cancellation only if the job was cancelled. Poll by poll the loop does exactly what it does when an iteration of select! is taken to be one step.", "quantifier": "every interleaving of single polls of the three branches (in any order each time) with log lines, ends of stream, cancellations, clock ticks, timer wake-ups, spurious wake-ups and polls of the runner's task; every state the job's signal may be in when the step starts; every time limit", "why_tests_cant": "a lost wake-up shows only if an event falls into the window between polling one branch and parking the task; the order in which select! polls is random", "anchors": ["crates/astro-run/src/execution_context/mod.rs:ExecutionContext::run", "crates/astro-run/src/signals/signal.rs:Receiver::poll", "crates/astro-run/src/signals/signal.rs:AstroRunSignal::cancel", "crates/astro-run/src/stream.rs:StreamReceiver::poll_next", "crates/astro-run/src/stream.rs:StreamSender::end"]}
{"id": "C107", "title": "Everybody who waits for a signal is told", "statement": "When a signal is cancelled or times out, every task that awaits recv() on it (a runner may clone the signal of its step and wait for it in several tasks) is woken and told, and a task that asks later is told too. In fact exactly one task is told: at most one recv() of a signal ever returns; the task that polled last before the signal was set (and was not dropped) is woken and told; every other waiting task, and every task that asks after another was told, sleeps forever; and if the last one to poll was dropped, nobody is told.", "quantifier": "every number of tasks and clones; every interleaving of recv() calls, polls, dropped futures, spurious wake-ups, cancel and timeout", "why_tests_cant": "who is woken depends on the order of the polls; a test would have to wait forever to see that a task sleeps forever", "anchors": ["crates/astro-run/src/signals/signal.rs:AstroRunSignal::recv", "crates/astro-run/src/signals/signal.rs:Receiver::poll", "crates/astro-run/src/signals/signal.rs:AstroRunSignal::cancel", "crates/astro-run/src/types/context.rs:Context"]}
{"id": "C108", "title": "A run whose future is dropped stops; the jobs it started do not", "statement": "Dropping the future of Workflow::run (timeout, select!, aborted request), or a panic in one of the workflow's own hooks, at any point: from then on the workflow gives no notification, starts no further job and never returns or reports completion. Jobs already started are not stopped by that: each of them can still be brought to its regular end by its own moves and its runner's, with all its notifications, and still takes a cancellation through cancel_job; only its result is lost (the task logs an error and ends).", "quantifier": "all interleavings of any number of workflow runs, jobs, runners, cancellations, drops and panics; every point at which the future is dropped", "why_tests_cant": "the point of the drop relative to every job's progress, and what everything else does afterwards, is unbounded", "anchors": ["crates/astro-run/src/workflow/mod.rs:28-161 Workflow::run, run_job", "crates/astro-run/src/signals/mod.rs SignalManager::cancel_job"]}
{"id": "C109", "title": "A panic in the user code of one job is contained", "statement": "If a hook, a runner or anything else a user supplies panics in the task of one job, then other runs are not affected: they can still be brought to their return; the panicked job says nothing any more and never has a result; and the workflow's run returns. (The last part is false: the join handle is ignored and the main task holds a sender itself, so run waits forever; jobs depending on a panicked job without dependencies never start; cancel_job keeps being answered Ok for the job though nobody listens.)", "quantifier": "all interleavings of any number of workflow runs, jobs, runners, cancellations, drops and panics; every point at which user code panics", "why_tests_cant": "a hang cannot be observed by a finite test, and the point of the panic and the interleaving are unbounded", "anchors": ["crates/astro-run/src/workflow/mod.rs:58, 92, 153-161 Workflow::run, run_job", "crates/astro-run/src/execution_context/mod.rs call_on_run_job, call_on_job_completed", "crates/astro-run/src/signals/mod.rs SignalManager"]}
{"id": "C110", "title": "A remote call reaches the method of its name and its answer comes back", "statement": "Each of the four calls of a remote-runner client (metadata, run, event, before-step hook) is served by the server's method of the same name, called exactly once with exactly the request the client gave (a step's own signal stays behind), and the client gets exactly what that method answered: the value, the stream item by item in order, or the error status. A request for any other path calls nobody and is answered 'unimplemented'. A message over the 4 MB limit is refused by its receiver and the caller is told; on the run stream nothing after it arrives. (The code violates the full claim for large messages: a runner that prints one line of more than 4 MB and succeeds is reported as failed, without the line.)", "quantifier": "all paths, methods, requests, answers and streams, all implementations of the service", "why_tests_cant": "Tests call each method with a few small messages; routing must hold for every path and delivery for every message, stream and size.", "anchors": ["crates/protocol/src/proto/remote_runner.RemoteRunner.rs: RemoteRunnerClient, RemoteRunnerServer::call", "crates/protocol/src/common/json_codec.rs", "crates/protocol/src/lib.rs", "crates/remote-runner/src/client.rs: run"]}
{"id": "C111", "title": "A remote client that is started more than once", "statement": "A remote-runner client (and its clones) may be started any number of times, before, during and after other starts. Each start sends each runner each event at most once, in the order the events were emitted, and only events emitted after that start; every runner reached by any start is in the one table, once, and every start sends every event it takes to all runners in the table. So a runner hears of an event at most as often as the client was started; a client started once tells every runner of every event at most once and in order. (The code violates the full claim for a client that is started again: all runners hear of events several times, and of old ones after newer ones.)", "quantifier": "all numbers and interleavings of starts, connections, events, failed requests and dropped starts", "why_tests_cant": "The tests start a client once, with one or two servers; duplicates and reordering only show up for several starts and particular interleavings.", "anchors": ["crates/remote-runner/src/client.rs: AstroRunRemoteRunnerClient, start, on_* hooks"]}
{"id": "C112", "title": "Fair executions bring every run to its return", "statement": "In every endless execution of an engine, whatever its users and other workflows do and wherever it starts from: if the task that called run and the job tasks of that run are not starved (a task that can move from some point on moves again and again), the select! of a step does not ignore the step's stream forever, and the runner ends the steps it is given and stops writing to them, then run returns - for every workflow with defined, acyclic dependencies and at least one job. Every reachable state has such a future.", "quantifier": "all endless interleavings of users, main tasks, job tasks, runner and clock that are fair to the run; all workflows with acyclic dependencies; all runs and all starting points", "why_tests_cant": "It is a liveness property of infinite executions; a test observes finitely many of finitely many steps and cannot tell a slow run from one that never returns.", "anchors": ["crates/astro-run/src/workflow/mod.rs: Workflow::run", "crates/astro-run/src/workflow/job.rs: Job::run", "crates/astro-run/src/execution_context/mod.rs: ExecutionContext::run", "crates/astro-run/src/stream.rs: StreamReceiver"]}
{"id": "C113", "title": "On the local runner, runs return when their processes end", "statement": "In every endless execution of an engine whose steps are executed by the local runner: if the main task and the job tasks of a run, and the runner's tasks for it, are not starved, the loop that reads a step's stream does not ignore the stream forever, and the processes started for the run end (closing their output), then run() returns the workflow's result, whatever other workflows, API users and the operating system (failures included) do in the meantime. Such executions exist after every history: from every state the engine can get into, all runs together can be continued fairly, and there is a finite continuation, without new workflows, cancellations or failures, after which all of them have returned.", "quantifier": "all endless executions (interleavings of engine, users, clock, runner tasks and processes) that are fair to the run; all workflows without dependency cycles; all plugins and OS failures", "why_tests_cant": "A test sees a finite prefix of one interleaving; that every fair infinite interleaving leads to a return is a liveness statement over all of them.", "anchors": ["crates/astro-run/src/workflow/mod.rs:28-151", "crates/astro-run/src/execution_context/mod.rs:101-195", "crates/runner/src/astro_runner.rs:39-70", "crates/runner/src/executors/docker.rs", "crates/runner/src/executors/host.rs", "crates/runner/src/command.rs:60-140"]}
{"id": "C114", "title": "A whole engine on the remote runner: every step ends as its runner on the server ended it", "statement": "One engine runs any number of workflows at the same time, all steps handed to one remote-runner client and executed on any servers. When a job has its result, the steps announced to the runner, the client's calls and the results of the steps that were not skipped correspond one to one and in order. Of each such step observers were shown what the runner on the server wrote, up to some point, followed by at most one error line of the client's own; the stored result is the one the runner ended with, or the failure the client reports with that line; if nothing failed in the call, everything the runner wrote before it ended was shown and the result is the runner's. A step for which no runner was found failed with exit code 1 and says so. While a step is executed, what observers have seen is a beginning of what the client wrote. Other workflows, jobs and servers never change this.", "quantifier": "all numbers of workflows, jobs, calls and servers; all interleavings of engine, users, clock, client tasks, network, server tasks, runners and notifications; all network and server failures", "why_tests_cant": "The tests run one workflow against one or two servers without failures; a mix-up between concurrent calls only shows up under particular interleavings.", "anchors": ["crates/astro-run/src/workflow/mod.rs: Workflow::run", "crates/astro-run/src/execution_context/mod.rs: ExecutionContext::run", "crates/remote-runner/src/client.rs: Runner::run, RemoteRunnerClient::run", "crates/remote-runner/src/runner_server.rs: run"]}
{"id": "C115", "title": "On the remote runner, a run never gets stuck once its runners have ended", "statement": "If every runner on a server that works for a run has ended its stream (or its server's task, or the client's task, is gone) and nothing that works for this run can move any more - neither the engine's tasks nor the client, its tasks, the transport and the servers' tasks, and no client task is still to learn that its connection broke - then run() has returned the workflow's result. Other runs, whatever state they are in, do not hold it up.", "quantifier": "all schedules of any number of workflows on any servers, all failures, all workflows with defined, acyclic dependencies and at least one job", "why_tests_cant": "A deadlock between the engine, a client task and a server task shows up in few interleavings; a test cannot exclude it for all.", "anchors": ["crates/astro-run/src/workflow/mod.rs: Workflow::run", "crates/astro-run/src/stream.rs", "crates/remote-runner/src/client.rs: Runner::run, RemoteRunnerClient::run", "crates/remote-runner/src/runner_server.rs: run"]}
{"id": "C116", "title": "On the remote runner, only steps of a cancelled job are told to stop as cancelled", "statement": "With any number of workflows running at the same time on any servers, a runner on a server (and the client's task) gets the cancel signal for a step only if somebody called cancel_job with the id of the job of that step and was answered that the job was cancelled. More generally a runner on a server gets a signal only if the engine set it in an execution of a step with this id on this server; if no other call is for a step with this id, in this very execution.", "quantifier": "all schedules of any number of workflows, jobs, servers and API users, all failures", "why_tests_cant": "The tests cancel one job of one workflow; that no signal ever goes to a step nobody cancelled is a statement about all interleavings of all workflows.", "anchors": ["crates/astro-run/src/astro_run.rs: cancel_job", "crates/astro-run/src/signals/signal_manager.rs", "crates/remote-runner/src/client.rs:253-300", "crates/remote-runner/src/runner_server.rs:88-91, 123-134, 169-185"]}
{"id": "C117", "title": "On the remote runner, a signal gets to the runner that executes the step", "statement": "In a whole engine, a signal (cancellation or timeout) set for a step that is executed on a server reaches the runner executing it: as long as the client listens to the server, the runner has the signal or one of the moves that carry it on is possible, and at most three of them are needed; once cancel_job has succeeded for a job whose step waits for its server, the cancellation has been passed on or can be, and then the client's task of this step has it. (The code violates the full claim when steps with the same id are executed at the same time - a job started twice: the server gives the signal to the other execution, and the runner that should stop hears nothing.)", "quantifier": "all schedules of any number of workflows, jobs, servers and API users, all failures", "why_tests_cant": "Signals race with the acceptance of the call, with output and with the end of the step; a test sees one order of one step.", "anchors": ["crates/astro-run/src/execution_context/mod.rs:101-140", "crates/remote-runner/src/client.rs:253-300", "crates/remote-runner/src/runner_server.rs:81-134, 169-185", "crates/astro-run/src/workflow/mod.rs:89-119"]}
{"id": "C118", "title": "On the remote runner, runs return when the servers are done with them", "statement": "In every endless execution of an engine whose steps are executed by the remote runner: if the main task and the job tasks of a run are not starved, the loop that reads a step's stream does not ignore the stream forever, the client's and servers' tasks and the transport of the run's calls keep going, a broken connection is noticed sooner or later, and the runner on the server ends the stream of every step sent to it (or the server's task dies), then run() returns the workflow's result, whatever other workflows, API users and the network (failed requests, lost connections, crashed servers) do in the meantime. Such executions exist after every history: from every state the engine can get into, all runs together can be continued fairly, and there is a finite continuation, without new workflows, cancellations or failures (other than noticing connections that are broken already), after which all of them have returned.", "quantifier": "all endless executions (interleavings of engine, users, clock, client tasks, network, server tasks and remote runners) that are fair to the run; all workflows without dependency cycles; all failures of the network and the servers", "why_tests_cant": "A test sees a finite prefix of one interleaving over one network; that every fair infinite interleaving, with any failures, leads to a return is a liveness statement over all of them.", "anchors": ["crates/remote-runner/src/client.rs:30-62", "crates/remote-runner/src/client.rs:237-301", "crates/remote-runner/src/runner_server.rs:40-98", "crates/astro-run/src/execution_context/mod.rs:101-195", "crates/astro-run/src/workflow/mod.rs:28-151"]}
{"id": "C119", "title": "Process output is logged line by line whatever the chunks, and reading it never blocks the process", "statement": "However the operating system cuts the output of a step's process into chunks (in the middle of lines or of UTF-8 characters) and however reading of stdout and stderr is interleaved, the log holds exactly a beginning of the process's stdout lines in order, and of its stderr lines as errors; lines end at newline, a carriage return before it is dropped, a last line without newline counts. When reading ends at the end of a pipe all its lines are logged; a line that is not UTF-8 ends reading of both pipes with one error line. A process whose output is text and that keeps its pipes open until it is done is never blocked for ever by a full pipe, and the step ends with its exit status. (As implemented this fails for output that is not UTF-8, or if the process closes one pipe early: nobody reads the pipes any more and a process that goes on writing hangs for ever.)", "quantifier": "every process (any sequence of bytes on two pipes, closings and exit), every pipe capacity, every size of each read, every interleaving of process and reader, every read error", "why_tests_cant": "the chunk boundaries and the interleaving are up to the kernel; a test sees a few of them; blocking for ever cannot be observed", "anchors": ["crates/runner/src/command.rs:Command::run"]}
{"id": "C120", "title": "The remote client never misses an answer or a signal, does not spin, and ends", "statement": "While a remote step runs, the client waits at once for the server's answer and for the step's signal. However the polls of the two branches, the executor, the transport, the server and the setters of the signal interleave: (a) whenever the client's task is asleep, no message has arrived unread, the answer has not ended, the connection has not failed and no signal is waiting; (b) a signal set before the task slept has been sent to the server; (c) an awake task always has a move, and makes only a bounded number of them before it sleeps or ends unless somebody else acts; (d) once the server has ended its answer or the connection broke, the task ends by itself, with a result in the step's stream; (e) at the granularity of whole iterations the loop does exactly what the coarser model used for the other remote properties does.", "quantifier": "all orders in which select! polls its branches, all interleavings with server, transport, connection failures, spurious wake-ups and signal setters, all states of the call at which the loop may begin", "why_tests_cant": "a lost wake-up needs one particular interleaving of a poll with a message or signal arriving between the polls of the two branches; a test exercises the few orders the executor happens to choose", "anchors": ["crates/remote-runner/src/client.rs: AstroRunRemoteRunnerClient::run (252-299)", "crates/astro-run/src/signals/signal.rs: AstroRunSignal, Receiver::poll", "crates/astro-run/src/stream.rs: StreamSender"]}
{"id": "C121", "title": "The local runner never misses output, exit or signal of a step, does not spin, and ends", "statement": "While a step runs locally its task waits at once for a line or the end of each of the two pipes (or, after a pipe ended, for the exit of the process) and for the step's signal. However the polls of the two nested select!s, the executor, the process and the setters of the signal interleave: (a) whenever the task is asleep no signal is set and no line, end of a pipe or exit that it is waiting for is there; (b) an awake task that is not over always has a move, whatever order its select!s choose, and makes only a bounded number of them unless somebody else acts; (c) left to itself it comes to rest, and at rest it is over or sleeps with nothing to do; at rest with the process over the step has its result; at rest with the signal set the task is over, all plugins called, whatever the process does; (d) everything the polls do is allowed by the coarser model in which the other properties of the local runner (C63-C65, C67, C71) are proved, with the same behaviour of the process and the engine, so they hold of it.", "quantifier": "all orders in which the two select!s poll, all interleavings with the process (writing, closing pipes, exiting), failing reads and waits, spurious wake-ups and signal setters, all plans and numbers of plugins", "why_tests_cant": "a lost wake-up needs one particular interleaving of a poll with a line, exit or signal arriving between polls of different branches", "anchors": ["crates/runner/src/command.rs: Command::run (59-133)", "crates/runner/src/executors/docker.rs: DockerExecutor::execute (50-69)", "crates/runner/src/executors/host.rs: HostExecutor::execute (42-55)", "crates/runner/src/astro_runner.rs: AstroRunner::run (57-69)", "crates/astro-run/src/signals/signal.rs: Receiver::poll"]}
{"id": "C122", "title": "From a configuration to a returned result", "statement": "Take any configuration whose jobs do not wait for each other in a cycle and that the engine accepts, and start the workflow made of it at any time in an engine on the local or the remote runner, next to any other runs with other ids. If everybody who works for the run does so from time to time and what the runner started ends (processes; runners on the servers, broken connections being noticed), the run returns. What it returns is Skipped, with one notification and no jobs, and only if the workflow has a condition; or else exactly one result per configured job, each the result of a complete run of the steps configured for it (actions replaced by what they expand to, numbered in order), begun only after complete runs of the jobs it waits for, each executed step having been executed by the runner as observers were shown; Succeeded means no job failed or was cancelled, any other outcome is that of some job. A configuration with a cycle, though accepted, is never carried out, so for workflows without condition: the run returns if and only if there is no cycle. For every accepted configuration and every history of an engine there is such a fair continuation.", "quantifier": "all configurations, registered actions and plugins, all histories and endless fair executions of an engine on either runner, with any other runs, cancellations and failures", "why_tests_cant": "a test runs one configuration in one schedule; this is about all configurations and all fair schedules", "anchors": ["crates/astro-run/src/workflow/parser.rs: WorkflowParser::parse", "crates/astro-run/src/user_config.rs: validate", "crates/astro-run/src/workflow/mod.rs: Workflow::run", "crates/astro-run/src/workflow/job.rs: Job::run", "crates/runner/src/astro_runner.rs: AstroRunner::run", "crates/remote-runner/src/client.rs: run"]}
{"id": "C123", "title": "Silent processes do not hold a run up", "statement": "On the local runner, a workflow run returns even if the processes of its steps never end, provided each of them writes only finitely many lines: when a step's process has fallen silent the step's timer expires, the signal reaches the runner, the runner ends the step and the run goes on. This needs only that time passes, that tasks are not starved and that the select! of a step ignores neither its stream nor its timer forever. After every history such executions exist, and all started (acyclic) workflows can return together although no process does anything any more.", "quantifier": "every endless execution of an engine on the local runner (any number of workflows, users and processes, any interleaving) under the stated fairness; every history for the existence part", "why_tests_cant": "A liveness property over infinite schedules with processes that never end; a test can wait for one time-out of one process only.", "anchors": ["crates/astro-run/src/execution_context/mod.rs:ExecutionContext::run", "crates/runner/src/executors/docker.rs", "crates/runner/src/executors/host.rs", "crates/runner/src/command.rs:Command::run", "crates/astro-run/src/signals/signal.rs:AstroRunSignal"]}
{"id": "C124", "title": "A cancelled step ends, whatever its process does", "statement": "On the local runner, if a job is executing a step when cancel_job is first called for it, the step gets a result, even if its process never ends, never closes its output and writes forever (in which case it would never time out, since every line restarts the timer of the step). This needs only that the tasks concerned are not starved and that the select!s that could notice the cancellation, and the end of the stream after it, do not ignore them forever. After every history there are such executions in which no process ever ends and all of them write again and again.", "quantifier": "every endless execution of an engine on the local runner (any other workflows, users, processes and interleavings) under the stated fairness, every job and every step it can be cancelled in; every history for the existence part", "why_tests_cant": "A liveness property over infinite schedules with processes that never stop; a test can cancel one process in one interleaving only.", "anchors": ["crates/astro-run/src/signals/signal_manager.rs:SignalManager::cancel_job", "crates/astro-run/src/execution_context/mod.rs:ExecutionContext::run", "crates/runner/src/command.rs:Command::run", "crates/runner/src/executors/docker.rs", "crates/runner/src/executors/host.rs"]}
{"id": "C125", "title": "Work is spread evenly over the servers", "statement": "In every history of overlapping calls of the default scheduler for docker steps of different jobs, with the same servers offered each time and no completion reported (the remote client never reports any): if there are never more than k calls at a time, no server has been given more than k steps more than any docker-capable one; without overlap the numbers differ by at most one. The bound is sharp for every k: k calls at a time can send k steps to one of two servers and none to the other.", "quantifier": "all lists of servers, all histories of such calls in all interleavings at the places where the scheduler takes its lock, all k", "why_tests_cant": "The imbalance depends on the interleaving of calls between decision and booking and on unboundedly long histories.", "anchors": ["crates/scheduler/src/default.rs:DefaultScheduler::schedule", "crates/scheduler/src/default.rs:pick_docker_runner"]}
{"id": "C126", "title": "A cancelled remote step ends, or its server is told", "statement": "On the remote runner, if a job is executing a step (whose id no earlier step of the job had) when cancel_job is first called for it, then the step gets a result, or, while it is still being executed, the signal reaches the runner on the server that executes it; whatever the network, the servers, other workflows and users do, even if the server writes forever. This needs only that the job's task, the client's task for the call and the branches of the select! concerned are not starved forever. After every history there are such executions in which nothing fails, no server ends its stream and all of them write again and again.", "quantifier": "every endless execution of an engine on the remote runner (any other workflows, users, failures and interleavings) under the stated fairness, every job and every step it can be cancelled in; every history for the existence part", "why_tests_cant": "A liveness property over infinite schedules of engine, client, transport and server tasks; a test can cancel one step in one interleaving only.", "anchors": ["crates/astro-run/src/signals/signal_manager.rs:SignalManager::cancel_job", "crates/astro-run/src/execution_context/mod.rs:ExecutionContext::run", "crates/remote-runner/src/client.rs:237-301", "crates/remote-runner/src/runner_server.rs:81-134, 169-185"]}
{"id": "C127", "title": "Runs return even if the servers hang, thanks to the timeouts", "statement": "On the remote runner, every run of a workflow with distinct step ids in which no job is started twice (which the shape of many workflows excludes, and the order of events in others) returns its result even if the runners on the servers never end of their own: it is enough that each of them writes finitely many lines and ends at some time after a signal reaches it. The step's timeout fires, the signal gets from the engine through the client to the very server that executes the step, and the run ends. This needs only that time passes, that broken connections are noticed, and that the engine's tasks, the step's timer, the client's tasks and the calls are not starved forever. After every history (whose hooks keep ids) there are such executions, in which the runners on the servers write nothing more and end only if told to; in finitely many of their moves every run has returned.", "quantifier": "every endless execution of an engine on the remote runner (any other workflows, users, failures and interleavings) under the stated fairness, and every run in it; every history for the existence parts", "why_tests_cant": "A liveness property over infinite schedules of engine, timers, client, transport and server tasks; a test can let one server hang in one interleaving only, and never observes that a run returns under all fair schedules.", "anchors": ["crates/astro-run/src/execution_context/mod.rs:ExecutionContext::run", "crates/astro-run/src/signals/mod.rs", "crates/remote-runner/src/client.rs:237-301", "crates/remote-runner/src/runner_server.rs:81-134, 169-185"]}
{"id": "C128", "title": "From a configuration to a returned result, though processes and servers hang", "statement": "Let an accepted configuration without dependency cycle be started in an engine on the local runner. If everybody who works for the run does so from time to time, time passes, and each process writes finitely much, but need not end, the run returns: Skipped if the workflow has a condition that does not hold, or else having carried out the configuration (one result per configured job, of a complete run of what was configured, in dependency order, reported and announced as such). The same holds on the remote runner if each runner on a server writes finitely much and ends after a signal reached it, for configurations whose jobs with dependencies are in line with all other jobs, and for any other configuration if the run starts no job twice. Every accepted configuration can be started at any time such that all this holds although no process ever does anything again (no server writes, or ends without having been told).", "quantifier": "every accepted configuration, every set of actions and hooks, every endless fair execution of a whole engine on either runner with any other runs, users, failures and interleavings", "why_tests_cant": "Spans parser, engine, runner, timers and network over infinite schedules and all configurations; a test can only run one configuration against one hanging process.", "anchors": ["crates/astro-run/src/workflow/parser.rs", "crates/astro-run/src/workflow/builder.rs", "crates/astro-run/src/workflow/mod.rs:Workflow::run", "crates/astro-run/src/execution_context/mod.rs:ExecutionContext::run", "crates/runner/src/lib.rs", "crates/remote-runner/src/client.rs"]}
{"id": "C129", "title": "GitHub is asked only what the event calls for, with the right credentials", "statement": "When the tasks of a run check conditions, however the checks interleave and whatever GitHub answers or fails to answer: without authorization or event, and for events other than push and pull_request, nothing is asked. With a personal access token a check asks at most once, for the files of the event's commit or pull request, with that token. With a GitHub App it asks as the app for the installation at the event's repository, then as the app for a token of the installation GitHub named, then with the token GitHub issued to this check for the files; it stops at the first failure, and before the last request if a pull request has no number. The app's private key accompanies only the first two requests; no request concerns another repository. A check that cannot find out the files passes; one that can is evaluated on exactly the files named to it; once files are stored, checks that begin later ask nothing. No check is stuck except waiting for an answer to its last request.", "quantifier": "every event, authorization, set of conditions, interleaving of checks and every behaviour of GitHub, request by request", "why_tests_cant": "Tests can replay a few recorded dialogues with GitHub; that a secret is never sent along with the wrong request, and that no interleaving of concurrent lookups mixes up tokens, quantifies over all answers and schedules.", "anchors": ["crates/astro-run/src/execution_context/condition_matcher.rs:22-202", "crates/astro-run/src/types/mod.rs:23-33"]}
