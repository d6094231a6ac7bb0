{
 "C29": "Full claim is false of the code: end() stores the result and clears has_result in two steps under separate locks, so two concurrent end() calls can both store. Proved: write-once when ends do not overlap; refutation exhibits the overlapping schedule.",
 "C35": "Full claim is false of the code (validator only rejects 'all jobs have dependencies'); accepted cyclic configuration exhibited in C35_refuted. Proved: rejected when every job has a dependency.",
 "C19": "Full claim is false of the code: the timer is created anew in every select! iteration, so each log line restarts it (C19_refuted: a step running arbitrarily long past its timeout, not signalled). Proved: a step that stays silent is signalled after `timeout`.",
 "C22": "Full claim is false of the code: a cancel is only a request to the runner; a runner that ignores it and ends Succeeded lets the remaining steps run (C22_refuted). Proved: a successful cancel reaches (or can reach) the waiting step, and if any step ends Cancelled the job ends Cancelled.",
 "C02": "Full claim is false of the code: a waiting job stays in the waiting list until its own result arrives, so every later result starts it again (C02_refuted: accepted configuration, job c runs twice). Proved: exactly which dependency graphs never start a job twice (C02_exactly_these), and jobs without dependencies never run twice. C02_started_once_partial: the same for the runs of a busy engine.",
 "C06": "Full claim is false of the code: the validator accepts cycles and a workflow with a cycle never returns (C06_refuted). Proved: no infinite schedule for any workflow; workflows without cycles cannot get stuck before returning; a workflow can return exactly when its dependencies form no cycle (C06_returns_exactly_acyclic); every accepted acyclic configuration meets the conditions (C06_parsed_workflows). Assumes before-step hooks keep the job part of a step's id (a hook that rewrites it makes the step's signal lookup panic).",
 "C44": "Full claim is false of the code: for a job bound to a runner by an earlier docker step, '&&'/'||' precedence skips the host-support check when the platform is given as host/os-arch (C44_refuted). Proved: the returned runner was offered; docker steps get docker support (if a runner id never changes its docker support between offers); host steps get the right platform, and host support in all other cases.",
 "C49": "Full claim is false of the code: max_runs is never read. C49_refuted: for every docker runner, whatever its limit, and every n there is a history with n running steps on it; C49_limit_ignored: changing the limits changes nothing.",
 "C52": "False of the code: on_step_completed/on_job_completed of the remote client only broadcast, they never call the scheduler (client.rs:74-92). C52_refuted exhibits a wrong choice of runner; C52_load_never_released gives the general behaviour.",
 "C53": "False in general: the forwarding loop ends for good when it falls more than 32 events behind (client.rs:194 stops on Lagged). Proved: in order, without gaps, complete as long as it does not lag; C53_refuted shows the failure.",
 "C57": "Full claim is false of the code: a non-finite f64 environment number (a user can write .nan in the workflow file) is written as null and does not decode (C57_refuted), and a payload nested deeper than serde_json's limit is written but not read (C57_deep_refuted). Proved, down to the characters of the JSON text: every other event, context, command, response and registration round-trips, under lawful (round-tripping) time text and payload codecs; every proper prefix of a message is refused; the texts read are exactly those of RFC 8259's grammar (stated independently) nested at most 127 deep. The decimal text of a float is a parameter; each float in the message is assumed to be read back from its text (serde_json without float_roundtrip does not promise that for every float).",
 "C60": "False of the code: double quotes in a value are not escaped (C60_refuted: two environments, one command line). Proved: without double quotes the command line determines the environment; for shell-plain names and values docker receives every entry literally, through a word-splitting specification of sh.",
 "C61": "False of the code for job keys with '/' (C61_refuted, an accepted workflow). Proved for job keys and workflow ids that are single path components; container names differ for all job keys. File systems without symbolic links.",
 "C62": "False of the code: the workflow id is not checked (ids 'caches', '..', absolute paths; C62_refuted). Proved for ids that are single path components; other workflows and caches stay when both workflows carry an event or neither does and the id is not 'caches'. File systems without symbolic links.",
 "C63": "Proved: the result is unique, never changes, equals the observed exit status (or signal, or Failed 1), the task takes boundedly many steps of its own and always ends once its process is over. False of the code: a step cancelled before the executor starts ends Failed 1, not Cancelled (C63_refuted).",
 "C64": "False of the code: a step whose process exits normally is never cleaned up and on_after_run is never called, because the select! branch only matches Err and keeps waiting for a signal. Proved for runs ended by a signal or an executor error.",
 "C65": "Proved: per-stream order, no invention, and at least one stream complete. False of the code: the reader stops at the end of either pipe, so lines left in the other one are lost (C65_refuted).",
 "C71": "Docker: exactly one kill of the right container is issued before the end. Host: the process is left running (C71_refuted). That docker kill stops the container is outside the model.",
 "C66": "Proved: content once the background write is over; a prefix of it at any time; errors only on OS failures; no hang (C66_progress, and C66_returns_in_time bounds the number of moves). False of the code: tokio's File is dropped without flush, so the call can return Ok before the script is in the file, and a failing last write is not reported. C66_started_with_entrypoint: a process is started only after the directory was made and the entrypoint file written without an error being returned.",
 "C73": "Proved: which event is remembered. False of the code: it is never removed (C73_refuted).",
 "C78": "ServerState is the shared state of the server; the operations are read off the schedule (Spec.srvOps), independent of the state.",
 "C79": "YAML values as trees with text keys; the text of YAML, anchors, tags and serde_yaml's reading of unquoted scalars as texts are not modelled. The value of `with` is a parameter with a round-trip law; repeated keys inside it are not checked in the model. C79_meaning holds for every value, without any hypothesis.",
 "C80": "Proved for all schedules whose concurrent runs have different workflow ids (job ids carry the workflow id, hooks do not move steps to other workflows). C80_refuted shows the unrestricted claim is false of the code: two runs of one workflow id share signal-table entries and the second never returns.",
 "C83": "Assumes what C80 and C06 need: distinct workflow ids, hooks keep the job part of step ids, unique jobs, defined and acyclic dependencies.",
 "C81": "Nesting, order and origin of all stamps are proved for all schedules. C81_dependents: the delivered result a job waited for completed before the job started. In the returned result this holds only if no job ran twice (C02); C81_dependents_refuted gives an accepted configuration and a schedule in which the result shows a dependent starting before its dependency completed.",
 "C82": "Proved for all schedules in which at most one job run announced the cancelled job. C82_refuted: a job started twice (C02) has two waiting steps of which an accepted cancel_job reaches only one.",
 "C85": "Everything is proved except that the first successful lookup fixes the files, which is false of the code (C85_refuted); C85_fixed_partial proves it once no lookup is in flight.",
 "C90": "Names of variables must not contain '=', as the operating system requires; the Windows branch of build_command is not modelled.",
 "C91": "An I/O error is a kind and a text, both arbitrary.",
 "C92": "Full claim is false of the code: a payload that JSON does not preserve panics the run (C92_refuted). Proved: every payload that survives JSON reaches every hook, every job and the remote message unchanged, and a payload is never replaced by a different one of the same tag.",
 "C93": "The log crate's global logger and level are modelled as two cells that start unset; other code may install a logger at any time but does not call set_max_level. C93_explicit: if all initialisations name the same level, it is the level of the process.",
 "C96": "The local runner's plugins and environment enter as in C63; cancel/timeout claims need the ids of the steps handed out to be distinct (true of a parsed workflow, C01) because the server keeps its signals by step id.",
 "C97": "Needs distinct step ids as C96.",
 "C98": "The scheduler is the default one; what other jobs ask is arbitrary.",
 "C99": "False of the code for host steps before the first docker step (C99_refuted). Proved: all docker steps share a server; steps after a docker step that suit its server go there.",
 "C102": "C102_job_partial and C102_returned_partial: containers of job runs with a result, and of runs that ran no job twice. Missing: false in general (C102_refuted: job started twice), and for host processes (C71_refuted).",
 "C106": "Poll-level model of the select! loop with wakers; refinement with JobM in both directions (C106_refines, C106_exact).",
 "C107": "the full claim (everybody waiting is told) is false of the code, C107_refuted; proved: exactly who is told and that the others sleep forever",
 "C108": "C108_goes_quiet, C108_jobs_go_on, C108_cancel_still_works, C108_result_is_lost: for every schedule with drops and panics.",
 "C109": "The claim that run returns is false (C109_refuted, C109_hangs). Proved: other runs unaffected (C109_others_return_partial), silence of the panicked job, every result of a returned run comes from a job run that did not panic, dependents never start, cancel_job answered into the void.",
 "C110": "Routing (every path), exactly-once delivery of the request, and the answer, for all four methods on top of the byte-level codec of C57. Partial because the code violates the full claim for messages over 4 MB (C110_refuted). tonic's behaviour (limits, status, streams) is an assumption stated in Model/Grpc.",
 "C111": "Full for each start; 'at most once, in order' for the client as a whole holds only for a client started once (C111_once_partial), C111_refuted shows the code breaks it for two starts.",
 "C112": "Proved for all endless fair executions; C112_fair_futures shows that every reachable state has a fair future (so the fairness hypotheses are satisfiable after any history). Assumes as C83: distinct workflow ids, hooks that keep job ids, defined acyclic dependencies, at least one job.",
 "C113": "Full. Fairness is assumed only of the run's own tasks; OS failures may happen at any time; other runs may hang forever. The fairness hypotheses are met after every history (C113_fair_futures, for all runs at once).",
 "C117": "signal_carried and cancellation proved for steps whose id no other call has (and jobs announced once); C117_refuted: with a job started twice on one server the signal goes to the other execution",
 "C118": "Full. Fairness is assumed only of the run's own tasks and calls; failures may happen at any time; other runs may hang forever. That broken connections are noticed is an assumption about the transport (HTTP/2 keepalive or TCP). All hypotheses are met after every history (C118_fair_futures, for all runs at once).",
 "C119": "proved: the log for every chunking and interleaving, completeness at end of pipe, finiteness, no deadlock and the right result for processes that write text and keep their pipes until done, simulation into the line-level model. Refuted by the code: an undecodable line or an early close leaves the process blocked for ever.",
 "C120": "All parts, for the loop of one call. That tonic's response stream wakes the task of a pending poll when it gets ready is part of the model (the contract of Stream), not proved of tonic.",
 "C121": "All parts, for the task of one step. That tokio's pipes and child handle wake the task of a pending poll when they get ready is part of the model (their contract), not proved of tokio. The simulation is one way: LocalRun allows a signal to win over a line that one poll of Command::run would read first.",
 "C122": "End to end. The specification (Spec/EndToEnd: JobMeans, CarriedOut, LeftOut) speaks about the configuration, the notifications and the result only. Runs whose ids clash, and hooks that move steps to other jobs, are excluded (Apart, HooksKeepJobs; see C80).",
 "C123": "C123_silent_processes_runs_return: fairness, passing time and finitely many lines per process suffice; C123_fair_futures and C123_hanging_processes_runs_can_return: such executions exist after every history, with processes that never do anything again.",
 "C124": "C124_cancelled_steps_end: for every endless execution of the engine on the local runner, under weak fairness of the tasks and strong fairness of the select! branches that see the cancellation and the end of the stream. C124_fair_futures: such executions exist after every history, with processes that never end and write for ever. The _once version needs no condition on the shape of the workflow, only that the run starts the job once.",
 "C104": "C104_only_run: a job of a workflow with distinct job keys and ids is run at most once while runs are kept apart, so C104's NoOther is implied by conditions on inputs. C104_only_run_once: or if the run in question has started the job once, whatever its shape.",
 "C125": "C125_spread_evenly for every k and every history; C125_sharp: for every k a history attains the bound.",
 "C126": "C126_servers_told_or_steps_end: for every endless execution of the engine on the remote runner, under weak fairness of the job's and the client's task and strong fairness of the select! branches that see the cancellation and the end of the stream. C126_fair_futures: such executions exist after every history, with servers that never end their streams and write for ever. What the runner on the server makes of the signal is its own business (C124 for the local runner). The _once version needs no condition on the shape of the workflow, only that the run starts the job once.",
 "C127": "Liveness with servers that hang: under weak fairness of the tasks, the timer and the calls, strong fairness of reading, passing time, and servers that obey signals, every run with distinct step ids and no parallel dependents returns. C127_fair_futures and C127_hanging_servers_runs_can_return show that the hypotheses can be met after every history (hooks that keep ids). The _once version needs no condition on the shape of the workflow, only that the run starts no job twice; an example shows such a run of a workflow whose shape does not exclude it.",
 "C128": "C122 for processes and servers that hang. The remote theorem needs InOneLine (jobs that can be started twice may lose signals: C02, C117), stated about the configuration. C128_*_can_be_run: the hypotheses can be met by every accepted configuration in every history. C128_remote_once: configurations of any shape, if the run starts no job twice.",
 "C129": "GitHub and the HTTP client are the environment: any answer of the kind asked for, or failure, at any time. The texts of the errors are not modelled (logged only)."
}