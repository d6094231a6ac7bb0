## Findings: claims that are false of the code
Each is a theorem `Cnn_..._refuted` with a reachable counterexample in the model.

| id | theorem | what happens | where |
|----|---------|--------------|-------|
| C02 | `C02_refuted` | a waiting job whose dependencies are done is started again by every further result | workflow/mod.rs |
| C06, C35 | `C06_refuted`, `C35_refuted` | the validator accepts dependency cycles; such a workflow never returns | user_config.rs:110-114 |
| C19 | `C19_refuted` | every log line restarts the step timeout | execution_context/mod.rs `select!` |
| C22 | `C22_refuted` | cancel is only a request; a step that ends Succeeded lets the rest run | job, signals |
| C29 | `C29_refuted` | two overlapping `end` calls both store a result | stream.rs |
| C44 | `C44_refuted` | `&&`/`||` precedence lets a host step run on a docker-only runner | scheduler |
| C49 | `C49_refuted` | `max_runs` is never consulted | scheduler |
| C52 | `C52_refuted` | the remote client never tells the scheduler about completions | remote-runner client.rs:74-92 |
| C53 | `C53_refuted` | a forwarder that lags 32 events behind stops for good | client.rs:194 |
| C57 | `C57_refuted` | a NaN environment value makes the message undecodable | types/envs.rs, protocol |
| C60 | `C60_refuted` | a double quote in a value changes the docker command line | runner docker executor |
| C61, C62 | `C61_refuted`, `C62_refuted` | job keys and workflow ids are used as path components unchecked | runner metadata/cleanup |
| C63 | `C63_refuted` | a step cancelled before the executor starts ends Failed(1) | runner |
| C64 | `C64_never_cleaned_refuted` | a normally ending step is never cleaned up, `on_after_run` is not called | runner |
| C65 | `C65_refuted` | output left in one pipe is lost when the other closes first | runner command |
| C66 | `C66_unfinished_refuted`, `C66_lost_error_refuted` | the entrypoint file is dropped without flush | runner |
| C71 | `C71_refuted` | cancelling a host step leaves its process running | runner host executor |
| C73 | `C73_refuted` | remembered trigger events are never removed | runner |
| C80 | `C80_refuted` | the engine's signal table is keyed by job id only: of two concurrent runs of one workflow the first's completion removes the second's signal, the second panics inside its job and never returns | signals/mod.rs:19-25, execution_context/mod.rs:50-54 |
| C81 | `C81_dependents_refuted` | a job started twice (C02) overwrites the result its dependents waited for: the final result shows a dependent starting before its dependency completed | workflow/mod.rs:89-119 |
| C82 | `C82_refuted` | an accepted `cancel_job` reaches only the last registered signal of a job that was started twice | signals/mod.rs:19-39, workflow/mod.rs:104-119 |
| C85 | `C85_refuted` | a lookup of changed files that was in flight when another succeeded replaces the stored files: later checks of one run are decided on different files | condition_matcher.rs:34-43 |
| C57 | `C57_deep_refuted` | a payload nested deeper than serde_json's limit is written but not read | protocol/common/json_codec.rs |
| C92 | `C92_refuted` | a payload that does not survive JSON (for example one with a NaN) panics the run when it is copied for the first hook | execution_context/context_payload.rs:35-44 |
| C99 | `C99_refuted` | a host step does not bind its job to a server, so the docker step after it goes to another, less loaded one, without the files | scheduler/default.rs:79-94 |
| C102 | `C102_refuted` | a job started twice (C02): the workflow returns while the container of the second start is running and nobody stops it | workflow/mod.rs:89-119 |
| C107 | `C107_refuted` | a signal has room for one waker and is delivered once: of several tasks that await it only the last to poll is woken, and if that one was dropped nobody is; the others sleep forever | signals/signal.rs:16-21, 95 |
| C109 | `C109_refuted` | a plugin, matcher or runner that panics inside a job: the job's task dies unnoticed, nothing is ever sent for the job, and `Workflow::run` waits forever; the job also stays in the signal table for good | workflow/mod.rs:58, 92, 153-161 |
| C110 | `C110_refuted` | a line of more than 4 MB on the run stream is refused by the client's decoder (the limit is nowhere raised): line and result are lost, the step is reported as failed although it succeeded | proto/remote_runner.RemoteRunner.rs:71, 220; remote-runner/client.rs:276-283 |
| C111 | `C111_refuted` | a client that is started again (for more urls, or a clone) forwards every event once per start to all runners: they hear of it several times and of old events after newer ones | remote-runner/client.rs:21-26, 170-205 |
| C117 | `C117_refuted` | a job started twice (C02), both starts on one server: the servers' signal table is keyed by step id, so the signal for one execution is given to the other, and the runner that should stop hears nothing | remote-runner/runner_server.rs:88-91, 169-185; workflow/mod.rs:89-119 |
| C119 | `C119_undecodable_blocks_refuted`, `C119_closed_early_refuted` | after the first line that is not UTF-8, or the end of one pipe, nobody reads the pipes, but they stay open: a process that goes on writing blocks in `write` for ever, and the step never ends by itself | runner/command.rs:82-117 |
