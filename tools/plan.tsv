C01	`Workflow`: `Workflow::run` as a transition system: main loop, one task per started job, bounded channel; an action is one poll between two await points	invariant over all reachable states: a task exists only when the results of its dependencies are booked
C02	as C01; a run of a job is a spawned task	refuted by a 3-job witness; partial: at-most-once exactly for graphs where no dependent can be started twice (`NoParallelDependents`), both directions
C03	as C01	invariant: results booked = results received; domain equality at return
C04	as C01, result states from `Job`	invariant on the running state of the fold over received results, read off the returned record
C05	as C01	the start condition never inspects a result's state: lemma on the rescan of waiting jobs
C06	as C01	well-founded measure on states (no infinite schedule); progress lemma + acyclicity (pigeonhole on dependency chains); cyclic witness refutes
C07	as C01, with the notification trace	invariant on the trace: shape `start ++ middle ++ end`
C08	as C01	case analysis on the skip branch
C09	as C01	the first scan spawns every job without dependency; invariant
C10	`Job`: `Job::run` as a function over an arbitrary step oracle; `JobMachine`: the same as a small-step machine	induction over the step list; machine refines function (C14)
C11	as C10	induction over the step list with the carried failure flag
C12	as C10	as C11
C13	as C10	induction; fold of the step states
C14	as C10, with the trace; `JobMachine` interleaves the step loop with the signal/log tasks	induction over steps; refinement: every complete schedule of the machine gives the trace and result of the function
C15	as C14	trace projection on runner calls
C16	as C14	trace projection per step
C17	as C14 plus the stream of `Run`	projection of the trace on log notifications = the lines received
C18	`Run`	decision logic
C19	`Run`: the `select!` loop over an arbitrary timed event list	refuted (timer re-armed by every log line); partial for silent steps
C20	as C19	induction over the event list with last-event time
C21	`SignalManager`: the map, with interrupted (non-atomic) cancels	refinement to an abstract job map over histories
C22	`SignalManager` + `JobMachine`	refuted by a runner ignoring the signal; partial: forwarding and aggregation
C23	`Run`, `JobMachine`	invariant: forwarded flag set at most once
C24	`Signal`: poll-level machine of AstroRunSignal	invariant over histories
C25	as C24	invariant over histories
C26	as C24 with wakers	invariant: pending signal implies woken or no registered waiter
C27	`Stream`: poll-level machine of the stream/sender pair	refinement to a FIFO queue
C28	as C27 with wakers	invariant
C29	as C27, `end` split at its two critical sections	refuted by overlapping ends; partial for non-overlapping ends
C30	`Condition`; glob matching a parameter `GlobLang`	induction over pattern and file lists against an independent specification
C31	as C30	as C30 with invalid patterns
C32	`Matcher`	case analysis over available context
C33	`Matcher`: cached lookup, GitHub a parameter (arbitrary answer sequence)	induction over the query history
C34	`Config.validate` over any iteration order	iff with `WellFormed`, permutation invariance
C35	as C34	refuted by witness; partial
C36	`Parser`	induction over the normalised step list
C37	`Parser`: action normalisation loop with pre/run/post	induction; equality with `pre ++ body ++ reverse post`
C38	`Parser`	field-by-field equations against a relational specification `Denotes`
C39	`Parser`	iff characterisation of success, error analysis
C40	`Id`: text on `List Char`/`String`	round trip, exact characterisation of parseable text, injectivity and collision
C41	`Types`	round trip
C42	`Plugin`: drivers over arbitrary hooks with memory	induction over the plugin list
C43	as C42	fold characterisation
C44	`Scheduler`	refuted; partial by invariant over histories
C45	as C44	minimum over the offered list
C46	as C44	history induction
C47	as C44	iff, termination of the retry loop
C48	as C44; interleaved schedule/complete calls	ghost-count invariant over histories
C49	as C44	refuted for every limit and every n
C50	`Remote`: client `run`, the response stream arbitrary	induction over the stream; machine with crash/closed connections
C51	as C50	projection of the trace
C52	as C50 + `Scheduler`	refuted
C53	`Remote`: broadcast channel of capacity 32 with lag	induction over the send/receive history; refuted on lag
C54	`Remote`	routing lemma over the pending map
C55	`Remote`	history induction
C56	`Remote`, `Plugin`	fold characterisation
C57	`Wire`: serde's data model mapping; `JsonText`: serde_json's writer and reader as an automaton over characters, with its depth limit, and the codec	round trip by structural induction on values, then on texts; NaN and nesting beyond 127 refute the unconditional claim; the reader is proved sound and complete for an independent grammar (RFC 8259); every decoder is proved equal to a declarative meaning of messages (Spec/WireMeaning) on all JSON values
C58	`Runner`	decision logic
C59	`Runner`: text of the docker command	word lists; `argv` through a word-splitting specification of sh
C60	as C59	refuted (quotes); injectivity/literalness for plain texts
C61	`Runner`, paths	injectivity of path construction, prefix-freeness; refuted for '/'
C62	`Runner`: file system as a set of paths	confinement of removal; refuted for ids such as '..'
C63	`LocalRun`: the runner's task, process and signal as a machine	invariants, bounded own steps
C64	as C63	refuted for normal exit; partial otherwise
C65	as C63 with two pipes	invariant (prefix order); refuted completeness
C66	`Entry`: tokio `File` with background writes	invariant over schedules
C67	`LocalRun`, `Entry`	case analysis
C68	`Server`: connection task with dispatch of every event	invariant over schedules
C69	`Server`, `Builders`	fold over builder calls
C70	`Builders` (runner plugins)	induction over the plugin list
C71	`LocalRun`	invariant on issued kills; refuted for host processes
C72–C77	`Builders`	induction over the sequence of builder calls, last call wins
C78	`Server`	refinement of the shared map to the history of operations
C79	`UserDecode`: serde data model of the configuration over YAML values	round trip, exact characterisation of untagged variants, lookup congruence; the reader is proved equal to a declarative meaning of documents (Spec/UserDecode), by structural induction
C80	`System`: one engine, any number of runs, step-level job tasks, shared signal table and clock	refinement: every run of the engine simulates the workflow machine of C01–C09, with a prophecy of the rest of each job run; refuted for runs sharing a workflow id
C83	`System`	well-founded induction on the measure of the workflow machine, with what is left to do in each job task; stuck states by C06 through the refinement
C81	`System`: the clock and the stamps of tasks and runs	invariant over all schedules (intervals), plus persistence of each stamp from the move that took it; refuted for dependency stamps in the final result when a job runs twice
C82	`System`: shared signal table, `cancel_job`	invariant with a ghost list of who registered each signal; refuted for a job announced twice
C84	`System`: notifications	invariant over all schedules: every notification is allowed after those before it
C85	`MatcherConc`: the shared matcher, any number of checks, split critical sections	invariant giving each answer its cause; refuted for "the first success fixes the files"
C86	`Remote`: runner, server task, channel, client task, engine	invariant over fault-free schedules; potential function for the bound
C87	the job machine composed with the tasks of the local runner: shared signal and stream, any number of tasks	invariant linking both views, projections to both machines, decreasing measure
C88	same composition	invariant over all schedules after the cancel: pending, struck, ended
C89	same composition	invariant over all schedules after the deadline: expired, struck, ended
C90	the builder, `build_command` (non-Windows), the inherited environment as `std` passes it (list of NAME=value), `getenv`, UTF-8 decoding and `trim`, `exec` against an arbitrary operating system	induction on the call history; environment lookup shown independent of order because names are distinct; trimming characterised and shown unique
C91	`ErrorText`: `Error` with its text and `==`, `WorkflowLogType` and `Signal` texts	case analysis; the texts before the message form a prefix code
C92	`Payload`: typetag payloads, their clone by JSON, and what hooks and jobs get	round trip of the JSON text (C57) carried through the copies
C93	`Logger`: any number of racing initialisations, other loggers and log lines	invariant over all schedules
C94	`Remote`: server task, queue of capacity 30, disappearing receiver	invariants over all schedules; potential function for the number of moves
C95	the job machine composed with client task, transport and server task of every call, the servers' signal maps and the notifications that clear them (`RemoteStack`)	invariants linking the two views of stream and signal; projections to `JobReach` and `RemoteReach`; counting of moves
C96	job machine, client, network and server of every call (`RemoteStack`) composed with the task of the local runner on the server (`RemoteHost`)	projections to `RemoteStackReach` and `LocalReach`; link between the two copies of stream and signal; invariant for a step to which a signal was sent; potential function for the number of moves
C97	`RemoteHost`	invariant of an expired wait in which nothing is in flight, carried over to the one for a step that got a timeout signal
C98	client table of servers, scheduler with the calls of all jobs, and `RemoteStack` composed (`RemoteFleet`)	projections to `RemoteStackReach` and `SchedReach`; invariant linking the table to the history of connections, offers to the table, placements to finished calls
C99	`RemoteFleet`	invariant: the entry of the job in the table of bound jobs is the server of its docker steps; counterexample
C100	the whole engine (`Sys`: any number of runs) composed with the runner and the task and process of every step (`LocalEngine`)	invariant per job task: ended steps, their runner tasks and their results agree; link between the two copies of stream and signal; projections to `SysReach` and `LocalReach`
C101	`LocalEngine`	a run in which nothing moves and whose processes are over executes no step; then C83
C102	`LocalEngine`	every task of an ended step wrote its result, which it does only after the exit of the process, a kill or a failed wait; counterexample
C103	`LocalEngine`	invariant: a cancel signal in a runner task implies the answered call, by C82 for the step being executed
C104	Model/System against Model/JobMachine	stepwise simulation: every move of the engine is nothing, or the same move, or (registering and removing the signal, which the engine does while announcing) a delayed move of the job alone; the job-level theorems C17 and C23 are then carried over
C105	`LocalEngine` against `LocalStack`	stepwise simulation (as C104) of the engine by the job alone on a runner that other jobs may use too; C87, C88 and C89 are carried over; the announcements, which the job alone does not make separately, are bounded by what is owed
C106	Model/SelectLoop: the loop of ExecutionContext::run with its three futures, wakers, the timer driver and the executor, one move per poll of a branch; JobM	invariant: every branch already polled in the current pass has left a waker and is pending, or the task was woken since; simulation in both directions with the job machine by induction over schedules
C107	Model/SignalMany: one signal, any number of waiting tasks, one waker slot	invariant over schedules: the slot holds the last poller; delivered is set at most once; counterexamples
C108	Model/Faults on top of the whole engine (Model/System): a run can be dropped at any time, a job task can panic while it calls user code, a task whose run is gone gives up	frozen-state invariants over schedules; every schedule with faults is, without them, a schedule of the engine; termination measure of the job (as in C83) for jobs_go_on; C104 for cancellation
C109	Model/Faults	messages come from tasks that answered, a panicked task never does; C02, C80, C83, C104 carried over; counterexample by invariant over all continuations
C110	Model/Grpc: paths, routing, message limit, codec, unary and streaming answers, the client's reading of a run	cases over the four methods on top of the C57 byte round trips; induction over the stream; size lower bound of the text of a line for the counterexample
C111	Model/RemoteStarts: the client and its clones, the broadcast channel, every call of start with its receiver position and its walk over the table	invariant over all runs (positions, what is delivered, what is still to be sent); counting the copies; a concrete schedule with two starts refutes the full claim
C112	endless executions of the engine of C80 (`Sys`), weak and strong fairness of its tasks	the distance to the return (`far`) never grows and only finitely often shrinks, so from some point on it is constant; a fair main task then waits in its loop, some job task is not done (C83), and either it can move for good (contradiction to weak fairness) or it waits for a runner that ends its stream (contradiction to strong fairness of `recv`)
C113	endless executions of the engine with local runner of C100 (`LocalEngine`), processes that end	every move is seen by the engine alone as one of its moves (or no move); the fairness hypotheses carry over; a step that is never left has a runner task whose remaining work shrinks with each of its moves once its process is over, so its task comes to a stop, has ended the stream (C63), and C112 applies; existence: a scheduler for countably many kinds of moves that takes, of those possible, one of the kind taken least often (plus its number) is strongly fair to all of them (`FairSched.fair_future`)
C114	Model/RemoteEngine: the engine of C80 with the client, all its calls, the network, the servers and their signal maps	each move of the whole is a sequence of moves of the engine alone and, per call, of the remote execution alone; an invariant links every job task with its calls (stream contents, indices, signals), so the theorems of C80 and C86 apply to both sides
C115	as C114	a stuck call whose server is over has ended its stream (invariants of C86), so the engine alone is stuck, and C83 applies
C116	as C114, with the answers of cancel_job	invariant over the servers' maps: every signal on a server has a source call with the same step id and server; C82 for the source
C117	as C114, the moves that carry a signal on	invariant: a signal the client sent for the only call of a step is held on its server; case analysis over where the client is; counting; a concrete schedule with a job started twice refutes the full claim
C118	endless executions of the engine with remote runner of C114 (`RemoteEngine`), servers whose runners end	every move is seen by the engine alone as up to three of its moves (writes to the stream, the answer to `run`); the fairness hypotheses carry over to this finer execution; a step that is never left has a call whose remaining work (unread, queued and travelling messages, phases of the tasks) shrinks with each move once its runner writes no more, so the call comes to a stop, has ended the stream (lemma of C115), and C112 applies; existence of fair executions: the scheduler of C113 (`FairSched.fair_future_en`), for which noticing a broken connection is due only when the connection is broken
C119	Model/CmdBytes: pipes of limited capacity, BufReader and Lines, the process a byte at a time, the select loop and child.wait of Command::run	Invariants over all schedules against the relation Shows (lines of a byte sequence, UTF-8 by Lean core); a decreasing measure; deadlock freedom for proper text processes; two processes that hang refute the rest; simulation into LocalRun
C120	`CliLoop` (Model/ClientLoop): the `select!` of the remote client poll by poll (order, wakers of the response stream and of the signal, executor, connection failure) around `RemoteRun`; tonic's stream by its `Stream` contract (ready / uses the waker of a pending poll)	Invariant on which waker is held by which branch; a decreasing work measure for client moves; simulation with `RemoteRun` in both directions
C121	`RunLoop` (Model/RunnerLoop): the task of the local runner poll by poll: the executor's `select!`, the `select!` on the pipes inside `Command::run`, orders, wakers held by pipes, child handle and signal, executor, failing reads, around `LocalRun`; tokio's pipes and child by their contract	Invariant on which waker is held by which branch and that nobody who holds one is ready; a decreasing work measure for moves of the task; simulation by `LocalRun`
C122	`buildWorkflow` (Model/Config, Model/Parser) composed with `LocalEngine` and `RemoteEngine`	The parser discharges the conditions of C113/C118 (C06, C34, C36, C38); the outcome by composing C80, C04, C07, C08, C37, C100, C114; a cycle never starts (C06); fair continuations from C113/C118 after one more start
C123	endless executions of `LocalEngine` (engine, runner tasks, processes, clock); `ProcessesFallSilent`, `TimePasses` in `Spec/FairLocal`	C112 reduces it to the runner ending the step; the runner task’s work only grows by lines written, so it stops; if the stream had not ended, the job task would come to rest in its `select!` (`toGo` decreases), its timer would expire and the signal would make the runner task move: contradiction. Futures by the fair scheduler of `Lemmas/FairSched`
C124	endless executions of `LocalEngine`; `engineSignalOf`, `runnerSignalOf`, `neverEnding` in `Spec/FairLocal`	The only run of the job (C104_only_run) holds the registered signal, so the call is answered true and the cancellation waits for the `select!` of the step (strong fairness: each line leads back to it); signalled, the runner ignores output and kills (`stage` decreases), closes the stream, and the end of the stream is noticed. Futures by the fair scheduler of `Lemmas/FairSched`
C125	`SchedM` (interleaved `schedule` calls); `given`, `AtMostAtOnce`, `OneShot` in `Spec/Scheduler`	Invariant: steps given to a server plus calls that have decided for it exceed the steps given to any docker-capable server by at most k; sharpness by an explicit family of histories
C126	endless executions of `RemoteEngine`; `remoteSignalOf`, `clientOf`, `serversNeverEnd` in `Spec/FairRemote`	The shadow of the execution in the engine alone (three moves for one) passes the cancellation to the step as in C124; a step id used once in its job has one call only (`Lemmas/OnlyCall`), so the signal can always be carried on (C117) and only boundedly often; a stream that ended at the client is noticed. Futures by the fair scheduler
C127	endless executions of `RemoteEngine`; `remoteTimerOf`, `RemoteTimePasses`, `ServersFallSilent`, `ServersObey`, `ServersOnlyObey` in `Spec/FairRemote`	A step that waits forever times out (the engine alone, as in C123, through the shadow of the execution); its signal is then carried to the server as in C126, which obeys; so every call ends and C118 applies. That step ids are used once follows from `DistinctSteps` along the execution. Futures by the fair scheduler
C128	`FairSilentLocalRun`, `FairSilentRemoteRun`, `InOneLine` in `Spec/EndToEnd`; parser, engine and both runners as in C122	C122 with C123 and C127 in place of C113 and C118; that step ids are distinct and job ids own ones is what the parser guarantees (C36), dependencies of the workflow are those of the configuration
C129	the dialogue of `ConditionMatcher` with GitHub, request by request, with any number of concurrent checks (`Model/MatcherDialog`); `questions`, `filesNamed`, `Hopeless`, `MayAsk` in `Spec/MatcherDialog`	Invariant over all schedules: where a check is, what it has asked and what it was answered determine each other; refinement to the matcher of C85, in which a lookup is one move
