# Formal model of astro-run in Lean 4 — design

(Assembled by `tools/design.py` from `tools/design_head.md`, `tools/plan.tsv`, `MANIFEST.json`, `tools/design_tail.md`.)

## Trusted base
* Lean 4.33.0's kernel (and the elaborator only insofar as it produces the terms the kernel checks).
* Axioms: each theorem named in MANIFEST.json depends on at most `propext`, `Classical.choice` and `Quot.sound`, Lean core's
  three; `AXIOMS.md` lists them theorem by theorem (output of `#print axioms`). No axiom of our own, no
  `native_decide`, no `bv_decide`, no unsafe or partial definitions.
* The reading of /repo into the model: every definition in `lean/Verif/Model/*.lean` cites file and lines and names its
  simplifications. The code is not executed here; the tie between model and code is this reading.
* The specification vocabulary in `lean/Verif/Spec/*.lean`: what the words of the English claims mean. It is short, it
  mentions types of the model (configuration, events, results) and, where it can, none of its functions.

## Layout
* `Verif/Model/*.lean` – the model: definitions only, each citing the code.
* `Verif/Spec/*.lean` – the specification vocabulary the theorems are stated with.
* `Verif/Lemmas/*.lean` – helper lemmas and invariants.
* `Verif/Props/*.lean` – property theorems (`Cnn_...`) with `example`s beside them showing that concrete, non-trivial cases
  meet their hypotheses.
* Naming: `_partial` = a weaker statement than the English claim (what is missing is below); `_refuted` = a proof that the
  full English claim is false of the modelled code, by a reachable counterexample.
* `seeded/LOG.jsonl` – wrong programs tried against the theorems, what failed and what was tightened.

## How the code is modelled
* **Concurrency.** A tokio program is a transition system whose actions are the stretches between two points where the task can
  yield or another thread can intervene (await points, lock acquisitions). Theorems quantify over every list of actions, so over
  every schedule, every number of worker threads and every crash point (a schedule may stop anywhere). A parking_lot critical
  section is one atomic action. Where two critical sections follow each other the model splits them (stream `end`, signal
  manager `cancel`, scheduler `schedule`, workflow bookkeeping).
* **Time** is a natural number that an action may advance by any amount; a timer firing is an action guarded by the clock.
* **Outside world.** Runner implementations, hooks, plugins, GitHub, gRPC streams, processes, docker and the file system are
  parameters or arbitrary action sequences: the theorems hold for whatever they do. Hooks have memory (a function of the
  history of what they have seen).
* **HashMap** iteration order is an arbitrary list order with unique keys; where the order matters the theorem quantifies
  over it.
* **Panics** are modelled where the code has them (`unwrap`/`expect` on missing jobs and signals): the task stops.
* **Text** is Lean `String`; paths are texts joined as `std::path::Path::join` does (absolute second argument replaces the first).

### Modelled
| crate | parts |
|---|---|
| astro-run | `workflow/{mod,job,step,builder,parser}.rs`, `execution_context/*` (run loop, condition matcher with GitHub as the environment, request by request, builder), `astro_run.rs`, `signals/*`, `stream.rs`, `plugins/*`, `actions.rs`, `user_config.rs` (validation; decoding at the YAML value level), `types/*` (ids, conditions, envs, results, serde mapping) |
| scheduler | `DefaultScheduler` with all its calls interleaved |
| remote-runner | client (run, events, signals, hooks, registration, builder), server (connection, dispatch, runs, signals, builder) |
| protocol | every message, down to the bytes of the JSON text (serde_json's writer and reader; decimal text of floats is a parameter) |
| logger | initialisation and the level filter |
| runner | processes and their environments, their output byte by byte through pipes of limited capacity, executor choice, docker and host command lines, directories, clean-up, entrypoint file, run task, memory, plugins, builder |

### Not modelled
* serde_yaml text syntax, tonic/h2 framing, compression and metadata, TLS; the decimal text of floats, humantime, glob and chrono are parameters.
* The logger crate's output format and colours, the test crate, examples, metrics of tracing.
* The contents of docker images, what `docker kill` does to a container, symbolic links, permissions.
* Memory exhaustion, integer overflow of counters (usize/u64 are natural numbers). Panics of user code that is called by the tasks of the engine (hooks, actions, runners, a scheduler or a local plugin's `on_before_run`, which are called from there) are modelled in Model/Faults (C108, C109), panics of payloads in C92, the death of a server's task for a call as `srvCrash` (Model/Remote). A panic of `on_after_run` or of an observer on a server ends a task nobody waits for: to the models this is a schedule in which that task makes no more moves, and the theorems that do not ask for fairness speak of it as well.
