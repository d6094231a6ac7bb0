import Verif.Model.Runner
import Verif.Model.Stream
import Verif.Model.Signal
import Verif.Model.Run

/-!
# One step executed by the local runner

crates/runner/src/astro_runner.rs:39-70, executors/docker.rs:22-79, executors/host.rs:12-63, command.rs:59-133.
The spawned task, the process it starts, the shared signal and the stream.  Every `await` is a point where other
moves can happen.  `tokio::select!` polls its branches in any order, so any ready branch may be taken; a branch
whose result does not match its pattern (`Err(err) = command.run(..)` when `run` returns `Ok`) is disabled and the
`select!` goes on waiting for the other branch; when a branch is taken the other one is dropped, which does not
kill a process (`kill_on_drop` is not set).  Simplifications: output is a sequence of lines as `next_line` splits
them; the contents of files are left to `Entry`; log output is left out.
-/

namespace AstroRun

/-- The process of a step, seen through its pipes.  Its exit does not close the pipes by itself (its children may
hold them). -/
structure Child where
  /-- lines written to stdout and stderr, not yet read -/
  outQ : List String := []
  errQ : List String := []
  outOpen : Bool := true
  errOpen : Bool := true
  /-- exit status: `some none` if killed by a signal -/
  exit : Option (Option Int) := none
  deriving DecidableEq, Repr

/-- Where `Command::run` (command.rs:59-133), polled by the `select!`, is. -/
inductive CmdPc
  /-- not polled yet -/
  | notStarted
  /-- in the loop (82-113) -/
  | reading
  /-- `child.wait().await` (115) -/
  | waiting
  /-- returned `Ok`: the branch is disabled -/
  | okDone
  deriving DecidableEq, Repr

/-- Where the task spawned at astro_runner.rs:57-69 is. -/
inductive LocalPc
  /-- before `execute` -/
  | start
  /-- `create_dir_all(..).await` (docker.rs:46, host.rs:40) -/
  | mkdir
  /-- `create_executable_file(..).await` (docker.rs:47) -/
  | entry
  /-- in `select!` (docker.rs:50-69, host.rs:42-55) -/
  | select (c : CmdPc)
  /-- `docker kill ..` (docker.rs:57-60) -/
  | kill (v : Signal)
  /-- `remove_dir_all(..).await` (docker.rs:72, host.rs:58) -/
  | remove
  /-- `execute` has returned; before astro_runner.rs:62 -/
  | returned
  /-- `on_after_run` (66): that many plugins were called -/
  | hooks (n : Nat)
  | done
  deriving DecidableEq, Repr

/-- The task, its process, stream and signal.  From `outWritten` on: a record of what happened. -/
structure LocalRun where
  kind : ExecKind
  /-- name of the container -/
  name : String := ""
  /-- number of plugins -/
  plugins : Nat := 0
  pc : LocalPc := .start
  stream : StreamState := {}
  sig : SigState := {}
  child : Option Child := none
  /-- the step's working directory (docker) or the job's data directory (host) is there because of this run -/
  dirThere : Bool := false
  outWritten : List String := []
  errWritten : List String := []
  /-- a directory or file was created, or the attempt made -/
  touched : Bool := false
  exitSeen : Option (Option Int) := none
  sigSeen : Option Signal := none
  ioErr : Option String := none
  kills : List String := []
  afterCalls : Nat := 0
  deriving DecidableEq, Repr

/-- crates/runner/src/astro_runner.rs:39-57: the task for a plan. -/
def LocalRun.initial (p : RunPlan) (plugins : Nat) : LocalRun :=
  { kind := p.kind, name := p.dirs.dockerName, plugins := plugins }

/-- crates/runner/src/command.rs:119-128 -/
def exitResult : Option Int → RunResult
  | some code => if code = 0 then .succeeded else .failed code
  | none => .failed 1

/-- crates/runner/src/executors/docker.rs:64-68, host.rs:50-54 with stream.rs:93-104. -/
def signalResult : Signal → RunResult
  | .cancel => .cancelled
  | .timeout => StreamState.timeoutResult

/-- Moves. -/
inductive LocalAct
  -- the task
  | prepErr
  | begin_
  | mkdirOk | mkdirErr
  | entryOk | entryErr
  | spawnOk | spawnErr
  | readOut | readErr
  | readOutFail (e : String) | readErrFail (e : String)
  | waitOk | waitErr
  | sigReady
  | killDone
  | removeOk | removeErr
  | finish
  | hook
  -- its surroundings: the process and the engine
  | childOut (l : String) | childErr (l : String)
  | closeOut | closeErr
  | exit (code : Option Int)
  | setSignal (v : Signal)
  deriving DecidableEq, Repr

/-- The moves of the task itself. -/
def LocalAct.own : LocalAct → Bool
  | .childOut _ | .childErr _ | .closeOut | .closeErr | .exit _ | .setSignal _ => false
  | _ => true

/-- One move. -/
def LocalRun.step (m : LocalRun) : LocalAct → Option LocalRun
  -- docker.rs:39: a path that is not UTF-8
  | .prepErr => if m.pc = .start ∧ m.kind = .docker then some { m with pc := .returned } else none
  -- docker.rs:41-43, 75-77, 78; host.rs:31-33, 56-58, 62
  | .begin_ =>
    if m.pc = .start then
      if m.sig.isCancelled || m.sig.isTimeout then some { m with pc := .returned }
      else some { m with pc := .mkdir }
    else none
  -- docker.rs:46, host.rs:40
  | .mkdirOk =>
    if m.pc = .mkdir then
      some { m with
        pc := match m.kind with
          | .docker => .entry
          | .host => .select .notStarted
        dirThere := true
        touched := true }
    else none
  | .mkdirErr => if m.pc = .mkdir then some { m with pc := .returned, touched := true } else none
  -- docker.rs:47
  | .entryOk => if m.pc = .entry then some { m with pc := .select .notStarted } else none
  | .entryErr => if m.pc = .entry then some { m with pc := .returned } else none
  -- command.rs:60-80
  | .spawnOk =>
    if m.pc = .select .notStarted then some { m with pc := .select .reading, child := some {} } else none
  -- command.rs:65-67 and docker.rs:51-53, host.rs:44-46
  | .spawnErr => if m.pc = .select .notStarted then some { m with pc := .remove } else none
  -- command.rs:84-96
  | .readOut =>
    if m.pc = .select .reading then
      match m.child with
      | some ch => match ch.outQ with
        | l :: rest => some { m with child := some { ch with outQ := rest }, stream := (m.stream.log l).1 }
        | [] => if ch.outOpen then none else some { m with pc := .select .waiting }
      | none => none
    else none
  -- command.rs:99-111
  | .readErr =>
    if m.pc = .select .reading then
      match m.child with
      | some ch => match ch.errQ with
        | l :: rest => some { m with child := some { ch with errQ := rest }, stream := (m.stream.error l).1 }
        | [] => if ch.errOpen then none else some { m with pc := .select .waiting }
      | none => none
    else none
  -- command.rs:93-96, 108-111
  | .readOutFail e | .readErrFail e =>
    if m.pc = .select .reading then
      some { m with pc := .select .waiting, stream := (m.stream.error e).1, ioErr := some e }
    else none
  -- command.rs:115-132
  | .waitOk =>
    if m.pc = .select .waiting then
      match m.child.bind Child.exit with
      | some code => some { m with
          pc := .select .okDone
          stream := (m.stream.endSeq (exitResult code)).1
          exitSeen := some code }
      | none => none
    else none
  | .waitErr => if m.pc = .select .waiting then some { m with pc := .remove } else none
  -- docker.rs:54-68, host.rs:47-54: the other branch
  | .sigReady =>
    match m.pc with
    | .select _ =>
      match m.sig.poll 0 with
      | (sg, some v) => match m.kind with
        | .docker => some { m with pc := .kill v, sig := sg, sigSeen := some v }
        | .host => some { m with
            pc := .remove, sig := sg, sigSeen := some v
            stream := (m.stream.endSeq (signalResult v)).1 }
      | (_, none) => none
    | _ => none
  -- docker.rs:57-68
  | .killDone =>
    match m.pc with
    | .kill v => some { m with
        pc := .remove
        kills := m.kills ++ ["docker kill " ++ m.name]
        stream := (m.stream.endSeq (signalResult v)).1 }
    | _ => none
  -- docker.rs:72, host.rs:58
  | .removeOk => if m.pc = .remove then some { m with pc := .returned, dirThere := false } else none
  | .removeErr => if m.pc = .remove then some { m with pc := .returned } else none
  -- astro_runner.rs:62-64
  | .finish =>
    if m.pc = .returned then
      some { m with
        pc := .hooks 0
        stream := if m.stream.isEnded then m.stream else (m.stream.endSeq (.failed 1)).1 }
    else none
  -- astro_runner.rs:66, plugin.rs:43-49
  | .hook =>
    match m.pc with
    | .hooks n =>
      if n < m.plugins then some { m with pc := .hooks (n + 1), afterCalls := m.afterCalls + 1 }
      else some { m with pc := .done }
    | _ => none
  | .childOut l =>
    match m.child with
    | some ch => if ch.outOpen then
        some { m with child := some { ch with outQ := ch.outQ ++ [l] }, outWritten := m.outWritten ++ [l] }
      else none
    | none => none
  | .childErr l =>
    match m.child with
    | some ch => if ch.errOpen then
        some { m with child := some { ch with errQ := ch.errQ ++ [l] }, errWritten := m.errWritten ++ [l] }
      else none
    | none => none
  | .closeOut => match m.child with
    | some ch => some { m with child := some { ch with outOpen := false } }
    | none => none
  | .closeErr => match m.child with
    | some ch => some { m with child := some { ch with errOpen := false } }
    | none => none
  | .exit code => match m.child with
    | some ch => if ch.exit.isNone then some { m with child := some { ch with exit := some code } } else none
    | none => none
  | .setSignal v => some { m with sig := (m.sig.set v).state }

end AstroRun
