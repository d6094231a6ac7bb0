import Verif.Model.Runner
import Verif.Model.Map

/-!
# Starting a process: `Command` of the runner crate

`std::process::Command` on a Unix system: it inherits the environment of the parent, changed by the `env` calls;
the environment reaches the child as a list of texts `NAME=value`; a NUL character anywhere makes the spawn fail.
The Windows branch of `build_command` is not modelled.
-/

namespace AstroRun

/-! ## The builder -/

/-- crates/runner/src/command.rs:21-27 (`Command::new`) -/
def ShellCommand.new (cmd : String) : ShellCommand := { command := cmd, currentDir := none, envs := [] }

/-- crates/runner/src/command.rs:29-33 (`env`) -/
def ShellCommand.env (c : ShellCommand) (key value : String) : ShellCommand := { c with envs := c.envs ++ [(key, value)] }

/-- crates/runner/src/command.rs:35-39 (`dir`) -/
def ShellCommand.dir (c : ShellCommand) (d : String) : ShellCommand := { c with currentDir := some d }

/-- What is asked of the operating system (`std::process::Command`): the program and its arguments, the working
directory if one was set, and the variables that were set, the last value of each. -/
structure Spawn where
  program : String
  args : List String
  dir : Option String := none
  set : AMap String String := []
  deriving DecidableEq, Repr

/-- crates/runner/src/command.rs:135-163 (`build_command`), the branch for systems other than Windows. -/
def ShellCommand.build (c : ShellCommand) : Spawn :=
  let command : Spawn := { program := "sh", args := ["-c", c.command] }
  let command := match c.currentDir with
    | some d => { command with dir := some d }
    | none => command
  c.envs.foldl (fun s e => { s with set := s.set.insert e.1 e.2 }) command

/-! ## The child's environment -/

/-- `std`'s `CommandEnv::capture`: the variables of the parent, overlaid by the ones that were set. -/
def Spawn.variables (s : Spawn) (parent : AMap String String) : AMap String String :=
  s.set.foldl (fun m e => m.insert e.1 e.2) parent

/-- One entry of the child's `envp`. -/
def envEntry (e : String × String) : String := e.1 ++ "=" ++ e.2

/-- `getenv`: what follows `NAME=` in the first entry that begins with it. -/
def getenv : (envp : List String) → (name : String) → Option String
  | [], _ => none
  | x :: xs, name =>
    if (name ++ "=").toList <+: x.toList then some (String.ofList (x.toList.drop (name ++ "=").toList.length))
    else getenv xs name

/-- A NUL character, which no text given to the operating system may contain. -/
def hasNul (s : String) : Bool := s.toList.contains (Char.ofNat 0)

/-- `std`'s `saw_nul`: the spawn is refused. -/
def Spawn.sawNul (s : Spawn) : Bool :=
  s.args.any hasNul || (s.dir.map hasNul).getD false || s.set.any fun e => hasNul e.1 || hasNul e.2

/-! ## `exec` -/

/-- `char::is_whitespace` of Rust: the Unicode property `White_Space`. -/
def isWhite (c : Char) : Bool :=
  decide (0x9 ≤ c.toNat ∧ c.toNat ≤ 0xd) || decide (0x2000 ≤ c.toNat ∧ c.toNat ≤ 0x200a) ||
    c.toNat ∈ [0x20, 0x85, 0xa0, 0x1680, 0x2028, 0x2029, 0x202f, 0x205f, 0x3000]

/-- `str::trim` -/
def trimText (s : String) : String :=
  String.ofList ((s.toList.dropWhile isWhite).reverse.dropWhile isWhite).reverse

/-- `std::process::Output`; no `code` means that a signal killed the process. -/
structure Output where
  code : Option Int
  stdout : ByteArray
  stderr : ByteArray

/-- What the operating system did with a spawn: an error text, or the process ran to its end. -/
abbrev SpawnOutcome := Except String Output

/-- The texts of errors that are not the program's: of `FromUtf8Error`, and of `std` for a NUL character. -/
structure ForeignTexts where
  utf8 : ByteArray → String
  nul : String

/-- crates/runner/src/command.rs:41-57 (`exec`).  `os` is what happens to the spawn that is asked for. -/
def ShellCommand.exec (c : ShellCommand) (t : ForeignTexts) (os : Spawn → SpawnOutcome) : Except Error String :=
  let command := c.build
  match (if command.sawNul then .error t.nul else os command) with
  | .error err => .error (.internalRuntimeError ("Failed to spawn child process: " ++ err))
  | .ok output =>
    if output.code = some 0 then
      match String.fromUTF8? output.stdout with
      | some stdout => .ok (trimText stdout)
      | none => .error (.internalRuntimeError ("Failed to parse stdout: " ++ t.utf8 output.stdout))
    else
      match String.fromUTF8? output.stderr with
      | some stderr => .error (.internalRuntimeError stderr)
      | none => .error (.internalRuntimeError ("Failed to parse stderr: " ++ t.utf8 output.stderr))

/-- crates/runner/src/executors/docker.rs:56-60: the command that kills the container of a step; its answer is
ignored. -/
def killCommand (md : Metadata) : ShellCommand := ShellCommand.new ("docker kill " ++ md.dockerName)

end AstroRun
