import Verif.Model.Stream
import Verif.Model.LocalRun

/-!
# Reading the output of a process, byte by byte

`Command::run` (crates/runner/src/command.rs:59-133) after the spawn, at the level of bytes, pipes of limited capacity
and system calls: tokio's `BufReader` and `Lines` (`next_line`), the kernel's pipe buffers and the process, which has to
wait while a pipe is full.  (`LocalRun` has whole lines and pipes without limit instead.)

What the processes that hold the pipes do is a list of instructions, a byte at a time; the reader may get any number of
bytes at once, so every way of cutting output into chunks is covered.  The `next_line` future that `select!` drops keeps
nothing to itself: the start of a line is in `Lines`.  Simplifications: signals are left out (see `LocalRun`): the readers
live until `run` returns.  `child.wait()` does not fail.  Writing to a pipe that the process has closed is an error that
changes nothing.
-/

namespace AstroRun

/-- The two pipes (command.rs:62-63, 69-74). -/
inductive Fd
  | out | err
  deriving DecidableEq, Repr

/-- What a process does, as far as it can be seen from outside. -/
inductive Instr
  | put (s : Fd) (b : UInt8)
  /-- the last holder of this end of the pipe closes it (or ends) -/
  | close (s : Fd)
  /-- the process exits: `none` if killed by a signal -/
  | exit (code : Option Int)
  deriving DecidableEq, Repr

/-- One pipe and its reader. -/
structure Duct where
  /-- in the kernel's buffer -/
  data : List UInt8 := []
  isOpen : Bool := true
  /-- the buffer of `BufReader` (command.rs:76-77) -/
  buf : List UInt8 := []
  /-- the start of a line, kept by `Lines` (command.rs:79-80) -/
  line : List UInt8 := []
  deriving DecidableEq, Repr

/-- Where `run` is. -/
inductive CmdLoop
  /-- in the loop (82-113) -/
  | reading
  /-- `child.wait().await` (115) -/
  | waiting
  /-- returned (132) -/
  | over
  deriving DecidableEq, Repr

/-- Why the loop ended. -/
inductive LoopEnd
  /-- end of file (89-91, 104-106) -/
  | eof (s : Fd)
  /-- an error (92-95, 107-110) -/
  | failed (s : Fd)
  deriving DecidableEq, Repr

/-- `run`, the pipes and the process.  `why` records why the loop ended. -/
structure CmdRun where
  /-- capacity of a pipe -/
  cap : Nat
  /-- what the process still has to do -/
  todo : List Instr
  out : Duct := {}
  err : Duct := {}
  exit : Option (Option Int) := none
  pc : CmdLoop := .reading
  stream : StreamState := {}
  why : Option LoopEnd := none
  deriving DecidableEq, Repr

/-- A pipe. -/
def CmdRun.duct (m : CmdRun) : Fd → Duct
  | .out => m.out
  | .err => m.err

/-- Replace a pipe. -/
def CmdRun.setDuct (m : CmdRun) (d : Duct) : Fd → CmdRun
  | .out => { m with out := d }
  | .err => { m with err := d }

/-- Capacity of a `BufReader` (tokio: `DEFAULT_BUF_SIZE`). -/
def bufSize : Nat := 8192

/-- tokio's `Lines::poll_next_line` with what `read_line` got: the bytes must be UTF-8; a newline at the end is cut off,
and a carriage return before it. -/
def lineText (bs : List UInt8) : Option String :=
  (String.fromUTF8? bs.toByteArray).map fun s =>
    if s.toList.getLast? = some '\n' then
      if s.toList.dropLast.getLast? = some '\r' then String.ofList s.toList.dropLast.dropLast
      else String.ofList s.toList.dropLast
    else s

/-- command.rs:86-88, 101-103: log a line of stdout or stderr. -/
def CmdRun.say (m : CmdRun) (t : String) : Fd → CmdRun
  | .out => { m with stream := (m.stream.log t).1 }
  | .err => { m with stream := (m.stream.error t).1 }

/-- command.rs:92-95, 107-110: the reader of `s` failed. -/
def CmdRun.fail (m : CmdRun) (s : Fd) (e : String) : CmdRun :=
  { m with stream := (m.stream.error e).1, pc := .waiting, why := some (.failed s) }

/-- The text of the error of `read_line` for bytes that are not UTF-8 (tokio). -/
def utf8Error : String := "stream did not contain valid UTF-8"

/-- command.rs:84-96, 99-111: `next_line` of `s` returns the line `bs`. -/
def CmdRun.deliver (m : CmdRun) (s : Fd) (bs : List UInt8) : CmdRun :=
  match lineText bs with
  | some t => m.say t s
  | none => m.fail s utf8Error

/-- Moves. -/
inductive CmdAct
  /-- the process goes on -/
  | proc
  /-- the reader of `s` reads `k` bytes from the pipe -/
  | fill (s : Fd) (k : Nat)
  /-- the reader looks for a newline in its buffer -/
  | scan (s : Fd)
  /-- the reader finds that the pipe is closed and empty -/
  | eof (s : Fd)
  /-- reading from the pipe fails -/
  | readFail (s : Fd) (e : String)
  /-- `child.wait()` returns -/
  | wait
  deriving DecidableEq, Repr

/-- One instruction of the process; `none`: it has to wait, the pipe is full. -/
def CmdRun.instr (m : CmdRun) : Instr → Option CmdRun
  | .put s b =>
    if (m.duct s).isOpen then
      if (m.duct s).data.length < m.cap then some (m.setDuct { m.duct s with data := (m.duct s).data ++ [b] } s)
      else none
    else some m
  | .close s => some (m.setDuct { m.duct s with isOpen := false } s)
  | .exit code => some { m with exit := m.exit.or (some code) }

/-- One move; `none` if it is not possible. -/
def CmdRun.step (m : CmdRun) : CmdAct → Option CmdRun
  | .proc =>
    match m.todo with
    | [] => none
    | i :: rest => ({ m with todo := rest } : CmdRun).instr i
  -- `BufReader::poll_fill_buf`, `read(2)`
  | .fill s k =>
    if m.pc = .reading ∧ (m.duct s).buf = [] ∧ 1 ≤ k ∧ k ≤ bufSize ∧ k ≤ (m.duct s).data.length then
      some (m.setDuct { m.duct s with data := (m.duct s).data.drop k, buf := (m.duct s).data.take k } s)
    else none
  -- `read_until`
  | .scan s =>
    if m.pc = .reading ∧ (m.duct s).buf ≠ [] then
      match (m.duct s).buf.dropWhile (· != 10) with
      | [] => some (m.setDuct { m.duct s with buf := [], line := (m.duct s).line ++ (m.duct s).buf } s)
      | nl :: more =>
        some ((m.setDuct { m.duct s with buf := more, line := [] } s).deliver s
          ((m.duct s).line ++ (m.duct s).buf.takeWhile (· != 10) ++ [nl]))
    else none
  -- the same at the end of file: `Ok(None)` (command.rs:89-91, 104-106), or the last line, which has no newline
  | .eof s =>
    if m.pc = .reading ∧ (m.duct s).buf = [] ∧ (m.duct s).data = [] ∧ (m.duct s).isOpen = false then
      if (m.duct s).line = [] then some { m with pc := .waiting, why := some (.eof s) }
      else some ((m.setDuct { m.duct s with line := [] } s).deliver s (m.duct s).line)
    else none
  | .readFail s e => if m.pc = .reading then some (m.fail s e) else none
  -- command.rs:115-132
  | .wait =>
    if m.pc = .waiting then
      match m.exit with
      | some code => some { m with pc := .over, stream := (m.stream.endSeq (exitResult code)).1 }
      | none => none
    else none

end AstroRun
