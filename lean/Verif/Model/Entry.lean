import Verif.Model.Run

/-!
# Writing the entrypoint file

crates/runner/src/utils.rs:5-33.  `tokio::fs::File` hands each buffer to a blocking thread: `poll_write` copies at
most `maxBufSize` bytes, starts the write and returns at once; the next call waits for the previous write and reports
its error; dropping the file waits for nothing.  The blocking thread writes its bytes with `std`'s `write_all`, any
number of them at a time.  Simplifications: bytes are those of the UTF-8 encoding; nobody else writes the file; the
mode of the file is left out.
-/

namespace AstroRun

/-- The bytes of a string (`as_bytes`). -/
def strBytes (s : String) : List UInt8 := s.toUTF8.data.toList

/-- tokio's `DEFAULT_MAX_BUF_SIZE`. -/
def maxBufSize : Nat := 2 * 1024 * 1024

/-- Where `create_executable_file` is. -/
inductive EntryPc
  /-- utils.rs:9-20 -/
  | opening
  /-- utils.rs:22-27: what is left of the `write_all` calls, the current one first -/
  | writing (bufs : List (List UInt8))
  /-- utils.rs:32, or the error of a `?` -/
  | returned (ok : Bool)
  deriving DecidableEq, Repr

/-- The function, the file and the background write. -/
structure EntryFile where
  /-- the argument `content` -/
  script : String
  pc : EntryPc := .opening
  /-- content of the file, if it exists -/
  disk : Option (List UInt8)
  /-- bytes of the background write not written yet -/
  inflight : Option (List UInt8) := none
  /-- the last background write failed and nobody was told yet -/
  failed : Bool := false
  deriving DecidableEq, Repr

/-- crates/runner/src/utils.rs:22-27: the arguments of the `write_all` calls. -/
def entryBuffers (script : String) : List (List UInt8) :=
  if ['#', '!'].isPrefixOf script.toList then [strBytes script]
  else [strBytes "#!/bin/sh\n", strBytes script]

/-- Moves: of the function, and (`bg…`) of the blocking thread. -/
inductive EntryAct
  | openOk | openErr
  | poll
  | bgWrite (n : Nat)
  | bgFail
  deriving DecidableEq, Repr

/-- One move. -/
def EntryFile.step (m : EntryFile) : EntryAct → Option EntryFile
  -- `create(true).truncate(true).write(true)`
  | .openOk => if m.pc = .opening then
      some { m with pc := .writing (entryBuffers m.script), disk := some [] } else none
  | .openErr => if m.pc = .opening then some { m with pc := .returned false } else none
  -- `write_all` and `poll_write`
  | .poll => match m.pc with
    | .writing [] => some { m with pc := .returned true }
    | .writing ([] :: rest) => some { m with pc := .writing rest }
    | .writing (buf :: rest) =>
      if m.inflight.isSome then none
      else if m.failed then some { m with pc := .returned false, failed := false }
      else some { m with
        pc := .writing (buf.drop maxBufSize :: rest)
        inflight := some (buf.take maxBufSize) }
    | _ => none
  | .bgWrite n => match m.inflight with
    | some bs =>
      if 0 < n ∧ n ≤ bs.length then
        some { m with
          disk := m.disk.map (· ++ bs.take n)
          inflight := if bs.drop n = [] then none else some (bs.drop n) }
      else none
    | none => none
  | .bgFail => match m.inflight with
    | some _ => some { m with inflight := none, failed := true }
    | none => none

/-- A call of the function. -/
def EntryFile.initial (script : String) (before : Option (List UInt8)) : EntryFile :=
  { script := script, disk := before }

end AstroRun
