/-!
# The logger

crates/logger/src/lib.rs: initialisation by any number of threads, and the lines that are printed.  `std::sync::OnceLock`
lets one thread initialise at a time; if that thread panics the cell stays empty.  The `log` crate has one logger for
the process, which can be set once, and a maximal level, which is "off" at the start.  Colours and the time of a line
are not modelled.
-/

namespace AstroRun.Logging

/-- The levels of the `log` crate that crates/logger/src/lib.rs:31-37 names. -/
inductive Level
  | error | warn | info | debug | trace
  deriving DecidableEq, Repr

/-- crates/logger/src/lib.rs:19: the order of `log::Level`; `Error` is the smallest. -/
def Level.toNat : Level → Nat
  | .error => 1
  | .warn => 2
  | .info => 3
  | .debug => 4
  | .trace => 5

/-- `a <= b` of The levels of the `log` crate that crates/logger/src/lib.rs:31-37 names. -/
def Level.le (a b : Level) : Bool := decide (a.toNat ≤ b.toNat)

/-- An ASCII letter in upper case. -/
def upper (c : Char) : Char := if 'a' ≤ c ∧ c ≤ 'z' then Char.ofNat (c.toNat - 32) else c

/-- `log::Level::from_str`: the name in any case. -/
def Level.ofText (s : String) : Option Level :=
  let u := String.ofList (s.toList.map upper)
  if u = "ERROR" then some .error
  else if u = "WARN" then some .warn
  else if u = "INFO" then some .info
  else if u = "DEBUG" then some .debug
  else if u = "TRACE" then some .trace
  else none

/-- crates/logger/src/lib.rs:59-60: the level from `RUST_LOG`; `none` if it is not set (or not text). -/
def envLevel (var : Option String) : Level := (Level.ofText (var.getD "info")).getD .info

/-- A call: `init_logger()` with the value of `RUST_LOG`, or `init_logger_with_level`. -/
inductive Init
  | fromEnv (var : Option String)
  | withLevel (l : Level)
  deriving DecidableEq, Repr

/-- crates/logger/src/lib.rs:59-60 and 73: the level of the call. -/
def Init.level : Init → Level
  | .fromEnv var => envLevel var
  | .withLevel l => l

/-- Where a call is. -/
inductive Pc
  /-- before line 54 or 69 -/
  | checking
  /-- before line 58 or 73 -/
  | entering
  /-- in the closure, before `set_logger` -/
  | inside
  /-- in the closure, before `set_max_level` -/
  | installed
  /-- at the end of the closure -/
  | leveled
  | returned
  | panicked
  deriving DecidableEq, Repr

/-- `LOGGER` -/
inductive Once
  | empty
  | running (i : Nat)
  | full
  deriving DecidableEq, Repr

/-- The logger of the process. -/
inductive Installed
  | ours (l : Level)
  | foreign
  deriving DecidableEq, Repr

/-- The process. -/
structure Sys where
  once : Once := .empty
  logger : Option Installed := none
  maxLevel : Option Level := none
  calls : List (Init × Pc) := []
  printed : List (Level × String) := []

inductive Act
  /-- a thread calls -/
  | call (c : Init)
  /-- call `i` goes on -/
  | go (i : Nat)
  /-- other code of the process sets a logger -/
  | foreign
  /-- a line is logged -/
  | log (l : Level) (msg : String)
  deriving DecidableEq, Repr

/-- Move call `i`. -/
def Sys.goto (s : Sys) (i : Nat) (c : Init) (pc : Pc) : Sys := { s with calls := s.calls.set i (c, pc) }

/-- crates/logger/src/lib.rs:53-66 and 68-79, one step of call `i`; `none` if it has to wait or is over. -/
def Sys.go (s : Sys) (i : Nat) : Option Sys :=
  match s.calls[i]? with
  | none => none
  | some (c, pc) =>
    match pc with
    | .checking => some (s.goto i c (if s.once = .full then .returned else .entering))
    | .entering =>
      match s.once with
      | .full => some (s.goto i c .returned)
      | .running _ => none
      | .empty => some ({ s with once := .running i }.goto i c .inside)
    | .inside =>
      match s.logger with
      | none => some ({ s with logger := some (.ours c.level) }.goto i c .installed)
      | some _ => some ({ s with once := .empty }.goto i c .panicked)
    | .installed => some ({ s with maxLevel := some c.level }.goto i c .leveled)
    | .leveled => some ({ s with once := .full }.goto i c .returned)
    | .returned | .panicked => none

/-- crates/logger/src/lib.rs:17-46 behind the macros of the `log` crate: whether a line is printed by this logger. -/
def Sys.prints (s : Sys) (l : Level) : Bool :=
  match s.maxLevel, s.logger with
  | some m, some (.ours own) => l.le m && l.le own
  | _, _ => false

/-- One step of the process. -/
def Sys.step (s : Sys) : Act → Option Sys
  | .call c => some { s with calls := s.calls ++ [(c, .checking)] }
  | .go i => s.go i
  | .foreign => some (if s.logger.isNone then { s with logger := some .foreign } else s)
  | .log l msg => some (if s.prints l then { s with printed := s.printed ++ [(l, msg)] } else s)

/-- A run of the process. -/
def Sys.run : Sys → List Act → Option Sys
  | s, [] => some s
  | s, a :: as => (s.step a).bind fun s => s.run as

end AstroRun.Logging
