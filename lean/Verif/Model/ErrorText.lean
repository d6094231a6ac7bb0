import Verif.Model.Types

/-!
# Errors, log types and signals as text

crates/astro-run/src/types/error.rs, types/mod.rs:35-57 and signals/signal.rs:101-118.  An I/O error has a kind and a
text; both come from the operating system or the code that made it, so they are arbitrary.
-/

namespace AstroRun.ErrorText

/-- `std::io::Error`: its kind and its text. -/
structure IoError where
  kind : Nat
  text : String
  deriving DecidableEq, Repr

/-- crates/astro-run/src/types/error.rs:1-23 -/
inductive Err
  | workflowConfig (m : String)
  | internalRuntime (m : String)
  | failed (code : Nat)
  | error (m : String)
  | io (e : IoError)
  | init (m : String)
  | unsupported (m : String)
  deriving DecidableEq, Repr

/-- crates/astro-run/src/types/error.rs:3-22: the `Display` text that `thiserror` derives.  The debug form of a number
is its decimal form. -/
def Err.text : Err → String
  | .workflowConfig m => "Failed to parse user config: " ++ m
  | .internalRuntime m => "Error while running workflow: " ++ m
  | .failed n => "Failed with exit code: " ++ n.repr
  | .error m => "Error: " ++ m
  | .io e => "IO error: " ++ e.text
  | .init m => "Failed to initialize workflow: " ++ m
  | .unsupported m => "Unsupported feature: " ++ m

/-- crates/astro-run/src/types/error.rs:56-69: `==` -/
def Err.same : Err → Err → Bool
  | .workflowConfig a, .workflowConfig b => a == b
  | .internalRuntime a, .internalRuntime b => a == b
  | .failed a, .failed b => a == b
  | .io a, .io b => a.kind == b.kind
  | .error a, .error b => a == b
  | .unsupported a, .unsupported b => a == b
  | .init a, .init b => a == b
  | _, _ => false

/-- crates/astro-run/src/types/mod.rs:42-48 -/
def logText : LogType → String
  | .error => "error"
  | .log => "log"

/-- crates/astro-run/src/types/mod.rs:51-58 -/
def logOfText (s : String) : LogType :=
  if s = "error" then .error else if s = "log" then .log else .log

/-- crates/astro-run/src/signals/signal.rs:101-107 -/
def signalText : Signal → String
  | .cancel => "cancel"
  | .timeout => "timeout"

/-- crates/astro-run/src/signals/signal.rs:110-117; `none`: it panics. -/
def signalOfText (s : String) : Option Signal :=
  if s = "cancel" then some .cancel else if s = "timeout" then some .timeout else none

end AstroRun.ErrorText
