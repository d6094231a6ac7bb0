import Verif.Model.Process

/-! # Specification vocabulary: processes -/

namespace AstroRun.Spec
open AstroRun

/-- A call on a `Command` under construction. -/
inductive BuilderCall
  | env (key value : String)
  | dir (d : String)
  deriving DecidableEq, Repr

/-- One call. -/
def applyCall (c : ShellCommand) : BuilderCall → ShellCommand
  | .env k v => c.env k v
  | .dir d => c.dir d

/-- The command after these calls, in this order. -/
def built (cmd : String) (calls : List BuilderCall) : ShellCommand := calls.foldl applyCall (ShellCommand.new cmd)

/-- The last element of a history for which `f` has a value. -/
def lastOf {α β : Type} (f : α → Option β) : List α → Option β
  | [] => none
  | x :: xs => (lastOf f xs).or (f x)

/-- The value this call gives to variable `k`. -/
def valueFor (k : String) : BuilderCall → Option String
  | .env k' v => if k' = k then some v else none
  | .dir _ => none

/-- The directory this call sets. -/
def dirOf : BuilderCall → Option String
  | .dir d => some d
  | .env _ _ => none

/-- A name an environment variable can have. -/
def NameOk (k : String) : Prop := '=' ∉ k.toList

/-- `envp` lists exactly these variables, in some order. -/
def Lists (envp : List String) (vars : AMap String String) : Prop := envp.Perm (vars.map envEntry)

/-- The child started for `c` by a process whose environment is `parent` sees `k` as `getenv k`. -/
def ChildSees (parent : AMap String String) (c : ShellCommand) (k : String) (v : Option String) : Prop :=
  ∀ envp, Lists envp (c.build.variables parent) → getenv envp k = v

/-- Unicode's white space: the 25 code points with the property `White_Space` (PropList.txt). -/
def whiteSpaces : List Nat :=
  [0x0009, 0x000A, 0x000B, 0x000C, 0x000D, 0x0020, 0x0085, 0x00A0, 0x1680, 0x2000, 0x2001, 0x2002, 0x2003, 0x2004,
    0x2005, 0x2006, 0x2007, 0x2008, 0x2009, 0x200A, 0x2028, 0x2029, 0x202F, 0x205F, 0x3000]
def IsWhiteSpace (c : Char) : Prop := c.toNat ∈ whiteSpaces
instance (c : Char) : Decidable (IsWhiteSpace c) := inferInstanceAs (Decidable (_ ∈ _))

/-- White space only. -/
def Blank (s : String) : Prop := ∀ c ∈ s.toList, IsWhiteSpace c

/-- Neither begins nor ends with white space. -/
def Trimmed (s : String) : Prop :=
  (∀ c, s.toList.head? = some c → ¬ IsWhiteSpace c) ∧ (∀ c, s.toList.getLast? = some c → ¬ IsWhiteSpace c)

end AstroRun.Spec
