import Verif.Model.Entry

/-! # Specification vocabulary: the entrypoint file -/

namespace AstroRun.Spec
open AstroRun

/-- What the entrypoint file of a script should contain. -/
def entrypointText (script : String) : String :=
  match script.toList with
  | '#' :: '!' :: _ => script
  | _ => "#!/bin/sh\n" ++ script

/-- A state that a call with this script, on a file with this content before, can get to. -/
def EntryReach (script : String) (before : Option (List UInt8)) (acts : List EntryAct) (m : EntryFile) : Prop :=
  runs EntryFile.step (EntryFile.initial script before) acts = some m

end AstroRun.Spec
