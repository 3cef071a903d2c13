import Verif.Model.Cli
import Verif.Spec.Project
import Verif.Proof.PluginCases
import Verif.Proof.Cases
import Verif.Proof.Uax29

/-
A small project for the concrete cases.
-/

namespace Brack

/-- The configuration of the sample project. -/
def sampleConfig : Config :=
  ⟨⟨chars! "doc", chars! "0.1.0", chars! "html", [chars! "me"]⟩,
    some [(chars! "std", ⟨chars! "brack-lang", chars! "brack-std", chars! "v1", none, none, none, some true⟩)]⟩

mutual

/-- TOML values in inline form. -/
def showVal : TVal → Str
  | .str s => chars! "\"" ++ s ++ chars! "\""
  | .bool b => if b then chars! "true" else chars! "false"
  | .array vs => chars! "[" ++ showVals vs ++ chars! "]"
  | .table kvs => chars! "{" ++ showFields kvs ++ chars! "}"
  | .other => chars! "0"

/-- The elements of an array. -/
def showVals : List TVal → Str
  | [] => []
  | [v] => showVal v
  | v :: vs => showVal v ++ chars! ", " ++ showVals vs

/-- The fields of a table. -/
def showFields : List (Str × TVal) → Str
  | [] => []
  | [(k, v)] => k ++ chars! " = " ++ showVal v
  | (k, v) :: kvs => k ++ chars! " = " ++ showVal v ++ chars! ", " ++ showFields kvs

end

/-- A TOML crate that prints in inline form and knows one text. -/
def sampleToml : Toml where
  parse text := if text = chars! "the configuration" then some sampleConfig.toToml else none
  print := showVal

/-- A project directory with the sample configuration; the server answers every request. -/
def sampleWorld (faults : Nat → Fault) : World where
  files := [(chars! "Brack.toml", utf8 (chars! "the configuration")), (chars! "docs/a.[]", utf8 (chars! "é"))]
  dirs := [chars! "docs"]
  faults := faults
  http _ _ := some [1, 2, 3]
  clock := 0
  log := []

/-- Everything the commands take from libraries, for concrete cases. -/
def sampleEnv : Env := ⟨UTable.sampleSeg, fun _ => someIds, true, sampleToml, fun _ => chars! "00"⟩

/-- A project with two documents and another file. -/
def twoDocuments (faults : Nat → Fault) : World :=
  { sampleWorld faults with
    files := [(chars! "docs/a.[]", utf8 (chars! "é [std.f]")), (chars! "docs/b.c.[]", utf8 (chars! "[std.g x]")),
      (chars! "docs/a.md", utf8 (chars! "note")), (chars! "out/old.html", [65]),
      (chars! "plugins/std_00.wasm", [1])]
    dirs := [chars! "docs", chars! "out", chars! "plugins"] }

/-- The plugin of `twoDocuments`. -/
def sampleMetadata : PluginsMetadata := [(chars! "std", (chars! "plugins/std_00.wasm", noHooks))]

end Brack
