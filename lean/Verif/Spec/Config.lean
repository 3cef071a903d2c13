import Verif.Spec.Project
import Verif.Spec.World

/-
What a configuration file says.
-/

namespace Brack

/-- A table in which the key has the value. -/
def TVal.Has (v : TVal) (key : Str) (x : TVal) : Prop := ∃ kvs, v = .table kvs ∧ (key, x) ∈ kvs

/-- A table without the key. -/
def TVal.Lacks (v : TVal) (key : Str) : Prop := ∃ kvs, v = .table kvs ∧ ∀ x, (key, x) ∉ kvs

mutual
/-- No table has a key twice, as TOML demands. -/
def TVal.Unique : TVal → Prop
  | .table kvs => (kvs.map (·.1)).Nodup ∧ UniqueValues kvs
  | .array vs => UniqueItems vs
  | _ => True
/-- So do the values of a table. -/
def TVal.UniqueValues : List (Str × TVal) → Prop
  | [] => True
  | (_, v) :: kvs => v.Unique ∧ UniqueValues kvs
/-- So do the elements of an array. -/
def TVal.UniqueItems : List TVal → Prop
  | [] => True
  | v :: vs => v.Unique ∧ UniqueItems vs
end

/-- The value describes the document: a table with its name, version and backend as strings and its authors as
an array of strings, and whatever else; or, less known, an array beginning with these four. -/
def Document.StatedBy (d : Document) (v : TVal) : Prop :=
  (v.Has (chars! "name") (.str d.name) ∧ v.Has (chars! "version") (.str d.version) ∧
    v.Has (chars! "backend") (.str d.backend) ∧ v.Has (chars! "authors") (.array (d.authors.map .str))) ∨
  ∃ more, v = .array (.str d.name :: .str d.version :: .str d.backend :: .array (d.authors.map .str) :: more)

/-- The value describes the plugin: a table with `schema = "github"`, owner, repository and version as strings,
and those of the four hooks that are set as booleans, each once, and nothing else. -/
def PluginSchema.StatedBy (s : PluginSchema) (v : TVal) : Prop :=
  ∃ fields, v = .table fields ∧ (fields.map (·.1)).Nodup ∧
    ∀ k x, (k, x) ∈ fields ↔
      (k = chars! "schema" ∧ x = .str (chars! "github")) ∨ (k = chars! "owner" ∧ x = .str s.owner) ∨
      (k = chars! "repo" ∧ x = .str s.repo) ∨ (k = chars! "version" ∧ x = .str s.version) ∨
      (k = chars! "expr_hook" ∧ ∃ b, s.exprHook = some b ∧ x = .bool b) ∨
      (k = chars! "stmt_hook" ∧ ∃ b, s.stmtHook = some b ∧ x = .bool b) ∨
      (k = chars! "document_hook" ∧ ∃ b, s.documentHook = some b ∧ x = .bool b) ∨
      (k = chars! "text_hook" ∧ ∃ b, s.textHook = some b ∧ x = .bool b)

/-- The value describes the configuration: a table with a document and, if there are plugins, a table of them
under `plugins`, in which each entry describes the plugin of its name; and whatever else. -/
def Config.StatedBy (c : Config) (v : TVal) : Prop :=
  (∃ d, v.Has (chars! "document") d ∧ c.document.StatedBy d) ∧
  match c.plugins with
  | none => v.Lacks (chars! "plugins")
  | some m => ∃ entries, v.Has (chars! "plugins") (.table entries) ∧
      (∀ name x, (name, x) ∈ entries → ∃ s, m.get name = some s ∧ s.StatedBy x) ∧
      ∀ name s, m.get name = some s → ∃ x, (name, x) ∈ entries

/-- The same configuration, up to the order in which the plugins are kept. -/
def Config.Equal (c c' : Config) : Prop :=
  c.document = c'.document ∧ c.plugins.isSome = c'.plugins.isSome ∧
    ∀ (name : Str) (s : PluginSchema), (∃ m, c.plugins = some m ∧ m.get name = some s) ↔
      (∃ m, c'.plugins = some m ∧ m.get name = some s)

end Brack
