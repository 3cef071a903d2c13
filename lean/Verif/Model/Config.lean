import Verif.Model.World

/-
Model of the configuration file: crates/brack-project-manager/src/{config,document,plugin}.rs.
-/

namespace Brack

/-- A value of a TOML document, as far as the configuration uses them; a table is the sequence of its keys
and values. Stands for serde's data model between the `toml` crate and the code. Used by
crates/brack-project-manager/src/plugin.rs L26-171. -/
inductive TVal where
  | str (s : Str)
  | bool (b : Bool)
  | array (vs : List TVal)
  | table (kvs : List (Str × TVal))
  | other
  deriving Repr

/-- The crate `toml`: reading and printing of the text. Nothing is assumed about it. Used in
crates/brack-project-manager/src/plugin.rs L223, L280 and project.rs L32. -/
structure Toml where
  /-- the parser below `toml::from_str` -/
  parse : Str → Option TVal
  /-- the printer below `toml::to_string` -/
  print : TVal → Str

/-- `PluginSchema::GitHub`, crates/brack-project-manager/src/plugin.rs L13-24, the only variant. -/
structure PluginSchema where
  owner : Str
  repo : Str
  version : Str
  exprHook : Option Bool
  stmtHook : Option Bool
  documentHook : Option Bool
  textHook : Option Bool
  deriving Repr, DecidableEq

/-- `if let Some(x) = x { s.serialize_field(key, x)?; }`,
crates/brack-project-manager/src/plugin.rs L46-57. -/
def hookField (key : Str) : Option Bool → List (Str × TVal)
  | some b => [(key, .bool b)]
  | none => []

/-- `impl Serialize for PluginSchema`, crates/brack-project-manager/src/plugin.rs L26-62: the fields
of the table. -/
def PluginSchema.toFields (s : PluginSchema) : List (Str × TVal) :=
  [(chars! "schema", .str (chars! "github")), (chars! "owner", .str s.owner), (chars! "repo", .str s.repo),
    (chars! "version", .str s.version)] ++
  hookField (chars! "expr_hook") s.exprHook ++ hookField (chars! "stmt_hook") s.stmtHook ++
  hookField (chars! "document_hook") s.documentHook ++ hookField (chars! "text_hook") s.textHook

/-- The local variables of `visit_map`, crates/brack-project-manager/src/plugin.rs L82-89. -/
structure SchemaVars where
  schema : Option Str := none
  owner : Option Str := none
  repo : Option Str := none
  version : Option Str := none
  exprHook : Option Bool := none
  stmtHook : Option Bool := none
  documentHook : Option Bool := none
  textHook : Option Bool := none
  deriving Repr, DecidableEq

/-- `if x.is_some() { return Err(duplicate_field(..)) } x = Some(map.next_value()?)` for a string,
crates/brack-project-manager/src/plugin.rs L93-98 (and L99-116). -/
def takeStr (current : Option Str) (v : TVal) : Res (Option Str) :=
  match current with
  | some _ => .err "duplicate field"
  | none =>
    match v with
    | .str s => .ok (some s)
    | _ => .err "invalid type"

/-- The same for a boolean, crates/brack-project-manager/src/plugin.rs L117-140. -/
def takeBool (current : Option Bool) (v : TVal) : Res (Option Bool) :=
  match current with
  | some _ => .err "duplicate field"
  | none =>
    match v with
    | .bool b => .ok (some b)
    | _ => .err "invalid type"

/-- One iteration of the loop of `visit_map`, crates/brack-project-manager/src/plugin.rs L91-143. -/
def schemaStep (x : SchemaVars) (key : Str) (v : TVal) : Res SchemaVars :=
  if key = chars! "schema" then do return { x with schema := ← takeStr x.schema v }
  else if key = chars! "owner" then do return { x with owner := ← takeStr x.owner v }
  else if key = chars! "repo" then do return { x with repo := ← takeStr x.repo v }
  else if key = chars! "version" then do return { x with version := ← takeStr x.version v }
  else if key = chars! "expr_hook" then do return { x with exprHook := ← takeBool x.exprHook v }
  else if key = chars! "stmt_hook" then do return { x with stmtHook := ← takeBool x.stmtHook v }
  else if key = chars! "document_hook" then do return { x with documentHook := ← takeBool x.documentHook v }
  else if key = chars! "text_hook" then do return { x with textHook := ← takeBool x.textHook v }
  else .err "unknown field"

/-- The loop of `visit_map`, crates/brack-project-manager/src/plugin.rs L91-143. -/
def schemaLoop : List (Str × TVal) → SchemaVars → Res SchemaVars
  | [], x => .ok x
  | (key, v) :: rest, x =>
    match schemaStep x key v with
    | .ok x => schemaLoop rest x
    | .err m => .err m
    | .panic => .panic

/-- `ok_or_else(|| missing_field(..))?`, crates/brack-project-manager/src/plugin.rs L145-148. -/
def present : Option Str → Res Str
  | some s => .ok s
  | none => .err "missing field"

/-- `visit_map`, crates/brack-project-manager/src/plugin.rs L78-165. -/
def PluginSchema.ofFields (fields : List (Str × TVal)) : Res PluginSchema := do
  let x ← schemaLoop fields {}
  let schema ← present x.schema
  let owner ← present x.owner
  let repo ← present x.repo
  let version ← present x.version
  if schema = chars! "github" then
    return ⟨owner, repo, version, x.exprHook, x.stmtHook, x.documentHook, x.textHook⟩
  else .err "invalid value"

/-- `impl Deserialize for PluginSchema`, crates/brack-project-manager/src/plugin.rs L64-171. -/
def PluginSchema.ofToml : TVal → Res PluginSchema
  | .table fields => PluginSchema.ofFields fields
  | _ => .err "invalid type"

/-- `Document`, crates/brack-project-manager/src/document.rs L3-9. -/
structure Document where
  name : Str
  version : Str
  backend : Str
  authors : List Str
  deriving Repr, DecidableEq

/-- `Config`, crates/brack-project-manager/src/config.rs L6-10. -/
structure Config where
  document : Document
  plugins : Option (HMap Str PluginSchema)
  deriving Repr, DecidableEq

/-- The value of a key in a table. The `toml` crate rejects tables with a repeated key. Derived code of
crates/brack-project-manager/src/config.rs L6-10 and document.rs L3-9. -/
def fieldOf (key : Str) (kvs : List (Str × TVal)) : Option TVal := HMap.get key kvs

/-- A string field of a derived `Deserialize`, crates/brack-project-manager/src/document.rs L3-9. -/
def strField (key : Str) (kvs : List (Str × TVal)) : Res Str :=
  match fieldOf key kvs with
  | some (.str s) => .ok s
  | some _ => .err "invalid type"
  | none => .err "missing field"

/-- The elements of an array of strings, crates/brack-project-manager/src/document.rs L8. -/
def strItems : List TVal → Res (List Str)
  | [] => .ok []
  | .str s :: vs => do return s :: (← strItems vs)
  | _ :: _ => .err "invalid type"

/-- The field `authors` of the derived `Deserialize` of `Document`,
crates/brack-project-manager/src/document.rs L8. -/
def authorsField (kvs : List (Str × TVal)) : Res (List Str) :=
  match fieldOf (chars! "authors") kvs with
  | some (.array vs) => strItems vs
  | some _ => .err "invalid type"
  | none => .err "missing field"

/-- The derived `Deserialize` of `Document` for an array, crates/brack-project-manager/src/document.rs L3-9: the
fields in their order; the `toml` crate does not look at further elements. -/
def Document.ofItems : List TVal → Res Document
  | .str name :: .str version :: .str backend :: .array vs :: _ => do
    let authors ← strItems vs
    return ⟨name, version, backend, authors⟩
  | _ => .err "invalid type or length"

/-- The derived `Deserialize` of `Document`, crates/brack-project-manager/src/document.rs L3-9: fields
in any order, unknown ones ignored. -/
def Document.ofToml : TVal → Res Document
  | .table kvs => do
    let name ← strField (chars! "name") kvs
    let version ← strField (chars! "version") kvs
    let backend ← strField (chars! "backend") kvs
    let authors ← authorsField kvs
    return ⟨name, version, backend, authors⟩
  | .array vs => Document.ofItems vs
  | _ => .err "invalid type"

/-- The entries of `HashMap<String, PluginSchema>`, crates/brack-project-manager/src/config.rs L9. -/
def pluginEntries : List (Str × TVal) → HMap Str PluginSchema → Res (HMap Str PluginSchema)
  | [], m => .ok m
  | (name, v) :: rest, m => do pluginEntries rest (m.insert name (← PluginSchema.ofToml v))

/-- The field `document` of the derived `Deserialize` of `Config`,
crates/brack-project-manager/src/config.rs L8. -/
def documentField (kvs : List (Str × TVal)) : Res Document :=
  match fieldOf (chars! "document") kvs with
  | some v => Document.ofToml v
  | none => .err "missing field"

/-- The field `plugins` of the derived `Deserialize` of `Config`, crates/brack-project-manager/src/config.rs
L9. -/
def pluginsField (kvs : List (Str × TVal)) : Res (Option (HMap Str PluginSchema)) :=
  match fieldOf (chars! "plugins") kvs with
  | some (.table entries) => do return some (← pluginEntries entries [])
  | some _ => .err "invalid type"
  | none => .ok none

/-- The derived `Deserialize` of `Config`, crates/brack-project-manager/src/config.rs L6-10. -/
def Config.ofToml : TVal → Res Config
  | .table kvs => do
    let document ← documentField kvs
    let plugins ← pluginsField kvs
    return ⟨document, plugins⟩
  | _ => .err "invalid type"

/-- The derived `Serialize` of `Document`, crates/brack-project-manager/src/document.rs L3-9. -/
def Document.toToml (d : Document) : TVal :=
  .table [(chars! "name", .str d.name), (chars! "version", .str d.version), (chars! "backend", .str d.backend),
    (chars! "authors", .array (d.authors.map .str))]

/-- The derived `Serialize` of `Config`, crates/brack-project-manager/src/config.rs L6-10; the `toml`
crate leaves out a field that is `None`. -/
def Config.toToml (c : Config) : TVal :=
  .table ((chars! "document", c.document.toToml) ::
    match c.plugins with
    | some m => [(chars! "plugins", .table (m.map fun (name, s) => (name, .table s.toFields)))]
    | none => [])

/-- `toml::from_str::<Config>`, crates/brack-project-manager/src/project.rs L32, plugin.rs L223. -/
def Toml.readConfig (T : Toml) (text : Str) : Res Config :=
  match T.parse text with
  | some v => Config.ofToml v
  | none => .err "invalid TOML"

/-- `toml::to_string(&config)`, crates/brack-project-manager/src/plugin.rs L280. Simplified: printing does
not fail. -/
def Toml.printConfig (T : Toml) (c : Config) : Str := T.print c.toToml

end Brack
