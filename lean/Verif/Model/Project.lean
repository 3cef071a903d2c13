import Verif.Model.Config
import Verif.Model.Pipeline

/-
Model of crates/brack-project-manager (src/plugin.rs `add_plugin`, src/project.rs) and of the commands
`build`, `add` and `new` in src/main.rs.
-/

namespace Brack

/-- What the commands depend on besides the outside: the segmenter, the identifiers drawn by
`Uuid::new_v4` for each document compiled, whether overflow checks are on, the `toml` crate and
`PluginSchema::hash_sha256`, crates/brack-project-manager/src/plugin.rs L173-179, the SHA-256 hash of the
debug output of a schema. -/
structure Env where
  S : Segmenter
  ids : Nat → Nat → Str
  checks : Bool
  toml : Toml
  hash : PluginSchema → Str

/-- `str::split(sep)` with a character: the parts between the separators, at least one. Library code, used
in crates/brack-project-manager/src/plugin.rs L191-214, L225-231. -/
def splitOn (sep : Char) : Str → List Str
  | [] => [[]]
  | c :: s =>
    if c = sep then [] :: splitOn sep s
    else
      match splitOn sep s with
      | p :: ps => (c :: p) :: ps
      | [] => [[c]]

/-- `str::trim_end_matches(c)`. Library code, used in crates/brack-project-manager/src/plugin.rs L226. -/
def trimEnd (c : Char) (s : Str) : Str := (s.reverse.dropWhile (· = c)).reverse

/-- `ok_or_else(|| anyhow!(..))?`. E.g. crates/brack-project-manager/src/plugin.rs L194. -/
def orErr (m : String) : Option α → Res α
  | some a => .ok a
  | none => .err m

/-- The local variables `url`, `owner`, `repo`, `version` of `add_plugin`,
crates/brack-project-manager/src/plugin.rs L191-221. -/
structure AddTarget where
  url : Str
  owner : Str
  repo : Str
  version : Str
  deriving Repr, DecidableEq

/-- The argument of `add_plugin` taken apart, crates/brack-project-manager/src/plugin.rs L191-221. -/
def parseTarget (schema : Str) : Res AddTarget := do
  let repositoryType ← orErr "Repository type is not found." (splitOn ':' schema).head?
  let beforeSlash ← orErr "Owner is not found." (splitOn '/' schema).head?
  let owner ← orErr "Owner is not found." (splitOn ':' beforeSlash)[1]?
  let afterSlash ← orErr "Repository is not found." (splitOn '/' schema)[1]?
  let repo ← orErr "Repository is not found." (splitOn '@' afterSlash).head?
  let version ← orErr "Version is not found." (splitOn '@' schema)[1]?
  if repositoryType = chars! "github" then
    return ⟨chars! "https://github.com/" ++ owner ++ chars! "/" ++ repo, owner, repo, version⟩
  else .err "Repository type is not supported."

/-- `repository_name`, crates/brack-project-manager/src/plugin.rs L225-229. -/
def repositoryName (url : Str) : Res Str :=
  orErr "Last element of URL is not found." (splitOn '/' (trimEnd '/' url)).getLast?

/-- `plugin_name`, crates/brack-project-manager/src/plugin.rs L230-233. -/
def pluginName (repositoryName : Str) : Res Str :=
  orErr "First element of repository name is not found." (splitOn '.' repositoryName).head?

/-- `config.plugins.as_ref().and_then(|plugins| plugins.get(plugin_name))`,
crates/brack-project-manager/src/plugin.rs L235-239. -/
def Config.plugin (c : Config) (name : Str) : Option PluginSchema := c.plugins.bind (·.get name)

/-- `config.plugins.get_or_insert_with(HashMap::new).insert(..)`,
crates/brack-project-manager/src/plugin.rs L268-279. -/
def Config.insertPlugin (c : Config) (name : Str) (s : PluginSchema) : Config :=
  { c with plugins := some ((c.plugins.getD []).insert name s) }

/-- `add_plugin`, crates/brack-project-manager/src/plugin.rs L186-284. -/
def addPlugin (T : Toml) (schema : Str) : IOM Unit := do
  if !(← IOM.pathExists (chars! "Brack.toml")) then IOM.fail "Brack.toml is not found."
  else
    let t ← IOM.lift (parseTarget schema)
    let config ← IOM.lift (T.readConfig (← IOM.readText (chars! "Brack.toml")))
    let repository ← IOM.lift (repositoryName t.url)
    let name ← IOM.lift (pluginName repository)
    if (config.plugin name).isSome then IOM.fail "Plugin already exists."
    else
      match ← IOM.httpGet (t.url ++ chars! "/releases/download/" ++ t.version ++ chars! "/" ++ repository ++
          chars! ".wasm") with
      | none => IOM.fail "Failed to download plugin."
      | some bytes =>
        IOM.createDirAll (chars! "plugins")
        IOM.writeFile (chars! "plugins/" ++ repository ++ chars! ".wasm") bytes
        let config := config.insertPlugin name ⟨t.owner, t.repo, t.version, none, none, none, none⟩
        IOM.writeFile (chars! "Brack.toml") (utf8 (T.printConfig config))

/-- `plugins_metadata`, crates/brack-project-manager/src/project.rs L17. -/
abbrev PluginsMetadata := HMap Str (Str × FeatureFlag)

/-- The feature flags of a schema, crates/brack-project-manager/src/project.rs L50-71. -/
def PluginSchema.flag (s : PluginSchema) : FeatureFlag :=
  ⟨s.documentHook.getD false, s.stmtHook.getD false, s.exprHook.getD false, s.textHook.getD false⟩

/-- `path`, crates/brack-project-manager/src/project.rs L48-49. -/
def cachePath (hash : PluginSchema → Str) (name : Str) (s : PluginSchema) : Str :=
  chars! "plugins/" ++ name ++ chars! "_" ++ hash s ++ chars! ".wasm"

/-- `url`, crates/brack-project-manager/src/project.rs L83-86. -/
def downloadUrl (backend name : Str) (s : PluginSchema) : Str :=
  chars! "https://github.com/" ++ s.owner ++ chars! "/" ++ s.repo ++ chars! "/releases/download/" ++
    s.version ++ chars! "/" ++ name ++ chars! "." ++ backend ++ chars! ".wasm"

/-- A task, crates/brack-project-manager/src/project.rs L87-103. -/
structure Task where
  name : Str
  path : Str
  flag : FeatureFlag
  url : Str
  deriving Repr, DecidableEq

/-- The first loop of `download_plugins_using_config`, crates/brack-project-manager/src/project.rs
L47-107: the cached plugins and the tasks spawned for the others. -/
def planLoop (hash : PluginSchema → Str) (backend : Str) : List (Str × PluginSchema) → PluginsMetadata →
    IOM (PluginsMetadata × List Task)
  | [], md => return (md, [])
  | (name, s) :: rest, md => do
    let path := cachePath hash name s
    if ← IOM.pathExists path then planLoop hash backend rest (md.insert name (path, s.flag))
    else
      let (md, tasks) ← planLoop hash backend rest md
      return (md, ⟨name, path, s.flag, downloadUrl backend name s⟩ :: tasks)

/-- The tasks and `join_all`, crates/brack-project-manager/src/project.rs L87-109. Simplified: the
requests, concurrent in the code, are made in the order of the tasks. -/
def fetchLoop : List Task → IOM (List (Task × Option Bytes))
  | [] => return []
  | t :: rest => do
    let response ← IOM.httpGet t.url
    return (t, response) :: (← fetchLoop rest)

/-- The second loop, crates/brack-project-manager/src/project.rs L110-114. -/
def storeLoop : List (Task × Option Bytes) → PluginsMetadata → IOM PluginsMetadata
  | [], md => return md
  | (_, none) :: _, _ => IOM.fail "Failed to download plugin."
  | (t, some bytes) :: rest, md => do
    IOM.writeFile t.path bytes
    storeLoop rest (md.insert t.name (t.path, t.flag))

/-- `download_plugins_using_config`, crates/brack-project-manager/src/project.rs L44-118, on a project
without metadata, as in its use by `build`: the metadata. -/
def downloadPlugins (hash : PluginSchema → Str) (c : Config) : IOM PluginsMetadata := do
  match c.plugins with
  | none => return []
  | some plugins =>
    let (md, tasks) ← planLoop hash c.document.backend plugins []
    storeLoop (← fetchLoop tasks) md

/-- `load_brack_toml`, crates/brack-project-manager/src/project.rs L30-35, with the root
`.` of `brack build`. -/
def loadBrackToml (T : Toml) : IOM Config := do
  IOM.lift (T.readConfig (← IOM.readText (chars! "Brack.toml")))

/-- The loop loading the plugins, crates/brack-project-manager/src/project.rs L121-124 and src/main.rs
L49-53, with `Plugin::new`. -/
def loadPlugins (W : Wasm) : List (Str × Str × FeatureFlag) → IOM (List (Plugin W))
  | [] => return []
  | (name, path, flag) :: rest => do
    let p ← IOM.lift (Plugin.new W name (← IOM.readFile path) flag)
    return p :: (← loadPlugins W rest)

/-- `Path::file_stem` and `Path::extension` of a file name: the parts before and after the last dot; a name
without a dot other than at its beginning has no extension. Library code, used in
crates/brack-project-manager/src/project.rs L131-136. -/
def splitExtension (name : Str) : Str × Option Str :=
  let after := (name.reverse.takeWhile (· ≠ '.')).reverse
  match name.reverse.dropWhile (· ≠ '.') with
  | [] => (name, none)
  | [_] => (name, none)
  | _ :: before => (before.reverse, some after)

/-- The path of the output for a document, crates/brack-project-manager/src/project.rs L144. -/
def outputPath (stem backend : Str) : Str := chars! "out/" ++ stem ++ chars! "." ++ backend

/-- The loop over the documents, crates/brack-project-manager/src/project.rs L128-148. The counter `i`
numbers the documents compiled. -/
def buildLoop {W : Wasm} (E : Env) (backend : Str) : (i : Nat) → List Str → Plugins W → IOM (Plugins W)
  | _, [], ps => return ps
  | i, name :: rest, ps => do
    IOM.step
    let (stem, extension) := splitExtension name
    if extension = some (chars! "[]") then
      let text ← IOM.readText (chars! "docs/" ++ name)
      let (result, ps) := compileText E.S (E.ids i) E.checks text ps
      let gen ← IOM.lift result
      IOM.createDirAll (chars! "out")
      IOM.writeFile (outputPath stem backend) (utf8 gen)
      buildLoop E backend (i + 1) rest ps
    else buildLoop E backend i rest ps

/-- The loop printing the outputs, crates/brack-project-manager/src/project.rs L151-160. -/
def listOutputs : List Str → IOM Unit
  | [] => return ()
  | name :: rest => do
    IOM.step
    IOM.printLine (chars! "  - ./out/" ++ name)
    listOutputs rest

/-- `build`, crates/brack-project-manager/src/project.rs L120-162. -/
def build (W : Wasm) (E : Env) (c : Config) (md : PluginsMetadata) : IOM Unit := do
  let plugins ← loadPlugins W md
  let ps ← IOM.lift (Plugins.new plugins)
  let entries ← IOM.readDir (chars! "docs")
  let _ ← buildLoop E c.document.backend 0 entries ps
  IOM.printLine (chars! "Build succeeded.")
  listOutputs (← IOM.readDir (chars! "out"))

/-- `brack build`, src/main.rs L157-162. -/
def buildCommand (W : Wasm) (E : Env) : IOM Unit := do
  let c ← loadBrackToml E.toml
  let md ← downloadPlugins E.hash c
  build W E c md

/-- The configuration written by `new_project`, src/main.rs L132-141. -/
def newConfigText (name : Str) : Str :=
  chars! "[document]\nname = \"" ++ name ++
  chars! "\"\nversion = \"0.1.0\"\nbackend = \"\"\nauthors = [\"your name <your email>\"]\n\n[plugins]\n"

/-- `new_project`, src/main.rs L126-151. -/
def newProject (name : Str) : IOM Unit := do
  IOM.createDir name
  IOM.createDir (name ++ chars! "/docs")
  IOM.writeFile (name ++ chars! "/docs/main.[]") []
  IOM.writeFile (name ++ chars! "/Brack.toml") (utf8 (newConfigText name))
  IOM.writeFile (name ++ chars! "/.gitignore") (utf8 (chars! "plugins\nout\n"))

end Brack
