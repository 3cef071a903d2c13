import Verif.Model.Project
import Verif.Spec.World

/-
Vocabulary for statements about projects.
-/

namespace Brack

/-- Free of the separators of the argument of `brack add`. -/
def Component (s : Str) : Prop := ':' ∉ s ∧ '/' ∉ s ∧ '@' ∉ s

instance (s : Str) : Decidable (Component s) := inferInstanceAs (Decidable (_ ∧ _ ∧ _))

/-- The configuration of the project: the contents of Brack.toml read as TOML. -/
def World.HasConfig (w : World) (T : Toml) (c : Config) : Prop :=
  ∃ bytes text v, w.files.get (chars! "Brack.toml") = some bytes ∧ fromUtf8 bytes = some text ∧
    T.parse text = some v ∧ Config.ofToml v = .ok c

/-- Brack.toml holds some TOML value printed, and that value stands for the configuration. -/
def World.WrittenConfig (w : World) (T : Toml) (c : Config) : Prop :=
  ∃ v, w.files.get (chars! "Brack.toml") = some (utf8 (T.print v)) ∧ Config.ofToml v = .ok c

/-- A schema without hooks. -/
def PluginSchema.plain (owner repo version : Str) : PluginSchema := ⟨owner, repo, version, none, none, none, none⟩

/-- The cached files of the configured plugins, if present, are what the server offers for them. -/
def World.CacheComplete (w : World) (hash : PluginSchema → Str) (c : Config) (served : Str → Bytes → Prop) : Prop :=
  ∀ n s b, c.plugin n = some s →
    w.files.get (chars! "plugins/" ++ n ++ chars! "_" ++ hash s ++ chars! ".wasm") = some b →
    served (chars! "https://github.com/" ++ s.owner ++ chars! "/" ++ s.repo ++ chars! "/releases/download/" ++
      s.version ++ chars! "/" ++ n ++ chars! "." ++ c.document.backend ++ chars! ".wasm") b

/-- The configuration of the project with this root: the contents of its Brack.toml read as TOML. -/
def World.ConfigAt (w : World) (T : Toml) (root : Str) (c : Config) : Prop :=
  ∃ bytes text v, w.files.get (root ++ chars! "/Brack.toml") = some bytes ∧ fromUtf8 bytes = some text ∧
    T.parse text = some v ∧ Config.ofToml v = .ok c

/-- The place of the file of a plugin. -/
def pluginFile (hash : PluginSchema → Str) (name : Str) (s : PluginSchema) : Str :=
  chars! "plugins/" ++ name ++ chars! "_" ++ hash s ++ chars! ".wasm"

/-- The address of the file of a plugin. -/
def pluginUrl (backend name : Str) (s : PluginSchema) : Str :=
  chars! "https://github.com/" ++ s.owner ++ chars! "/" ++ s.repo ++ chars! "/releases/download/" ++ s.version ++
    chars! "/" ++ name ++ chars! "." ++ backend ++ chars! ".wasm"

/-- A file to be had for a plugin: it is there already, or the server offers it at some time. -/
def World.Provides (w : World) (hash : PluginSchema → Str) (backend name : Str) (s : PluginSchema) (b : Bytes) : Prop :=
  w.files.get (pluginFile hash name s) = some b ∨ ∃ n, w.http n (pluginUrl backend name s) = some b

/-- A plugin set made of one plugin for each one configured, from the files given. -/
def MadeFrom {W : Wasm} (c : Config) (file : Str → PluginSchema → Bytes → Prop) (ps : Plugins W) : Prop :=
  ∃ plugins, Plugins.new plugins = .ok ps ∧ (plugins.map (·.name)).Nodup ∧
    (∀ name s, c.plugin name = some s → ∃ p ∈ plugins, p.name = name) ∧
    ∀ p ∈ plugins, ∃ s b, c.plugin p.name = some s ∧ file p.name s b ∧ Plugin.new W p.name b s.flag = .ok p

/-- No path names two files, two directories or a file and a directory. -/
def World.Valid (w : World) : Prop := (w.files.map (·.1) ++ w.dirs).Nodup

/-- `docs/<stem>.[]` is a file. -/
def World.HasDocument (w : World) (stem : Str) : Prop :=
  stem ≠ [] ∧ '/' ∉ stem ∧ (w.files.get (chars! "docs/" ++ stem ++ chars! ".[]")).isSome

/-- A document compiled: its name without extension, its text and the result. -/
structure Compiled where
  stem : Str
  text : Str
  result : Str
  deriving Repr, DecidableEq

/-- The documents are compiled one after the other, the i-th with the i-th supply of identifiers, and each
with the plugins in the state in which the previous one has left them. -/
inductive CompiledInTurn {W : Wasm} (E : Env) : Nat → List Compiled → Plugins W → Plugins W → Prop where
  | nil (i : Nat) (ps : Plugins W) : CompiledInTurn E i [] ps ps
  | cons {i : Nat} {d : Compiled} {ds : List Compiled} {ps ps1 ps2 : Plugins W}
      (h : compileText E.S (E.ids i) E.checks d.text ps = (.ok d.result, ps1))
      (t : CompiledInTurn E (i + 1) ds ps1 ps2) : CompiledInTurn E i (d :: ds) ps ps2

/-- The `i`-th document with the contents `b` stops a build: it is not UTF-8, or it does not compile with the plugins
as they are by then, and the build ends in the same way. -/
def StopsBuild {W : Wasm} (E : Env) (i : Nat) (ps : Plugins W) (b : Bytes) (r : Res α) : Prop :=
  (fromUtf8 b = none ∧ ∃ m, r = .err m) ∨
  ∃ text, fromUtf8 b = some text ∧
    ((∃ m, (compileText E.S (E.ids i) E.checks text ps).1 = .err m ∧ r = .err m) ∨
      (compileText E.S (E.ids i) E.checks text ps).1 = .panic ∧ r = .panic)

end Brack
