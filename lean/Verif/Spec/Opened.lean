import Verif.Spec.Project
import Verif.Spec.Server

/-
Vocabulary for statements about opened documents and the plugins of their projects.
-/

namespace Brack

/-- One of the plugins of a configuration, by name, offers a command of this name and type. -/
def ConfigOffers (W : Wasm) (w : World) (hash : PluginSchema → Str) (c : Config) (typ : PType) (plugin command : Str) : Prop :=
  ∃ s b ms, c.plugin plugin = some s ∧ w.files.get (pluginFile hash plugin s) = some b ∧ W.reports b = some ms ∧
    ∃ m ∈ ms, m.commandName = command ∧ m.returnType = typ

/-- The plugins of a configuration can be loaded: the files that are there report their commands, the hooks enabled are
implemented, and no hook is enabled for two plugins. -/
structure ConfigLoadable (W : Wasm) (w : World) (hash : PluginSchema → Str) (c : Config) : Prop where
  files : ∀ name s b, c.plugin name = some s → w.files.get (pluginFile hash name s) = some b →
    ∃ ms, W.reports b = some ms ∧ Loadable ms s.flag
  hooks : ∀ (k : Hook) name s name' s', c.plugin name = some s → c.plugin name' = some s' → k.enabled s.flag = true →
    k.enabled s'.flag = true → name = name'

/-- The path of a document `root/dir/file`, in a directory of the project with this root. -/
structure DocumentPath (root dir file path : Str) : Prop where
  path : path = root ++ '/' :: (dir ++ '/' :: file)
  root : root ≠ ['/']
  dir : '/' ∉ dir ∧ dir ≠ []
  file : '/' ∉ file

end Brack
