import Verif.Spec.Project
import Verif.Spec.Config

/-
Vocabulary for statements about builds that are repeated.
-/

namespace Brack

/-- The files of all plugins configured in Brack.toml are there. -/
def World.PluginsPresent (w : World) (T : Toml) (hash : PluginSchema → Str) : Prop :=
  ∀ b t v c, w.files.get (chars! "Brack.toml") = some b → fromUtf8 b = some t → T.parse t = some v →
    Config.ofToml v = .ok c → ∀ n s, c.plugin n = some s → w.pathExists (pluginFile hash n s) = true

/-- The files of configured plugins that are in the second world and were not in the first are those the server
has. -/
def World.GotWhole (w v : World) (T : Toml) (hash : PluginSchema → Str) (serve : Str → Bytes) : Prop :=
  ∀ b t x c, w.files.get (chars! "Brack.toml") = some b → fromUtf8 b = some t → T.parse t = some x →
    Config.ofToml x = .ok c → ∀ n s got, c.plugin n = some s → w.pathExists (pluginFile hash n s) = false →
      v.files.get (pluginFile hash n s) = some got → got = serve (pluginUrl c.document.backend n s)

end Brack
