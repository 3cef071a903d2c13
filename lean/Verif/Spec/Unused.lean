import Verif.Model.Tokenizer
import Verif.Spec.Registry

/-
Specification vocabulary for plugins that a document does not use.
-/

namespace Brack

/-- The document names the plugin: `n` is read as the name in front of the dot of a command or macro. -/
def Uses (S : Segmenter) (text n : Str) : Prop :=
  ∃ ts t, tokenizeStr S text = .ok ts ∧ t ∈ ts ∧ t.kind = .module n

/-- Two plugin sets that differ at most in the plugins with names in `N`: there, one of them may have a plugin
that the other does not have, or a different one. No hook is bound to a plugin in `N`. -/
structure AlikeExcept {W : Wasm} (N : Str → Prop) (ps qs : Plugins W) : Prop where
  plugin : ∀ n, ¬ N n → ps.nameToPlugin.get n = qs.nameToPlugin.get n
  hook : ∀ k : Hook, ps.hook k = qs.hook k
  unhooked : ∀ (k : Hook) n, ps.hook k = some n → ¬ N n
  log : ps.log = qs.log

end Brack
