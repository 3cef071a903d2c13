import Verif.Spec.Cli
import Verif.Spec.Trace
import Verif.Spec.Calls
import Verif.Spec.Registry
import Verif.Model.Main

/-
Vocabulary for the reasons why commands crash.
-/

namespace Brack

/-- The brackets of the text can be read, and what happens to the tokens includes such an event. -/
def HasFault (S : Segmenter) (text : Str) (P : Event → Prop) : Prop :=
  ∃ ts c, tokenizeStr S text = .ok ts ∧ parse ts = .ok c ∧ ∃ e ∈ trace [] ts, P e

/-- There is a dot, comma or space that counts as a separator, but outside all brackets (as after an
escaped opening bracket). -/
def LooseText (S : Segmenter) (text : Str) : Prop := HasFault S text (fun e => e.looseSeparator = true)

/-- There is a backslash that escapes nothing. -/
def StrayText (S : Segmenter) (text : Str) : Prop := HasFault S text (fun e => e.stray?.isSome = true)

/-- Every plugin at hand, on disk or to be downloaded, declares for each command first the required
parameters, then either optional parameters or one array. -/
def World.PluginsStandard (W : Wasm) (w : World) : Prop :=
  ∀ b ms, ((∃ path, w.files.get path = some b) ∨ ∃ n url, w.http n url = some b) → W.reports b = some ms →
    ∀ m ∈ ms, Standard (m.argumentTypes.map (·.2)) ∧ m.argumentTypes.length ≤ usizeMax

/-- This is the text of the file. -/
def World.Holds (w : World) (path text : Str) : Prop := ∃ b, w.files.get path = some b ∧ fromUtf8 b = some text

end Brack
