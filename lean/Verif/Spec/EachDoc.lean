import Verif.Model.Project
import Verif.Spec.Project

/-
Documents of a project compiled on their own.
-/

namespace Brack

/-- The document `stem`, compiled on its own with these plugins, gives `r`. -/
def CompilesAlone {W : Wasm} (E : Env) (ps : Plugins W) (w : World) (stem r : Str) : Prop :=
  ∃ b text, w.files.get (chars! "docs/" ++ stem ++ chars! ".[]") = some b ∧ fromUtf8 b = some text ∧
    (compileText E.S (E.ids 0) E.checks text ps).1 = .ok r

/-- A project as it should be: it has documents, and nothing is in the way of their outputs. -/
structure World.Orderly (w : World) (backend : Str) : Prop where
  valid : w.Valid
  docs : chars! "docs" ∈ w.dirs
  some : ∃ stem, w.HasDocument stem
  notDirs : ∀ stem, chars! "docs/" ++ stem ++ chars! ".[]" ∉ w.dirs
  flat : '/' ∉ backend
  out : w.files.get (chars! "out") = none
  outputs : ∀ stem, w.HasDocument stem → chars! "out/" ++ stem ++ chars! "." ++ backend ∉ w.dirs

end Brack
