import Verif.Spec.Paragraphs

/-
Specification vocabulary for texts that differ in empty lines only.
-/

namespace Brack

/-- Two texts are the same document: both are read or none is, and if they are read, the trees have the
same structure and the same leaf values, and none or both have errors. Identifiers, ranges and the
errors themselves are not compared. -/
def SameDocument (S : Segmenter) (ids : Nat → Str) (text text' : Str) : Prop :=
  ((∃ a es, Reads S ids text a es) ↔ ∃ a es, Reads S ids text' a es) ∧
  ∀ a es a' es', Reads S ids text a es → Reads S ids text' a' es' → a'.shape = a.shape ∧ (es = [] ↔ es' = [])

/-- The texts above and below, with `n` line feeds between them. -/
def withLines (n : Nat) (above below : Str) : Str := above ++ List.replicate n '\n' ++ below

end Brack
