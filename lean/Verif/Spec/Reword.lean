import Verif.Spec.Paragraphs
import Verif.Spec.Trace

/-
Specification vocabulary for C137: characters that words are made of.
-/

namespace Brack

/-- A character that is never a sign of the language, wherever it stands. -/
def WordChar (g : Str) : Prop :=
  g ≠ ['\\'] ∧ g ≠ ['<'] ∧ g ≠ ['>'] ∧ g ≠ ['{'] ∧ g ≠ ['}'] ∧ g ≠ ['['] ∧ g ≠ [']'] ∧ g ≠ ['\n'] ∧ g ≠ ['.'] ∧ g ≠ [','] ∧
    g ≠ [' '] ∧ g ≠ [Char.ofNat 0]

/-- The two texts differ in one place only: there, a word (or a part of it) is replaced by another one. -/
def Reworded (S : Segmenter) (text text' : Str) : Prop :=
  ∃ (before word word' after : List Str), S.graphemes text = before ++ word ++ after ∧
    S.graphemes text' = before ++ word' ++ after ∧ word ≠ [] ∧ word' ≠ [] ∧ (∀ g ∈ word, WordChar g) ∧
    ∀ g ∈ word', WordChar g

end Brack
