import Verif.Spec.Blank
import Verif.Spec.Tokens
import Verif.Model.Tokenizer
import Verif.Model.Uax29

/-
Specification vocabulary for texts that differ in blanks after commas and spaces.
-/

namespace Brack

/-- Spaces and line feeds. -/
def Blanks (b : Str) : Prop := ∀ c ∈ b, c = ' ' ∨ c = '\n'

/-- The character `c` after the text `before` separates: it is the last token of the text, this token is a
comma or a space, the token before it is no backslash, and no name is due. -/
def Separates (S : Segmenter) (before : Str) (c : Char) : Prop :=
  ∃ ts t e, tokenizeStr S (before ++ [c]) = .ok (ts ++ [t, e]) ∧ (t.kind = .comma ∨ t.kind = .whiteSpace) ∧
    (∀ p ∈ ts.getLast?, p.kind ≠ .backSlash) ∧ nameDue false ts = false

/-- Between the two texts there is room for blanks: no character of the texts combines with a blank
or with one of the other text. This is so if `after` does not begin with a combining character. -/
def Room (S : Segmenter) (before after : Str) : Prop :=
  ∀ b, Blanks b → S.graphemes (before ++ b ++ after) = S.graphemes before ++ b.map (fun c => [c]) ++ S.graphemes after

/-- Characters that combine with whatever stands before them, by the rules for extended grapheme clusters. -/
def UTable.combining (T : UTable) (x : Char) : Prop := T.gcb x = .extend ∨ T.gcb x = .zwj ∨ T.gcb x = .spacing

end Brack
