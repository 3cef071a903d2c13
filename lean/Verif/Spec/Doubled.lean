import Verif.Spec.Trace
import Verif.Spec.Paragraphs
import Verif.Spec.Lexed

/-
Specification vocabulary for C136: backslashes that are neither escaped nor escape anything.
-/

namespace Brack

/-- Do the tokens end with a backslash that is not escaped, so that it would escape the next token? -/
def escapePending : List TokKind → Bool
  | [] => false
  | .backSlash :: ks =>
    match ks with
    | [] => true
    | k :: ks' => if (escapedChar k).isSome then escapePending ks' else escapePending (k :: ks')
  | _ :: ks => escapePending ks

/-- The characters are told apart in the same way if the backslash between `a` and `b` is doubled: both backslashes are
characters of their own, and `a` and `b` are read as they are read alone. (The Unicode rules allow a backslash to be joined with
a following accent only, or with certain letters before it.) -/
def BackslashAlone (S : Segmenter) (a b : Str) : Prop :=
  S.graphemes (a ++ '\\' :: b) = S.graphemes a ++ ['\\'] :: S.graphemes b ∧
  S.graphemes (a ++ '\\' :: '\\' :: b) = S.graphemes a ++ ['\\'] :: ['\\'] :: S.graphemes b

end Brack
