import Verif.Spec.Tokens

/-
Specification vocabulary: texts without their line feeds.
-/

namespace Brack

/-- The text without its line feeds, except those after a carriage return. -/
def joinLines : Str → Str
  | '\r' :: '\n' :: s => '\r' :: '\n' :: joinLines s
  | '\n' :: s => joinLines s
  | c :: s => c :: joinLines s
  | [] => []

end Brack
