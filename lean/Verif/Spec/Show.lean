import Verif.Model.Show
import Verif.Spec.Ast

/-
Specification vocabulary for printed trees.
-/

namespace Brack

/-- No line of the text ends with a carriage return and a line feed. -/
def NoCrLf (text : Str) : Prop := ∀ a b, text ≠ a ++ '\r' :: '\n' :: b

/-- The identifiers are like those drawn by the code (`Uuid::new_v4`, in hexadecimal digits and hyphens). -/
def IsUuid (s : Str) : Prop := ∀ c ∈ s, c.isAlphanum = true ∨ c = '-'

mutual

/-- The trees are the same, apart from positions and from what stands behind backslashes. -/
inductive CST.Alike : CST → CST → Prop
  | leaf {k l l'} : Alike (.leaf k l) (.leaf k l')
  | backSlash {cs cs' l l'} : Alike (.node .backSlash cs l) (.node .backSlash cs' l')
  | node {k cs cs' l l'} : AlikeL cs cs' → Alike (.node k cs l) (.node k cs' l')

/-- The same for lists of trees. -/
inductive CST.AlikeL : List CST → List CST → Prop
  | nil : AlikeL [] []
  | cons {c c' cs cs'} : Alike c c' → AlikeL cs cs' → AlikeL (c :: cs) (c' :: cs')

end

end Brack
