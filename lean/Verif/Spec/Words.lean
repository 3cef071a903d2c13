import Verif.Model.Pipeline
import Verif.Spec.Compose
import Verif.Spec.Decided

/-
Vocabulary for documents that differ in their words only.
-/

namespace Brack

/-- Words may stand after the text `u`: its last command has a name already. `inside` tells whether it has more opening
than closing brackets. -/
structure WordPlace (S : Segmenter) (inside : Bool) (u : Str) : Prop where
  noNul : Char.ofNat 0 ∉ u
  tokens : ∃ ts e, tokenizeStr S u = .ok (ts ++ [e]) ∧ nameDue false ts = false ∧ inside = decide (0 < depth ts)

/-- One or more characters without meaning in the markup: no brackets, backslashes or line ends, and inside of brackets no
spaces, dots and commas. -/
def PlainWords (inside : Bool) (x : Str) : Prop :=
  x ≠ [] ∧ ∀ c ∈ x, c ∉ specialChars ∧ (inside = true → c ∉ [' ', '.', ','])

mutual

/-- A tree without the words in it. -/
def Shape.wordless : Shape → Shape
  | .leaf .text _ => .leaf .text none
  | .leaf k v => .leaf k v
  | .node k cs => .node k (Shape.wordlessL cs)

/-- Trees without the words in them. -/
def Shape.wordlessL : List Shape → List Shape
  | [] => []
  | c :: cs => c.wordless :: Shape.wordlessL cs

end

/-- A call without the texts and trees passed and returned: the plugin, the command, and the number and forms of the values. -/
structure CallOutline where
  plugin : Str
  command : Str
  typ : PType
  values : Option (List ValueForm)
  deriving Repr, DecidableEq

/-- The outline of a call. -/
def Call.outline (c : Call) : CallOutline :=
  ⟨c.plugin, c.command, c.typ, match c.input with
    | .values vs => some (vs.map Value.form)
    | .tree _ _ => none⟩

end Brack
