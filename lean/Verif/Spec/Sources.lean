import Verif.Spec.Calls
import Verif.Spec.Expressed

/-
Vocabulary for statements about where texts come from.
-/

namespace Brack

/-- The text is put together from parts of the document, in the order in which they stand there and without using
anything twice, and from results of these calls. The parts of the document hold no line feeds (other than after a carriage
return) and no NUL. -/
inductive Sourced (earlier : List Call) : (document s : Str) → Prop
  | done {document} : Sourced earlier document []
  | part {gap p rest s} (hp : Tame p) (h : Sourced earlier rest s) : Sourced earlier (gap ++ p ++ rest) (p ++ s)
  | result {document p s} {c : Call} (hc : c ∈ earlier) (ho : c.output = .text p) (h : Sourced earlier document s) :
      Sourced earlier document (p ++ s)

/-- The texts a command or hook is called with. -/
def Call.texts (c : Call) : List Str :=
  match c.input with
  | .values vs => vs.flatMap Value.arguments
  | .tree _ _ => []

end Brack
