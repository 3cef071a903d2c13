import Verif.Spec.Parts

/-
In which order errors are reported.
-/

namespace Brack

/-- The position `p` is before the position `q`. -/
def Pos.before (p q : Pos) : Prop := p.line < q.line ∨ (p.line = q.line ∧ p.character < q.character)

/-- Where a command or a leaf starts. -/
def Part.start : Part → Pos
  | .command _ p => p
  | .leaf c => c.loc.start

end Brack
