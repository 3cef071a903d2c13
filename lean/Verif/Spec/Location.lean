import Verif.Model.Basic

/-
Specification vocabulary for source ranges: the order of positions, and when one range covers
another.
-/

namespace Brack

/-- `p` is not after `q` in the document: an earlier line, or the same line and not a later
column. -/
def Pos.le (p q : Pos) : Prop := p.line < q.line ∨ (p.line = q.line ∧ p.character ≤ q.character)

/-- The range `r` contains the range `l`. -/
def Loc.covers (r l : Loc) : Prop := r.start.le l.start ∧ l.stop.le r.stop

end Brack
