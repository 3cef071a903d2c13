import Verif.Model.Transform

/-
Specification vocabulary for transform errors.
-/

namespace Brack

/-- The bracket kind and the start of a not-closed error. -/
def TErr.notClosed? (e : TErr) : Option (Bracket × Pos) :=
  match e.kind with
  | .notClosed b => some (b, e.loc.start)
  | _ => none

/-- The range of an invalid-backslash error. -/
def TErr.invalidBackslash? (e : TErr) : Option Loc :=
  match e.kind with
  | .invalidBackslash => some e.loc
  | _ => none

end Brack
