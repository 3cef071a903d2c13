import Verif.Model.Cst

/-
Model of the methods of crates/brack-parser/src/cst.rs with their panics.
-/

namespace Brack

/-- `CST::children`, crates/brack-parser/src/cst.rs L54-65, with the panic on leaves. -/
def CST.askChildren : CST → Res (List CST)
  | .leaf _ _ => .panic
  | .node _ cs _ => .ok cs

/-- The `value` that a leaf is created with, crates/brack-parser/src/cst.rs L329-391, L417-479: `Some` for Module, Ident and Text
only. -/
def LKind.storedValue : LKind → Option Str
  | .module v | .ident v | .text v => some v
  | _ => none

/-- `CST::value`, crates/brack-parser/src/cst.rs L123-141: panics for inner nodes and for `Invalid`. -/
def CST.askValue : CST → Res (Option Str)
  | .leaf .invalid _ => .panic
  | .leaf k _ => .ok k.storedValue
  | .node _ _ _ => .panic

end Brack
