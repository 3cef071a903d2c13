import Verif.Model.Debug
import Verif.Model.Server

/-
Model of the `Display` implementations: of concrete syntax trees and of errors. (That of abstract syntax trees is in
Model/Ast.lean.)
-/

namespace Brack

/-- `"  ".repeat(indent)`, crates/brack-parser/src/cst.rs L184. -/
def indentation (n : Nat) : Str := List.replicate (2 * n) ' '

namespace CST

/-- The name written for an inner node, crates/brack-parser/src/cst.rs L187-227, L270. -/
def innerName : IKind → Str
  | .document => chars! "Document"
  | .stmt => chars! "Stmt"
  | .expr => chars! "Expr"
  | .bracket .angle => chars! "Angle"
  | .bracket .curly => chars! "Curly"
  | .bracket .square => chars! "Square"
  | .backSlash => chars! "BackSlash"

/-- The name written for a leaf, crates/brack-parser/src/cst.rs L234-274. -/
def leafName : LKind → Str
  | .bopen .angle => chars! "AngleBracketOpen"
  | .bclose .angle => chars! "AngleBracketClose"
  | .bopen .square => chars! "SquareBracketOpen"
  | .bclose .square => chars! "SquareBracketClose"
  | .bopen .curly => chars! "CurlyBracketOpen"
  | .bclose .curly => chars! "CurlyBracketClose"
  | .module _ => chars! "Module"
  | .ident _ => chars! "Ident"
  | .text _ => chars! "Text"
  | .whitespace => chars! "Whitespace"
  | .newline => chars! "Newline"
  | .dot => chars! "Dot"
  | .comma => chars! "Comma"
  | .invalid => chars! "Invalid"
  | .eof => chars! "EOF"

/-- `, value: {:?}`, written for modules, identifiers and texts only, crates/brack-parser/src/cst.rs L252-266. Their
value is always `Some`. -/
def leafValue (printable : Char → Bool) : LKind → Str
  | .module v | .ident v | .text v => chars! ", value: Some(" ++ debugStr printable v ++ chars! ")"
  | _ => []

mutual

/-- `display_with_indent`, crates/brack-parser/src/cst.rs L183-276. The children of a `BackSlash` are not written
(L270). The identifiers are given by a function of the path to the node, as in Model/Serde.lean. -/
def display (printable : Char → Bool) (ids : List Nat → Str) (path : List Nat) (indent : Nat) : CST → Str
  | .leaf k _ => indentation indent ++ leafName k ++ chars! "(id: " ++ ids path ++ leafValue printable k ++ chars! ")"
  | .node .backSlash _ _ => indentation indent ++ innerName .backSlash ++ chars! "(id: " ++ ids path ++ chars! ")"
  | .node k cs _ => indentation indent ++ innerName k ++ chars! "(id: " ++ ids path ++ chars! ") [\n" ++
      displayL printable ids path 0 (indent + 1) cs ++ indentation indent ++ chars! "]"

/-- The loop over the children, from the `n`-th on, crates/brack-parser/src/cst.rs L188-191. -/
def displayL (printable : Char → Bool) (ids : List Nat → Str) (path : List Nat) (n indent : Nat) : List CST → Str
  | [] => []
  | c :: cs => display printable ids (path ++ [n]) indent c ++ chars! ",\n" ++ displayL printable ids path (n + 1) indent cs

end

end CST

/-- `impl Display for TransformError`, crates/brack-transformer/src/error.rs L66-80. -/
def TErr.display (e : TErr) : Str :=
  chars! "Error at line " ++ Nat.toDigits 10 e.loc.start.line ++ chars! ", column " ++ Nat.toDigits 10 e.loc.start.character ++
    chars! " to line " ++ Nat.toDigits 10 e.loc.stop.line ++ chars! ", column " ++ Nat.toDigits 10 e.loc.stop.character ++
    chars! ": " ++ Server.errorMessage e.kind

end Brack
