import Verif.Model.Basic

/-
Model of crates/brack-parser/src/cst.rs.
-/

namespace Brack

/-- Inner node kinds of `CST`, crates/brack-parser/src/cst.rs L21-29
(`Angle`, `Curly`, `Square` are `bracket` applied to the bracket kind). -/
inductive IKind where
  | document | stmt | expr | bracket (b : Bracket) | backSlash
  deriving Repr, DecidableEq

/-- Leaf kinds of `CST`, crates/brack-parser/src/cst.rs L30-45. The `value` of a leaf is part of the
kind: the constructors `new_*` (L305-479) give `Some` to Module, Ident and Text only. -/
inductive LKind where
  | bopen (b : Bracket)
  | bclose (b : Bracket)
  | module (v : Str)
  | ident (v : Str)
  | text (v : Str)
  | whitespace | newline | dot | comma | eof | invalid
  deriving Repr, DecidableEq

/-- `CST`, crates/brack-parser/src/cst.rs L7-45.
Simplified: the random `id` of every node is omitted; it is only displayed and serialized, never
read by later stages (the AST gets fresh ids). -/
inductive CST where
  | leaf (k : LKind) (loc : Loc)
  | node (k : IKind) (children : List CST) (loc : Loc)
  deriving Repr

namespace CST

/-- `CST::location`, crates/brack-parser/src/cst.rs L67-92. -/
def loc : CST → Loc
  | .leaf _ l => l
  | .node _ _ l => l

/-- `CST::set_location`, crates/brack-parser/src/cst.rs L94-121. -/
def setLoc (l : Loc) : CST → CST
  | .leaf k _ => .leaf k l
  | .node k cs _ => .node k cs l

/-- `CST::children`, crates/brack-parser/src/cst.rs L54-65.
Simplified: the panic on leaves is not represented here; callers on which it matters say so. -/
def children : CST → List CST
  | .leaf _ _ => []
  | .node _ cs _ => cs

/-- `CST::add`, crates/brack-parser/src/cst.rs L143-181. The code only calls it on inner nodes it has
just created; on leaves (where the code panics) this definition changes nothing. -/
def add (c : CST) (child : CST) : CST :=
  match c with
  | .leaf k l => .leaf k l
  | .node k cs l => .node k (cs ++ [child]) (mergeLocation l child.loc)

/-- `new_document`, `new_stmt`, `new_expr`, `new_angle`, `new_curly`, `new_square`,
crates/brack-parser/src/cst.rs L305-327, L393-415: an inner node without children at the mock
location. -/
def new (k : IKind) : CST := .node k [] mockLocation

end CST

end Brack
