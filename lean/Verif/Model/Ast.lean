import Verif.Model.Basic

/-
Model of crates/brack-transformer/src/ast.rs.
-/

namespace Brack

/-- Inner node kinds of `AST`, crates/brack-transformer/src/ast.rs L23-28
(`Angle`, `Square`, `Curly` are `bracket` applied to the bracket kind). -/
inductive AKind where
  | document | stmt | expr | bracket (b : Bracket)
  deriving Repr, DecidableEq

/-- Leaf kinds of `AST`, crates/brack-transformer/src/ast.rs L29-33. -/
inductive ALKind where
  | ident | module | text | invalid | ignored
  deriving Repr, DecidableEq

/-- `AST`, crates/brack-transformer/src/ast.rs L7-34. -/
inductive AST where
  | leaf (k : ALKind) (id : Str) (value : Option Str) (loc : Loc)
  | node (k : AKind) (id : Str) (children : List AST) (loc : Loc)
  deriving Repr

namespace AST

/-- `AST::children`, crates/brack-transformer/src/ast.rs L43-57: panics on every leaf. -/
def children : AST → Res (List AST)
  | .node _ _ cs _ => .ok cs
  | .leaf _ _ _ _ => .panic

/-- `AST::value`, crates/brack-transformer/src/ast.rs L59-71: panics on inner nodes and on Invalid
and Ignored. -/
def value : AST → Res (Option Str)
  | .leaf .ident _ v _ | .leaf .module _ v _ | .leaf .text _ v _ => .ok v
  | .leaf .invalid _ _ _ | .leaf .ignored _ _ _ => .panic
  | .node _ _ _ _ => .panic

/-- `AST::id`, crates/brack-transformer/src/ast.rs L73-87. -/
def id : AST → Str
  | .leaf _ i _ _ => i
  | .node _ i _ _ => i

/-- The location field of a node, crates/brack-transformer/src/ast.rs L11, L18. -/
def loc : AST → Loc
  | .leaf _ _ _ l => l
  | .node _ _ _ l => l

mutual

/-- `AST::get`, crates/brack-transformer/src/ast.rs L121-150. -/
def get (i : Str) : AST → Option AST
  | .leaf k j v l => if j = i then some (.leaf k j v l) else none
  | .node k j cs l => if j = i then some (.node k j cs l) else getL i cs

/-- The loop of `AST::get`, crates/brack-transformer/src/ast.rs L132-137. -/
def getL (i : Str) : List AST → Option AST
  | [] => none
  | c :: cs =>
    match get i c with
    | some a => some a
    | none => getL i cs

end

/-- The label written by `display_with_ident` for an inner node,
crates/brack-transformer/src/ast.rs L156-196. -/
def kindLabel : AKind → Str
  | .document => chars! "Document"
  | .stmt => chars! "Stmt"
  | .expr => chars! "Expr"
  | .bracket .angle => chars! "Angle"
  | .bracket .square => chars! "Square"
  | .bracket .curly => chars! "Curly"

/-- The line written for a leaf, crates/brack-transformer/src/ast.rs L197-203: a missing value of an
Ident, Module or Text panics (`unwrap`). -/
def leafLabel : ALKind → Option Str → Res Str
  | .ident, some v => .ok (chars! "Ident: " ++ v)
  | .module, some v => .ok (chars! "Module: " ++ v)
  | .text, some v => .ok (chars! "Text: " ++ v)
  | .ident, none | .module, none | .text, none => .panic
  | .invalid, _ => .ok (chars! "Invalid")
  | .ignored, _ => .ok (chars! "Ignored")

mutual

/-- `display_with_ident`, crates/brack-transformer/src/ast.rs L152-205. -/
def display (indent : Nat) : AST → Res Str
  | .leaf k _ v _ =>
    match leafLabel k v with
    | .ok s => .ok (List.replicate (2 * indent) ' ' ++ s ++ ['\n'])
    | .err m => .err m
    | .panic => .panic
  | .node k _ cs _ =>
    match displayL (indent + 1) cs with
    | .ok s => .ok (List.replicate (2 * indent) ' ' ++ kindLabel k ++ ['\n'] ++ s)
    | .err m => .err m
    | .panic => .panic

/-- The loop over the children in `display_with_ident`, crates/brack-transformer/src/ast.rs L157-159. -/
def displayL (indent : Nat) : List AST → Res Str
  | [] => .ok []
  | c :: cs =>
    match display indent c with
    | .ok s =>
      match displayL indent cs with
      | .ok t => .ok (s ++ t)
      | .err m => .err m
      | .panic => .panic
    | .err m => .err m
    | .panic => .panic

end

end AST

end Brack
