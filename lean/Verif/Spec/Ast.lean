import Verif.Model.Ast
import Verif.Spec.Trace

/-
Specification vocabulary for abstract syntax trees: nodes, leaves, the AST grammar
(brack.ast.ebnf), and the AST a well-formed document stands for.
-/

namespace Brack

/-- `n` is a node of the tree `a`. -/
inductive AST.NodeOf (n : AST) : AST → Prop
  | self : NodeOf n n
  | child {k i cs l c} : c ∈ cs → NodeOf n c → NodeOf n (.node k i cs l)

mutual

/-- All nodes of a tree, parents before children. -/
def AST.nodes : AST → List AST
  | .leaf k i v l => [.leaf k i v l]
  | .node k i cs l => .node k i cs l :: AST.nodesL cs

/-- All nodes of a list of trees. -/
def AST.nodesL : List AST → List AST
  | [] => []
  | c :: cs => c.nodes ++ AST.nodesL cs

end

/-- What a leaf of the AST holds: its kind, its text and its range. -/
structure Content where
  kind : ALKind
  value : Option Str
  loc : Loc
  deriving Repr, DecidableEq

mutual

/-- The leaves of a tree, left to right. -/
def AST.contents : AST → List Content
  | .leaf k _ v l => [⟨k, v, l⟩]
  | .node _ _ cs _ => AST.contentsL cs

/-- The leaves of a list of trees. -/
def AST.contentsL : List AST → List Content
  | [] => []
  | c :: cs => c.contents ++ AST.contentsL cs

end

/-- The content of a document contributed by one event: names, texts, escaped characters (as text at
the range of the character) and backslashes that escape nothing (as invalid). -/
def Event.content? : Event → Option Content
  | .plain _ ⟨.module v, l⟩ => some ⟨.module, some v, l⟩
  | .plain _ ⟨.ident v, l⟩ => some ⟨.ident, some v, l⟩
  | .plain _ ⟨.text v, l⟩ => some ⟨.text, some v, l⟩
  | .escape _ _ c t => some ⟨.text, some [c], t.loc⟩
  | .stray _ t => some ⟨.invalid, none, t.loc⟩
  | _ => none

/-- The characters of a token that is a name or a piece of text. -/
def Token.word? (t : Token) : Option Str :=
  match t.kind with
  | .module v | .ident v | .text v => some v
  | _ => none

/-- `module | angle`, in the first position of a command. -/
def AST.isCommandModule : AST → Bool
  | .leaf .module _ (some _) _ | .node (.bracket .angle) _ _ _ => true
  | _ => false

/-- `ident | angle`, in the second position of a command. -/
def AST.isCommandIdent : AST → Bool
  | .leaf .ident _ (some _) _ | .node (.bracket .angle) _ _ _ => true
  | _ => false

/-- A non-empty `expr`. -/
def AST.isFullExpr : AST → Bool
  | .node .expr _ (_ :: _) _ => true
  | _ => false

/-- The command shape of brack.ast.ebnf: `(module | angle) dot (ident | angle)
(expr (comma expr)*)?`. -/
def AST.isCommand : AST → Bool
  | .node (.bracket _) _ (m :: i :: args) _ =>
    m.isCommandModule && i.isCommandIdent && args.all AST.isFullExpr
  | _ => false

/-- `text | square | angle | curly`, the elements of an `expr`. (brack.ast.ebnf omits curly, which
only its own rule mentions.) -/
def AST.isExprItem : AST → Bool
  | .leaf .text _ (some _) _ | .node (.bracket _) _ _ _ => true
  | _ => false

/-- The rule of brack.ast.ebnf for this kind of node, one level deep. -/
def AST.followsRule : AST → Bool
  | .node .document _ cs _ => cs.all (fun c => match c with | .node .stmt _ _ _ => true | _ => false)
  | .node .stmt _ cs _ => cs.all AST.isFullExpr
  | .node .expr _ cs _ => !cs.isEmpty && cs.all AST.isExprItem
  | .node (.bracket b) i cs l => AST.isCommand (.node (.bracket b) i cs l)
  | .leaf _ _ _ _ => true

/-- The tree follows brack.ast.ebnf. -/
def AST.Follows (a : AST) : Prop := ∀ n, AST.NodeOf n a → n.followsRule = true

/-- An AST without identifiers and ranges. -/
inductive Shape where
  | leaf (k : ALKind) (v : Option Str)
  | node (k : AKind) (cs : List Shape)
  deriving Repr

mutual

/-- Forget identifiers and ranges. -/
def AST.shape : AST → Shape
  | .leaf k _ v _ => .leaf k v
  | .node k _ cs _ => .node k (AST.shapeL cs)

/-- Forget identifiers and ranges in a list of trees. -/
def AST.shapeL : List AST → List Shape
  | [] => []
  | c :: cs => c.shape :: AST.shapeL cs

end

/-- The content of a bracket, with blanks and brackets left out. -/
inductive Piece where
  | comma | dot | part (s : Shape)
  deriving Repr

/-- The parts of a list of pieces. -/
def partsOf : List Piece → List Shape
  | [] => []
  | .part s :: ps => s :: partsOf ps
  | _ :: ps => partsOf ps

/-- The groups between the commas. -/
def commaGroups : List Piece → List (List Piece)
  | [] => [[]]
  | .comma :: ps => [] :: commaGroups ps
  | p :: ps =>
    match commaGroups ps with
    | g :: gs => (p :: g) :: gs
    | [] => [[p]]

/-- The arguments: one expression for each comma-separated group; none if there is no content. -/
def argumentsOf (ps : List Piece) : List Shape :=
  if ps.isEmpty then [] else (commaGroups ps).map (fun g => .node .expr (partsOf g))

/-- The command written as `module . ident arguments`. -/
def commandOf (b : Bracket) : List Piece → Shape
  | .part m :: .dot :: .part i :: rest => .node (.bracket b) (m :: i :: argumentsOf rest)
  | ps => .node (.bracket b) (partsOf ps)

mutual

/-- What a concrete tree contributes to the bracket or expression it stands in. -/
def CST.pieces : CST → List Piece
  | .leaf (.module v) _ => [.part (.leaf .module (some v))]
  | .leaf (.ident v) _ => [.part (.leaf .ident (some v))]
  | .leaf (.text v) _ => [.part (.leaf .text (some v))]
  | .leaf .comma _ => [.comma]
  | .leaf .dot _ => [.dot]
  | .leaf _ _ => []
  | .node .backSlash cs _ => CST.piecesL cs
  | .node (.bracket b) cs _ => [.part (commandOf b (CST.piecesL cs))]
  | .node _ cs _ => CST.piecesL cs

/-- What a list of concrete trees contributes. -/
def CST.piecesL : List CST → List Piece
  | [] => []
  | c :: cs => c.pieces ++ CST.piecesL cs

end

/-- An expression outside brackets (other trees on a line contribute nothing). -/
def CST.lineShape : CST → List Shape
  | .node .expr cs _ => [.node .expr (partsOf (CST.piecesL cs))]
  | _ => []

/-- A statement: its lines. -/
def CST.stmtShape : CST → List Shape
  | .node .stmt cs _ => [.node .stmt (cs.flatMap CST.lineShape)]
  | _ => []

/-- The AST a concrete document stands for. -/
def CST.docShape (c : CST) : Shape := .node .document (c.children.flatMap CST.stmtShape)

end Brack
