import Verif.Model.Cst
import Verif.Model.Ast

/-
Model of crates/brack-transformer: `transform`, `simplify` and its helpers.
-/

namespace Brack

/-- The variants of `TransformError`, crates/brack-transformer/src/error.rs L6-22 (the three
NotOpened and the three NotClosed variants are indexed by the bracket kind). -/
inductive TErrKind where
  | notOpened (b : Bracket)
  | notClosed (b : Bracket)
  | mismatchedBracket
  | moduleNotFound | identifierNotFound | dotNotFound | commaNotFound
  | unexpectedDot | unexpectedComma
  | invalidBackslash
  deriving Repr, DecidableEq

/-- `TransformError`, crates/brack-transformer/src/error.rs L6-22; `loc` is `get_location`
(L25-42). -/
structure TErr where
  kind : TErrKind
  loc : Loc
  deriving Repr, DecidableEq

/-- `check_if_the_first_and_last_node_are_brackets`, crates/brack-transformer/src/angle.rs L14-30,
curly.rs L14-30, square.rs L14-30 (the three differ in the bracket kind only). Indexing an empty
slice and a first node other than the opening bracket panic. -/
def checkEnds (b : Bracket) (csts : List CST) : Res (List TErr) :=
  match csts.head?, csts.getLast? with
  | some (.leaf (.bopen b1) left), some (.leaf (.bclose b2) right) =>
    if b1 = b then
      if b2 = b then .ok []
      else .ok [⟨.mismatchedBracket, mergeLocation left right⟩]
    else .panic
  | some (.leaf (.bopen b1) left), some right =>
    if b1 = b then .ok [⟨.notClosed b, mergeLocation left right.loc⟩] else .panic
  | _, _ => .panic

/-- The common shape of the three checks below: the element at index `i`, if there is one, must satisfy
`good`, crates/brack-transformer/src/utils.rs L5-38. -/
def checkAt (i : Nat) (good : CST → Bool) (kind : TErrKind) (csts : List CST) : List TErr :=
  match csts[i]? with
  | none => []
  | some c => if good c then [] else [⟨kind, c.loc⟩]

/-- `CST::Module(_) | CST::Angle(_)`, crates/brack-transformer/src/utils.rs L11-12. -/
def CST.isModuleOrAngle : CST → Bool
  | .leaf (.module _) _ | .node (.bracket .angle) _ _ => true
  | _ => false

/-- `CST::Dot(_)`, crates/brack-transformer/src/utils.rs L23, L109. -/
def CST.isDot : CST → Bool
  | .leaf .dot _ => true
  | _ => false

/-- `CST::Ident(_) | CST::Angle(_)`, crates/brack-transformer/src/utils.rs L34-35. -/
def CST.isIdentOrAngle : CST → Bool
  | .leaf (.ident _) _ | .node (.bracket .angle) _ _ => true
  | _ => false

/-- `check_if_module_or_angle_bracket`, crates/brack-transformer/src/utils.rs L5-15. -/
def checkModule : List CST → List TErr := checkAt 1 CST.isModuleOrAngle .moduleNotFound

/-- `check_if_dot`, crates/brack-transformer/src/utils.rs L17-26. -/
def checkDot : List CST → List TErr := checkAt 2 CST.isDot .dotNotFound

/-- `check_if_ident_or_angle_bracket`, crates/brack-transformer/src/utils.rs L28-38. -/
def checkIdent : List CST → List TErr := checkAt 3 CST.isIdentOrAngle .identifierNotFound

/-- The nodes dropped by `remove_elements_not_included_ast`,
crates/brack-transformer/src/utils.rs L44-54. -/
def CST.notInAst : CST → Bool
  | .leaf .whitespace _ | .leaf .newline _ | .leaf .comma _ | .leaf .dot _
  | .leaf (.bopen _) _ | .leaf (.bclose _) _ | .leaf .eof _ => true
  | _ => false

/-- `remove_elements_not_included_ast`, crates/brack-transformer/src/utils.rs L40-59. -/
def removeElements (csts : List CST) : List CST := csts.filter (fun c => !c.notInAst)

/-- `CST::Whitespace(_) | CST::Newline(_)`, crates/brack-transformer/src/utils.rs L120. -/
def CST.isBlank : CST → Bool
  | .leaf .whitespace _ | .leaf .newline _ => true
  | _ => false

/-- The loop of `check_valid_arguments`, crates/brack-transformer/src/utils.rs L67-102, over the
elements from index 4 on. `prev` is `csts[i - 1]` (L84), `expr` and `comma` are the mutable locals
`expr` and `previous_comma`; the result is what is pushed to `new_csts` and to `errors`. -/
def argLoop (prev : CST) (expr : CST) (comma : Bool) : List CST → List CST × List TErr
  | [] => (if expr.children.isEmpty then [] else [expr], [])
  | c :: cs =>
    match c with
    | .leaf .comma l =>
      if expr.children.isEmpty then
        let (ds, es) := argLoop c expr comma cs
        (ds, ⟨.unexpectedComma, l⟩ :: es)
      else
        let (ds, es) := argLoop c (CST.new .expr) true cs
        (expr :: ds, es)
    | .leaf (.bclose _) _ =>
      if !expr.children.isEmpty then ([expr, c], [])
      else if comma then ([c], [⟨.unexpectedComma, prev.loc⟩])
      else ([c], [])
    | .leaf .dot l =>
      let (ds, es) := argLoop c expr comma cs
      (ds, ⟨.unexpectedDot, l⟩ :: es)
    | c => argLoop c (expr.add c) false cs

/-- `check_valid_arguments`, crates/brack-transformer/src/utils.rs L61-104. -/
def checkValidArguments (csts : List CST) : List CST × List TErr :=
  match csts with
  | c0 :: c1 :: c2 :: c3 :: rest =>
    let (ds, es) := argLoop c3 (CST.new .expr) false rest
    (c0 :: c1 :: c2 :: c3 :: ds, es)
  | _ => (csts, [])

/-- `check_unexpected_dot`, crates/brack-transformer/src/utils.rs L106-114. -/
def checkUnexpectedDot (csts : List CST) : List TErr :=
  ((csts.drop 3).filter CST.isDot).map (fun c => ⟨.unexpectedDot, c.loc⟩)

/-- `remove_whitespaces_and_newlines`, crates/brack-transformer/src/utils.rs L116-125. -/
def removeBlanks (csts : List CST) : List CST := csts.filter (fun c => !c.isBlank)

/-- `match cst { CST::Expr(node) => node.children, node => vec![node] }`,
crates/brack-transformer/src/angle.rs L41-44 (and curly.rs, square.rs). -/
def spliceExpr : CST → List CST
  | .node .expr cs _ => cs
  | c => [c]

/-- The part of `angle::simplify`, `curly::simplify`, `square::simplify` after the children have
been simplified to `csts` with errors `errors`; crates/brack-transformer/src/angle.rs L49-66,
curly.rs L49-66, square.rs L49-66. -/
def finishBracket (b : Bracket) (loc : Loc) (csts : List CST) (errors : List TErr) :
    Res (CST × List TErr) :=
  match checkEnds b csts with
  | .ok ends =>
    let errors := errors ++ ends ++ checkModule csts ++ checkDot csts ++ checkIdent csts ++
      checkUnexpectedDot csts
    let (csts, es) := checkValidArguments (removeBlanks csts)
    .ok (.node (.bracket b) (removeElements csts) loc, errors ++ es)
  | .err m => .err m
  | .panic => .panic

/-- The part of `document::simplify`, `stmt::simplify`, `expr::simplify`, `angle::simplify`,
`curly::simplify`, `square::simplify` after the simplification of the children;
crates/brack-transformer/src/document.rs L20-29, stmt.rs L20-29, expr.rs L20-27, angle.rs L41-66. -/
def finishNode (k : IKind) (loc : Loc) (csts : List CST) (errors : List TErr) :
    Res (CST × List TErr) :=
  match k with
  | .document => .ok (.node .document (removeElements csts) loc, errors)
  | .stmt => .ok (.node .stmt (removeElements csts) loc, errors)
  | .expr => .ok (.node .expr csts loc, errors)
  | .bracket b => finishBracket b loc (csts.flatMap spliceExpr) errors
  | .backSlash => .panic

mutual

/-- `simplify::simplify`, crates/brack-transformer/src/simplify.rs L5-16; the arm for BackSlash is
`backslash::simplify`, backslash.rs L5-18. -/
def simplify : CST → Res (CST × List TErr)
  | .leaf k l => .ok (.leaf k l, [])
  | .node .backSlash [] l => .ok (.leaf .invalid l, [⟨.invalidBackslash, l⟩])
  | .node .backSlash (c :: _) _ => .ok (c, [])
  | .node k cs l =>
    match simplifyL cs with
    | .ok (ds, es) => finishNode k l ds es
    | .err m => .err m
    | .panic => .panic

/-- `for child in node.children.clone() { let (cst, mut node_errors) = simplify(&child); .. }`:
the simplified children and the errors, in order; crates/brack-transformer/src/document.rs L14-18,
stmt.rs L14-18, expr.rs L14-18, angle.rs L39-47, curly.rs L39-47, square.rs L39-47. -/
def simplifyL : List CST → Res (List CST × List TErr)
  | [] => .ok ([], [])
  | c :: cs =>
    match simplify c with
    | .ok (d, es) =>
      match simplifyL cs with
      | .ok (ds, fs) => .ok (d :: ds, es ++ fs)
      | .err m => .err m
      | .panic => .panic
    | .err m => .err m
    | .panic => .panic

end

/-- The kind of AST node an inner CST node becomes; crates/brack-transformer/src/transform.rs
L17-58. A BackSlash node makes `aux` panic (L63). -/
def IKind.toAst : IKind → Option AKind
  | .document => some .document
  | .stmt => some .stmt
  | .expr => some .expr
  | .bracket b => some (.bracket b)
  | .backSlash => none

mutual

/-- `aux`, crates/brack-transformer/src/transform.rs L15-65. `ids` is the sequence of results of
`Uuid::new_v4().to_string()` and `n` the number of those used so far: children are created before
their parent (crates/brack-transformer/src/ast.rs L208-286). -/
def aux (ids : Nat → Str) (n : Nat) : CST → Res (AST × Nat)
  | .leaf (.ident v) l => .ok (.leaf .ident (ids n) (some v) l, n + 1)
  | .leaf (.module v) l => .ok (.leaf .module (ids n) (some v) l, n + 1)
  | .leaf (.text v) l => .ok (.leaf .text (ids n) (some v) l, n + 1)
  | .leaf .invalid l => .ok (.leaf .invalid (ids n) none l, n + 1)
  | .leaf _ _ => .panic
  | .node k cs l =>
    match k.toAst with
    | some k' =>
      match auxL ids n cs with
      | .ok (as, m) => .ok (.node k' (ids m) as l, m + 1)
      | .err e => .err e
      | .panic => .panic
    | none => .panic

/-- `for child in node.children.clone() { children.push(aux(&child)); }`,
crates/brack-transformer/src/transform.rs L19-21 and the same for the other nodes. -/
def auxL (ids : Nat → Str) (n : Nat) : List CST → Res (List AST × Nat)
  | [] => .ok ([], n)
  | c :: cs =>
    match aux ids n c with
    | .ok (a, m) =>
      match auxL ids m cs with
      | .ok (as, k) => .ok (a :: as, k)
      | .err e => .err e
      | .panic => .panic
    | .err e => .err e
    | .panic => .panic

end

/-- `transform`, crates/brack-transformer/src/transform.rs L12-68. `ids` is the sequence of
identifiers drawn for the AST nodes (the identifiers drawn for CST nodes are not represented). -/
def transform (ids : Nat → Str) (cst : CST) : Res (AST × List TErr) :=
  match simplify cst with
  | .ok (c, errors) =>
    match aux ids 0 c with
    | .ok (a, _) => .ok (a, errors)
    | .err m => .err m
    | .panic => .panic
  | .err m => .err m
  | .panic => .panic

end Brack
