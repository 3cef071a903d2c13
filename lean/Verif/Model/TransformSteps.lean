import Verif.Model.Transform
import Verif.Spec.Nesting

/-
The steps the transformer takes. The functions follow those of `Model/Transform.lean` and count: one for each
call, one for each element a loop looks at, and one for each node copied by a `clone` or `to_vec`. Where the
number depends on intermediate results, these are the ones of `Model/Transform.lean`. Simplified: errors that
are moved from one list to another are not counted, and locations, identifiers and words count with the node
they are in. Where the transformer panics, the steps are counted as if it went on.
-/

namespace Brack

/-- A loop that copies some of the elements it looks at; `remove_elements_not_included_ast` and
`remove_whitespaces_and_newlines`, crates/brack-transformer/src/utils.rs L40-59, L116-125. -/
def keepSteps (p : CST → Bool) (cs : List CST) : Nat := 1 + cs.length + CST.sizeL (cs.filter p)

/-- `csts[i].clone()`, crates/brack-transformer/src/utils.rs L9, L21, L32; angle.rs L16. -/
def copyAt (i : Nat) (cs : List CST) : Nat := (cs[i]?.map CST.size).getD 0

/-- `CST::Expr(node) => node.children.clone()` and `nodes.clone()`,
crates/brack-transformer/src/angle.rs L41-45 (and curly.rs, square.rs). -/
def spliceSteps : CST → Nat
  | .node .expr cs _ => 2 * CST.sizeL cs
  | c => c.size

/-- The loop of `check_valid_arguments`, crates/brack-transformer/src/utils.rs L69-99: L70 copies the element,
L82 the argument, L87 the closing bracket, L95 the element, which `CST::add` copies once more
(crates/brack-parser/src/cst.rs L152). -/
def argSteps (expr : CST) : List CST → Nat
  | [] => 0
  | c :: cs =>
    c.size +
    match c with
    | .leaf .comma _ => if expr.children.isEmpty then argSteps expr cs else argSteps (CST.new .expr) cs
    | .leaf (.bclose _) _ => (if expr.children.isEmpty then 0 else expr.size) + c.size
    | .leaf .dot _ => argSteps expr cs
    | c => 2 * c.size + argSteps (expr.add c) cs

/-- `check_valid_arguments`, crates/brack-transformer/src/utils.rs L61-104: L63 and L66 copy elements. -/
def checkArgumentsSteps : List CST → Nat
  | c0 :: c1 :: c2 :: c3 :: rest => 1 + (c0.size + c1.size + c2.size + c3.size) + argSteps (CST.new .expr) rest
  | cs => 1 + CST.sizeL cs

/-- What `angle::simplify`, `curly::simplify`, `square::simplify` do with the simplified and spliced children,
crates/brack-transformer/src/angle.rs L49-57 (and curly.rs, square.rs): the first and the last are copied by
the check of the brackets, the next three by the checks of the name, then dots are looked for, blanks are
removed, the arguments are formed and the rest of the punctuation is removed. -/
def finishBracketSteps (cs : List CST) : Nat :=
  (1 + copyAt 0 cs + copyAt (cs.length - 1) cs) + (1 + copyAt 1 cs) + (1 + copyAt 2 cs) + (1 + copyAt 3 cs) +
  (1 + cs.length) + keepSteps (fun c => !c.isBlank) cs + checkArgumentsSteps (removeBlanks cs) +
  keepSteps (fun c => !c.notInAst) (checkValidArguments (removeBlanks cs)).1

/-- What is done after the children of a node have been simplified; crates/brack-transformer/src/document.rs
L20, stmt.rs L20, expr.rs L20-27, angle.rs L41-57. -/
def finishSteps : IKind → List CST → Nat
  | .document, cs | .stmt, cs => keepSteps (fun c => !c.notInAst) cs
  | .expr, _ => 0
  | .bracket _, cs => (cs.map spliceSteps).sum + finishBracketSteps (cs.flatMap spliceExpr)
  | .backSlash, _ => 0

mutual

/-- `simplify::simplify`, crates/brack-transformer/src/simplify.rs L5-16: leaves are copied (L14), the escaped
character is copied (backslash.rs L17), and the children of the other nodes are copied for the loop over them
(document.rs L14, stmt.rs L14, expr.rs L14, angle.rs L39, curly.rs L39, square.rs L39). Each of the functions
counts for itself, so there are two calls but for leaves. -/
def simplifySteps : CST → Nat
  | .leaf _ _ => 2
  | .node .backSlash [] _ => 2
  | .node .backSlash (c :: _) _ => 2 + c.size
  | .node k cs _ =>
    2 + CST.sizeL cs + simplifyStepsL cs +
    match simplifyL cs with
    | .ok (ds, _) => finishSteps k ds
    | _ => 0

/-- The loops over the children, crates/brack-transformer/src/document.rs L14-18, stmt.rs L14-18,
expr.rs L14-18, angle.rs L39-47, curly.rs L39-47, square.rs L39-47. -/
def simplifyStepsL : List CST → Nat
  | [] => 0
  | c :: cs => simplifySteps c + simplifyStepsL cs

end

mutual

/-- `aux`, crates/brack-transformer/src/transform.rs L15-65: the children are copied for the loop over them
(L19, L26, L33, L40, L47, L54). -/
def auxSteps : CST → Nat
  | .leaf _ _ => 1
  | .node _ cs _ => 1 + CST.sizeL cs + auxStepsL cs

/-- The loops over the children, crates/brack-transformer/src/transform.rs L19-21 and the same for the other
nodes. -/
def auxStepsL : List CST → Nat
  | [] => 0
  | c :: cs => auxSteps c + auxStepsL cs

end

/-- `transform`, crates/brack-transformer/src/transform.rs L12-68. -/
def transformSteps (c : CST) : Nat :=
  1 + simplifySteps c +
  match simplify c with
  | .ok (d, _) => auxSteps d
  | _ => 0

end Brack
