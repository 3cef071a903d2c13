import Verif.Spec.Grammar

/-
Specification of well-formed documents on concrete trees: every backslash escapes something, every
bracket is closed and holds a command.
-/

namespace Brack

/-- The elements a command is made of. -/
inductive Elem where
  | blank | comma | dot | module | ident | angle | other
  deriving Repr, DecidableEq

mutual

/-- The elements of a tree inside a bracket, left to right; the brackets themselves do not count. -/
def CST.elems : CST → List Elem
  | .leaf .whitespace _ | .leaf .newline _ => [.blank]
  | .leaf .comma _ => [.comma]
  | .leaf .dot _ => [.dot]
  | .leaf (.module _) _ => [.module]
  | .leaf (.ident _) _ => [.ident]
  | .leaf (.bopen _) _ | .leaf (.bclose _) _ => []
  | .leaf _ _ => [.other]
  | .node (.bracket .angle) _ _ => [.angle]
  | .node .expr cs _ => CST.elemsL cs
  | .node _ _ _ => [.other]

/-- The elements of a list of trees. -/
def CST.elemsL : List CST → List Elem
  | [] => []
  | c :: cs => c.elems ++ CST.elemsL cs

end

/-- The arguments, split at the commas. -/
def splitCommas : List Elem → List (List Elem)
  | [] => [[]]
  | .comma :: es => [] :: splitCommas es
  | e :: es =>
    match splitCommas es with
    | g :: gs => (e :: g) :: gs
    | [] => [[e]]

/-- Arguments: nothing but blanks, or groups separated by commas, none of them blank; no dots. -/
def argumentsOk (es : List Elem) : Bool :=
  !es.contains .dot && (es.all (· = .blank) || (splitCommas es).all (fun g => g.any (· ≠ .blank)))

/-- A command: a module or macro, a dot, an identifier or macro, arguments. -/
def commandOk : List Elem → Bool
  | m :: .dot :: i :: rest =>
    (m = .module || m = .angle) && (i = .ident || i = .angle) && argumentsOk rest
  | _ => false

/-- Is this node in order? -/
def CST.nodeOk : CST → Bool
  | .node .backSlash cs _ => !cs.isEmpty
  | .node (.bracket b) cs l => CST.isClosed (.node (.bracket b) cs l) && commandOk (CST.elemsL cs)
  | _ => true

/-- All nodes are in order. -/
def CST.WellFormed (c : CST) : Prop := ∀ n, CST.NodeOf n c → n.nodeOk = true

end Brack
