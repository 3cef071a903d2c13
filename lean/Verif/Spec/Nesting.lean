import Verif.Spec.Parts
import Verif.Spec.Serde
import Verif.Spec.Grammar

/-
Specification vocabulary for the size and the depth of trees.
-/

namespace Brack

/-- The number of commands open at a part, the part itself included if it is a command. -/
def openAt : Around × Part → Nat
  | (around, .command _ _) => around.length + 1
  | (around, .leaf _) => around.length

/-- The greatest number of commands open at once in a list of tokens. -/
def openMost (ts : List Token) : Nat := (tokenParts [] ts).foldr (fun p m => max (openAt p) m) 0

mutual

/-- The number of nodes on the longest way down a concrete tree. -/
def CST.height : CST → Nat
  | .leaf _ _ => 1
  | .node _ cs _ => CST.heightL cs + 1

/-- The greatest of these numbers. -/
def CST.heightL : List CST → Nat
  | [] => 0
  | c :: cs => max c.height (CST.heightL cs)

end

mutual

/-- The number of nodes of a concrete tree. -/
def CST.size : CST → Nat
  | .leaf _ _ => 1
  | .node _ cs _ => CST.sizeL cs + 1

/-- The number of nodes of several trees. -/
def CST.sizeL : List CST → Nat
  | [] => 0
  | c :: cs => c.size + CST.sizeL cs

end

mutual

/-- The number of nodes of a tree. -/
def AST.size : AST → Nat
  | .leaf _ _ _ _ => 1
  | .node _ _ cs _ => AST.sizeL cs + 1

/-- The number of nodes of several trees. -/
def AST.sizeL : List AST → Nat
  | [] => 0
  | c :: cs => c.size + AST.sizeL cs

end

end Brack
