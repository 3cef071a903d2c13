import Verif.Spec.Ast
import Verif.Spec.Errors

/-
Specification vocabulary for C138: walking through a tree with the methods of the library.
-/

namespace Brack

/-- The nodes that are met by asking nodes for their children, beginning at the root. -/
inductive AST.Met (root : AST) : AST → Prop
  | root : AST.Met root root
  | child {n c : AST} {cs : List AST} : AST.Met root n → n.children = .ok cs → c ∈ cs → AST.Met root c

/-- A node with children: they can be asked for, but it has no word. -/
def AST.IsInner (n : AST) : Prop := (∃ cs, n.children = .ok cs) ∧ n.value = .panic

/-- A node with a word, which can be asked for; but it has no children. -/
def AST.IsWord (n : AST) : Prop := (∃ w, n.value = .ok (some w)) ∧ n.children = .panic

/-- A node of which neither can be asked. -/
def AST.IsBroken (n : AST) : Prop := n.value = .panic ∧ n.children = .panic

end Brack
