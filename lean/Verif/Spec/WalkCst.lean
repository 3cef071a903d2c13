import Verif.Model.CstMethods
import Verif.Spec.Grammar
import Verif.Spec.Ast
import Verif.Spec.Serde

/-
Specification vocabulary for C140: walking through a concrete tree with the methods of the library.
-/

namespace Brack

/-- The nodes that are met by asking nodes for their children, beginning at the root. -/
inductive CST.Met (root : CST) : CST → Prop
  | root : CST.Met root root
  | child {n c : CST} {cs : List CST} : CST.Met root n → n.askChildren = .ok cs → c ∈ cs → CST.Met root c

/-- The word of a token: its text, or the name of a module or a command. -/
def TokKind.word? : TokKind → Option Str
  | .text v | .module v | .ident v => some v
  | _ => none

mutual

/-- Walking through a tree from left to right, asking each node for its value or for its children, collects these values, each with
the range of its node. -/
inductive CST.Walked : CST → List (Str × Loc) → Prop
  | value {n : CST} {w : Str} : n.askValue = .ok (some w) → CST.Walked n [(w, n.loc)]
  | nothing {n : CST} : n.askValue = .ok none → CST.Walked n []
  | children {n : CST} {cs : List CST} {vs : List (Str × Loc)} : n.askChildren = .ok cs → CST.WalkedAll cs vs → CST.Walked n vs

/-- The same for nodes one after the other. -/
inductive CST.WalkedAll : List CST → List (Str × Loc) → Prop
  | nil : CST.WalkedAll [] []
  | cons {n : CST} {cs : List CST} {vs ws : List (Str × Loc)} : CST.Walked n vs → CST.WalkedAll cs ws →
    CST.WalkedAll (n :: cs) (vs ++ ws)

end

/-- A value with its range is the word of a token, or the character that a token is written with. -/
def Token.Says (t : Token) (v : Str × Loc) : Prop :=
  v.2 = t.loc ∧ (t.word? = some v.1 ∨ ∃ ch, v.1 = [ch] ∧ (ch, t.kind) ∈ escapes)

end Brack
