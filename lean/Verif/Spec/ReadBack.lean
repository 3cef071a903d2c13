import Verif.Spec.Nesting

/-
Vocabulary for statements about reading JSON output back.
-/

namespace Brack

/-- All ranges in the tree are those of a machine. -/
inductive CST.Sized : CST → Prop
  | leaf {k : LKind} {l : Loc} (h : l.Sized) : Sized (.leaf k l)
  | node {k : IKind} {cs : List CST} {l : Loc} (h : l.Sized) (hc : ∀ c ∈ cs, Sized c) : Sized (.node k cs l)

/-- What a program that uses the library reads from a text that should be the JSON of tokens. -/
def readTokens (line : Str) : Option (List Token) := (JsonText.parse line).bind (Serde.toTokens Serde.maxNesting)

/-- What it reads from a text that should be the JSON of a concrete syntax tree. -/
def readCST (line : Str) : Option (SNode CLKind IKind) :=
  (JsonText.parse line).bind (Serde.toTree Serde.cstTags Serde.maxNesting)

/-- What it reads from a text that should be the JSON of an abstract syntax tree. -/
def readAST (line : Str) : Option AST := (JsonText.parse line).bind Serde.toAST

end Brack
