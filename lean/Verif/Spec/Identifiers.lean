import Verif.Model.Pipeline

/-
Vocabulary for comparing two runs that draw different identifiers or meet plugins in different states.
-/

namespace Brack

/-- The relation pairs every text with at most one other, in both directions. -/
def OneToOne (r : Str → Str → Prop) : Prop :=
  (∀ a b b', r a b → r a b' → b = b') ∧ ∀ a a' b, r a b → r a' b → a = a'

mutual

/-- The two trees are equal except for the identifiers of their nodes, which are paired by `r`. -/
def AST.Renamed (r : Str → Str → Prop) : AST → AST → Prop
  | .leaf k i v l, .leaf k' i' v' l' => k = k' ∧ r i i' ∧ v = v' ∧ l = l'
  | .node k i cs l, .node k' i' cs' l' => k = k' ∧ r i i' ∧ l = l' ∧ AST.RenamedL r cs cs'
  | _, _ => False

/-- The same for lists of trees. -/
def AST.RenamedL (r : Str → Str → Prop) : List AST → List AST → Prop
  | [], [] => True
  | c :: cs, d :: ds => AST.Renamed r c d ∧ AST.RenamedL r cs ds
  | _, _ => False

end

/-- Both have succeeded, with related results, or both have failed in the same way. -/
def Res.Same (Q : α → β → Prop) : Res α → Res β → Prop
  | .ok a, .ok b => Q a b
  | .err m, .err m' => m = m'
  | .panic, .panic => True
  | _, _ => False

/-- Commands and hooks of instances in related states return the same text or error, and the states stay
related. -/
def Wasm.SameTexts (W : Wasm) (R : W.State → W.State → Prop) : Prop :=
  ∀ s t f vs, R s t →
    (W.callText s f vs).1 = (W.callText t f vs).1 ∧ R (W.callText s f vs).2 (W.callText t f vs).2

/-- Instances in related states cannot be told apart: commands return the same text or error and macros
succeed or fail alike, whatever the identifiers in the tree; the states stay related. -/
structure Wasm.Indistinct (W : Wasm) (R : W.State → W.State → Prop) : Prop where
  text : W.SameTexts R
  tree : ∀ s t f (r : Str → Str → Prop) a b i j, R s t → OneToOne r → a.Renamed r b → r i j →
    ((∃ x y, (W.callMacro s f a i).1 = .ok x ∧ (W.callMacro t f b j).1 = .ok y) ∨
      ∃ e, (W.callMacro s f a i).1 = .error e ∧ (W.callMacro t f b j).1 = .error e) ∧
    R (W.callMacro s f a i).2 (W.callMacro t f b j).2

/-- The same plugins with the same hooks, their states being related by `R`. -/
structure Plugins.Related {W : Wasm} (R : W.State → W.State → Prop) (ps qs : Plugins W) : Prop where
  documentHook : ps.documentHook = qs.documentHook
  stmtHook : ps.stmtHook = qs.stmtHook
  exprHook : ps.exprHook = qs.exprHook
  textHook : ps.textHook = qs.textHook
  plugins : ∀ n, (ps.nameToPlugin.get n = none ∧ qs.nameToPlugin.get n = none) ∨
    ∃ p q, ps.nameToPlugin.get n = some p ∧ qs.nameToPlugin.get n = some q ∧ p.signatures = q.signatures ∧
      R p.extism q.extism

end Brack
