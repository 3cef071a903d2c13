import Verif.Model.Plugin

/-
Model of crates/brack-expander.
-/

namespace Brack

/-- The loop of `expand_angle`, crates/brack-expander/src/expand.rs L9-25. -/
def macroNames (module ident : Str) : List AST → Res (Str × Str)
  | [] => .ok (module, ident)
  | .leaf .module _ v _ :: cs =>
    match v with
    | some v => macroNames v ident cs
    | none => .err "No value found"
  | .leaf .ident _ v _ :: cs =>
    match v with
    | some v => macroNames module v cs
    | none => .err "No value found"
  | _ :: cs => macroNames module ident cs

/-- `expand_angle`, crates/brack-expander/src/expand.rs L5-30; `id` and `cs` are those of the
Angle node. -/
def expandAngle {W : Wasm} (overall : AST) (id : Str) (cs : List AST) : PM W AST := do
  let (module, ident) ← PM.lift (macroNames [] [] cs)
  Plugins.callMacro module ident overall id

mutual

/-- `expand_other`, crates/brack-expander/src/expand.rs L32-53: the expanded children are computed
and dropped; `ast.children()` panics on Invalid and Ignored. -/
def expandOther {W : Wasm} (overall : AST) : AST → PM W AST
  | .leaf .text i v l => pure (.leaf .text i v l)
  | .leaf .module i v l => pure (.leaf .module i v l)
  | .leaf .ident i v l => pure (.leaf .ident i v l)
  | .leaf .invalid _ _ _ => PM.lift .panic
  | .leaf .ignored _ _ _ => PM.lift .panic
  | .node k i cs l => do
    let _ ← expandChildren overall cs
    pure (.node k i cs l)

/-- The loop of `expand_other`, crates/brack-expander/src/expand.rs L46-51. -/
def expandChildren {W : Wasm} (overall : AST) : List AST → PM W (List AST)
  | [] => pure []
  | .node (.bracket .angle) i es _ :: cs => do
    let d ← expandAngle overall i es
    let ds ← expandChildren overall cs
    pure (d :: ds)
  | c :: cs => do
    let d ← expandOther overall c
    let ds ← expandChildren overall cs
    pure (d :: ds)

end

/-- `expander`, crates/brack-expander/src/expand.rs L55-58. -/
def expander {W : Wasm} (ast : AST) : PM W AST := expandOther ast ast

end Brack
