import Verif.Model.Parser
import Verif.Model.Tokenizer
import Verif.Model.Transform
import Verif.Model.Expander
import Verif.Model.Codegen

/-
The stages run one after the other, as `brack compile` and `brack build` do.
-/

namespace Brack

/-- Tokenize, parse, transform, expand and generate: crates/brack-project-manager/src/project.rs
L137-141 and src/main.rs L113-117 at output level 5. The errors reported by transform are ignored in
both. -/
def compileText {W : Wasm} (S : Segmenter) (ids : Nat → Str) (checks : Bool) (text : Str) : PM W Str := do
  let tokens ← PM.lift (tokenizeStr S text)
  let cst ← PM.lift (parse tokens)
  let (ast, _errors) ← PM.lift (transform ids cst)
  let ast ← expander ast
  generate checks ast

end Brack
