import Verif.Model.TokenizerSteps
import Verif.Model.TransformSteps
import Verif.Spec.ParserSteps

/-
Specification vocabulary for the time reading a document takes.
-/

namespace Brack

/-- The steps taken to tokenize a text, to parse the tokens and to transform the tree, as far as it comes. -/
def readSteps (S : Segmenter) (text : Str) : Nat :=
  tokenizerSteps S text +
  match tokenizeStr S text with
  | .ok ts => parserSteps ts + (match parse ts with | .ok c => transformSteps c | _ => 0)
  | _ => 0

end Brack
