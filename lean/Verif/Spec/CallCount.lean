import Verif.Spec.Parts
import Verif.Spec.Calls

/-
Specification vocabulary for the number of calls.
-/

namespace Brack

/-- The number of opening brackets in a text. -/
def openingChars (text : Str) : Nat := text.countP (fun c => c = '<' || c = '{' || c = '[')

/-- The number of commands and macros written in a list of tokens. -/
def commandsWritten (ts : List Token) : Nat := ((tokenParts [] ts).filterMap (fun x => x.2.command?)).length

/-- The number of calls that `x` makes, starting with the plugins `ps`. -/
def callsMade {W : Wasm} (x : PM W α) (ps : Plugins W) : Nat := (x ps).2.log.length - ps.log.length

end Brack
