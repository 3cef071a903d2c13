import Verif.Model.ParserSteps

/-
Specification vocabulary for the time parsing takes.
-/

namespace Brack

/-- How many functions are called to parse a list of tokens, the failing attempts included. -/
def parserCalls (ts : List Token) : Nat := (parseS 0 ts).2

/-- How many functions are called and nodes copied to parse a list of tokens. -/
def parserSteps (ts : List Token) : Nat := (parseS 1 ts).2

end Brack
