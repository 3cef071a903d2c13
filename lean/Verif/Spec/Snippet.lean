import Verif.Spec.Server
import Verif.Spec.Written

/-
Specification vocabulary for accepting a completion: what an editor makes of the text to insert.
-/

namespace Brack

/-- What a snippet becomes when something is typed where the cursor is left (`$0`), by the rules of the
protocol: a backslash before `$`, `}` or a backslash makes it an ordinary character. Other uses of `$` stand
for placeholders and variables and are not described. -/
def fillSnippet (typed : Str) : Str → Option Str
  | [] => some []
  | '\\' :: c :: s =>
    if c = '$' ∨ c = '}' ∨ c = '\\' then (fillSnippet typed s).map (c :: ·)
    else (fillSnippet typed (c :: s)).map ('\\' :: ·)
  | '$' :: '0' :: s => if s.head?.any Char.isDigit then none else (fillSnippet typed s).map (typed ++ ·)
  | '$' :: _ => none
  | c :: s => (fillSnippet typed s).map (c :: ·)

/-- What is inserted when an item is accepted and something is typed where the cursor is left. -/
def SeenItem.accepted (i : SeenItem) (typed : Str) : Option Str :=
  if i.snippet then fillSnippet typed i.insertText else none

/-- A name without characters that mean something in documents or snippets. -/
def plainName (s : Str) : Bool := plainBut ('$' :: markChars) s

end Brack
