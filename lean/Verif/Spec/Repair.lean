import Verif.Spec.Parts
import Verif.Spec.Errors
import Verif.Spec.Tokens

/-
Specification vocabulary for closing the brackets that are open at the end of a document.
-/

namespace Brack

/-- The opening brackets that are open at the end of a list of tokens, innermost first: a closing bracket closes the
innermost open bracket of its kind and all those inside of it, or all if there is none of its kind; brackets after a
backslash do not count. -/
def openAtEnd (stack : List Token) : List Token → List Token
  | [] => stack
  | t :: ts =>
    match t.kind with
    | .bopen _ => openAtEnd (t :: stack) ts
    | .bclose b => openAtEnd ((stack.dropWhile (fun o => o.kind ≠ .bopen b)).drop 1) ts
    | .backSlash =>
      match ts with
      | [] => stack
      | u :: us => if (escapedChar u.kind).isSome then openAtEnd stack us else openAtEnd stack (u :: us)
    | _ => openAtEnd stack ts

/-- The closing brackets for these opening brackets, in this order. -/
def closersOf (stack : List Token) : Str :=
  stack.filterMap fun o => o.opening?.map fun p => p.1.closeChar

end Brack
