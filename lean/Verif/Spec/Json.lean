import Verif.Model.Json

/-
Vocabulary for statements about JSON values.
-/

namespace Brack

/-- The value has no number other than integers. -/
inductive Json.Integral : Json → Prop
  | null : Integral .null
  | bool (b : Bool) : Integral (.bool b)
  | int (n : Int) : Integral (.int n)
  | str (s : Str) : Integral (.str s)
  | arr {vs : List Json} (h : ∀ v ∈ vs, Integral v) : Integral (.arr vs)
  | obj {fs : List (Str × Json)} (h : ∀ f ∈ fs, Integral f.2) : Integral (.obj fs)

end Brack
