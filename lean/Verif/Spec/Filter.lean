import Verif.Spec.Balance

/-
Vocabulary for the statement that the texts of a document pass through the text hook.
-/

namespace Brack

/-- The text is made of texts returned by these calls, and of nothing else. -/
def Returned (earlier : List Call) (s : Str) : Prop :=
  ∃ rs : List Str, (∀ r ∈ rs, ∃ c ∈ earlier, c.output = .text r) ∧ s = rs.flatten

/-- The call of the text hook of the plugin `p` with the text `v`. -/
structure Call.Filters (c : Call) (p v : Str) : Prop where
  plugin : c.plugin = p
  command : c.command = chars! "text"
  typ : c.typ = .inline
  input : c.input = .values [.text v]

end Brack
