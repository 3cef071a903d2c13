import Verif.Spec.Sources

/-
Vocabulary for the statement that nothing is lost and nothing is used twice.
-/

namespace Brack

/-- The text held by a leaf, if it is a text. -/
def Content.text? : Content → Option Str
  | ⟨.text, v, _⟩ => v
  | _ => none

/-- The texts written in a document, with each escaped character as a text of its own, in order. -/
def documentTexts (ts : List Token) : List Str :=
  ((trace [] ts).filterMap Event.content?).filterMap Content.text?

/-- The text returned by a call. -/
def Call.result? (c : Call) : Option Str :=
  match c.output with
  | .text r => some r
  | _ => none

/-- Each of the texts is some of the pieces, one after another, and all pieces are used in this way. -/
def MadeOf (texts pieces : List Str) : Prop :=
  ∃ groups : List (List Str), groups.map List.flatten = texts ∧ groups.flatten = pieces

/-- The pieces the calls were given (`uses`, one list for each call) and the pieces of the output are together the texts of
the document and the results of the calls, each exactly once. -/
def Balanced (written : List Str) (calls : List Call) (out : Str) : Prop :=
  ∃ (uses : List (List Str)) (rest : List Str), uses.length = calls.length ∧
    (∀ x ∈ calls.zip uses, MadeOf x.1.texts x.2) ∧ rest.flatten = out ∧
    (uses.flatten ++ rest).Perm (written ++ calls.filterMap Call.result?)

/-- No parameter comes after an array. -/
def ArrayEnds (ts : List PType) : Prop := ∀ (k : Nat) (t : PType), ts[k]? = some t → t.isArray = true → k + 1 = ts.length

/-- All commands have such signatures. -/
def Plugins.AllArrayEnds {W : Wasm} (ps : Plugins W) : Prop :=
  ∀ m c typ ts, ps.signature m c typ = some ts → ArrayEnds ts

end Brack
