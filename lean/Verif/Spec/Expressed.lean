import Verif.Model.Segment

/-
Specification vocabulary: how to write a given text as a document.
-/

namespace Brack

/-- The characters that need a backslash. -/
def markupChars : List Char := ['\\', '<', '>', '{', '}', '[', ']']

/-- Is this cluster one of the opening brackets? -/
def isOpening (g : Str) : Bool := g = ['<'] || g = ['{'] || g = ['[']

/-- The line for one cluster: the cluster, after a backslash if it is one of the characters above. -/
def lineOf (g : Str) : Str :=
  if ∃ c ∈ markupChars, g = [c] then '\\' :: g ++ ['\n'] else g ++ ['\n']

/-- A document for a text: each cluster on a line of its own, after one line with a closing bracket
for each opening bracket in the text. -/
def onePerLine (S : Segmenter) (text : Str) : Str :=
  (((S.graphemes text).filter isOpening).map (fun _ => [']', '\n'])).flatten ++
    ((S.graphemes text).map lineOf).flatten

/-- Every line feed follows a carriage return and every carriage return is followed by a line feed. -/
def OnlyCrLf (text : Str) : Prop :=
  (∀ a b, text = a ++ '\n' :: b → ∃ a', a = a' ++ ['\r']) ∧
  (∀ a b, text = a ++ '\r' :: b → ∃ b', b = '\n' :: b')

/-- Every line feed follows a carriage return, there is no NUL. -/
def Tame (s : Str) : Prop := (∀ a b, s = a ++ '\n' :: b → ∃ a', a = a' ++ ['\r']) ∧ Char.ofNat 0 ∉ s

end Brack
