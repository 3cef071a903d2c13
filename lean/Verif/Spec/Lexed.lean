import Verif.Model.Basic

/-
Specification vocabulary for C131: the tokens of a text, read off its characters from left to
right. "Characters" are what a reader takes for one character (grapheme clusters).
-/

namespace Brack

/-- The signs of the language: backslash, brackets and line breaks are tokens of their own
everywhere; dots, commas and spaces only inside brackets. -/
def signKind (inside : Bool) (g : Str) : Option TokKind :=
  if g = ['\\'] then some .backSlash
  else if g = ['<'] then some (.bopen .angle)
  else if g = ['>'] then some (.bclose .angle)
  else if g = ['{'] then some (.bopen .curly)
  else if g = ['}'] then some (.bclose .curly)
  else if g = ['['] then some (.bopen .square)
  else if g = [']'] then some (.bclose .square)
  else if g = ['\n'] then some .newLine
  else if inside ∧ g = ['.'] then some .dot
  else if inside ∧ g = [','] then some .comma
  else if inside ∧ g = [' '] then some .whiteSpace
  else none

/-- Is this a closing bracket? -/
def isCloser (g : Str) : Bool := g == ['>'] || g == ['}'] || g == [']']

/-- A word goes on up to a sign, or to the end of the text (which a NUL stands for). Where a name is
due, dots and spaces end it even outside brackets. -/
def endsWord (inside due : Bool) (g : Str) : Bool :=
  (signKind inside g).isSome || g == [Char.ofNat 0] || (due && (g == ['.'] || g == [' ']))

/-- What a word is, is told by what follows it: where a name is due, the word before a dot is a
module, and the word before a space or a closing bracket is an identifier. All else is text. -/
def wordKind (due : Bool) (next : Str) (w : Str) : TokKind :=
  if due ∧ (next = [' '] ∨ isCloser next) then .ident w
  else if due ∧ next = ['.'] then .module w
  else .text w

/-- Opening brackets lead one deeper, closing brackets back. -/
def TokKind.turn : TokKind → Int
  | .bopen _ => 1
  | .bclose _ => -1
  | _ => 0

/-- A name is due after an opening bracket, until there is an identifier. -/
def TokKind.leavesDue (due : Bool) : TokKind → Bool
  | .bopen _ => true
  | .ident _ => false
  | _ => due

/-- The tokens of a text, given by its characters, read `depth` brackets deep, where a name may be
due. If a name is due and the next character but one is a closing bracket, the next character is the
name, even if it is a sign other than the backslash. -/
def lexed (depth : Int) (due : Bool) : List Str → List TokKind
  | [] => [.eof]
  | g :: gs =>
    if g = [Char.ofNat 0] then [.eof]
    else
      match (if due ∧ isCloser (gs.headD []) ∧ g ≠ ['\\'] then none
        else signKind (decide (depth > 0)) g) with
      | some k => k :: lexed (depth + k.turn) (k.leavesDue due) gs
      | none =>
        let rest := gs.dropWhile fun c => !endsWord (decide (depth > 0)) due c
        let word := gs.takeWhile fun c => !endsWord (decide (depth > 0)) due c
        let k := wordKind due (rest.headD []) (g ++ word.flatten)
        k :: lexed depth (k.leavesDue due) rest
termination_by gs => gs.length
decreasing_by
  · simp
  · have := (List.dropWhile_sublist (l := gs)
      (fun c => !endsWord (decide (depth > 0)) due c)).length_le
    simp only [List.length_cons]
    omega

end Brack
