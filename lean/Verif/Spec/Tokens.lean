import Verif.Model.Segment

/-
Specification vocabulary for token lists: how tokens are spelled in the source, where they are.
-/

namespace Brack

/-- The character of an opening bracket. -/
def Bracket.openChar : Bracket → Char
  | .angle => '<'
  | .curly => '{'
  | .square => '['

/-- The character of a closing bracket. -/
def Bracket.closeChar : Bracket → Char
  | .angle => '>'
  | .curly => '}'
  | .square => ']'

/-- How a token is written in the source text. -/
def TokKind.spelling : TokKind → Str
  | .empty => []
  | .text s => s
  | .module s => s
  | .ident s => s
  | .newLine => ['\n']
  | .whiteSpace => [' ']
  | .dot => ['.']
  | .backSlash => ['\\']
  | .bopen b => [b.openChar]
  | .bclose b => [b.closeChar]
  | .comma => [',']
  | .eof => []

/-- The source text of a token list. -/
def spell (toks : List Token) : Str := toks.flatMap (fun t => t.kind.spelling)

/-- The tokens tile the text from position `p` on: each token starts where the previous one ended
(column 0 of the next line after a newline token), stays on its line, and is as wide as the number
of grapheme clusters of its spelling. -/
def Tiles (S : Segmenter) : Pos → List Token → Prop
  | _, [] => True
  | p, t :: ts =>
    t.loc.start = p ∧
    t.loc.stop = ⟨p.line, p.character + (S.graphemes t.kind.spelling).length⟩ ∧
    Tiles S (if t.kind = .newLine then ⟨p.line + 1, 0⟩ else t.loc.stop) ts

/-- The position reached after reading `s`: the number of line feeds, and the number of clusters
after the last line feed. -/
def posAfter (S : Segmenter) (s : Str) : Pos where
  line := s.count '\n'
  character := (S.graphemes (s.reverse.takeWhile (· ≠ '\n')).reverse).length

/-- The number of opening minus closing bracket tokens. -/
def depth (toks : List Token) : Int :=
  (toks.map (fun t => match t.kind with
    | .bopen _ => (1 : Int)
    | .bclose _ => -1
    | _ => 0)).sum

/-- Is a name due? Yes after an opening bracket, no more after an identifier; `due` is the answer
before the list. -/
def nameDue (due : Bool) : List Token → Bool
  | [] => due
  | t :: ts =>
    match t.kind with
    | .bopen _ => nameDue true ts
    | .ident _ => nameDue false ts
    | _ => nameDue due ts

/-- Characters with a meaning in brack outside brackets. -/
def specialChars : List Char := ['\\', '<', '>', '{', '}', '[', ']', '\n', Char.ofNat 0]

/-- The closing bracket characters. -/
def closeChars : List Char := ['>', '}', ']']

end Brack
