import Verif.Spec.Tokens
import Verif.Model.Transform
import Verif.Model.Segment

/-
Vocabulary for C126: exchanging kinds of brackets in texts, tokens, trees and errors. `x` tells which kind comes in place of
which.
-/

namespace Brack

/-- A character, with the brackets exchanged. -/
def exchangeChar (x : Bracket → Bracket) (c : Char) : Char :=
  if c = '<' then (x .angle).openChar
  else if c = '>' then (x .angle).closeChar
  else if c = '{' then (x .curly).openChar
  else if c = '}' then (x .curly).closeChar
  else if c = '[' then (x .square).openChar
  else if c = ']' then (x .square).closeChar
  else c

/-- A text, with the brackets exchanged. -/
def exchangeStr (x : Bracket → Bracket) (s : Str) : Str := s.map (exchangeChar x)

/-- Brackets are segmented alike: the exchange changes no boundary. -/
def Segmenter.Exchanges (S : Segmenter) (x : Bracket → Bracket) : Prop :=
  ∀ s, S.graphemes (exchangeStr x s) = (S.graphemes s).map (exchangeStr x)

def TokKind.exchange (x : Bracket → Bracket) : TokKind → TokKind
  | .bopen b => .bopen (x b)
  | .bclose b => .bclose (x b)
  | .text s => .text (exchangeStr x s)
  | .module s => .module (exchangeStr x s)
  | .ident s => .ident (exchangeStr x s)
  | k => k

/-- A token, with the brackets exchanged; it stands at the same place. -/
def Token.exchange (x : Bracket → Bracket) (t : Token) : Token := ⟨t.kind.exchange x, t.loc⟩

def LKind.exchange (x : Bracket → Bracket) : LKind → LKind
  | .bopen b => .bopen (x b)
  | .bclose b => .bclose (x b)
  | .text s => .text (exchangeStr x s)
  | .module s => .module (exchangeStr x s)
  | .ident s => .ident (exchangeStr x s)
  | k => k

def IKind.exchange (x : Bracket → Bracket) : IKind → IKind
  | .bracket b => .bracket (x b)
  | k => k

mutual

/-- A concrete tree, with the brackets exchanged; all places remain. -/
def CST.exchange (x : Bracket → Bracket) : CST → CST
  | .leaf k l => .leaf (k.exchange x) l
  | .node k cs l => .node (k.exchange x) (CST.exchangeL x cs) l

def CST.exchangeL (x : Bracket → Bracket) : List CST → List CST
  | [] => []
  | c :: cs => c.exchange x :: CST.exchangeL x cs

end

def AKind.exchange (x : Bracket → Bracket) : AKind → AKind
  | .bracket b => .bracket (x b)
  | k => k

mutual

/-- An abstract tree, with the brackets exchanged; all places and identifiers remain. -/
def AST.exchange (x : Bracket → Bracket) : AST → AST
  | .leaf k i v l => .leaf k i (v.map (exchangeStr x)) l
  | .node k i as l => .node (k.exchange x) i (AST.exchangeL x as) l

def AST.exchangeL (x : Bracket → Bracket) : List AST → List AST
  | [] => []
  | a :: as => a.exchange x :: AST.exchangeL x as

end

def TErrKind.exchange (x : Bracket → Bracket) : TErrKind → TErrKind
  | .notOpened b => .notOpened (x b)
  | .notClosed b => .notClosed (x b)
  | k => k

/-- An error, with the brackets exchanged; it is reported at the same place. -/
def TErr.exchange (x : Bracket → Bracket) (e : TErr) : TErr := ⟨e.kind.exchange x, e.loc⟩

/-- An outcome with the result changed. -/
def Res.map (f : α → β) : Res α → Res β
  | .ok a => .ok (f a)
  | .err m => .err m
  | .panic => .panic

/-- Square brackets for curly ones and the other way around. -/
def Bracket.other : Bracket → Bracket
  | .angle => .angle
  | .curly => .square
  | .square => .curly

/-- Each kind for the next one. -/
def Bracket.turn : Bracket → Bracket
  | .angle => .curly
  | .curly => .square
  | .square => .angle

end Brack
