import Verif.Spec.Ast
import Verif.Spec.Errors
import Verif.Spec.Tokens
import Verif.Model.Tokenizer
import Verif.Model.Parser
import Verif.Model.Transform
import Verif.Model.Pipeline

/-
Specification vocabulary for documents that are joined: ranges some lines further down, and texts
after which a new paragraph starts afresh.
-/

namespace Brack

/-- A position some lines further down. -/
def Pos.down (d : Nat) (p : Pos) : Pos := ⟨p.line + d, p.character⟩

/-- A range some lines further down. -/
def Loc.down (d : Nat) (l : Loc) : Loc := ⟨l.start.down d, l.stop.down d⟩

/-- The same token some lines further down. -/
def Token.down (d : Nat) (t : Token) : Token := ⟨t.kind, t.loc.down d⟩

/-- The same leaf some lines further down. -/
def Content.down (d : Nat) (c : Content) : Content := ⟨c.kind, c.value, c.loc.down d⟩

/-- The same error some lines further down; for an unclosed bracket only the start of the range is
compared. -/
def TErr.Down (d : Nat) (e e' : TErr) : Prop :=
  e'.kind = e.kind ∧ e'.loc.start = e.loc.start.down d ∧
    ((∀ b, e.kind ≠ .notClosed b) → e'.loc.stop = e.loc.stop.down d)

/-- The errors of the second list are those of the first, in order, some lines further down. -/
def TErrsDown (d : Nat) : List TErr → List TErr → Prop
  | [], [] => True
  | e :: es, e' :: es' => e.Down d e' ∧ TErrsDown d es es'
  | _, _ => False

/-- A text that can be followed by a blank line and more text: it is not empty, does not start with a
line feed, does not end in a carriage return (which would form one cluster with the line feed) and
holds no NUL (which ends a document). -/
structure Paragraph (text : Str) : Prop where
  notEmpty : text ≠ []
  noLeadingLine : text.head? ≠ some '\n'
  noCr : ∀ t, text ≠ t ++ ['\r']
  noNul : Char.ofNat 0 ∉ text

/-- After these tokens nothing is pending: as many closing as opening bracket tokens were read, no
name is due, and every opening bracket was closed. -/
structure Settled (ts : List Token) : Prop where
  balanced : depth ts = 0
  noName : nameDue false ts = false
  allClosed : ∀ o, Event.unclosed o ∉ trace [] ts

/-- The line on which the text after a blank line starts. -/
def nextLine (ts : List Token) : Nat :=
  match ts.getLast? with
  | some e => e.loc.start.line + 2
  | none => 0

/-- The front end reads the text as this tree and reports these errors. -/
def Reads (S : Segmenter) (ids : Nat → Str) (text : Str) (a : AST) (es : List TErr) : Prop :=
  ∃ ts c, tokenizeStr S text = .ok ts ∧ parse ts = .ok c ∧ transform ids c = .ok (a, es)

/-- The texts, with a blank line between each two. -/
def joinParagraphs : List Str → Str
  | [] => []
  | [p] => p
  | p :: ps => p ++ '\n' :: '\n' :: joinParagraphs ps

/-- The texts compile one after the other, each with the plugins as the one before left them; `gens`
are the outputs. -/
inductive CompileEach {W : Wasm} (S : Segmenter) (ids : Nat → Str) (checks : Bool) :
    List Str → Plugins W → List Str → Plugins W → Prop
  | nil {ps} : CompileEach S ids checks [] ps [] ps
  | cons {p ps1 g ps2 texts gens ps3} : compileText S ids checks p ps1 = (.ok g, ps2) →
      CompileEach S ids checks texts ps2 gens ps3 → CompileEach S ids checks (p :: texts) ps1 (g :: gens) ps3

end Brack
