import Verif.Spec.Ast

/-
What stands inside of what: the commands of a document and the texts and names in them, each with the brackets that
are open around it.
-/

namespace Brack

/-- The brackets around a place, innermost first: their kinds and where they are opened. -/
abbrev Around := List (Bracket × Pos)

/-- A command, given by the kind of its bracket and its start, or a leaf. -/
inductive Part where
  | command (b : Bracket) (start : Pos)
  | leaf (c : Content)
  deriving Repr, DecidableEq

mutual

/-- The commands and leaves of a tree in the order of the document, parents before children, each with the
commands around it. -/
def AST.parts (around : Around) : AST → List (Around × Part)
  | .leaf k _ v l => [(around, .leaf ⟨k, v, l⟩)]
  | .node (.bracket b) _ cs l => (around, .command b l.start) :: AST.partsL ((b, l.start) :: around) cs
  | .node _ _ cs _ => AST.partsL around cs

/-- The same for a list of trees. -/
def AST.partsL (around : Around) : List AST → List (Around × Part)
  | [] => []
  | c :: cs => c.parts around ++ AST.partsL around cs

end

/-- The same read off a list of tokens: an opening bracket begins a command; a closing bracket ends the innermost
command opened with its kind of bracket and all commands inside of it, or all commands if there is none; names and
texts are leaves, and so are escaped characters and backslashes that escape nothing. -/
def tokenParts (around : Around) : List Token → List (Around × Part)
  | [] => []
  | t :: ts =>
    match t.kind with
    | .eof | .empty => []
    | .bopen b => (around, .command b t.loc.start) :: tokenParts ((b, t.loc.start) :: around) ts
    | .bclose b => tokenParts ((around.dropWhile (fun o => o.1 ≠ b)).drop 1) ts
    | .backSlash =>
      match ts with
      | [] => [(around, .leaf ⟨.invalid, none, t.loc⟩)]
      | u :: us =>
        match escapedChar u.kind with
        | some c => (around, .leaf ⟨.text, some [c], u.loc⟩) :: tokenParts around us
        | none => (around, .leaf ⟨.invalid, none, t.loc⟩) :: tokenParts around (u :: us)
    | .module v => (around, .leaf ⟨.module, some v, t.loc⟩) :: tokenParts around ts
    | .ident v => (around, .leaf ⟨.ident, some v, t.loc⟩) :: tokenParts around ts
    | .text v => (around, .leaf ⟨.text, some v, t.loc⟩) :: tokenParts around ts
    | .dot | .comma | .whiteSpace | .newLine => tokenParts around ts

/-- The bracket and start of a command. -/
def Part.command? : Part → Option (Bracket × Pos)
  | .command b p => some (b, p)
  | .leaf _ => none

/-- The bracket and start of an opening bracket. -/
def Token.opening? : Token → Option (Bracket × Pos)
  | ⟨.bopen b, l⟩ => some (b, l.start)
  | _ => none

end Brack
