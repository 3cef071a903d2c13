import Verif.Spec.Reports
import Verif.Spec.Ast

/-
Vocabulary for C129: the abstract tree of a document, read off its tokens.
-/

namespace Brack

/-- A piece of a command, and the tree it has if it has one. -/
abbrev ShapePart := CmdPiece × Option Shape

/-- An expression, unless there is nothing in it. -/
def filledExpr (items : List Shape) : List Shape :=
  if items.isEmpty then [] else [.node .expr items]

/-- The arguments in a list of pieces: the groups between commas, without the empty ones. `items` is the group read so far. -/
def argumentShapes (items : List Shape) : List ShapePart → List Shape
  | [] => filledExpr items
  | (.comma, _) :: ps => filledExpr items ++ argumentShapes [] ps
  | (_, s) :: ps => argumentShapes (items ++ s.toList) ps

/-- The tree of a command with these pieces in it: what stands in the first three places, which are those of the module, the dot and
the name, and the arguments. Spaces and line ends do not count. -/
def commandShape (b : Bracket) (pieces : List ShapePart) : Shape :=
  let ps := pieces.filter (·.1 ≠ .blank)
  .node (.bracket b) ((ps.take 3).filterMap (·.2) ++ argumentShapes [] (ps.drop 3))

/-- A command that was opened and not ended yet. -/
structure ShapeCmd where
  bracket : Bracket
  pieces : List ShapePart

/-- What stands outside all commands. -/
inductive Top where
  /-- the tree of a text, a useless backslash or a command -/
  | item (s : Shape)
  /-- a closing bracket that closes nothing -/
  | closing
  | newline
  /-- a dot, a comma or a space, with which no tree is made at all (C17) -/
  | loose

/-- These pieces stand outside all commands, if no command is open. -/
def outsideAll (ps : List ShapePart) : List ShapeCmd → List Top
  | [] => ps.map fun p => match p.2 with | some s => .item s | none => .loose
  | _ :: _ => []

/-- These pieces stand in the innermost command, if one is open. -/
def intoShape (ps : List ShapePart) : List ShapeCmd → List ShapeCmd
  | [] => []
  | f :: st => { f with pieces := f.pieces ++ ps } :: st

/-- A command that ends after these pieces, as a piece of the command around it. -/
def ShapeCmd.part (f : ShapeCmd) (ps : List ShapePart) : ShapePart :=
  (if f.bracket = .angle then .macro else .other, some (commandShape f.bracket (f.pieces ++ ps)))

/-- A closing bracket `b` ends the innermost commands up to the first one of its kind. If there is none it ends all commands and
closes nothing. The end of the document (no bracket) ends all commands. `ps` are the last pieces of the innermost command. -/
def endShapes (b : Option Bracket) (ps : List ShapePart) : List ShapeCmd → List Top × List ShapeCmd
  | [] => (outsideAll ps [] ++ (if b.isSome then [.closing] else []), [])
  | f :: st =>
    if b = some f.bracket then (outsideAll [f.part ps] st, intoShape [f.part ps] st) else endShapes b [f.part ps] st

/-- The piece that a token is, if it is neither a bracket nor a backslash. -/
def TokKind.shapePart (k : TokKind) : ShapePart :=
  (k.piece, match k with
    | .module v => some (.leaf .module (some v))
    | .ident v => some (.leaf .ident (some v))
    | .text v => some (.leaf .text (some v))
    | _ => none)

/-- What stands outside all commands, read off the tokens. -/
def readTops (st : List ShapeCmd) : List Token → List Top
  | [] => []
  | t :: ts =>
    match t.kind with
    | .eof | .empty => (endShapes none [] st).1
    | .bopen b => readTops (⟨b, []⟩ :: st) ts
    | .bclose b => (endShapes (some b) [] st).1 ++ readTops (endShapes (some b) [] st).2 ts
    | .newLine =>
      match st with
      | [] => .newline :: readTops [] ts
      | f :: st => readTops (intoShape [(.blank, none)] (f :: st)) ts
    | .backSlash =>
      match ts with
      | [] => []
      | u :: us =>
        match escapedChar u.kind with
        | some c =>
          outsideAll [(.other, some (.leaf .text (some [c])))] st ++
            readTops (intoShape [(.other, some (.leaf .text (some [c])))] st) us
        | none =>
          outsideAll [(.other, some (.leaf .invalid none))] st ++
            readTops (intoShape [(.other, some (.leaf .invalid none))] st) (u :: us)
    | k => outsideAll [k.shapePart] st ++ readTops (intoShape [k.shapePart] st) ts

/-- The lines. -/
def topLines : List Top → List (List Top)
  | [] => [[]]
  | .newline :: xs => [] :: topLines xs
  | x :: xs =>
    match topLines xs with
    | l :: ls => (x :: l) :: ls
    | [] => [[x]]

/-- The expression on a line, if there is one. -/
def lineExpr (l : List Top) : List Shape :=
  filledExpr (l.filterMap fun x => match x with | .item s => some s | _ => none)

/-- The statements: groups of lines that are not empty, separated by empty lines. `cur` are the expressions of the current
statement, if there is one. -/
def statementShapes (cur : Option (List Shape)) : List (List Top) → List Shape
  | [] => (cur.map (Shape.node .stmt)).toList
  | [] :: ls => (cur.map (Shape.node .stmt)).toList ++ statementShapes none ls
  | l :: ls => statementShapes (some (cur.getD [] ++ lineExpr l)) ls

/-- The abstract tree of a document, read off its tokens. -/
def outline (ts : List Token) : Shape :=
  .node .document (statementShapes none (topLines (readTops [] ts)))

end Brack
