import Verif.Spec.Trace
import Verif.Model.Transform

/-
Vocabulary for C128: the errors of a document, read off its tokens.
-/

namespace Brack

/-- What can stand in a command. -/
inductive CmdPiece where
  | module | ident | dot | comma | blank | closing
  /-- a command with angle brackets -/
  | macro
  /-- a word, an escaped character, a backslash that escapes nothing, another command -/
  | other
  deriving Repr, DecidableEq

/-- A piece and its range. -/
abbrev CmdPart := CmdPiece × Loc

/-- An error of this kind at the piece, if there is one and it is none of these. -/
def expectPiece (allowed : List CmdPiece) (kind : TErrKind) : Option CmdPart → List TErr
  | none => []
  | some x => if x.1 ∈ allowed then [] else [⟨kind, x.2⟩]

/-- The errors in the arguments of a command. `last` is the range of the piece before; `empty`: nothing was written yet in the
current argument; `comma`: a comma ended the argument before and nothing was written since. A comma that ends an empty argument is unexpected. If the
last argument is empty and a comma stands before it, the last piece before the closing bracket is reported as an unexpected comma.
Every dot is unexpected. -/
def argumentErrors (last : Loc) (empty comma : Bool) : List CmdPart → List TErr
  | [] => []
  | (.comma, l) :: rest =>
    if empty then ⟨.unexpectedComma, l⟩ :: argumentErrors l empty comma rest else argumentErrors l true true rest
  | (.closing, _) :: _ => if empty && comma then [⟨.unexpectedComma, last⟩] else []
  | (.dot, l) :: rest => ⟨.unexpectedDot, l⟩ :: argumentErrors l empty comma rest
  | (_, l) :: rest => argumentErrors l false false rest

/-- The errors of what stands in a command, the closing bracket included if there is one: that there is no name of a module behind
the bracket, no dot behind that, no name of a command behind that (in each case a macro may stand for a name); dots behind that; and
the errors in the arguments, in which spaces and line ends do not count. -/
def contentErrors (pieces : List CmdPart) : List TErr :=
  expectPiece [.module, .macro] .moduleNotFound pieces[0]? ++
  expectPiece [.dot] .dotNotFound pieces[1]? ++
  expectPiece [.ident, .macro] .identifierNotFound pieces[2]? ++
  ((pieces.drop 2).filter (·.1 = .dot)).map (fun x => ⟨.unexpectedDot, x.2⟩) ++
  match pieces.filter (·.1 ≠ .blank) with
  | _ :: _ :: x :: rest => argumentErrors x.2 true false rest
  | _ => []

/-- The errors of a command, given by the kind of its bracket, the range of the opening bracket and the pieces in it: that it is not
closed, and the errors of its pieces. -/
def commandErrors (b : Bracket) (opening : Loc) (pieces : List CmdPart) : List TErr :=
  (if pieces.getLast?.any (·.1 = .closing) then []
    else [⟨.notClosed b, mergeLocation opening ((pieces.getLast?.map (·.2)).getD opening)⟩]) ++
  contentErrors pieces

/-- A command that was opened and not closed yet. -/
structure OpenCmd where
  bracket : Bracket
  opening : Loc
  pieces : List CmdPart
  deriving Repr, DecidableEq

/-- Pieces stand in the innermost command, if there is one. -/
def intoOpen (ps : List CmdPart) : List OpenCmd → List OpenCmd
  | [] => []
  | f :: st => { f with pieces := f.pieces ++ ps } :: st

/-- A command that ends at this token, as a piece of the command around it. -/
def OpenCmd.piece (f : OpenCmd) (t : Token) : CmdPart :=
  (if f.bracket = .angle then .macro else .other, ⟨f.opening.start, t.loc.stop⟩)

/-- The errors at the end of commands. A closing bracket `b` ends the innermost commands up to the first one of its kind, or all
commands; the end of the document (no bracket) ends all. `ps` are the last pieces of the innermost command. -/
def endCommands (t : Token) (b : Option Bracket) (ps : List CmdPart) : List OpenCmd → List TErr × List OpenCmd
  | [] => ([], [])
  | f :: st =>
    if b = some f.bracket then
      (commandErrors f.bracket f.opening (f.pieces ++ ps ++ [(.closing, t.loc)]), intoOpen [f.piece t] st)
    else
      let (es, st') := endCommands t b [f.piece t] st
      (commandErrors f.bracket f.opening (f.pieces ++ ps) ++ es, st')

/-- The piece that a token is, if it is neither a bracket nor a backslash. -/
def TokKind.piece : TokKind → CmdPiece
  | .module _ => .module
  | .ident _ => .ident
  | .dot => .dot
  | .comma => .comma
  | .whiteSpace | .newLine => .blank
  | _ => .other

/-- The errors of a document, read off its tokens: the errors of each command when it ends, and the backslashes that escape
nothing. -/
def report (st : List OpenCmd) : List Token → List TErr
  | [] => []
  | t :: ts =>
    match t.kind with
    | .eof | .empty => (endCommands t none [] st).1
    | .bopen b => report (⟨b, t.loc, []⟩ :: st) ts
    | .bclose b => (endCommands t (some b) [] st).1 ++ report (endCommands t (some b) [] st).2 ts
    | .backSlash =>
      match ts with
      | [] => [⟨.invalidBackslash, t.loc⟩]
      | u :: us =>
        match escapedChar u.kind with
        | some _ => report (intoOpen [(.other, u.loc)] st) us
        | none => ⟨.invalidBackslash, t.loc⟩ :: report (intoOpen [(.other, t.loc)] st) (u :: us)
    | k => report (intoOpen [(k.piece, t.loc)] st) ts

end Brack
