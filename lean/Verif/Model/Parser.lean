import Verif.Model.Cst

/-
Model of crates/brack-parser. A parser takes the remaining tokens and returns a tree and the tokens
left (`Parser`, crates/brack-parser/src/parser.rs L4). Error messages are reduced to their fixed
part. Loops and mutual recursion run on a fuel argument; `Proof/ParserTotal.lean` shows that the fuel
supplied by `pExprItems`, `stmt` and `parse` is never exhausted, so these functions
satisfy the unbounded equations of the source.
-/

namespace Brack

/-- Result of a parser: tree and remaining tokens, crates/brack-parser/src/parser.rs L4. -/
abbrev PRes := Res (CST × List Token)

/-- `if let Ok(..) = p { return .. } else ..`: try the next alternative on `Err`; panics propagate. E.g.
crates/brack-parser/src/expr.rs L14-40, bracket.rs L8-15. -/
def Res.orElse (x : Res α) (y : Unit → Res α) : Res α :=
  match x with
  | .ok a => .ok a
  | .err _ => y ()
  | .panic => .panic

/-- The leaf parsers accept a single token of one kind; this is their common shape,
crates/brack-parser/src/modules.rs L7-17 and the files below. -/
def leafParser (f : TokKind → Option LKind) (msg : String) (ts : List Token) : PRes :=
  match ts with
  | [] => .err (msg ++ ", found none")
  | t :: ts =>
    match f t.kind with
    | some k => .ok (.leaf k t.loc, ts)
    | none => .err (msg ++ ", found another token")

/-- `modules::parse`, crates/brack-parser/src/modules.rs L7-17. -/
def pModule : List Token → PRes :=
  leafParser (fun | .module s => some (.module s) | _ => none) "Expected module token"

/-- `ident::parse`, crates/brack-parser/src/ident.rs L7-17. -/
def pIdent : List Token → PRes :=
  leafParser (fun | .ident s => some (.ident s) | _ => none) "Expected ident token"

/-- `text::parse`, crates/brack-parser/src/text.rs L7-17. -/
def pText : List Token → PRes :=
  leafParser (fun | .text s => some (.text s) | _ => none) "Expected text token"

/-- `dot::parse`, crates/brack-parser/src/dot.rs L7-17. -/
def pDot : List Token → PRes :=
  leafParser (fun | .dot => some .dot | _ => none) "Expected dot token"

/-- `comma::parse`, crates/brack-parser/src/comma.rs L6-16. -/
def pComma : List Token → PRes :=
  leafParser (fun | .comma => some .comma | _ => none) "Expected comma token"

/-- `whitespace::parse`, crates/brack-parser/src/whitespace.rs L7-17. -/
def pWhitespace : List Token → PRes :=
  leafParser (fun | .whiteSpace => some .whitespace | _ => none) "Expected whitespace token"

/-- `newline::parse`, crates/brack-parser/src/newline.rs L7-17. -/
def pNewline : List Token → PRes :=
  leafParser (fun | .newLine => some .newline | _ => none) "Expected newline"

/-- `eof::parse`, crates/brack-parser/src/eof.rs L7-17. -/
def pEof : List Token → PRes :=
  leafParser (fun | .eof => some .eof | _ => none) "Expected eof token"

/-- `bracket_close::parse`, crates/brack-parser/src/bracket_close.rs L10-26. -/
def pBracketClose : List Token → PRes :=
  leafParser (fun | .bclose b => some (.bclose b) | _ => none) "Expected bracket close token"

/-- The text standing for an escaped token, or `none` if the token cannot be escaped;
crates/brack-parser/src/escaped.rs L19-57. -/
def escapable : TokKind → Option Str
  | .backSlash => some ['\\']
  | .bopen .angle => some ['<']
  | .bclose .angle => some ['>']
  | .bopen .curly => some ['{']
  | .bclose .curly => some ['}']
  | .bopen .square => some ['[']
  | .bclose .square => some [']']
  | .dot => some ['.']
  | .comma => some [',']
  | _ => none

/-- `escaped::parse`, crates/brack-parser/src/escaped.rs L13-77. A backslash that is the very last
token makes `&tokens[1..]` on L71 slice an empty slice: a panic. -/
def pEscaped (ts : List Token) : PRes :=
  match ts with
  | [] => .err "Expected backslash, found none"
  | t :: ts =>
    match t.kind with
    | .backSlash =>
      match ts with
      | u :: us =>
        match escapable u.kind with
        | some v => .ok (.node .backSlash [.leaf (.text v) u.loc] t.loc, us)
        | none => .ok (.node .backSlash [] t.loc, u :: us)
      | [] => .panic
    | _ => .err "Expected backslash, found another token"

/-- `angle::parse`, `curly::parse`, `square::parse`: crates/brack-parser/src/angle.rs L11-80,
curly.rs L11-80, square.rs L11-80, which differ in the bracket kind only. `body` is the loop of
L23-33. -/
def bracketOf (b : Bracket) (body : List Token → Res (List CST × List Token))
    (ts : List Token) : PRes :=
  match ts with
  | [] => .err "Expected bracket open token, found none"
  | t :: ts =>
    if t.kind = .bopen b then
      match body ts with
      | .ok (cs, r) =>
        match r with
        | [] => .err "Expected even at worst EOF, found none"
        | u :: us =>
          let result := (CST.leaf (.bopen b) t.loc :: cs).foldl CST.add (CST.new (.bracket b))
          if u.kind = .bclose b then
            .ok ((result.add (.leaf (.bclose b) u.loc)).setLoc ⟨t.loc.start, u.loc.stop⟩, us)
          else
            .ok (result.setLoc ⟨t.loc.start, u.loc.stop⟩, u :: us)
      | .err m => .err m
      | .panic => .panic
    else .err "Expected bracket open token, found another token"

/-- `bracket::parse`, crates/brack-parser/src/bracket.rs L7-16. -/
def pBracket (body : List Token → Res (List CST × List Token)) (ts : List Token) : PRes :=
  (bracketOf .angle body ts).orElse fun _ =>
  (bracketOf .curly body ts).orElse fun _ =>
  (bracketOf .square body ts).orElse fun _ =>
  .err "Expected angle, curly, or square bracket, found none"

/-- One iteration of the loop of `expr::parse`, crates/brack-parser/src/expr.rs L14-40. -/
def exprItem (body : List Token → Res (List CST × List Token)) (ts : List Token) : PRes :=
  (pEscaped ts).orElse fun _ =>
  (pModule ts).orElse fun _ =>
  (pIdent ts).orElse fun _ =>
  (pBracket body ts).orElse fun _ =>
  (pDot ts).orElse fun _ =>
  (pComma ts).orElse fun _ =>
  (pWhitespace ts).orElse fun _ =>
  pText ts

/-- `expr::parse` after its loop, crates/brack-parser/src/expr.rs L9-54; `items` is the loop. -/
def exprOf (items : List Token → Res (List CST × List Token)) (ts : List Token) : PRes :=
  match items ts with
  | .ok (cs, r) =>
    match cs with
    | [] => .err "Expected escaped, module, ident, bracket, dot, comma, whitespace, or text, found none"
    | c :: cs' =>
      .ok ((cs.foldl CST.add (CST.new .expr)).setLoc
        ⟨c.loc.start, ((c :: cs').getLast (by simp)).loc.stop⟩, r)
  | .err m => .err m
  | .panic => .panic

mutual

/-- The loop of `expr::parse`, crates/brack-parser/src/expr.rs L13-41: the children collected. -/
def exprItems (fuel : Nat) (ts : List Token) : Res (List CST × List Token) :=
  match fuel with
  | 0 => .panic
  | n + 1 =>
    match exprItem (bodyItems n) ts with
    | .ok (c, ts') =>
      match exprItems n ts' with
      | .ok (cs, r) => .ok (c :: cs, r)
      | .err m => .err m
      | .panic => .panic
    | .err _ => .ok ([], ts)
    | .panic => .panic

/-- The loop of `angle::parse` (and curly, square), crates/brack-parser/src/angle.rs L23-33: the
children collected after the opening bracket. -/
def bodyItems (fuel : Nat) (ts : List Token) : Res (List CST × List Token) :=
  match fuel with
  | 0 => .panic
  | n + 1 =>
    match (exprOf (exprItems n) ts).orElse fun _ => pNewline ts with
    | .ok (c, ts') =>
      match bodyItems n ts' with
      | .ok (cs, r) => .ok (c :: cs, r)
      | .err m => .err m
      | .panic => .panic
    | .err _ => .ok ([], ts)
    | .panic => .panic

end

/-- The loop of `expr::parse` with enough fuel, crates/brack-parser/src/expr.rs L13-41. -/
def pExprItems (ts : List Token) : Res (List CST × List Token) := exprItems (2 * ts.length + 1) ts

/-- The loop of the bracket parsers with enough fuel, crates/brack-parser/src/angle.rs L23-33. Only for the examples of
Verif/Conform.lean: `parse` does not call it, and no theorem is about it. -/
def pBodyItems (ts : List Token) : Res (List CST × List Token) := bodyItems (2 * ts.length + 2) ts

/-- `expr::parse`, crates/brack-parser/src/expr.rs L9-54. -/
def pExpr (ts : List Token) : PRes := exprOf pExprItems ts

/-- `expr_or_close::parse`, crates/brack-parser/src/expr_or_close.rs L7-14. -/
def pExprOrClose (ts : List Token) : PRes :=
  (pExpr ts).orElse fun _ =>
  (pBracketClose ts).orElse fun _ =>
  .err "Expected expr or bracket close, found none"

/-- The loop of `stmt::parse`, crates/brack-parser/src/stmt.rs L11-21. -/
def stmtItems (fuel : Nat) (ts : List Token) : Res (List CST × List Token) :=
  match fuel with
  | 0 => .panic
  | n + 1 =>
    match pNewline ts with
    | .ok (c1, ts1) =>
      match pExprOrClose ts1 with
      | .ok (c2, ts2) =>
        match stmtItems n ts2 with
        | .ok (cs, r) => .ok (c1 :: c2 :: cs, r)
        | .err m => .err m
        | .panic => .panic
      | .err _ => .ok ([], ts)
      | .panic => .panic
    | _ => .ok ([], ts)

/-- `stmt::parse`, crates/brack-parser/src/stmt.rs L6-24. -/
def pStmt (ts : List Token) : PRes :=
  match pExprOrClose ts with
  | .ok (c, ts1) =>
    match stmtItems (ts1.length + 1) ts1 with
    | .ok (cs, r) => .ok ((c :: cs).foldl CST.add (CST.new .stmt), r)
    | .err m => .err m
    | .panic => .panic
  | .err m => .err m
  | .panic => .panic

/-- `while let Ok(..) = newline::parse(..)`, crates/brack-parser/src/parse.rs L32-35, L48-51. -/
def newlines : List Token → List CST × List Token
  | [] => ([], [])
  | t :: ts =>
    match pNewline (t :: ts) with
    | .ok (c, _) => (c :: (newlines ts).1, (newlines ts).2)
    | _ => ([], t :: ts)

/-- The main loop of `parse`, crates/brack-parser/src/parse.rs L14-41: the children collected. -/
def docItems (fuel : Nat) (ts : List Token) : Res (List CST × List Token) :=
  match fuel with
  | 0 => .panic
  | n + 1 =>
    match pStmt ts with
    | .ok (c1, ts1) =>
      match pNewline ts1 with
      | .ok (c2, ts2) =>
        match docItems n (newlines ts2).2 with
        | .ok (cs, r) => .ok (c1 :: c2 :: (newlines ts2).1 ++ cs, r)
        | .err m => .err m
        | .panic => .panic
      | _ => .ok ([], ts)
    | .err _ => .ok ([], ts)
    | .panic => .panic

/-- `if let Ok(..) = stmt::parse(tokens) {..}`, crates/brack-parser/src/parse.rs L43-46: the
children added. -/
def optStmt (ts : List Token) : Res (List CST × List Token) :=
  match pStmt ts with
  | .ok (c, r) => .ok ([c], r)
  | .err _ => .ok ([], ts)
  | .panic => .panic

/-- `parse`, crates/brack-parser/src/parse.rs L10-57. -/
def parse (ts : List Token) : Res CST :=
  match docItems (ts.length + 1) ts with
  | .ok (cs, ts1) =>
    match optStmt ts1 with
    | .ok (cs2, ts2) =>
      match pEof (newlines ts2).2 with
      | .ok (c, _) =>
        .ok ((cs ++ cs2 ++ (newlines ts2).1 ++ [c]).foldl CST.add (CST.new .document))
      | .err m => .err m
      | .panic => .panic
    | .err m => .err m
    | .panic => .panic
  | .err m => .err m
  | .panic => .panic

end Brack
