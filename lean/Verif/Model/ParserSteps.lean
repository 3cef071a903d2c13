import Verif.Model.Parser
import Verif.Spec.Nesting

/-
The parser with its steps counted. The functions are those of `Model/Parser.lean` with the same control
flow; beside the result they give the number of steps taken: one for each call of a parsing function, and
`w` for each node copied by `CST::add`, whose first line is `node.children.push(cst.clone())`
(crates/brack-parser/src/cst.rs L152). With `w = 0` only the calls are counted. `Proof/ParserSteps.lean`
shows that the results are those of the parser. Simplified: making an error message, a leaf or an
identifier counts as part of the call in which it happens.
-/

namespace Brack

/-- A result and the number of steps taken for it; the result is crates/brack-parser/src/parser.rs L4. -/
abbrev Steps (α : Type) := Res α × Nat

/-- Further steps, e.g. the call of the function itself. The counter is not in the source. -/
def Steps.tick (k : Nat) (x : Steps α) : Steps α := (x.1, k + x.2)

/-- The next alternative, e.g. crates/brack-parser/src/expr.rs L14-40: the steps of an attempt that failed
count as well. -/
def Steps.orElse (x : Steps α) (y : Unit → Steps α) : Steps α :=
  match x.1 with
  | .ok a => (.ok a, x.2)
  | .err _ => ((y ()).1, x.2 + (y ()).2)
  | .panic => (.panic, x.2)

/-- `?` and `if let Ok`, e.g. crates/brack-parser/src/angle.rs L20: the steps add up. -/
def Steps.bind (x : Steps α) (f : α → Steps β) : Steps β :=
  match x.1 with
  | .ok a => ((f a).1, x.2 + (f a).2)
  | .err m => (.err m, x.2)
  | .panic => (.panic, x.2)

/-- `escaped::parse`, crates/brack-parser/src/escaped.rs L13-77; L67 copies the children. -/
def escapedS (w : Nat) (ts : List Token) : Steps (CST × List Token) :=
  (pEscaped ts, match pEscaped ts with
    | .ok (c, _) => 1 + w * (c.size - 1)
    | _ => 1)

/-- `angle::parse`, `curly::parse`, `square::parse`: crates/brack-parser/src/angle.rs L11-80, curly.rs
L11-80, square.rs L11-80. The calls are the function itself, the one for the opening bracket (L20) and the
one for the closing bracket (L41); the brackets are added on L21 and L42, the children in `body`. -/
def bracketOfS (w : Nat) (b : Bracket) (body : List Token → Steps (List CST × List Token))
    (ts : List Token) : Steps (CST × List Token) :=
  match ts with
  | [] => (.err "Expected bracket open token, found none", 1)
  | t :: ts =>
    if t.kind = .bopen b then
      ((body ts).bind fun x =>
        match x.2 with
        | [] => (.err "Expected even at worst EOF, found none", 0)
        | u :: us =>
          let result := (CST.leaf (.bopen b) t.loc :: x.1).foldl CST.add (CST.new (.bracket b))
          if u.kind = .bclose b then
            (.ok ((result.add (.leaf (.bclose b) u.loc)).setLoc ⟨t.loc.start, u.loc.stop⟩, us), 1 + w)
          else
            (.ok (result.setLoc ⟨t.loc.start, u.loc.stop⟩, u :: us), 1)).tick (2 + w)
    else (.err "Expected bracket open token, found another token", 2)

/-- `bracket::parse`, crates/brack-parser/src/bracket.rs L7-16. -/
def bracketS (w : Nat) (body : List Token → Steps (List CST × List Token)) (ts : List Token) :
    Steps (CST × List Token) :=
  ((bracketOfS w .angle body ts).orElse fun _ =>
    (bracketOfS w .curly body ts).orElse fun _ =>
    (bracketOfS w .square body ts).orElse fun _ =>
    (.err "Expected angle, curly, or square bracket, found none", 0)).tick 1

/-- One iteration of the loop of `expr::parse`, crates/brack-parser/src/expr.rs L14-40. -/
def exprItemS (w : Nat) (body : List Token → Steps (List CST × List Token)) (ts : List Token) :
    Steps (CST × List Token) :=
  (escapedS w ts).orElse fun _ =>
  Steps.orElse (pModule ts, 1) fun _ =>
  Steps.orElse (pIdent ts, 1) fun _ =>
  (bracketS w body ts).orElse fun _ =>
  Steps.orElse (pDot ts, 1) fun _ =>
  Steps.orElse (pComma ts, 1) fun _ =>
  Steps.orElse (pWhitespace ts, 1) fun _ =>
  (pText ts, 1)

/-- `expr::parse` after its loop, crates/brack-parser/src/expr.rs L9-54; `items` is the loop. -/
def exprOfS (items : List Token → Steps (List CST × List Token)) (ts : List Token) : Steps (CST × List Token) :=
  ((items ts).bind fun x =>
    match x.1 with
    | [] => (.err "Expected escaped, module, ident, bracket, dot, comma, whitespace, or text, found none", 0)
    | c :: cs =>
      (.ok ((x.1.foldl CST.add (CST.new .expr)).setLoc
        ⟨c.loc.start, ((c :: cs).getLast (by simp)).loc.stop⟩, x.2), 0)).tick 1

mutual

/-- The loop of `expr::parse`, crates/brack-parser/src/expr.rs L13-41: each tree is added, and with that
copied. -/
def exprItemsS (w : Nat) (fuel : Nat) (ts : List Token) : Steps (List CST × List Token) :=
  match fuel with
  | 0 => (.panic, 0)
  | n + 1 =>
    match exprItemS w (bodyItemsS w n) ts with
    | (.ok (c, ts'), k) =>
      ((exprItemsS w n ts').bind fun x => (.ok (c :: x.1, x.2), 0)).tick (k + w * c.size)
    | (.err _, k) => (.ok ([], ts), k)
    | (.panic, k) => (.panic, k)

/-- The loop of `angle::parse` (and curly, square), crates/brack-parser/src/angle.rs L23-33: each tree is
added, and with that copied. -/
def bodyItemsS (w : Nat) (fuel : Nat) (ts : List Token) : Steps (List CST × List Token) :=
  match fuel with
  | 0 => (.panic, 0)
  | n + 1 =>
    match (exprOfS (exprItemsS w n) ts).orElse fun _ => (pNewline ts, 1) with
    | (.ok (c, ts'), k) =>
      ((bodyItemsS w n ts').bind fun x => (.ok (c :: x.1, x.2), 0)).tick (k + w * c.size)
    | (.err _, k) => (.ok ([], ts), k)
    | (.panic, k) => (.panic, k)

end

/-- `expr_or_close::parse`, crates/brack-parser/src/expr_or_close.rs L7-14. -/
def exprOrCloseS (w : Nat) (ts : List Token) : Steps (CST × List Token) :=
  ((exprOfS (fun ts => exprItemsS w (2 * ts.length + 1) ts) ts).orElse fun _ =>
    Steps.orElse (pBracketClose ts, 1) fun _ =>
    (.err "Expected expr or bracket close, found none", 0)).tick 1

/-- The loop of `stmt::parse`, crates/brack-parser/src/stmt.rs L11-21. -/
def stmtItemsS (w : Nat) (fuel : Nat) (ts : List Token) : Steps (List CST × List Token) :=
  match fuel with
  | 0 => (.panic, 0)
  | n + 1 =>
    match pNewline ts with
    | .ok (c1, ts1) =>
      match exprOrCloseS w ts1 with
      | (.ok (c2, ts2), k) =>
        ((stmtItemsS w n ts2).bind fun x => (.ok (c1 :: c2 :: x.1, x.2), 0)).tick
          (1 + k + w * c1.size + w * c2.size)
      | (.err _, k) => (.ok ([], ts), 1 + k)
      | (.panic, k) => (.panic, 1 + k)
    | _ => (.ok ([], ts), 1)

/-- `stmt::parse`, crates/brack-parser/src/stmt.rs L6-24. -/
def stmtS (w : Nat) (ts : List Token) : Steps (CST × List Token) :=
  ((exprOrCloseS w ts).bind fun x =>
    ((stmtItemsS w (x.2.length + 1) x.2).bind fun y =>
      (.ok ((x.1 :: y.1).foldl CST.add (CST.new .stmt), y.2), 0)).tick (w * x.1.size)).tick 1

/-- The calls of `newline::parse` in `while let Ok(..) = newline::parse(..)`,
crates/brack-parser/src/parse.rs L32-35, L48-51: one for each line break, and the one that ends the loop. -/
def newlinesS (ts : List Token) : Nat := (newlines ts).1.length + 1

/-- The main loop of `parse`, crates/brack-parser/src/parse.rs L14-41; the trees of an iteration are added
on L38-40 only, if it has not been left. -/
def docItemsS (w : Nat) (fuel : Nat) (ts : List Token) : Steps (List CST × List Token) :=
  match fuel with
  | 0 => (.panic, 0)
  | n + 1 =>
    match stmtS w ts with
    | (.ok (c1, ts1), k) =>
      match pNewline ts1 with
      | .ok (c2, ts2) =>
        ((docItemsS w n (newlines ts2).2).bind fun x => (.ok (c1 :: c2 :: (newlines ts2).1 ++ x.1, x.2), 0)).tick
          (k + 1 + newlinesS ts2 + w * CST.sizeL (c1 :: c2 :: (newlines ts2).1))
      | _ => (.ok ([], ts), k + 1)
    | (.err _, k) => (.ok ([], ts), k)
    | (.panic, k) => (.panic, k)

/-- `if let Ok(..) = stmt::parse(tokens) {..}`, crates/brack-parser/src/parse.rs L43-46. -/
def optStmtS (w : Nat) (ts : List Token) : Steps (List CST × List Token) :=
  match stmtS w ts with
  | (.ok (c, r), k) => (.ok ([c], r), k + w * c.size)
  | (.err _, k) => (.ok ([], ts), k)
  | (.panic, k) => (.panic, k)

/-- `parse`, crates/brack-parser/src/parse.rs L10-57. -/
def parseS (w : Nat) (ts : List Token) : Steps CST :=
  ((docItemsS w (ts.length + 1) ts).bind fun x =>
    (optStmtS w x.2).bind fun y =>
      (Steps.bind (pEof (newlines y.2).2, 1) fun z =>
        (.ok ((x.1 ++ y.1 ++ (newlines y.2).1 ++ [z.1]).foldl CST.add (CST.new .document)), w * z.1.size)).tick
        (newlinesS y.2 + w * CST.sizeL (newlines y.2).1)).tick 1

end Brack
