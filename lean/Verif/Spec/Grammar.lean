import Verif.Model.Cst

/-
Specification of the concrete syntax (brack.cst.ebnf): which trees follow the grammar, which tokens
a tree stands for, and the language the parser accepts.
-/

namespace Brack

/-- The token a leaf stands for. -/
def LKind.tokKind : LKind → TokKind
  | .bopen b => .bopen b
  | .bclose b => .bclose b
  | .module v => .module v
  | .ident v => .ident v
  | .text v => .text v
  | .whitespace => .whiteSpace
  | .newline => .newLine
  | .dot => .dot
  | .comma => .comma
  | .eof => .eof
  | .invalid => .empty

/-- The characters that can be escaped and the tokens they are written as. -/
def escapes : List (Char × TokKind) :=
  [('\\', .backSlash), ('.', .dot), (',', .comma),
   ('<', .bopen .angle), ('>', .bclose .angle), ('{', .bopen .curly), ('}', .bclose .curly),
   ('[', .bopen .square), (']', .bclose .square)]

mutual

/-- The tokens of a tree, left to right: its leaves, where an escape node stands for a backslash
token followed, if it has a child, by the token of the escaped character. -/
def CST.tokens : CST → List Token
  | .leaf k l => [⟨k.tokKind, l⟩]
  | .node .backSlash [] l => [⟨.backSlash, l⟩]
  | .node .backSlash [.leaf (.text [c]) l'] l =>
    ⟨.backSlash, l⟩ :: (escapes.lookup c).toList.map (⟨·, l'⟩)
  | .node _ cs _ => CST.tokensL cs

/-- The tokens of a list of trees. -/
def CST.tokensL : List CST → List Token
  | [] => []
  | c :: cs => c.tokens ++ CST.tokensL cs

end

/-- `module | ident | dot | comma | whitespace | text`. -/
def LKind.inExpr : LKind → Bool
  | .module _ | .ident _ | .dot | .comma | .whitespace | .text _ => true
  | _ => false

mutual

/-- An item of an expression:
`escaped | module | ident | bracket | dot | comma | whitespace | text`. -/
inductive GItem : CST → Prop
  | leaf {k l} : k.inExpr = true → GItem (.leaf k l)
  | escaped {c k l l'} : (c, k) ∈ escapes →
      GItem (.node .backSlash [.leaf (.text [c]) l'] l)
  | backslash {l} : GItem (.node .backSlash [] l)
  | closed {b cs l l1 l2} : GBody cs →
      GItem (.node (.bracket b) (.leaf (.bopen b) l1 :: cs ++ [.leaf (.bclose b) l2]) l)
  | unclosed {b cs l l1} : GBody cs → GItem (.node (.bracket b) (.leaf (.bopen b) l1 :: cs) l)

/-- `(expr | newline)*`, where an expression is a non-empty sequence of items. -/
inductive GBody : List CST → Prop
  | nil : GBody []
  | expr {cs ds l} : cs ≠ [] → (∀ c ∈ cs, GItem c) → GBody ds → GBody (.node .expr cs l :: ds)
  | newline {ds l} : GBody ds → GBody (.leaf .newline l :: ds)

end

/-- `expr_or_close := bracket_close | expr`. -/
inductive GLine : CST → Prop
  | close {b l} : GLine (.leaf (.bclose b) l)
  | expr {cs l} : cs ≠ [] → (∀ c ∈ cs, GItem c) → GLine (.node .expr cs l)

/-- Children of a statement: `expr_or_close (newline expr_or_close)*`. -/
inductive GLines : List CST → Prop
  | one {c} : GLine c → GLines [c]
  | more {c cs l} : GLine c → GLines cs → GLines (c :: .leaf .newline l :: cs)

/-- Statements. -/
inductive GStmt : CST → Prop
  | mk {cs l} : GLines cs → GStmt (.node .stmt cs l)

/-- `newline*`. -/
def GNewlines (cs : List CST) : Prop := ∀ c ∈ cs, ∃ l, c = .leaf .newline l

/-- Children of a document: `(stmt newline newline+)* stmt? newline* EOF`. -/
inductive GChildren : List CST → Prop
  | more {s l1 l2 nls cs} : GStmt s → GNewlines nls → GChildren cs →
      GChildren (s :: .leaf .newline l1 :: .leaf .newline l2 :: nls ++ cs)
  | last {s nls l} : GStmt s → GNewlines nls → GChildren (s :: nls ++ [.leaf .eof l])
  | empty {nls l} : GNewlines nls → GChildren (nls ++ [.leaf .eof l])

/-- Documents. -/
inductive GDocument : CST → Prop
  | mk {cs l} : GChildren cs → GDocument (.node .document cs l)

/-- A token list is derivable from brack.cst.ebnf if it is the token list of a tree following the
grammar. -/
def Derivable (ts : List Token) : Prop := ∃ c, GDocument c ∧ c.tokens = ts

/-- Where we are outside all brackets: at the start of the document, after leading blank lines, at
the start of a later line, inside the expression of a line, or after a closing bracket standing on
a line of its own. -/
inductive LineState where
  | start | blank | fresh | items | closed
  deriving Repr, DecidableEq

/-- May an expression item occur here? -/
def LineState.allowsItem : LineState → Bool
  | .start | .fresh | .items => true
  | _ => false

/-- May a closing bracket stand here? -/
def LineState.allowsClose : LineState → Bool
  | .start | .fresh => true
  | _ => false

/-- The state after a newline. -/
def LineState.newline : LineState → LineState
  | .start | .blank => .blank
  | _ => .fresh

/-- The accepted language, by a single left-to-right scan with the stack of the brackets that are
open: inside brackets everything is allowed; a closing bracket closes the innermost open bracket of
its kind together with the (unclosed) brackets inside it; a closing bracket matching no open bracket
must be alone on its line, outside all brackets; nothing but blank lines follows a leading blank
line; EOF closes everything. -/
def accepts : List Bracket → LineState → List TokKind → Bool
  | _, _, [] => false
  | _, _, .eof :: _ => true
  | _, _, .empty :: _ => false
  | st, q, .bclose b :: ts =>
    match st.dropWhile (· ≠ b) with
    | _ :: st' => accepts st' q ts
    | [] => q.allowsClose && accepts [] .closed ts
  | [], q, .newLine :: ts => accepts [] q.newline ts
  | b :: st, q, .newLine :: ts => accepts (b :: st) q ts
  | [], q, .bopen b' :: ts => q.allowsItem && accepts [b'] .items ts
  | b :: st, q, .bopen b' :: ts => accepts (b' :: b :: st) q ts
  | [], q, .backSlash :: t :: ts =>
    q.allowsItem && if t ∈ escapes.map (·.2) then accepts [] .items ts else accepts [] .items (t :: ts)
  | b :: st, q, .backSlash :: t :: ts =>
    if t ∈ escapes.map (·.2) then accepts (b :: st) q ts else accepts (b :: st) q (t :: ts)
  | _, _, [.backSlash] => false
  | [], q, .text _ :: ts => q.allowsItem && accepts [] .items ts
  | [], q, .module _ :: ts => q.allowsItem && accepts [] .items ts
  | [], q, .ident _ :: ts => q.allowsItem && accepts [] .items ts
  | [], q, .whiteSpace :: ts => q.allowsItem && accepts [] .items ts
  | [], q, .dot :: ts => q.allowsItem && accepts [] .items ts
  | [], q, .comma :: ts => q.allowsItem && accepts [] .items ts
  | b :: st, q, .text _ :: ts => accepts (b :: st) q ts
  | b :: st, q, .module _ :: ts => accepts (b :: st) q ts
  | b :: st, q, .ident _ :: ts => accepts (b :: st) q ts
  | b :: st, q, .whiteSpace :: ts => accepts (b :: st) q ts
  | b :: st, q, .dot :: ts => accepts (b :: st) q ts
  | b :: st, q, .comma :: ts => accepts (b :: st) q ts

/-- `n` is a node of the tree `c`. -/
inductive CST.NodeOf (n : CST) : CST → Prop
  | self : NodeOf n n
  | child {k cs l c} : c ∈ cs → NodeOf n c → NodeOf n (.node k cs l)

/-- The bracket has its closing bracket. -/
def CST.isClosed : CST → Bool
  | .node (.bracket b) cs _ =>
    match cs.getLast? with
    | some (.leaf (.bclose b') _) => b = b'
    | _ => false
  | _ => false

mutual

/-- The node ends in a token of its own: it is a leaf, a backslash that escapes nothing, a closed
bracket, or an expression whose last item ends so. (Not: an expression ending in an escape or in an
unclosed bracket.) -/
def CST.endsClean : CST → Bool
  | .leaf _ _ => true
  | .node .backSlash cs _ => cs.isEmpty
  | .node (.bracket b) cs l => CST.isClosed (.node (.bracket b) cs l)
  | .node _ cs _ => CST.endsCleanL cs

/-- The last tree of the list ends in a token of its own. -/
def CST.endsCleanL : List CST → Bool
  | [] => false
  | [c] => c.endsClean
  | _ :: c :: cs => CST.endsCleanL (c :: cs)

end

mutual

/-- The node ends in an escape: it is a backslash with the escaped character, or its last item ends
so. -/
def CST.endsEscaped : CST → Bool
  | .leaf _ _ => false
  | .node .backSlash cs _ => !cs.isEmpty
  | .node (.bracket _) _ _ => false
  | .node _ cs _ => CST.endsEscapedL cs

/-- The last tree of the list ends in an escape. -/
def CST.endsEscapedL : List CST → Bool
  | [] => false
  | [c] => c.endsEscaped
  | _ :: c :: cs => CST.endsEscapedL (c :: cs)

end

mutual

/-- The node ends in an unclosed bracket: it is one, or its last item ends so. -/
def CST.endsUnclosed : CST → Bool
  | .leaf _ _ => false
  | .node .backSlash _ _ => false
  | .node (.bracket b) cs l => !CST.isClosed (.node (.bracket b) cs l)
  | .node _ cs _ => CST.endsUnclosedL cs

/-- The last tree of the list ends in an unclosed bracket. -/
def CST.endsUnclosedL : List CST → Bool
  | [] => false
  | [c] => c.endsUnclosed
  | _ :: c :: cs => CST.endsUnclosedL (c :: cs)

end

end Brack
