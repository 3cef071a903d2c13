import Verif.Model.Serde
import Verif.Spec.Json
import Verif.Spec.JsonGrammar

/-
What the JSON form of tokens, trees, values and metadata looks like, for a reader that looks up fields by
name and does not depend on their order.
-/

namespace Brack

namespace Json

/-- The position. -/
def ShowsPos (v : Json) (p : Pos) : Prop :=
  v.get (chars! "line") = some (.int p.line) ∧ v.get (chars! "character") = some (.int p.character)

/-- The range. -/
def ShowsLoc (v : Json) (l : Loc) : Prop :=
  ∃ a b, v.get (chars! "start") = some a ∧ a.ShowsPos l.start ∧ v.get (chars! "end") = some b ∧ b.ShowsPos l.stop

/-- The string that may be missing. -/
def ShowsOption (v : Option Json) (o : Option Str) : Prop :=
  (v = none ∧ o = none) ∨ (v = some .null ∧ o = none) ∨ ∃ s, v = some (.str s) ∧ o = some s

/-- The object with this single field. -/
def Tagged (v : Json) (tag : Str) (w : Json) : Prop := v = .obj [(tag, w)]

/-- The two lists have the same length and are related element by element. -/
inductive Each {α β : Type} (R : α → β → Prop) : List α → List β → Prop
  | nil : Each R [] []
  | cons {a : α} {b : β} {as : List α} {bs : List β} (h : R a b) (ht : Each R as bs) : Each R (a :: as) (b :: bs)

end Json

/-- The tokens that have no text of their own, and their names. -/
def tokenNames : List (TokKind × Str) :=
  [(.empty, chars! "Empty"), (.newLine, chars! "NewLine"), (.whiteSpace, chars! "WhiteSpace"), (.dot, chars! "Dot"),
   (.backSlash, chars! "BackSlash"), (.comma, chars! "Comma"), (.eof, chars! "EOF"),
   (.bopen .angle, chars! "AngleBracketOpen"), (.bclose .angle, chars! "AngleBracketClose"),
   (.bopen .square, chars! "SquareBracketOpen"), (.bclose .square, chars! "SquareBracketClose"),
   (.bopen .curly, chars! "CurlyBracketOpen"), (.bclose .curly, chars! "CurlyBracketClose")]

/-- The token: `{"Comma": range}` or `{"Text": [text, range]}`. -/
inductive Json.ShowsToken (v : Json) : Token → Prop
  | plain {k : TokKind} {name : Str} {w : Json} {l : Loc} (hk : (k, name) ∈ tokenNames) (hv : v.Tagged name w)
      (hl : w.ShowsLoc l) : ShowsToken v ⟨k, l⟩
  | text {s : Str} {w : Json} {l : Loc} (hv : v.Tagged (chars! "Text") (.arr [.str s, w])) (hl : w.ShowsLoc l) :
      ShowsToken v ⟨.text s, l⟩
  | module {s : Str} {w : Json} {l : Loc} (hv : v.Tagged (chars! "Module") (.arr [.str s, w])) (hl : w.ShowsLoc l) :
      ShowsToken v ⟨.module s, l⟩
  | ident {s : Str} {w : Json} {l : Loc} (hv : v.Tagged (chars! "Ident") (.arr [.str s, w])) (hl : w.ShowsLoc l) :
      ShowsToken v ⟨.ident s, l⟩

/-- The array of these tokens. -/
def Json.ShowsTokens (v : Json) (ts : List Token) : Prop :=
  ∃ vs, v = .arr vs ∧ Json.Each Json.ShowsToken vs ts

/-- The kinds of nodes of the abstract syntax tree with children, and their names. -/
def astNodeNames : List (AKind × Str) :=
  [(.document, chars! "Document"), (.stmt, chars! "Stmt"), (.expr, chars! "Expr"), (.bracket .angle, chars! "Angle"),
   (.bracket .square, chars! "Square"), (.bracket .curly, chars! "Curly")]

/-- The kinds of leaves of the abstract syntax tree, and their names. -/
def astLeafNames : List (ALKind × Str) :=
  [(.ident, chars! "Ident"), (.module, chars! "Module"), (.text, chars! "Text"), (.invalid, chars! "Invalid"),
   (.ignored, chars! "Ignored")]

mutual
/-- The abstract syntax tree: `{"Stmt": {"id", "children", "location"}}` or `{"Text": {"id", "value",
"location"}}`. -/
inductive Json.ShowsAST : Json → AST → Prop
  | leaf {v w x : Json} {k : ALKind} {name id : Str} {value : Option Str} {l : Loc} (hk : (k, name) ∈ astLeafNames)
      (hv : v.Tagged name w) (hi : w.get (chars! "id") = some (.str id))
      (ho : Json.ShowsOption (w.get (chars! "value")) value) (hx : w.get (chars! "location") = some x)
      (hl : x.ShowsLoc l) : ShowsAST v (.leaf k id value l)
  | node {v w x : Json} {k : AKind} {name id : Str} {vs : List Json} {cs : List AST} {l : Loc}
      (hk : (k, name) ∈ astNodeNames) (hv : v.Tagged name w) (hi : w.get (chars! "id") = some (.str id))
      (hs : w.get (chars! "children") = some (.arr vs)) (hc : ShowsASTs vs cs)
      (hx : w.get (chars! "location") = some x) (hl : x.ShowsLoc l) : ShowsAST v (.node k id cs l)
/-- Several of them. -/
inductive Json.ShowsASTs : List Json → List AST → Prop
  | nil : ShowsASTs [] []
  | cons {v : Json} {vs : List Json} {a : AST} {as : List AST} (h : ShowsAST v a) (ht : ShowsASTs vs as) :
      ShowsASTs (v :: vs) (a :: as)
end

/-- The kinds of nodes of the concrete syntax tree with children, and their names. -/
def cstNodeNames : List (IKind × Str) :=
  [(.document, chars! "Document"), (.stmt, chars! "Stmt"), (.expr, chars! "Expr"), (.bracket .angle, chars! "Angle"),
   (.bracket .square, chars! "Square"), (.bracket .curly, chars! "Curly"), (.backSlash, chars! "BackSlash")]

/-- The kinds of leaves of the concrete syntax tree without text, and their names. -/
def cstLeafNames : List (LKind × Str) :=
  [(.whitespace, chars! "Whitespace"), (.newline, chars! "Newline"), (.dot, chars! "Dot"), (.comma, chars! "Comma"),
   (.eof, chars! "EOF"), (.invalid, chars! "Invalid"),
   (.bopen .angle, chars! "AngleBracketOpen"), (.bclose .angle, chars! "AngleBracketClose"),
   (.bopen .square, chars! "SquareBracketOpen"), (.bclose .square, chars! "SquareBracketClose"),
   (.bopen .curly, chars! "CurlyBracketOpen"), (.bclose .curly, chars! "CurlyBracketClose")]

/-- The name and the text of a leaf of the concrete syntax tree. -/
inductive LKind.Named : LKind → Str → Option Str → Prop
  | plain {k : LKind} {name : Str} (h : (k, name) ∈ cstLeafNames) : Named k name none
  | module (s : Str) : Named (.module s) (chars! "Module") (some s)
  | ident (s : Str) : Named (.ident s) (chars! "Ident") (some s)
  | text (s : Str) : Named (.text s) (chars! "Text") (some s)

mutual
/-- The concrete syntax tree, with some identifiers. -/
inductive Json.ShowsCST : Json → CST → Prop
  | leaf {v w x : Json} {k : LKind} {name id : Str} {value : Option Str} {l : Loc} (hk : k.Named name value)
      (hv : v.Tagged name w) (hi : w.get (chars! "id") = some (.str id))
      (ho : Json.ShowsOption (w.get (chars! "value")) value) (hx : w.get (chars! "location") = some x)
      (hl : x.ShowsLoc l) : ShowsCST v (.leaf k l)
  | node {v w x : Json} {k : IKind} {name id : Str} {vs : List Json} {cs : List CST} {l : Loc}
      (hk : (k, name) ∈ cstNodeNames) (hv : v.Tagged name w) (hi : w.get (chars! "id") = some (.str id))
      (hs : w.get (chars! "children") = some (.arr vs)) (hc : ShowsCSTs vs cs)
      (hx : w.get (chars! "location") = some x) (hl : x.ShowsLoc l) : ShowsCST v (.node k cs l)
/-- Several of them. -/
inductive Json.ShowsCSTs : List Json → List CST → Prop
  | nil : ShowsCSTs [] []
  | cons {v : Json} {vs : List Json} {a : CST} {as : List CST} (h : ShowsCST v a) (ht : ShowsCSTs vs as) :
      ShowsCSTs (v :: vs) (a :: as)
end

/-- The argument of a command. -/
inductive Json.ShowsValue (v : Json) : Value → Prop
  | text {s : Str} (h : v.Tagged (chars! "Text") (.str s)) : ShowsValue v (.text s)
  | array {ss : List Str} (h : v.Tagged (chars! "TextArray") (.arr (ss.map .str))) : ShowsValue v (.textArray ss)
  | some {s : Str} (h : v.Tagged (chars! "TextOption") (.str s)) : ShowsValue v (.textOption (some s))
  | none (h : v.Tagged (chars! "TextOption") .null) : ShowsValue v (.textOption none)

/-- The type of a parameter or a command. -/
inductive Json.ShowsType : Json → PType → Prop
  | inline : ShowsType (.str (chars! "TInline")) .inline
  | block : ShowsType (.str (chars! "TBlock")) .block
  | ast : ShowsType (.str (chars! "TAST")) .ast
  | option {v w : Json} {t : PType} (hv : v.Tagged (chars! "TOption") w) (h : ShowsType w t) : ShowsType v (.option t)
  | array {v w : Json} {t : PType} (hv : v.Tagged (chars! "TArray") w) (h : ShowsType w t) : ShowsType v (.array t)
  | inlineCmd {v : Json} {s : Str} (hv : v.Tagged (chars! "TInlineCmd") (.str s)) : ShowsType v (.inlineCmd s)
  | blockCmd {v : Json} {s : Str} (hv : v.Tagged (chars! "TBlockCmd") (.str s)) : ShowsType v (.blockCmd s)

/-- A parameter: `[name, type]`. -/
def Json.ShowsArgument (v : Json) (p : Str × PType) : Prop := ∃ t, v = .arr [.str p.1, t] ∧ t.ShowsType p.2

/-- The description of a command. -/
def Json.ShowsMetadata (v : Json) (m : Metadata) : Prop :=
  v.get (chars! "command_name") = some (.str m.commandName) ∧
  v.get (chars! "call_name") = some (.str m.callName) ∧
  (∃ vs, v.get (chars! "argument_types") = some (.arr vs) ∧ Json.Each Json.ShowsArgument vs m.argumentTypes) ∧
  (∃ t, v.get (chars! "return_type") = some t ∧ t.ShowsType m.returnType)

/-! ### Values as they are understood -/

/-- The value of a field, of a value with the fields `keys`: an object, or the array of the values of all fields. -/
inductive Json.Part (keys : List Str) (v : Json) (key : Str) : Option Json → Prop
  | field {fs : List (Str × Json)} (h : v = .obj fs) : Part keys v key (v.get key)
  | element {vs : List Json} {i : Nat} (h : v = .arr vs) (hl : vs.length = keys.length) (hi : keys[i]? = some key) :
      Part keys v key vs[i]?

/-- The position. -/
def Json.ReadsPos (v : Json) (p : Pos) : Prop :=
  let keys := [chars! "line", chars! "character"]
  v.Part keys (chars! "line") (some (.int p.line)) ∧ v.Part keys (chars! "character") (some (.int p.character))

/-- The range. -/
def Json.ReadsLoc (v : Json) (l : Loc) : Prop :=
  let keys := [chars! "start", chars! "end"]
  ∃ a b, v.Part keys (chars! "start") (some a) ∧ a.ReadsPos l.start ∧ v.Part keys (chars! "end") (some b) ∧ b.ReadsPos l.stop

mutual
/-- The abstract syntax tree. -/
inductive Json.ReadsAST : Json → AST → Prop
  | leaf {v w x : Json} {k : ALKind} {name id : Str} {o : Option Json} {value : Option Str} {l : Loc}
      (hk : (k, name) ∈ astLeafNames) (hv : v.Tagged name w)
      (hi : w.Part [chars! "id", chars! "value", chars! "location"] (chars! "id") (some (.str id)))
      (ho : w.Part [chars! "id", chars! "value", chars! "location"] (chars! "value") o) (ho' : Json.ShowsOption o value)
      (hx : w.Part [chars! "id", chars! "value", chars! "location"] (chars! "location") (some x))
      (hl : x.ReadsLoc l) : ReadsAST v (.leaf k id value l)
  | node {v w x : Json} {k : AKind} {name id : Str} {vs : List Json} {cs : List AST} {l : Loc}
      (hk : (k, name) ∈ astNodeNames) (hv : v.Tagged name w)
      (hi : w.Part [chars! "id", chars! "children", chars! "location"] (chars! "id") (some (.str id)))
      (hs : w.Part [chars! "id", chars! "children", chars! "location"] (chars! "children") (some (.arr vs)))
      (hc : ReadsASTs vs cs)
      (hx : w.Part [chars! "id", chars! "children", chars! "location"] (chars! "location") (some x))
      (hl : x.ReadsLoc l) : ReadsAST v (.node k id cs l)
/-- Several of them. -/
inductive Json.ReadsASTs : List Json → List AST → Prop
  | nil : ReadsASTs [] []
  | cons {v : Json} {vs : List Json} {a : AST} {as : List AST} (h : ReadsAST v a) (ht : ReadsASTs vs as) :
      ReadsASTs (v :: vs) (a :: as)
end

/-- The type of a parameter or a command: `"TInline"`, also written as `{"TInline": null}`, or `{"TOption": type}`. -/
inductive Json.ReadsType : Json → PType → Prop
  | shown {v : Json} {t : PType} (h : v.ShowsType t) : ReadsType v t
  | inline {v : Json} (h : v.Tagged (chars! "TInline") .null) : ReadsType v .inline
  | block {v : Json} (h : v.Tagged (chars! "TBlock") .null) : ReadsType v .block
  | ast {v : Json} (h : v.Tagged (chars! "TAST") .null) : ReadsType v .ast
  | option {v w : Json} {t : PType} (hv : v.Tagged (chars! "TOption") w) (h : ReadsType w t) : ReadsType v (.option t)
  | array {v w : Json} {t : PType} (hv : v.Tagged (chars! "TArray") w) (h : ReadsType w t) : ReadsType v (.array t)

/-- The description of a command. -/
def Json.ReadsMetadata (v : Json) (m : Metadata) : Prop :=
  let keys := [chars! "command_name", chars! "call_name", chars! "argument_types", chars! "return_type"]
  v.Part keys (chars! "command_name") (some (.str m.commandName)) ∧
  v.Part keys (chars! "call_name") (some (.str m.callName)) ∧
  (∃ vs, v.Part keys (chars! "argument_types") (some (.arr vs)) ∧
    Json.Each (fun u p => ∃ t, u = .arr [.str p.1, t] ∧ t.ReadsType p.2) vs m.argumentTypes) ∧
  (∃ t, v.Part keys (chars! "return_type") (some t) ∧ t.ReadsType m.returnType)

mutual
/-- The number of objects and arrays inside of each other. -/
def Json.depth : Json → Nat
  | .arr vs => depthArr vs + 1
  | .obj fs => depthObj fs + 1
  | _ => 0
/-- The greatest depth of these values. -/
def Json.depthArr : List Json → Nat
  | [] => 0
  | v :: vs => max v.depth (depthArr vs)
/-- The greatest depth of the values of these fields. -/
def Json.depthObj : List (Str × Json) → Nat
  | [] => 0
  | (_, v) :: fs => max v.depth (depthObj fs)
end

/-- No object has two fields with the same name. -/
inductive Json.Distinct : Json → Prop
  | null : Distinct .null
  | bool (b : Bool) : Distinct (.bool b)
  | int (n : Int) : Distinct (.int n)
  | number (t : Str) : Distinct (.number t)
  | str (s : Str) : Distinct (.str s)
  | arr {vs : List Json} (h : ∀ v ∈ vs, Distinct v) : Distinct (.arr vs)
  | obj {fs : List (Str × Json)} (hn : (fs.map (·.1)).Nodup) (h : ∀ f ∈ fs, Distinct f.2) : Distinct (.obj fs)

/-- The numbers of a range are those of the machine. -/
def Loc.Sized (l : Loc) : Prop :=
  l.start.line < 2 ^ 64 ∧ l.start.character < 2 ^ 64 ∧ l.stop.line < 2 ^ 64 ∧ l.stop.character < 2 ^ 64

/-- All ranges in the tree are those of a machine. -/
inductive AST.Sized : AST → Prop
  | leaf {k : ALKind} {i : Str} {v : Option Str} {l : Loc} (h : l.Sized) : Sized (.leaf k i v l)
  | node {k : AKind} {i : Str} {cs : List AST} {l : Loc} (h : l.Sized) (hc : ∀ c ∈ cs, Sized c) : Sized (.node k i cs l)

mutual
/-- The number of nodes on the longest way down the tree. -/
def AST.height : AST → Nat
  | .leaf _ _ _ _ => 1
  | .node _ _ cs _ => heightL cs + 1
/-- The greatest of these numbers. -/
def AST.heightL : List AST → Nat
  | [] => 0
  | c :: cs => max c.height (heightL cs)
end

/-- The bytes are the text of a JSON value. -/
def Carries (bytes : Bytes) (v : Json) : Prop :=
  ∃ text, bytes = utf8 text ∧ IsJson text v

/-- The line is the text of a JSON value. -/
def LineOf (line : Str) (v : Json) : Prop := '\n' ∉ line ∧ IsJson line v

/-- Every function of the plugin that is called with an array of a value and an identifier returns the
value. -/
def Host.Echoes (H : Host) : Prop :=
  ∀ s f input v id, Carries input (.arr [v, .str id]) → v.Integral → ∃ output s', H.call s f input = (.ok output, s') ∧
    Carries output v

end Brack
