import Verif.Model.Debug
import Verif.Spec.Project
import Verif.Spec.Registry
import Verif.Spec.Serde

/-
How values are written in the debug format of Rust, for a reader: `word`, `"text"`, `[a, b]`, `Name(a, b)`,
`Name { key: a, key: b }`.
-/

namespace Brack

/-- A letter, a digit or an underscore, as in names and numbers. -/
def IsNameChar (c : Char) : Prop := c.isAlphanum = true ∨ c = '_'

/-- A character with an escape of its own. -/
def shortEscapes : List (Char × Char) :=
  [('\x00', '0'), ('\t', 't'), ('\r', 'r'), ('\n', 'n'), ('\\', '\\'), ('"', '"'), ('\'', '\'')]

/-- The text between the quotes, with escapes for some of the characters. -/
inductive Quotes : Str → Str → Prop
  | nil : Quotes [] []
  | plain {c : Char} {s t : Str} (h : c ≠ '"' ∧ c ≠ '\\') (ht : Quotes s t) : Quotes (c :: s) (c :: t)
  | short {c e : Char} {s t : Str} (h : (c, e) ∈ shortEscapes) (ht : Quotes s t) : Quotes (c :: s) ('\\' :: e :: t)
  | code {c : Char} {s t : Str} (ht : Quotes s t) :
      Quotes (c :: s) (chars! "\\u{" ++ Nat.toDigits 16 c.toNat ++ '}' :: t)

mutual
/-- The value is written so. -/
inductive DebugVal.Written : DebugVal → Str → Prop
  | word {w : Str} (h : ∀ c ∈ w, IsNameChar c) (hw : w ≠ []) : Written (.word w) w
  | str {s t : Str} (h : Quotes s t) : Written (.str s) ('"' :: (t ++ ['"']))
  | seq {vs : List DebugVal} {t : Str} (h : WrittenAll vs t) : Written (.seq vs) ('[' :: (t ++ [']']))
  | tuple {name t : Str} {vs : List DebugVal} (hn : ∀ c ∈ name, IsNameChar c) (h : WrittenAll vs t) :
      Written (.tuple name vs) (name ++ '(' :: (t ++ [')']))
  | record {name t : Str} {keys : List Str} {vs : List DebugVal} (hn : ∀ c ∈ name, IsNameChar c) (hw : name ≠ [])
      (h : WrittenFields keys vs t) : Written (.record name keys vs) (name ++ chars! " { " ++ t ++ chars! " }")
/-- Several values, separated by commas. -/
inductive DebugVal.WrittenAll : List DebugVal → Str → Prop
  | nil : WrittenAll [] []
  | one {v : DebugVal} {t : Str} (h : Written v t) : WrittenAll [v] t
  | more {v v' : DebugVal} {vs : List DebugVal} {t u : Str} (h : Written v t) (hs : WrittenAll (v' :: vs) u) :
      WrittenAll (v :: v' :: vs) (t ++ chars! ", " ++ u)
/-- Several values with keys, separated by commas. -/
inductive DebugVal.WrittenFields : List Str → List DebugVal → Str → Prop
  | one {k : Str} {v : DebugVal} {t : Str} (hk : ∀ c ∈ k, IsNameChar c) (h : Written v t) :
      WrittenFields [k] [v] (k ++ chars! ": " ++ t)
  | more {k : Str} {ks : List Str} {v : DebugVal} {vs : List DebugVal} {t u : Str} (hk : ∀ c ∈ k, IsNameChar c) (h : Written v t)
      (hs : WrittenFields ks vs u) : WrittenFields (k :: ks) (v :: vs) (k ++ chars! ": " ++ t ++ chars! ", " ++ u)
end

namespace DebugVal

/-- The number. -/
def ShowsNat (v : DebugVal) (n : Nat) : Prop := v = .word (Nat.toDigits 10 n)

/-- The position. -/
def ShowsPos (v : DebugVal) (p : Pos) : Prop :=
  ∃ a b, v = .record (chars! "LocationData") [chars! "line", chars! "character"] [a, b] ∧ a.ShowsNat p.line ∧
    b.ShowsNat p.character

/-- The range. -/
def ShowsLoc (v : DebugVal) (l : Loc) : Prop :=
  ∃ a b, v = .record (chars! "Location") [chars! "start", chars! "end"] [a, b] ∧ a.ShowsPos l.start ∧ b.ShowsPos l.stop

/-- The text that may be missing. -/
def ShowsOption (v : DebugVal) (o : Option Str) : Prop :=
  (v = .word (chars! "None") ∧ o = none) ∨ ∃ s, v = .tuple (chars! "Some") [.str s] ∧ o = some s

/-- The token: `Comma(range)` or `Text("text", range)`. -/
inductive ShowsToken (v : DebugVal) : Token → Prop
  | plain {k : TokKind} {name : Str} {w : DebugVal} {l : Loc} (hk : (k, name) ∈ tokenNames) (hv : v = .tuple name [w])
      (hl : w.ShowsLoc l) : ShowsToken v ⟨k, l⟩
  | text {s : Str} {w : DebugVal} {l : Loc} (hv : v = .tuple (chars! "Text") [.str s, w]) (hl : w.ShowsLoc l) :
      ShowsToken v ⟨.text s, l⟩
  | module {s : Str} {w : DebugVal} {l : Loc} (hv : v = .tuple (chars! "Module") [.str s, w]) (hl : w.ShowsLoc l) :
      ShowsToken v ⟨.module s, l⟩
  | ident {s : Str} {w : DebugVal} {l : Loc} (hv : v = .tuple (chars! "Ident") [.str s, w]) (hl : w.ShowsLoc l) :
      ShowsToken v ⟨.ident s, l⟩

mutual
/-- The abstract syntax tree: `Stmt(InnerNode { id: .., children: .., location: .. })` or `Text(LeafNode { id: ..,
value: .., location: .. })`. -/
inductive ShowsAST : DebugVal → AST → Prop
  | leaf {o x : DebugVal} {k : ALKind} {name id : Str} {value : Option Str} {l : Loc} (hk : (k, name) ∈ astLeafNames)
      (ho : o.ShowsOption value) (hl : x.ShowsLoc l) :
      ShowsAST (.tuple name [.record (chars! "LeafNode") [chars! "id", chars! "value", chars! "location"] [.str id, o, x]])
        (.leaf k id value l)
  | node {x : DebugVal} {k : AKind} {name id : Str} {vs : List DebugVal} {cs : List AST} {l : Loc}
      (hk : (k, name) ∈ astNodeNames) (hc : ShowsASTs vs cs) (hl : x.ShowsLoc l) :
      ShowsAST (.tuple name [.record (chars! "InnerNode") [chars! "id", chars! "children", chars! "location"]
        [.str id, .seq vs, x]]) (.node k id cs l)
/-- Several of them. -/
inductive ShowsASTs : List DebugVal → List AST → Prop
  | nil : ShowsASTs [] []
  | cons {v : DebugVal} {vs : List DebugVal} {a : AST} {as : List AST} (h : ShowsAST v a) (ht : ShowsASTs vs as) :
      ShowsASTs (v :: vs) (a :: as)
end

mutual
/-- The concrete syntax tree, with some identifiers. -/
inductive ShowsCST : DebugVal → CST → Prop
  | leaf {o x : DebugVal} {k : LKind} {name id : Str} {value : Option Str} {l : Loc} (hk : k.Named name value)
      (ho : o.ShowsOption value) (hl : x.ShowsLoc l) :
      ShowsCST (.tuple name [.record (chars! "LeafNode") [chars! "id", chars! "value", chars! "location"] [.str id, o, x]])
        (.leaf k l)
  | node {x : DebugVal} {k : IKind} {name id : Str} {vs : List DebugVal} {cs : List CST} {l : Loc}
      (hk : (k, name) ∈ cstNodeNames) (hc : ShowsCSTs vs cs) (hl : x.ShowsLoc l) :
      ShowsCST (.tuple name [.record (chars! "InnerNode") [chars! "id", chars! "children", chars! "location"]
        [.str id, .seq vs, x]]) (.node k cs l)
/-- Several of them. -/
inductive ShowsCSTs : List DebugVal → List CST → Prop
  | nil : ShowsCSTs [] []
  | cons {v : DebugVal} {vs : List DebugVal} {a : CST} {as : List CST} (h : ShowsCST v a) (ht : ShowsCSTs vs as) :
      ShowsCSTs (v :: vs) (a :: as)
end

end DebugVal

/-- The kinds of errors and their names. -/
def errorNames : List (TErrKind × Str) :=
  [(.notOpened .angle, chars! "AngleNotOpened"), (.notClosed .angle, chars! "AngleNotClosed"),
   (.notOpened .curly, chars! "CurlyNotOpened"), (.notClosed .curly, chars! "CurlyNotClosed"),
   (.notOpened .square, chars! "SquareNotOpened"), (.notClosed .square, chars! "SquareNotClosed"),
   (.mismatchedBracket, chars! "MismatchedBracket"), (.moduleNotFound, chars! "ModuleNotFound"),
   (.identifierNotFound, chars! "IdentifierNotFound"), (.dotNotFound, chars! "DotNotFound"),
   (.commaNotFound, chars! "CommaNotFound"), (.unexpectedDot, chars! "UnexpectedDot"),
   (.unexpectedComma, chars! "UnexpectedComma"), (.invalidBackslash, chars! "InvalidBackslash")]

namespace DebugVal

/-- The error. -/
def ShowsError (v : DebugVal) (e : TErr) : Prop :=
  ∃ name w, (e.kind, name) ∈ errorNames ∧ v = .tuple name [w] ∧ w.ShowsLoc e.loc

/-- The type of a parameter or a command. -/
inductive ShowsType : DebugVal → PType → Prop
  | inline : ShowsType (.word (chars! "TInline")) .inline
  | block : ShowsType (.word (chars! "TBlock")) .block
  | ast : ShowsType (.word (chars! "TAST")) .ast
  | option {w : DebugVal} {t : PType} (h : ShowsType w t) : ShowsType (.tuple (chars! "TOption") [w]) (.option t)
  | array {w : DebugVal} {t : PType} (h : ShowsType w t) : ShowsType (.tuple (chars! "TArray") [w]) (.array t)
  | inlineCmd {s : Str} : ShowsType (.tuple (chars! "TInlineCmd") [.str s]) (.inlineCmd s)
  | blockCmd {s : Str} : ShowsType (.tuple (chars! "TBlockCmd") [.str s]) (.blockCmd s)

/-- A parameter: `("name", type)`. -/
def ShowsArgument (v : DebugVal) (p : Str × PType) : Prop := ∃ t, v = .tuple [] [.str p.1, t] ∧ t.ShowsType p.2

end DebugVal

namespace DebugVal

/-- The truth value that may be missing. -/
inductive ShowsFlag : DebugVal → Option Bool → Prop
  | none : ShowsFlag (.word (chars! "None")) none
  | yes : ShowsFlag (.tuple (chars! "Some") [.word (chars! "true")]) (some true)
  | no : ShowsFlag (.tuple (chars! "Some") [.word (chars! "false")]) (some false)

/-- The entry of a plugin in the configuration. -/
def ShowsSchema (v : DebugVal) (s : PluginSchema) : Prop :=
  ∃ e st d t, v = .record (chars! "GitHub") [chars! "owner", chars! "repo", chars! "version", chars! "expr_hook",
      chars! "stmt_hook", chars! "document_hook", chars! "text_hook"] [.str s.owner, .str s.repo, .str s.version, e, st, d, t] ∧
    e.ShowsFlag s.exprHook ∧ st.ShowsFlag s.stmtHook ∧ d.ShowsFlag s.documentHook ∧ t.ShowsFlag s.textHook

end DebugVal

/-- The line is the value in the debug format, without line feeds. -/
def DebugLine (line : Str) (v : DebugVal) : Prop := v.Written line ∧ '\n' ∉ line

/-- A reader finds this in the line: it is written there, and nothing else of the kind is. -/
def ReadOff (R : DebugVal → α → Prop) (line : Str) (a : α) : Prop :=
  (∃ v, DebugLine line v ∧ R v a) ∧ ∀ v b, DebugLine line v → R v b → b = a

/-- Each of the lines is read off as the value at its place. -/
def ReadOffEach (R : DebugVal → α → Prop) (lines : List Str) (as : List α) : Prop := Json.Each (ReadOff R) lines as

/-- Two lines: the parameters and the type of a command. -/
def ShowsSignature (text : Str) (arguments : List (Str × PType)) (result : PType) : Prop :=
  ∃ line line' vs v, text = chars! "Argument Types: " ++ line ++ chars! "\nReturn Type: " ++ line' ∧
    DebugLine line (.seq vs) ∧ Json.Each DebugVal.ShowsArgument vs arguments ∧ DebugLine line' v ∧ v.ShowsType result

/-- The parameters of a command of this type of one of these plugins, as the plugin reports them; those reported last
count. -/
def Declares (W : Wasm) (w : World) (md : PluginsMetadata) (typ : PType) (plugin command : Str)
    (arguments : List (Str × PType)) : Prop :=
  ∃ path flag b ms m, (plugin, (path, flag)) ∈ md ∧ w.files.get path = some b ∧ W.reports b = some ms ∧
    declared ms command typ = some m ∧ m.argumentTypes = arguments

/-- These and no other parameters and type are read off the text. -/
def ReadsSignature (text : Str) (arguments : List (Str × PType)) (result : PType) : Prop :=
  ShowsSignature text arguments result ∧ ∀ as r, ShowsSignature text as r → as = arguments ∧ r = result

/-- The completion item of a command: its label is the name with the plugin, and its detail tells the signature. -/
def Json.DescribesCommand (item : Json) (plugin command : Str) (arguments : List (Str × PType)) (result : PType) : Prop :=
  item.get (chars! "label") = some (.str (plugin ++ '.' :: command)) ∧
    ∃ detail, item.get (chars! "detail") = some (.str detail) ∧ ReadsSignature detail arguments result

end Brack
