import Verif.Model.Cli
import Verif.Model.JsonText

/-
The JSON form of tokens, trees, values and metadata: the derived `Serialize` and `Deserialize`
implementations, with the crate serde_json as the format.

Enums are tagged by an object with one field, named after the variant; structs are objects with the fields
in the order of their declaration. Reading is more liberal: the fields may come in any order, unknown
fields are skipped, a struct may also be an array of its fields, and an `Option` that is missing is `None`.
serde_json reads at most 127 objects and arrays inside of each other.
-/

namespace Brack

namespace Serde

/-- A `usize`. Derived code of crates/brack-tokenizer/src/tokens.rs L24-28. -/
def ofNat (n : Nat) : Json := .int n

/-- An `Option<String>`. Derived code of crates/brack-transformer/src/ast.rs L14-19. -/
def ofOption : Option Str → Json
  | some s => .str s
  | none => .null

/-- `Serialize` for `LocationData`, crates/brack-tokenizer/src/tokens.rs L24-28. -/
def ofPos (p : Pos) : Json := .obj [(chars! "line", ofNat p.line), (chars! "character", ofNat p.character)]

/-- `Serialize` for `Location`, crates/brack-tokenizer/src/tokens.rs L30-34. -/
def ofLoc (l : Loc) : Json := .obj [(chars! "start", ofPos l.start), (chars! "end", ofPos l.stop)]

/-- The names of the variants of `Token`, crates/brack-tokenizer/src/tokens.rs L5-22. -/
def tokenTag : TokKind → Str
  | .empty => chars! "Empty"
  | .text _ => chars! "Text"
  | .module _ => chars! "Module"
  | .ident _ => chars! "Ident"
  | .newLine => chars! "NewLine"
  | .whiteSpace => chars! "WhiteSpace"
  | .dot => chars! "Dot"
  | .backSlash => chars! "BackSlash"
  | .bopen .angle => chars! "AngleBracketOpen"
  | .bclose .angle => chars! "AngleBracketClose"
  | .bopen .square => chars! "SquareBracketOpen"
  | .bclose .square => chars! "SquareBracketClose"
  | .bopen .curly => chars! "CurlyBracketOpen"
  | .bclose .curly => chars! "CurlyBracketClose"
  | .comma => chars! "Comma"
  | .eof => chars! "EOF"

/-- The fields of a variant of `Token`, crates/brack-tokenizer/src/tokens.rs L5-22: an array if there are
two of them. -/
def tokenFields (t : Token) : Json :=
  match t.kind with
  | .text s | .module s | .ident s => .arr [.str s, ofLoc t.loc]
  | _ => ofLoc t.loc

/-- `Serialize` for `Token`, crates/brack-tokenizer/src/tokens.rs L4-22. -/
def ofToken (t : Token) : Json := .obj [(tokenTag t.kind, tokenFields t)]

/-- `Serialize` for `Vec<Token>`, src/main.rs L64. -/
def ofTokens (ts : List Token) : Json := .arr (ts.map ofToken)

end Serde

/-- The trees of `CST` and `AST` with all fields: `InnerNode` and `LeafNode`,
crates/brack-parser/src/cst.rs L7-19 and crates/brack-transformer/src/ast.rs L7-19. `L` and `N` are the
variants with a `LeafNode` and an `InnerNode`. -/
inductive SNode (L N : Type) where
  | leaf (k : L) (id : Str) (value : Option Str) (loc : Loc)
  | inner (k : N) (id : Str) (children : List (SNode L N)) (loc : Loc)

/-- The names of the variants of a tree, crates/brack-transformer/src/ast.rs L22-34,
crates/brack-parser/src/cst.rs L22-45. -/
structure Tags (L N : Type) where
  leaf : L → Str
  inner : N → Str
  /-- the variant with a name -/
  find : Str → Option (L ⊕ N)

namespace Serde

mutual
/-- `Serialize` for `CST` and `AST`, crates/brack-parser/src/cst.rs L7-45 and
crates/brack-transformer/src/ast.rs L7-34. -/
def ofTree (T : Tags L N) : SNode L N → Json
  | .leaf k id value loc =>
    .obj [(T.leaf k, .obj [(chars! "id", .str id), (chars! "value", ofOption value), (chars! "location", ofLoc loc)])]
  | .inner k id cs loc =>
    .obj [(T.inner k, .obj [(chars! "id", .str id), (chars! "children", .arr (ofTrees T cs)),
      (chars! "location", ofLoc loc)])]
/-- The elements of a `Vec` of trees, crates/brack-transformer/src/ast.rs L10,
crates/brack-parser/src/cst.rs L10. -/
def ofTrees (T : Tags L N) : List (SNode L N) → List Json
  | [] => []
  | c :: cs => ofTree T c :: ofTrees T cs
end

/-- The names of the variants of `AST` with an `InnerNode`, crates/brack-transformer/src/ast.rs
L23-28. -/
def astInner : AKind → Str
  | .document => chars! "Document"
  | .stmt => chars! "Stmt"
  | .expr => chars! "Expr"
  | .bracket .angle => chars! "Angle"
  | .bracket .square => chars! "Square"
  | .bracket .curly => chars! "Curly"

/-- The names of the variants of `AST` with a `LeafNode`, crates/brack-transformer/src/ast.rs L29-33. -/
def astLeaf : ALKind → Str
  | .ident => chars! "Ident"
  | .module => chars! "Module"
  | .text => chars! "Text"
  | .invalid => chars! "Invalid"
  | .ignored => chars! "Ignored"

/-- The variants of `AST`, crates/brack-transformer/src/ast.rs L22-34. -/
def astTags : Tags ALKind AKind where
  leaf := astLeaf
  inner := astInner
  find s :=
    if s = chars! "Document" then some (.inr .document)
    else if s = chars! "Stmt" then some (.inr .stmt)
    else if s = chars! "Expr" then some (.inr .expr)
    else if s = chars! "Angle" then some (.inr (.bracket .angle))
    else if s = chars! "Square" then some (.inr (.bracket .square))
    else if s = chars! "Curly" then some (.inr (.bracket .curly))
    else if s = chars! "Ident" then some (.inl .ident)
    else if s = chars! "Module" then some (.inl .module)
    else if s = chars! "Text" then some (.inl .text)
    else if s = chars! "Invalid" then some (.inl .invalid)
    else if s = chars! "Ignored" then some (.inl .ignored)
    else none

end Serde

mutual
/-- An `AST` as a tree, crates/brack-transformer/src/ast.rs L7-34. -/
def AST.tree : AST → SNode ALKind AKind
  | .leaf k i v l => .leaf k i v l
  | .node k i cs l => .inner k i (treeL cs) l
/-- Several of them, crates/brack-transformer/src/ast.rs L10. -/
def AST.treeL : List AST → List (SNode ALKind AKind)
  | [] => []
  | c :: cs => c.tree :: treeL cs
end

mutual
/-- The `AST` that is this tree, crates/brack-transformer/src/ast.rs L7-34. -/
def SNode.ast : SNode ALKind AKind → AST
  | .leaf k i v l => .leaf k i v l
  | .inner k i cs l => .node k i (astL cs) l
/-- Several of them, crates/brack-transformer/src/ast.rs L10. -/
def SNode.astL : List (SNode ALKind AKind) → List AST
  | [] => []
  | c :: cs => c.ast :: astL cs
end

/-- The variants of `CST` with a `LeafNode`, crates/brack-parser/src/cst.rs L30-44, without values. -/
inductive CLKind where
  | bopen (b : Bracket)
  | bclose (b : Bracket)
  | module | ident | text | whitespace | newline | dot | comma | eof | invalid
  deriving Repr, DecidableEq

namespace Serde

/-- The names of the variants of `CST` with an `InnerNode`, crates/brack-parser/src/cst.rs L23-29. -/
def cstInner : IKind → Str
  | .document => chars! "Document"
  | .stmt => chars! "Stmt"
  | .expr => chars! "Expr"
  | .bracket .angle => chars! "Angle"
  | .bracket .curly => chars! "Curly"
  | .bracket .square => chars! "Square"
  | .backSlash => chars! "BackSlash"

/-- The names of the variants of `CST` with a `LeafNode`, crates/brack-parser/src/cst.rs L30-44. -/
def cstLeaf : CLKind → Str
  | .bopen .angle => chars! "AngleBracketOpen"
  | .bclose .angle => chars! "AngleBracketClose"
  | .bopen .square => chars! "SquareBracketOpen"
  | .bclose .square => chars! "SquareBracketClose"
  | .bopen .curly => chars! "CurlyBracketOpen"
  | .bclose .curly => chars! "CurlyBracketClose"
  | .module => chars! "Module"
  | .ident => chars! "Ident"
  | .text => chars! "Text"
  | .whitespace => chars! "Whitespace"
  | .newline => chars! "Newline"
  | .dot => chars! "Dot"
  | .comma => chars! "Comma"
  | .eof => chars! "EOF"
  | .invalid => chars! "Invalid"

/-- The variants of `CST`, crates/brack-parser/src/cst.rs L22-45. -/
def cstTags : Tags CLKind IKind where
  leaf := cstLeaf
  inner := cstInner
  find s :=
    if s = chars! "Document" then some (.inr .document)
    else if s = chars! "Stmt" then some (.inr .stmt)
    else if s = chars! "Expr" then some (.inr .expr)
    else if s = chars! "Angle" then some (.inr (.bracket .angle))
    else if s = chars! "Curly" then some (.inr (.bracket .curly))
    else if s = chars! "Square" then some (.inr (.bracket .square))
    else if s = chars! "BackSlash" then some (.inr .backSlash)
    else if s = chars! "AngleBracketOpen" then some (.inl (.bopen .angle))
    else if s = chars! "AngleBracketClose" then some (.inl (.bclose .angle))
    else if s = chars! "SquareBracketOpen" then some (.inl (.bopen .square))
    else if s = chars! "SquareBracketClose" then some (.inl (.bclose .square))
    else if s = chars! "CurlyBracketOpen" then some (.inl (.bopen .curly))
    else if s = chars! "CurlyBracketClose" then some (.inl (.bclose .curly))
    else if s = chars! "Module" then some (.inl .module)
    else if s = chars! "Ident" then some (.inl .ident)
    else if s = chars! "Text" then some (.inl .text)
    else if s = chars! "Whitespace" then some (.inl .whitespace)
    else if s = chars! "Newline" then some (.inl .newline)
    else if s = chars! "Dot" then some (.inl .dot)
    else if s = chars! "Comma" then some (.inl .comma)
    else if s = chars! "EOF" then some (.inl .eof)
    else if s = chars! "Invalid" then some (.inl .invalid)
    else none

end Serde

/-- The variant and the `value` of a leaf of the concrete syntax tree, crates/brack-parser/src/cst.rs
L305-479. -/
def LKind.parts : LKind → CLKind × Option Str
  | .bopen b => (.bopen b, none)
  | .bclose b => (.bclose b, none)
  | .module v => (.module, some v)
  | .ident v => (.ident, some v)
  | .text v => (.text, some v)
  | .whitespace => (.whitespace, none)
  | .newline => (.newline, none)
  | .dot => (.dot, none)
  | .comma => (.comma, none)
  | .eof => (.eof, none)
  | .invalid => (.invalid, none)

mutual
/-- A `CST` with all fields, crates/brack-parser/src/cst.rs L7-45. The identifiers, which the model of the
parser leaves out, are given by a function of the path to the node: they are random and nothing depends on
them. -/
def CST.tree (ids : List Nat → Str) (path : List Nat) : CST → SNode CLKind IKind
  | .leaf k l => .leaf k.parts.1 (ids path) k.parts.2 l
  | .node k cs l => .inner k (ids path) (treeL ids path 0 cs) l
/-- The children of a node, from the `n`-th on, crates/brack-parser/src/cst.rs L10. -/
def CST.treeL (ids : List Nat → Str) (path : List Nat) (n : Nat) : List CST → List (SNode CLKind IKind)
  | [] => []
  | c :: cs => c.tree ids (path ++ [n]) :: treeL ids path (n + 1) cs
end

/-! ### Reading -/

namespace Serde

/-- A `usize`. Derived code of crates/brack-tokenizer/src/tokens.rs L24-28. -/
def toNat : Json → Option Nat
  | .int n => if 0 ≤ n ∧ n < 2 ^ 64 then some n.toNat else none
  | _ => none

/-- A `String`. Derived code of crates/brack-transformer/src/ast.rs L14-19. -/
def toStr : Json → Option Str
  | .str s => some s
  | _ => none

/-- An `Option<String>`. Derived code of crates/brack-transformer/src/ast.rs L14-19. -/
def toOption : Json → Option (Option Str)
  | .null => some none
  | .str s => some (some s)
  | _ => none

/-- A field of an object, if it occurs; a field that occurs twice is refused. Derived code, e.g. of
crates/brack-plugin/src/metadata.rs L5-11. -/
def fieldOnce (fs : List (Str × Json)) (key : Str) : Option (Option Json) :=
  match fs.filter (fun f => f.1 = key) with
  | [] => some none
  | [f] => some (some f.2)
  | _ => none

/-- The fields of a struct, in the order of their declaration: those of an object, or the elements of an
array. Derived code, e.g. of crates/brack-plugin/src/metadata.rs L5-11. -/
def structFields (keys : List Str) : Json → Option (List (Option Json))
  | .obj fs => keys.mapM (fieldOnce fs)
  | .arr vs => if vs.length = keys.length then some (vs.map some) else none
  | _ => none

/-- The variant of an enum and its contents. Variants without fields are strings; no type below with such
variants is read by this function. Derived code of crates/brack-transformer/src/ast.rs L21-34 and
crates/brack-plugin/src/types.rs L3-12. -/
def variant : Json → Option (Str × Json)
  | .obj [f] => some f
  | _ => none

/-- `Deserialize` for `LocationData`, crates/brack-tokenizer/src/tokens.rs L24-28. In this and the following
functions the number is that of the objects and arrays that may still be entered. -/
def toPos : Nat → Json → Option Pos
  | 0, _ => none
  | _ + 1, v =>
    match structFields [chars! "line", chars! "character"] v with
    | some [some l, some c] => do return ⟨← toNat l, ← toNat c⟩
    | _ => none

/-- `Deserialize` for `Location`, crates/brack-tokenizer/src/tokens.rs L30-34. -/
def toLoc : Nat → Json → Option Loc
  | 0, _ => none
  | n + 1, v =>
    match structFields [chars! "start", chars! "end"] v with
    | some [some a, some b] => do return ⟨← toPos n a, ← toPos n b⟩
    | _ => none

/-- The variants of `Token` with a location only, crates/brack-tokenizer/src/tokens.rs L5-22. -/
def plainToken (tag : Str) : Option TokKind :=
  if tag = chars! "Empty" then some .empty
  else if tag = chars! "NewLine" then some .newLine
  else if tag = chars! "WhiteSpace" then some .whiteSpace
  else if tag = chars! "Dot" then some .dot
  else if tag = chars! "BackSlash" then some .backSlash
  else if tag = chars! "AngleBracketOpen" then some (.bopen .angle)
  else if tag = chars! "AngleBracketClose" then some (.bclose .angle)
  else if tag = chars! "SquareBracketOpen" then some (.bopen .square)
  else if tag = chars! "SquareBracketClose" then some (.bclose .square)
  else if tag = chars! "CurlyBracketOpen" then some (.bopen .curly)
  else if tag = chars! "CurlyBracketClose" then some (.bclose .curly)
  else if tag = chars! "Comma" then some .comma
  else if tag = chars! "EOF" then some .eof
  else none

/-- The variants of `Token` with a text, crates/brack-tokenizer/src/tokens.rs L7-9. -/
def textToken (tag : Str) : Option (Str → TokKind) :=
  if tag = chars! "Text" then some .text
  else if tag = chars! "Module" then some .module
  else if tag = chars! "Ident" then some .ident
  else none

/-- `Deserialize` for `Token`, crates/brack-tokenizer/src/tokens.rs L4-22. -/
def toToken : Nat → Json → Option Token
  | 0, _ => none
  | n + 1, v =>
    match variant v with
    | none => none
    | some (tag, w) =>
      match textToken tag with
      | some mk =>
        match n, w with
        | m + 1, .arr [s, l] => do return ⟨mk (← toStr s), ← toLoc m l⟩
        | _, _ => none
      | none =>
        match plainToken tag with
        | some k => do return ⟨k, ← toLoc n w⟩
        | none => none

/-- `Deserialize` for `Vec<Token>`. Derived code of crates/brack-tokenizer/src/tokens.rs L4-22; not used in
the repository. -/
def toTokens : Nat → Json → Option (List Token)
  | n + 1, .arr vs => vs.mapM (toToken n)
  | _, _ => none

/-- `Deserialize` for `CST` and `AST`, crates/brack-parser/src/cst.rs L7-45 and
crates/brack-transformer/src/ast.rs L7-34. A node consists of two objects, its children are in an array and
its location consists of two objects; with less than three levels left no node can be read. -/
def toTree (T : Tags L N) : Nat → Json → Option (SNode L N)
  | n + 3, v =>
    match variant v with
    | none => none
    | some (tag, w) =>
      match T.find tag with
      | none => none
      | some (.inl k) =>
        match structFields [chars! "id", chars! "value", chars! "location"] w with
        | some [some i, value, some l] => do
          return .leaf k (← toStr i) (← toOption (value.getD .null)) (← toLoc (n + 1) l)
        | _ => none
      | some (.inr k) =>
        match structFields [chars! "id", chars! "children", chars! "location"] w with
        | some [some i, some (.arr cs), some l] => do
          return .inner k (← toStr i) (← cs.mapM (toTree T n)) (← toLoc (n + 1) l)
        | _ => none
  | _, _ => none

/-- The number of objects and arrays inside of each other that serde_json reads: its `remaining_depth` is
128 and must not become zero. Library code, used in crates/brack-plugin/src/plugin.rs L28 and plugins.rs
L133. -/
def maxNesting : Nat := 127

/-- `serde_json::from_str` for `AST`, given the value of the text, crates/brack-plugin/src/plugins.rs
L133-139. -/
def toAST (v : Json) : Option AST := (toTree astTags maxNesting v).map SNode.ast

/-- `serde_json::to_string` for `AST`, crates/brack-plugin/src/plugins.rs L137. -/
def ofAST (a : AST) : Json := ofTree astTags a.tree

/-! ### Values and metadata -/

/-- `Serialize` for `Value`, crates/brack-plugin/src/value.rs L3-8. -/
def ofValue : Value → Json
  | .text s => .obj [(chars! "Text", .str s)]
  | .textArray ss => .obj [(chars! "TextArray", .arr (ss.map .str))]
  | .textOption o => .obj [(chars! "TextOption", ofOption o)]

/-- `Serialize` for `Type`, crates/brack-plugin/src/types.rs L3-12. -/
def ofType : PType → Json
  | .inline => .str (chars! "TInline")
  | .option t => .obj [(chars! "TOption", ofType t)]
  | .block => .str (chars! "TBlock")
  | .array t => .obj [(chars! "TArray", ofType t)]
  | .inlineCmd s => .obj [(chars! "TInlineCmd", .str s)]
  | .blockCmd s => .obj [(chars! "TBlockCmd", .str s)]
  | .ast => .str (chars! "TAST")

/-- The variants of `Type` without fields, crates/brack-plugin/src/types.rs L5, L7 and L11. -/
def unitType (tag : Str) : Option PType :=
  if tag = chars! "TInline" then some .inline
  else if tag = chars! "TBlock" then some .block
  else if tag = chars! "TAST" then some .ast
  else none

/-- A variant without fields may also be an object with the contents `null`. Derived code of
crates/brack-plugin/src/types.rs L3-12. -/
def unitContents (tag : Str) : Json → Option PType
  | .null => unitType tag
  | _ => none

/-- `Deserialize` for `Type`, crates/brack-plugin/src/types.rs L3-12. -/
def toType : Nat → Json → Option PType
  | _, .str s => unitType s
  | n + 1, .obj [(tag, v)] =>
    if tag = chars! "TOption" then (toType n v).map .option
    else if tag = chars! "TArray" then (toType n v).map .array
    else if tag = chars! "TInlineCmd" then (toStr v).map .inlineCmd
    else if tag = chars! "TBlockCmd" then (toStr v).map .blockCmd
    else unitContents tag v
  | _, _ => none

/-- `Deserialize` for `(String, Type)`, crates/brack-plugin/src/metadata.rs L9. -/
def toArgument : Nat → Json → Option (Str × PType)
  | n + 1, .arr [s, t] => do return (← toStr s, ← toType n t)
  | _, _ => none

/-- `Deserialize` for `Metadata`, crates/brack-plugin/src/metadata.rs L5-11. -/
def toMetadata : Nat → Json → Option Metadata
  | n + 2, v =>
    match structFields [chars! "command_name", chars! "call_name", chars! "argument_types", chars! "return_type"] v with
    | some [some a, some b, some (.arr cs), some d] => do
      return ⟨← toStr a, ← toStr b, ← cs.mapM (toArgument n), ← toType (n + 1) d⟩
    | _ => none
  | _, _ => none

/-- `Serialize` for `Metadata`, crates/brack-plugin/src/metadata.rs L5-11. -/
def ofMetadata (m : Metadata) : Json :=
  .obj [(chars! "command_name", .str m.commandName), (chars! "call_name", .str m.callName),
    (chars! "argument_types", .arr (m.argumentTypes.map fun p => .arr [.str p.1, ofType p.2])),
    (chars! "return_type", ofType m.returnType)]

/-- `Deserialize` for `Vec<Metadata>`, crates/brack-plugin/src/plugin.rs L28. -/
def toMetadatas : Nat → Json → Option (List Metadata)
  | n + 1, .arr vs => vs.mapM (toMetadata n)
  | _, _ => none

end Serde

/-- The output formats of `brack compile`, src/main.rs L63-71, L75-80, L86-95 and L102-107:
`serde_json::to_string` if the flag is set; `shown` is what `{:?}` prints. `ids` are the identifiers of the
concrete syntax tree. -/
def jsonFormats (shown : Formats) (ids : List Nat → Str) : Formats where
  tokens json ts := if json then [JsonText.print (Serde.ofTokens ts)] else shown.tokens false ts
  cst json c := if json then [JsonText.print (Serde.ofTree Serde.cstTags (c.tree ids []))] else shown.cst false c
  ast json a := if json then [JsonText.print (Serde.ofAST a)] else shown.ast false a
  errors := shown.errors

/-- WebAssembly modules as extism runs them: functions from bytes to bytes, and an internal state. Nothing
is assumed about them, except that extism itself does not panic, crates/brack-plugin/src/plugin.rs L27-28,
L97-99. -/
structure Host where
  State : Type
  /-- `ExtismPlugin::new(wasm_bin, [], true)` -/
  load : Bytes → Except String State
  /-- `ExtismPlugin::call`, before and after the conversion of the argument and the result -/
  call : State → (callName : Str) → Bytes → Except String Bytes × State

/-- The bytes of a value given as an argument: `ToBytes` for `Json` of the crate extism-convert,
crates/brack-plugin/src/plugins.rs L106, L121, L137. -/
def Serde.bytes (v : Json) : Bytes := utf8 (JsonText.print v)

/-- The value of a result: `FromBytes` for `Json` of the crate extism-convert, up to the type,
crates/brack-plugin/src/plugin.rs L28, plugins.rs L139. -/
def Serde.value (bs : Bytes) : Option Json := (fromUtf8 bs).bind JsonText.parse

/-- The calls of crates/brack-plugin/src/plugin.rs L28-29 and L97-99 with the conversions they contain: arguments
are `Json`, except that `get_metadata` has none; results are `Json` or a string. -/
def Host.wasm (H : Host) : Wasm where
  State := H.State
  load := H.load
  metadata s :=
    match H.call s (chars! "get_metadata") [] with
    | (.error e, s) => (.error e, s)
    | (.ok bs, s) =>
      match (Serde.value bs).bind (Serde.toMetadatas Serde.maxNesting) with
      | some ms => (.ok ms, s)
      | none => (.error "invalid JSON", s)
  callText s f vs :=
    match H.call s f (Serde.bytes (.arr (vs.map Serde.ofValue))) with
    | (.error e, s) => (.error e, s)
    | (.ok bs, s) =>
      match fromUtf8 bs with
      | some t => (.ok t, s)
      | none => (.error "invalid UTF-8", s)
  callMacro s f a id :=
    match H.call s f (Serde.bytes (.arr [Serde.ofAST a, .str id])) with
    | (.error e, s) => (.error e, s)
    | (.ok bs, s) =>
      match (Serde.value bs).bind Serde.toAST with
      | some b => (.ok b, s)
      | none => (.error "invalid JSON", s)

end Brack
