import Verif.Model.Serde

/-
Model of `{:?}` as printed by `brack compile` without JSON output, hashed for the names of cached plugins, and
shown in completions: the derived `Debug` implementations and those of the standard library.
-/

namespace Brack

/-- What a derived `Debug` implementation shows: a word (numbers, truth values and variants without fields),
a text, a `Vec`, a variant with fields or a tuple (which has no name), a struct with named fields. E.g.
crates/brack-tokenizer/src/tokens.rs L4-34. -/
inductive DebugVal where
  | word (w : Str)
  | str (s : Str)
  | seq (vs : List DebugVal)
  | tuple (name : Str) (vs : List DebugVal)
  | record (name : Str) (keys : List Str) (vs : List DebugVal)

/-- `char::escape_debug_ext` in the `Debug` implementation of `str`. `printable` is the table of the standard
library: the characters shown as they are. Library code, used e.g. in crates/brack-tokenizer/src/tokens.rs L7. -/
def escapeDebug (printable : Char → Bool) (c : Char) : Str :=
  if c = '\x00' then chars! "\\0"
  else if c = '\t' then chars! "\\t"
  else if c = '\r' then chars! "\\r"
  else if c = '\n' then chars! "\\n"
  else if c = '\\' then chars! "\\\\"
  else if c = '"' then chars! "\\\""
  else if printable c then [c]
  else chars! "\\u{" ++ Nat.toDigits 16 c.toNat ++ chars! "}"

/-- `Debug` for `str`. Library code, used e.g. in crates/brack-tokenizer/src/tokens.rs L7. -/
def debugStr (printable : Char → Bool) (s : Str) : Str := '"' :: (s.flatMap (escapeDebug printable) ++ ['"'])

namespace DebugVal

mutual
/-- `{:?}`: `Formatter::debug_tuple`, `debug_struct` and `debug_list` without the alternate flag. Library code,
used e.g. in crates/brack-tokenizer/src/tokens.rs L4-34. -/
def text (printable : Char → Bool) : DebugVal → Str
  | .word w => w
  | .str s => debugStr printable s
  | .seq vs => chars! "[" ++ texts printable vs ++ chars! "]"
  | .tuple name vs => name ++ chars! "(" ++ texts printable vs ++ chars! ")"
  | .record name keys vs => name ++ chars! " { " ++ fields printable keys vs ++ chars! " }"
/-- The elements of a `Vec` or the fields of a variant. Library code, used e.g. in
crates/brack-tokenizer/src/tokens.rs L4-22. -/
def texts (printable : Char → Bool) : List DebugVal → Str
  | [] => []
  | [v] => text printable v
  | v :: vs => text printable v ++ chars! ", " ++ texts printable vs
/-- The fields of a struct. Library code, used e.g. in crates/brack-tokenizer/src/tokens.rs L24-34. -/
def fields (printable : Char → Bool) : List Str → List DebugVal → Str
  | [k], [v] => k ++ chars! ": " ++ text printable v
  | k :: ks, v :: vs => k ++ chars! ": " ++ text printable v ++ chars! ", " ++ fields printable ks vs
  | _, _ => []
end

/-- A `usize`, crates/brack-tokenizer/src/tokens.rs L26-27. -/
def ofNat (n : Nat) : DebugVal := .word (Nat.toDigits 10 n)

/-- A `bool`, crates/brack-project-manager/src/plugin.rs L19-22. -/
def ofBool (b : Bool) : DebugVal := .word (if b then chars! "true" else chars! "false")

/-- An `Option`, crates/brack-transformer/src/ast.rs L17. -/
def ofOption (f : α → DebugVal) : Option α → DebugVal
  | none => .word (chars! "None")
  | some a => .tuple (chars! "Some") [f a]

/-- `Debug` for `LocationData`, crates/brack-tokenizer/src/tokens.rs L24-28. -/
def ofPos (p : Pos) : DebugVal :=
  .record (chars! "LocationData") [chars! "line", chars! "character"] [ofNat p.line, ofNat p.character]

/-- `Debug` for `Location`, crates/brack-tokenizer/src/tokens.rs L30-34. -/
def ofLoc (l : Loc) : DebugVal := .record (chars! "Location") [chars! "start", chars! "end"] [ofPos l.start, ofPos l.stop]

/-- `Debug` for `Token`, crates/brack-tokenizer/src/tokens.rs L4-22. -/
def ofToken (t : Token) : DebugVal :=
  .tuple (Serde.tokenTag t.kind) (match t.kind with
    | .text s | .module s | .ident s => [.str s, ofLoc t.loc]
    | _ => [ofLoc t.loc])

mutual
/-- `Debug` for `CST` and `AST`, crates/brack-parser/src/cst.rs L7-45 and crates/brack-transformer/src/ast.rs
L7-34. -/
def ofTree (T : Tags L N) : SNode L N → DebugVal
  | .leaf k id value loc =>
    .tuple (T.leaf k) [.record (chars! "LeafNode") [chars! "id", chars! "value", chars! "location"]
      [.str id, ofOption .str value, ofLoc loc]]
  | .inner k id cs loc =>
    .tuple (T.inner k) [.record (chars! "InnerNode") [chars! "id", chars! "children", chars! "location"]
      [.str id, .seq (ofTrees T cs), ofLoc loc]]
/-- The elements of a `Vec` of trees, crates/brack-transformer/src/ast.rs L10, crates/brack-parser/src/cst.rs
L10. -/
def ofTrees (T : Tags L N) : List (SNode L N) → List DebugVal
  | [] => []
  | c :: cs => ofTree T c :: ofTrees T cs
end

/-- The names of the variants of `TransformError`, crates/brack-transformer/src/error.rs L7-22. -/
def errorTag : TErrKind → Str
  | .notOpened .angle => chars! "AngleNotOpened"
  | .notClosed .angle => chars! "AngleNotClosed"
  | .notOpened .curly => chars! "CurlyNotOpened"
  | .notClosed .curly => chars! "CurlyNotClosed"
  | .notOpened .square => chars! "SquareNotOpened"
  | .notClosed .square => chars! "SquareNotClosed"
  | .mismatchedBracket => chars! "MismatchedBracket"
  | .moduleNotFound => chars! "ModuleNotFound"
  | .identifierNotFound => chars! "IdentifierNotFound"
  | .dotNotFound => chars! "DotNotFound"
  | .commaNotFound => chars! "CommaNotFound"
  | .unexpectedDot => chars! "UnexpectedDot"
  | .unexpectedComma => chars! "UnexpectedComma"
  | .invalidBackslash => chars! "InvalidBackslash"

/-- `Debug` for `TransformError`, crates/brack-transformer/src/error.rs L6-22. -/
def ofError (e : TErr) : DebugVal := .tuple (errorTag e.kind) [ofLoc e.loc]

/-- `Debug` for `Type`, crates/brack-plugin/src/types.rs L3-12. -/
def ofType : PType → DebugVal
  | .inline => .word (chars! "TInline")
  | .option t => .tuple (chars! "TOption") [ofType t]
  | .block => .word (chars! "TBlock")
  | .array t => .tuple (chars! "TArray") [ofType t]
  | .inlineCmd s => .tuple (chars! "TInlineCmd") [.str s]
  | .blockCmd s => .tuple (chars! "TBlockCmd") [.str s]
  | .ast => .word (chars! "TAST")

/-- `Debug` for `PluginSchema`, crates/brack-project-manager/src/plugin.rs L13-24. -/
def ofSchema (s : PluginSchema) : DebugVal :=
  .record (chars! "GitHub")
    [chars! "owner", chars! "repo", chars! "version", chars! "expr_hook", chars! "stmt_hook", chars! "document_hook",
      chars! "text_hook"]
    [.str s.owner, .str s.repo, .str s.version, ofOption ofBool s.exprHook, ofOption ofBool s.stmtHook,
      ofOption ofBool s.documentHook, ofOption ofBool s.textHook]

end DebugVal

/-- The output formats of `brack compile`, src/main.rs L63-71, L75-80, L86-95 and L102-107. -/
def compileFormats (printable : Char → Bool) (ids : List Nat → Str) : Formats :=
  jsonFormats
    { tokens := fun _ ts => ts.map fun t => (DebugVal.ofToken t).text printable
      cst := fun _ c => [(DebugVal.ofTree Serde.cstTags (c.tree ids [])).text printable]
      ast := fun _ a => [(DebugVal.ofTree Serde.astTags a.tree).text printable]
      errors := fun es => es.map fun e => (DebugVal.ofError e).text printable } ids

/-- The two hexadecimal digits of a byte, as in `{:x}` of a digest, crates/brack-project-manager/src/plugin.rs
L177. -/
def hexByte (b : UInt8) : Str := [Nat.digitChar (b.toNat / 16), Nat.digitChar (b.toNat % 16)]

/-- `hash_sha256`, crates/brack-project-manager/src/plugin.rs L173-178; `sha` is the hash function. -/
def hashSha256 (printable : Char → Bool) (sha : Bytes → Bytes) (s : PluginSchema) : Str :=
  (sha (utf8 ((DebugVal.ofSchema s).text printable))).flatMap hexByte

/-- `detail` of a completion item, crates/brack-language-server/src/request/completion.rs L21-24. -/
def showSignature (printable : Char → Bool) (arguments : List (Str × PType)) (result : PType) : Str :=
  chars! "Argument Types: " ++
    (DebugVal.seq (arguments.map fun p => .tuple [] [.str p.1, .ofType p.2])).text printable ++
    chars! "\nReturn Type: " ++ (DebugVal.ofType result).text printable

end Brack
