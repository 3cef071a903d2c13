import Verif.Model.Server
import Verif.Spec.World
import Verif.Spec.Json
import Verif.Spec.Registry
import Verif.Spec.Tokens

/-
Vocabulary for statements about the language server: the base protocol and the messages sent.
-/

namespace Brack

/-- A message of the base protocol: header fields and content. -/
structure Wire where
  fields : List (Str × Str)
  content : Str
  deriving Repr, DecidableEq

/-- The bytes of a message: the header fields, each on a line ended by CR LF, an empty line, the content. -/
def Wire.bytes (m : Wire) : Bytes :=
  utf8 (m.fields.flatMap (fun f => f.1 ++ chars! ": " ++ f.2 ++ chars! "\r\n") ++ chars! "\r\n" ++ m.content)

/-- A message as it should be: no field contains a CR and no name of a field a colon, the length of the
content in bytes is given once, and lengths are not too large for the machine. -/
structure Wire.Proper (m : Wire) : Prop where
  field : ∀ f ∈ m.fields, '\r' ∉ f.1 ∧ '\r' ∉ f.2 ∧ ':' ∉ f.1
  length : m.fields.filter (·.1 = chars! "Content-Length") =
    [(chars! "Content-Length", decimal (utf8 m.content).length)]
  content : (utf8 m.content).length < 2 ^ 31
  total : m.bytes.length < 2 ^ 64

/-- The messages one after the other. -/
def stream (ms : List Wire) : Bytes := ms.flatMap Wire.bytes

/-- The positions in the stream, the first being `start`, at which the messages end. -/
def messageEnds (start : Nat) : List Wire → List Nat
  | [] => []
  | m :: ms => (start + m.bytes.length) :: messageEnds (start + m.bytes.length) ms

/-- The positions in the stream, the first being `start`, up to which the reads get. -/
def readEnds (start : Nat) : List Bytes → List Nat
  | [] => []
  | c :: cs => (start + c.length) :: readEnds (start + c.length) cs

/-- How many of the messages ending at the first positions are handled if the reads get up to the second
positions and after each read one message is handled, provided it is complete. -/
def handled : List Nat → List Nat → Nat
  | _, [] => 0
  | [], _ => 0
  | e :: es, p :: ps => if e ≤ p then handled es ps + 1 else handled (e :: es) ps

/-- The messages are handled one after the other; the first failure ends it. -/
def handleAll (X : ServerEnv) : List Json → Server → IOM Server
  | [], s => return s
  | v :: vs, s => do
    let s ← Server.dispatch X s v
    handleAll X vs s

/-- A line up to CR LF, and the rest. -/
def takeLine : Bytes → Option (Bytes × Bytes)
  | [] => none
  | [_] => none
  | a :: b :: r => if a = 13 ∧ b = 10 then some ([], r) else (takeLine (b :: r)).map (fun p => (a :: p.1, p.2))

/-- The number written with these bytes. -/
def number : Nat → Bytes → Option Nat
  | n, [] => some n
  | n, b :: bs => if 48 ≤ b ∧ b ≤ 57 then number (10 * n + (b.toNat - 48)) bs else none

/-- The length announced by a header field. -/
def announced (line : Bytes) : Option Nat :=
  if (utf8 (chars! "Content-Length: ")).isPrefixOf line then number 0 (line.drop 16) else none

/-- Read the header: the length announced, and the rest. -/
def readHeader : (fuel : Nat) → (length : Option Nat) → Bytes → Option (Nat × Bytes)
  | 0, _, _ => none
  | fuel + 1, length, bs =>
    match takeLine bs with
    | none => none
    | some ([], r) => length.map (·, r)
    | some (line, r) => readHeader fuel ((announced line).or length) r

/-- A client reading messages from the server until there is no more input. -/
def readMessages : (fuel : Nat) → Bytes → Option (List Bytes)
  | _, [] => some []
  | 0, _ => none
  | fuel + 1, bs =>
    match readHeader bs.length none bs with
    | none => none
    | some (n, r) => if r.length < n then none else (readMessages fuel (r.drop n)).map (r.take n :: ·)

/-- The bytes sent. -/
def IOEvent.sent? : IOEvent → Option Bytes
  | .sent bytes => some bytes
  | _ => none

/-- The writes to the standard output made so far by the language server. -/
def World.sent (w : World) : List Bytes := w.log.filterMap IOEvent.sent?

/-- Between the first and the second state exactly these messages have been sent, each framed. -/
def World.Said (P : Protocol) (w w' : World) (vs : List Json) : Prop :=
  w'.sent = w.sent ++ vs.map (fun v => frame (P.print v))

/-- The message is a response to the request with this id: it carries the id and a result or an error. -/
def Json.IsReply (v : Json) (id : Json) : Prop :=
  v.get (chars! "id") = some id ∧ v.get (chars! "method") = none ∧
    ((v.get (chars! "result")).isSome ∨ (v.get (chars! "error")).isSome)

/-- The message is a notification: it has a method and no id. -/
def Json.IsNotification (v : Json) : Prop := (v.get (chars! "method")).isSome ∧ v.get (chars! "id") = none

/-- The message is a request with this id and method. -/
def Json.IsRequest (v : Json) (id : Int) (method : Str) : Prop :=
  v.get (chars! "id") = some (.int id) ∧ (-2 ^ 63 ≤ id ∧ id < 2 ^ 63) ∧ v.get (chars! "method") = some (.str method)

/-- There is no such file, or it is not text. -/
def World.Unreadable (w : World) (path : Str) : Prop := ∀ b t, w.files.get path = some b → fromUtf8 b ≠ some t

/-- The parameters of the request do not have the form required by its method. -/
def Malformed (P : Protocol) (method : Str) (params : Json) : Prop :=
  (method = chars! "initialize" ∧ P.initParams params = none) ∨
  (method = chars! "textDocument/semanticTokens/full" ∧ P.semanticTokens params = none) ∨
  (method = chars! "textDocument/completion" ∧ P.completion params = none)

/-- Requests that may be left without a response although the server goes on: semantic tokens of a document that
cannot be read, and completion if there is no project or no trigger character. -/
def Neglected (P : Protocol) (s : Server) (w : World) (method : Str) (params : Json) : Prop :=
  (method = chars! "textDocument/semanticTokens/full" ∧
    ∃ uri path, P.semanticTokens params = some uri ∧ P.toFilePath uri = some path ∧ w.Unreadable path) ∨
  (method = chars! "textDocument/completion" ∧
    ∃ context, P.completion params = some context ∧ (s.project = none ∨ context = some none))

/-- A request for the semantic tokens of a document with 2^32 characters or more. -/
def Oversized (P : Protocol) (w : World) (method : Str) (params : Json) : Prop :=
  method = chars! "textDocument/semanticTokens/full" ∧
    ∃ uri, P.semanticTokens params = some uri ∧ ∃ path b text, P.toFilePath uri = some path ∧
      w.files.get path = some b ∧ fromUtf8 b = some text ∧ 2 ^ 32 ≤ text.length

/-- The name of a kind of bracket in the text of a diagnostic. -/
def Bracket.word : Bracket → Str
  | .angle => chars! "Angle"
  | .curly => chars! "Curly"
  | .square => chars! "Square"

/-- What the user should be told about an error. -/
def TErrKind.description : TErrKind → Str
  | .notOpened b => b.word ++ chars! " bracket not opened"
  | .notClosed b => b.word ++ chars! " bracket not closed"
  | .mismatchedBracket => chars! "Mismatched bracket"
  | .moduleNotFound => chars! "Need module"
  | .identifierNotFound => chars! "Need identifier after module"
  | .dotNotFound => chars! "Need dot after module"
  | .commaNotFound => chars! "Need comma after module"
  | .unexpectedDot => chars! "Unexpected dot"
  | .unexpectedComma => chars! "Unexpected comma"
  | .invalidBackslash => chars! "Backslash must be followed by dot, comma, backslash, or bracket"

/-- A token as the client sees it: line, column, length, index of the type and the modifiers, one per bit. -/
structure SeenToken where
  line : Nat
  character : Nat
  length : Nat
  typ : Nat
  modifiers : Nat
  deriving Repr, DecidableEq

/-- Decoding of semantic tokens by the client, as the protocol says: five numbers per token, the line relative
to the preceding token, the column relative to the preceding token if it is on the same line. -/
def decodeTokens (line character : Nat) : List Json → Option (List SeenToken)
  | [] => some []
  | .int dl :: .int ds :: .int len :: .int typ :: .int modifiers :: rest =>
    let l := line + dl.toNat
    let c := if dl = 0 then character + ds.toNat else ds.toNat
    (decodeTokens l c rest).map (⟨l, c, len.toNat, typ.toNat, modifiers.toNat⟩ :: ·)
  | _ => none

/-- The tokens the client gets from a response with semantic tokens. -/
def Json.seenTokens (reply : Json) : Option (List SeenToken) :=
  match (reply.get (chars! "result")).bind (·.get (chars! "data")) with
  | some (.arr vs) => decodeTokens 0 0 vs
  | _ => none

/-- The file contains this text. -/
def World.Contains (w : World) (path text : Str) : Prop :=
  ∃ b, w.files.get path = some b ∧ fromUtf8 b = some text

/-- The message is a notification with this method. -/
def Json.IsEvent (v : Json) (method : Str) : Prop :=
  v.get (chars! "id") = none ∧ v.get (chars! "method") = some (.str method)

/-- A diagnostic as the client sees it. -/
structure SeenDiagnostic where
  startLine : Nat
  startCharacter : Nat
  endLine : Nat
  endCharacter : Nat
  message : Str
  deriving Repr, DecidableEq

/-- A natural number in a JSON value. -/
def Json.nat? : Json → Option Nat
  | .int n => if 0 ≤ n then some n.toNat else none
  | _ => none

/-- The text in a JSON value. -/
def Json.text? : Json → Option Str
  | .str s => some s
  | _ => none

/-- The elements of an array. -/
def Json.items? : Json → Option (List Json)
  | .arr vs => some vs
  | _ => none

/-- The value reached by these keys. -/
def Json.at (v : Json) : List Str → Option Json
  | [] => some v
  | k :: ks => (v.get k).bind (Json.at · ks)

/-- Line and column. -/
def Json.seenPosition (v : Json) : Option (Nat × Nat) := do
  let l ← (v.get (chars! "line")).bind Json.nat?
  let c ← (v.get (chars! "character")).bind Json.nat?
  return (l, c)

/-- A diagnostic. -/
def Json.seenDiagnostic (v : Json) : Option SeenDiagnostic := do
  let s ← (v.at [chars! "range", chars! "start"]).bind Json.seenPosition
  let e ← (v.at [chars! "range", chars! "end"]).bind Json.seenPosition
  let m ← (v.get (chars! "message")).bind Json.text?
  return ⟨s.1, s.2, e.1, e.2, m⟩

/-- The diagnostics in a message publishing diagnostics. -/
def Json.seenDiagnostics (v : Json) : Option (List SeenDiagnostic) :=
  if (v.get (chars! "method")).bind Json.text? = some (chars! "textDocument/publishDiagnostics") then
    ((v.at [chars! "params", chars! "diagnostics"]).bind Json.items?).bind (List.mapM Json.seenDiagnostic)
  else none

/-- The names of the token types announced in the response to `initialize`. -/
def Json.legend (reply : Json) : Option (List Str) :=
  ((reply.at [chars! "result", chars! "capabilities", chars! "semanticTokensProvider", chars! "legend",
    chars! "tokenTypes"]).bind Json.items?).bind (List.mapM Json.text?)

/-- The type of the tokens that name or enclose a command. -/
def TokKind.typeName : TokKind → Option Str
  | .module _ => some (chars! "namespace")
  | .ident _ => some (chars! "variable")
  | .bopen .angle | .bclose .angle => some (chars! "macro")
  | .bopen .curly | .bclose .curly => some (chars! "method")
  | .bopen .square | .bclose .square => some (chars! "function")
  | _ => none

/-- The number of UTF-16 code units of a text. -/
def utf16Length (s : Str) : Nat := (s.map (fun c => if c.toNat < 0x10000 then 1 else 2)).sum

/-- The position after a text as the protocol defines it: the number of line breaks, and the number of UTF-16 code
units after the last. -/
def utf16After (s : Str) : Nat × Nat :=
  (s.count '\n', utf16Length (s.reverse.takeWhile (· ≠ '\n')).reverse)

/-- A completion item as the client sees it. -/
structure SeenItem where
  label : Str
  insertText : Str
  /-- is the text to insert a snippet? -/
  snippet : Bool
  deriving Repr, DecidableEq

/-- A completion item. -/
def Json.seenItem (v : Json) : Option SeenItem := do
  let l ← (v.get (chars! "label")).bind Json.text?
  let t ← (v.get (chars! "insertText")).bind Json.text?
  return ⟨l, t, (v.get (chars! "insertTextFormat")).bind Json.nat? == some 2⟩

/-- The items in the response to a completion request. -/
def Json.seenItems (reply : Json) : Option (List SeenItem) :=
  ((reply.get (chars! "result")).bind Json.items?).bind (List.mapM Json.seenItem)

/-- One of these plugins, by name, offers a command of this name and type. -/
def Offers (W : Wasm) (w : World) (md : PluginsMetadata) (typ : PType) (plugin command : Str) : Prop :=
  ∃ path flag b ms, (plugin, (path, flag)) ∈ md ∧ w.files.get path = some b ∧ W.reports b = some ms ∧
    ∃ m ∈ ms, m.commandName = command ∧ m.returnType = typ

/-- All plugins can be loaded: the names are different, the files are there and report their commands, the hooks
enabled are implemented, and no hook is enabled for two plugins. -/
structure AllLoadable (W : Wasm) (w : World) (md : PluginsMetadata) : Prop where
  names : (md.map (·.1)).Nodup
  files : ∀ x ∈ md, ∃ b ms, w.files.get x.2.1 = some b ∧ W.reports b = some ms ∧ Loadable ms x.2.2
  hooks : ∀ k : Hook, ∀ x ∈ md, ∀ y ∈ md, k.enabled x.2.2 = true → k.enabled y.2.2 = true → x.1 = y.1

/-- The code of the error in a response. -/
def Json.errorCode (v : Json) : Option Int :=
  match v.at [chars! "error", chars! "code"] with
  | some (.int n) => some n
  | _ => none

/-- A capability in the response to `initialize`. -/
def Json.capability (reply : Json) (keys : List Str) : Option Json :=
  reply.at ([chars! "result", chars! "capabilities"] ++ keys)

/-- A capability is announced: it is there, and it is neither null nor false. -/
def Json.Announces (reply : Json) (keys : List Str) : Prop :=
  ∃ v, reply.capability keys = some v ∧ v ≠ .null ∧ v ≠ .bool false

/-- The capability that, as the protocol says, a client looks for before it makes a request. -/
def capabilityFor : List (Str × List Str) :=
  [(chars! "textDocument/completion", [chars! "completionProvider"]),
    (chars! "completionItem/resolve", [chars! "completionProvider", chars! "resolveProvider"]),
    (chars! "textDocument/semanticTokens/full", [chars! "semanticTokensProvider", chars! "full"]),
    (chars! "textDocument/semanticTokens/full/delta", [chars! "semanticTokensProvider", chars! "full", chars! "delta"]),
    (chars! "textDocument/semanticTokens/range", [chars! "semanticTokensProvider", chars! "range"]),
    (chars! "textDocument/hover", [chars! "hoverProvider"]),
    (chars! "textDocument/definition", [chars! "definitionProvider"]),
    (chars! "textDocument/references", [chars! "referencesProvider"]),
    (chars! "textDocument/documentSymbol", [chars! "documentSymbolProvider"]),
    (chars! "textDocument/formatting", [chars! "documentFormattingProvider"]),
    (chars! "textDocument/rename", [chars! "renameProvider"]),
    (chars! "textDocument/foldingRange", [chars! "foldingRangeProvider"]),
    (chars! "textDocument/diagnostic", [chars! "diagnosticProvider"])]

/-- The characters announced to trigger completion. -/
def Json.triggers (reply : Json) : Option (List Str) :=
  ((reply.capability [chars! "completionProvider", chars! "triggerCharacters"]).bind Json.items?).bind
    (List.mapM Json.text?)

/-- The methods of requests and notifications the server knows. -/
def knownMethods : List Str :=
  [chars! "initialize", chars! "textDocument/semanticTokens/full", chars! "textDocument/completion",
    chars! "initialized", chars! "textDocument/didOpen", chars! "textDocument/didChange",
    chars! "textDocument/didSave"]

/-- Printed JSON can be read again. -/
def Protocol.Faithful (P : Protocol) : Prop := ∀ v : Json, v.Integral → P.parse (P.print v) = some v

end Brack
