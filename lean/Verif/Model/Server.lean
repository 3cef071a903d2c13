import Verif.Model.Project
import Verif.Model.Json

/-
Model of crates/brack-language-server.
-/

namespace Brack

/-- The crates `serde_json`, `lsp-types` and `url` as used by the language server. The functions on
parameters stand for the `deserialize` functions; they return what the server uses, or `none` if the
parameters do not have the required form. Nothing is assumed about them,
crates/brack-language-server/src/request.rs L28, L107, L124, notification.rs L22, L26, L30. -/
structure Protocol where
  /-- `serde_json::from_str` -/
  parse : Str → Option Json
  /-- `Value::to_string` and `serde_json::to_string` -/
  print : Json → Str
  /-- `InitializeParams::deserialize`: is `capabilities.text_document.publish_diagnostics` present? -/
  initParams : Json → Option Bool
  /-- `DidOpenTextDocumentParams::deserialize`: the URI of the document -/
  didOpen : Json → Option Str
  /-- `DidChangeTextDocumentParams::deserialize`: does it succeed? -/
  didChange : Json → Bool
  /-- `DidSaveTextDocumentParams::deserialize`: the URI of the document -/
  didSave : Json → Option Str
  /-- `SemanticTokensParams::deserialize`: the URI of the document -/
  semanticTokens : Json → Option Str
  /-- `CompletionParams::deserialize`: the trigger character in the context -/
  completion : Json → Option (Option (Option Str))
  /-- `Url::to_file_path` and `Path::to_str` -/
  toFilePath : Str → Option Str
  /-- the argument types and the return type of a command as shown by `{:?}` -/
  showTypes : List (Str × PType) → PType → Str

/-- What the language server depends on, crates/brack-language-server/src/server.rs L10-14. -/
structure ServerEnv where
  E : Env
  P : Protocol
  W : Wasm

/-- `Server`, crates/brack-language-server/src/server.rs L10-14. Simplified: of the capabilities of the
client and of the project only what is read later is kept. -/
structure Server where
  publishDiagnostics : Bool := false
  project : Option PluginsMetadata := none
  deriving Repr, DecidableEq

/-- The decimal digits of a number, as in `{}`. E.g. crates/brack-language-server/src/server.rs L21. -/
def decimal (n : Nat) : Str := Nat.toDigits 10 n

/-- The bytes of a message, crates/brack-language-server/src/server.rs L21 and L30. -/
def frame (msg : Str) : Bytes :=
  utf8 (chars! "Content-Length: " ++ decimal (utf8 msg).length ++ chars! "\r\n\r\n" ++ msg)

/-- `write_all` and `flush` on the standard output, crates/brack-language-server/src/server.rs L19-23,
L28-32. -/
def IOM.send (bytes : Bytes) : IOM Unit := fun w =>
  let w' := { w with clock := w.clock + 1 }
  match w.faults w.clock with
  | .none => (.ok (), { w' with log := w.log ++ [.sent bytes] })
  | .refused => (.err "input/output error", w')
  | .cut n => (.err "input/output error", { w' with log := w.log ++ [.sent (bytes.take n)] })

/-- `match result { Ok(a) => .., Err(e) => .. }`, crates/brack-language-server/src/request.rs L108-121. -/
def IOM.attempt (x : IOM α) : IOM (Except String α) := fun w =>
  match x w with
  | (.ok a, w) => (.ok (.ok a), w)
  | (.err m, w) => (.ok (.error m), w)
  | (.panic, w) => (.panic, w)

namespace Server

/-- `send_message` and `send_stdout`, crates/brack-language-server/src/server.rs L17-34. -/
def send (P : Protocol) (v : Json) : IOM Unit := IOM.send (frame (P.print v))

/-- The message sent by `log_message`, crates/brack-language-server/src/server.rs L37-44. -/
def logJson (message : Str) : Json :=
  .obj [(chars! "jsonrpc", .str (chars! "2.0")), (chars! "method", .str (chars! "window/logMessage")),
    (chars! "params", .obj [(chars! "type", .int 3), (chars! "message", .str message)])]

/-- `log_message`, crates/brack-language-server/src/server.rs L36-47. -/
def logMessage (P : Protocol) (message : Str) : IOM Unit := send P (logJson message)

/-- The message sent by `send_error_response`, crates/brack-language-server/src/server.rs L55-62. -/
def errorJson (id : Option Int) (code : Int) (message : Str) : Json :=
  .obj [(chars! "jsonrpc", .str (chars! "2.0")), (chars! "id", match id with
      | some n => .int n
      | none => .null),
    (chars! "error", .obj [(chars! "code", .int code), (chars! "message", .str message)])]

/-- `send_error_response`, crates/brack-language-server/src/server.rs L49-65. -/
def sendError (P : Protocol) (id : Option Int) (code : Int) (message : Str) : IOM Unit :=
  send P (errorJson id code message)

/-- `send_invalid_request_response`, crates/brack-language-server/src/server.rs L67-70. -/
def sendInvalidRequest (P : Protocol) : IOM Unit :=
  sendError P none (-32600) (chars! "received an invalid request")

/-- `send_method_not_found_response`, crates/brack-language-server/src/server.rs L72-75.
`send_parse_error_response`, L77-81, is not used. -/
def sendMethodNotFound (P : Protocol) (id : Int) (method : Str) : IOM Unit :=
  sendError P (some id) (-32601) (method ++ chars! " is not supported")

/-- `BLSResult`, crates/brack-language-server/src/result.rs L3-18. -/
def resultJson (id : Int) (result : Json) : Json :=
  .obj [(chars! "jsonrpc", .str (chars! "2.0")), (chars! "id", .int id), (chars! "result", result)]

/-- `lsp_types::Diagnostic` with a range and a message,
crates/brack-language-server/src/notification/did_save.rs L39-52. -/
structure Diagnostic where
  startLine : Nat
  startCharacter : Nat
  endLine : Nat
  endCharacter : Nat
  message : Str
  deriving Repr, DecidableEq

/-- A `Position` as JSON, crates/brack-language-server/src/notification/did_save.rs L41-48. -/
def positionJson (line character : Nat) : Json :=
  .obj [(chars! "line", .int line), (chars! "character", .int character)]

/-- A `Diagnostic` as JSON; fields that are `None` are left out, crates/brack-language-server/src/server.rs
L104. -/
def Diagnostic.json (d : Diagnostic) : Json :=
  .obj [(chars! "range", .obj [(chars! "start", positionJson d.startLine d.startCharacter),
      (chars! "end", positionJson d.endLine d.endCharacter)]),
    (chars! "message", .str d.message)]

/-- The message sent by `send_publish_diagnostics`, crates/brack-language-server/src/server.rs L99-106. -/
def diagnosticsJson (uri : Str) (ds : List Diagnostic) : Json :=
  .obj [(chars! "jsonrpc", .str (chars! "2.0")),
    (chars! "method", .str (chars! "textDocument/publishDiagnostics")),
    (chars! "params", .obj [(chars! "uri", .str uri), (chars! "diagnostics", .arr (ds.map Diagnostic.json))])]

/-- `send_publish_diagnostics`, crates/brack-language-server/src/server.rs L83-109. -/
def sendDiagnostics (P : Protocol) (s : Server) (uri : Str) (ds : List Diagnostic) : IOM Unit :=
  if s.publishDiagnostics then send P (diagnosticsJson uri ds) else return ()

/-- `TransformError::get_message`, crates/brack-transformer/src/error.rs L44-63. -/
def errorMessage : TErrKind → Str
  | .notOpened .angle => chars! "Angle bracket not opened"
  | .notClosed .angle => chars! "Angle bracket not closed"
  | .notOpened .curly => chars! "Curly bracket not opened"
  | .notClosed .curly => chars! "Curly bracket not closed"
  | .notOpened .square => chars! "Square bracket not opened"
  | .notClosed .square => chars! "Square bracket not closed"
  | .mismatchedBracket => chars! "Mismatched bracket"
  | .moduleNotFound => chars! "Need module"
  | .identifierNotFound => chars! "Need identifier after module"
  | .dotNotFound => chars! "Need dot after module"
  | .commaNotFound => chars! "Need comma after module"
  | .unexpectedDot => chars! "Unexpected dot"
  | .unexpectedComma => chars! "Unexpected comma"
  | .invalidBackslash => chars! "Backslash must be followed by dot, comma, backslash, or bracket"

/-- `x as u32` for a `usize`, crates/brack-language-server/src/notification/did_save.rs L42-47,
request/semantic_tokens.rs L54-70. -/
def asU32 (n : Nat) : Nat := n % 2 ^ 32

/-- The diagnostic of an error, crates/brack-language-server/src/notification/did_save.rs L37-52. -/
def diagnosticOf (e : TErr) : Diagnostic :=
  ⟨asU32 e.loc.start.line, asU32 e.loc.start.character, asU32 e.loc.stop.line, asU32 e.loc.stop.character,
    errorMessage e.kind⟩

/-- `tokenize`, crates/brack-tokenizer/src/tokenize.rs L6-11. -/
def tokenizeFile (S : Segmenter) (path : Str) : IOM (List Token) := do
  IOM.lift (tokenizeStr S (← IOM.readText path))

/-- `handle_text_document_did_save`, crates/brack-language-server/src/notification/did_save.rs L10-56. -/
def didSave (X : ServerEnv) (s : Server) (uri : Str) : IOM Unit := do
  match X.P.toFilePath uri with
  | none => IOM.fail "Invalid file path"
  | some path =>
    match ← IOM.attempt (tokenizeFile X.E.S path) with
    | .error e => logMessage X.P (chars! "Tokenize failed: " ++ e.toList)
    | .ok tokens =>
      let cst ← IOM.lift (parse tokens)
      let (_, errors) ← IOM.lift (transform (X.E.ids 0) cst)
      sendDiagnostics X.P s path (errors.map diagnosticOf)

/-- `Path::parent`, crates/brack-language-server/src/notification/did_open.rs L18-22. Simplified: for paths
without repeated or trailing slashes. -/
def pathParent (path : Str) : Option Str :=
  match path.reverse.dropWhile (· ≠ '/') with
  | [] => if path = [] then none else some []
  | [_] => if path = ['/'] then none else some ['/']
  | _ :: r => some r.reverse

/-- `root.join("Brack.toml")`, crates/brack-project-manager/src/project.rs L32. -/
def configPath (root : Str) : Str :=
  if root = [] ∨ root = ['/'] then root ++ chars! "Brack.toml" else root ++ chars! "/Brack.toml"

/-- `load_brack_toml`, crates/brack-project-manager/src/project.rs L30-35, for a project with another
root. -/
def loadConfigAt (T : Toml) (root : Str) : IOM Config := do
  IOM.lift (T.readConfig (← IOM.readText (configPath root)))

/-- `handle_text_document_did_open`, crates/brack-language-server/src/notification/did_open.rs L7-31. -/
def didOpen (X : ServerEnv) (s : Server) (uri : Str) : IOM Server := do
  match (X.P.toFilePath uri).bind (fun p => (pathParent p).bind pathParent) with
  | none => IOM.fail "Invalid file path"
  | some root =>
    match ← IOM.attempt (loadConfigAt X.E.toml root) with
    | .error _ => return s
    | .ok config =>
      let md ← downloadPlugins X.E.hash config
      return { s with project := some md }

/-- `handle_notification`, crates/brack-language-server/src/notification.rs L14-35. -/
def handleNotification (X : ServerEnv) (s : Server) (msg : Json) (method : Str) : IOM Server :=
  if method = chars! "initialized" then do
    logMessage X.P (chars! "Brack Language Server has been initialized!")
    return s
  else if method = chars! "textDocument/didOpen" then
    match X.P.didOpen (msg.index (chars! "params")) with
    | none => IOM.fail "invalid params"
    | some uri => didOpen X s uri
  else if method = chars! "textDocument/didChange" then
    -- did_change.rs L7-12 does nothing
    if X.P.didChange (msg.index (chars! "params")) then return s else IOM.fail "invalid params"
  else if method = chars! "textDocument/didSave" then
    match X.P.didSave (msg.index (chars! "params")) with
    | none => IOM.fail "invalid params"
    | some uri => do
      didSave X s uri
      return s
  else return s

/-- The names of the token types of the legend, crates/brack-language-server/src/request.rs L53-77. -/
def tokenTypes : List Str :=
  [chars! "namespace", chars! "type", chars! "class", chars! "enum", chars! "interface", chars! "struct",
    chars! "typeParameter", chars! "parameter", chars! "variable", chars! "property", chars! "enumMember",
    chars! "event", chars! "function", chars! "method", chars! "macro", chars! "keyword", chars! "modifier",
    chars! "comment", chars! "string", chars! "number", chars! "regexp", chars! "operator",
    chars! "decorator"]

/-- The names of the token modifiers of the legend, crates/brack-language-server/src/request.rs L78-89. -/
def tokenModifiers : List Str :=
  [chars! "declaration", chars! "definition", chars! "readonly", chars! "static", chars! "abstract",
    chars! "deprecated", chars! "async", chars! "modification", chars! "documentation",
    chars! "defaultLibrary"]

/-- The trigger characters, crates/brack-language-server/src/request.rs L38-44. -/
def triggerCharacters : List Str := [['['], ['{'], ['<'], [' '], ['.']]

/-- `InitializeResult`, crates/brack-language-server/src/request.rs L31-101, as JSON; fields that are `None`
are left out. -/
def initializeJson : Json :=
  .obj [
    (chars! "capabilities", .obj [
      (chars! "textDocumentSync", .int 1),
      (chars! "completionProvider", .obj [
        (chars! "resolveProvider", .bool false),
        (chars! "triggerCharacters", .arr (triggerCharacters.map .str))]),
      (chars! "semanticTokensProvider", .obj [
        (chars! "legend", .obj [
          (chars! "tokenTypes", .arr (tokenTypes.map .str)),
          (chars! "tokenModifiers", .arr (tokenModifiers.map .str))]),
        (chars! "range", .bool false),
        (chars! "full", .bool true)])]),
    (chars! "serverInfo", .obj [
      (chars! "name", .str (chars! "Brack Language Server")),
      (chars! "version", .str (chars! "0.1.0"))])]

/-- `lsp_types::SemanticToken`, crates/brack-language-server/src/request/semantic_tokens.rs L61-67. -/
structure SemanticToken where
  deltaLine : Nat
  deltaStart : Nat
  length : Nat
  tokenType : Nat
  modifiers : Nat
  deriving Repr, DecidableEq

/-- `token_type_as_u32`, crates/brack-language-server/src/request/semantic_tokens.rs L19-45. -/
def tokenTypeIndex (name : Str) : Nat :=
  if name = chars! "namespace" then 0
  else if name = chars! "type" then 1
  else if name = chars! "class" then 2
  else if name = chars! "enum" then 3
  else if name = chars! "interface" then 4
  else if name = chars! "struct" then 5
  else if name = chars! "typeParameter" then 6
  else if name = chars! "parameter" then 7
  else if name = chars! "variable" then 8
  else if name = chars! "property" then 9
  else if name = chars! "enumMember" then 10
  else if name = chars! "event" then 11
  else if name = chars! "function" then 12
  else if name = chars! "method" then 13
  else if name = chars! "macro" then 14
  else if name = chars! "keyword" then 15
  else if name = chars! "modifier" then 16
  else if name = chars! "comment" then 17
  else if name = chars! "string" then 18
  else if name = chars! "number" then 19
  else if name = chars! "regexp" then 20
  else if name = chars! "operator" then 21
  else 8

/-- `token_kind_to_type`, crates/brack-language-server/src/request/semantic_tokens.rs L7-17. -/
def tokenType : TokKind → Nat
  | .module _ => tokenTypeIndex (chars! "namespace")
  | .ident _ => tokenTypeIndex (chars! "variable")
  | .bopen .angle | .bclose .angle => tokenTypeIndex (chars! "macro")
  | .bopen .curly | .bclose .curly => tokenTypeIndex (chars! "method")
  | .bopen .square | .bclose .square => tokenTypeIndex (chars! "function")
  | _ => 100

/-- Subtraction of unsigned integers of `bits` bits: on underflow a panic if overflow checks are on (debug
builds), wrapping otherwise (release builds), crates/brack-language-server/src/request/semantic_tokens.rs
L54-64. -/
def unsignedSub (bits : Nat) (checks : Bool) (a b : Nat) : Res Nat :=
  if b ≤ a then .ok (a - b) else if checks then .panic else .ok (a + 2 ^ bits - b)

/-- The loop of `separate`, crates/brack-language-server/src/request/semantic_tokens.rs L52-71. -/
def separateLoop (checks : Bool) (prevLine prevChar : Nat) : List Token → Res (List SemanticToken)
  | [] => .ok []
  | t :: ts => do
    let deltaLine ← unsignedSub 32 checks (asU32 t.loc.start.line) prevLine
    let deltaStart ←
      if deltaLine = 0 then unsignedSub 32 checks (asU32 t.loc.start.character) prevChar
      else .ok (asU32 t.loc.start.character)
    let length ← unsignedSub 64 checks t.loc.stop.character t.loc.start.character
    let rest ← separateLoop checks (asU32 t.loc.start.line) (asU32 t.loc.start.character) ts
    return ⟨deltaLine, deltaStart, asU32 length, tokenType t.kind, 0⟩ :: rest

/-- `separate`, crates/brack-language-server/src/request/semantic_tokens.rs L47-74. -/
def semanticTokens (checks : Bool) (tokens : List Token) : Res (List SemanticToken) :=
  separateLoop checks 0 0 tokens

/-- `SemanticTokens` as JSON: five numbers per token,
crates/brack-language-server/src/request/semantic_tokens.rs L101-104. -/
def semanticTokensJson (ts : List SemanticToken) : Json :=
  .obj [(chars! "data", .arr (ts.flatMap (fun t =>
    [.int t.deltaLine, .int t.deltaStart, .int t.length, .int t.tokenType, .int t.modifiers])))]

/-- `handle_semantic_tokens_full`, crates/brack-language-server/src/request/semantic_tokens.rs L77-105. -/
def handleSemanticTokens (X : ServerEnv) (uri : Str) : IOM (Option Json) := do
  match X.P.toFilePath uri with
  | none => IOM.fail "Failed to convert URI to file path"
  | some path =>
    match ← IOM.attempt (tokenizeFile X.E.S path) with
    | .error e => do
      logMessage X.P (chars! "Failed to tokenize file: " ++ e.toList)
      return none
    | .ok tokens =>
      let data ← IOM.lift (semanticTokens X.E.checks tokens)
      return some (semanticTokensJson data)

/-- The text inserted for a command, crates/brack-language-server/src/request/completion.rs L13-18. -/
def insertText (moduleName name : Str) : PType → Res Str
  | .inline => .ok (moduleName ++ chars! "." ++ name ++ chars! " $0]")
  | .block => .ok (moduleName ++ chars! "." ++ name ++ chars! " $0}")
  | .ast => .ok (moduleName ++ chars! "." ++ name ++ chars! " $0>")
  | _ => .panic

/-- `build_completion_item`, crates/brack-language-server/src/request/completion.rs L7-29, as JSON; fields
that are `None` are left out. -/
def completionItem (P : Protocol) (moduleName name : Str) (typ : PType) (m : Metadata) : Res Json := do
  let insert ← insertText moduleName name typ
  return .obj [(chars! "label", .str (moduleName ++ chars! "." ++ name)),
    (chars! "detail", .str (P.showTypes m.argumentTypes m.returnType)),
    (chars! "insertText", .str insert), (chars! "insertTextFormat", .int 2)]

/-- The loop over the commands of a plugin, crates/brack-language-server/src/request/completion.rs
L57-68. -/
def completionCommands (P : Protocol) (start : Str) (plugin : Str) :
    List ((Str × PType) × Metadata) → Res (List Json)
  | [] => .ok []
  | ((name, typ), m) :: rest =>
    if (start = ['['] ∧ typ = .inline) ∨ (start = ['{'] ∧ typ = .block) then do
      let item ← completionItem P plugin name typ m
      let items ← completionCommands P start plugin rest
      return item :: items
    else completionCommands P start plugin rest

/-- The loop over the plugins, crates/brack-language-server/src/request/completion.rs L56-69. -/
def completionItems {W : Wasm} (P : Protocol) (start : Str) : List (Str × Plugin W) → Res (List Json)
  | [] => .ok []
  | (_, p) :: rest => do
    let items ← completionCommands P start p.name p.signatures
    let more ← completionItems P start rest
    return items ++ more

/-- `handle_completion`, crates/brack-language-server/src/request/completion.rs L32-71. -/
def handleCompletion (X : ServerEnv) (s : Server) (context : Option (Option Str)) : IOM (Option Json) := do
  match s.project with
  | none => return none
  | some md =>
    let plugins ← loadPlugins X.W md
    let ps ← IOM.lift (Plugins.new plugins)
    match context with
    | none => IOM.fail "No context"
    | some none => return none
    | some (some start) =>
      let items ← IOM.lift (completionItems X.P start ps.nameToPlugin)
      return some (.arr items)

/-- `match self.handle_..(params).await { .. }`, crates/brack-language-server/src/request.rs L108-121 and
L125-138. -/
def respond (P : Protocol) (id : Int) (failure : Str) (x : IOM (Option Json)) : IOM Unit := do
  match ← IOM.attempt x with
  | .ok (some result) => send P (resultJson id result)
  | .ok none => return ()
  | .error _ => sendError P (some id) (-32000) failure

/-- `handle_request`, crates/brack-language-server/src/request.rs L17-142. -/
def handleRequest (X : ServerEnv) (s : Server) (msg : Json) (id : Int) (method : Str) : IOM Server :=
  if method = chars! "initialize" then do
    logMessage X.P (chars! "Brack Language Server is initializing...")
    match X.P.initParams (msg.index (chars! "params")) with
    | none => IOM.fail "invalid params"
    | some publish => do
      send X.P (resultJson id initializeJson)
      return { s with publishDiagnostics := publish }
  else if method = chars! "textDocument/semanticTokens/full" then
    match X.P.semanticTokens (msg.index (chars! "params")) with
    | none => IOM.fail "invalid params"
    | some uri => do
      respond X.P id (chars! "semantic tokens failed") (handleSemanticTokens X uri)
      return s
  else if method = chars! "textDocument/completion" then
    match X.P.completion (msg.index (chars! "params")) with
    | none => IOM.fail "invalid params"
    | some context => do
      respond X.P id (chars! "completion failed") (handleCompletion X s context)
      return s
  else do
    sendMethodNotFound X.P id method
    return s

/-- `dispatch`, crates/brack-language-server/src/server.rs L111-121, with `handle_response`,
crates/brack-language-server/src/response.rs L6-8, which does nothing. -/
def dispatch (X : ServerEnv) (s : Server) (msg : Json) : IOM Server :=
  match (msg.get (chars! "id")).bind Json.asI64, (msg.get (chars! "method")).bind Json.asStr with
  | some id, some method => handleRequest X s msg id method
  | some _, none => return s
  | none, some method => handleNotification X s msg method
  | none, none => do
    sendInvalidRequest X.P
    return s

end Server

/-- The parts of a text between the occurrences of a separator, taken from the left without overlap; `skip`
characters of an occurrence are still to be passed, `acc` is the current part in reverse. Library code, used
in crates/brack-language-server/src/server.rs L142, L147-148. -/
def splitStrLoop (sep : Str) : (skip : Nat) → (acc : Str) → Str → List Str
  | _, acc, [] => [acc.reverse]
  | skip + 1, acc, _ :: s => splitStrLoop sep skip acc s
  | 0, acc, c :: s =>
    if sep.isPrefixOf (c :: s) then acc.reverse :: splitStrLoop sep (sep.length - 1) [] s
    else splitStrLoop sep 0 (c :: acc) s

/-- `str::split(sep)` with a text. Library code, used in crates/brack-language-server/src/server.rs L142,
L147-148. -/
def splitStr (sep s : Str) : List Str := splitStrLoop sep 0 [] s

/-- A digit. Library code, used in crates/brack-language-server/src/server.rs L152. -/
def digitValue (c : Char) : Option Nat := if '0' ≤ c ∧ c ≤ '9' then some (c.toNat - '0'.toNat) else none

/-- The number with these digits, `n` being the number with the digits before. Library code, used in
crates/brack-language-server/src/server.rs L152. -/
def digitsValue : Nat → Str → Option Nat
  | n, [] => some n
  | n, c :: s =>
    match digitValue c with
    | some d => digitsValue (10 * n + d) s
    | none => none

/-- The number with a sign and digits. Library code, used in crates/brack-language-server/src/server.rs
L152. -/
def signedValue : Str → Option Int
  | [] => none
  | ['+'] | ['-'] => none
  | '-' :: ds => (digitsValue 0 ds).map (fun n : Nat => -(n : Int))
  | '+' :: ds => (digitsValue 0 ds).map Int.ofNat
  | ds => (digitsValue 0 ds).map Int.ofNat

/-- `str::parse::<i32>`, crates/brack-language-server/src/server.rs L152. -/
def parseI32 (s : Str) : Option Int :=
  (signedValue s).bind (fun n => if -2 ^ 31 ≤ n ∧ n < 2 ^ 31 then some n else none)

namespace Server

/-- The loop over the lines of the header, crates/brack-language-server/src/server.rs L145-154. -/
def headerLoop (contentLength : Int) : List Str → Res Int
  | [] => .ok contentLength
  | line :: rest =>
    match splitStr (chars! ": ") line with
    | key :: value :: _ =>
      if key = chars! "Content-Length" then
        match parseI32 value with
        | some n => headerLoop n rest
        | none => .err "invalid digit found in string"
      else headerLoop contentLength rest
    | _ => .panic

/-- `x as usize` for an `i32`, crates/brack-language-server/src/server.rs L159. -/
def i32AsUsize (n : Int) : Nat := if 0 ≤ n then n.toNat else (n + 2 ^ 64).toNat

/-- `a + b` on `usize`, crates/brack-language-server/src/server.rs L159. -/
def usizeAdd (checks : Bool) (a b : Nat) : Res Nat :=
  if a + b ≤ usizeMax then .ok (a + b) else if checks then .panic else .ok (a + b - 2 ^ 64)

/-- `&buffer_string[start..stop]`: a panic if `stop` comes before `start` or after the end, or if one of
them is not the boundary of a character, that is the bytes between are not UTF-8,
crates/brack-language-server/src/server.rs L165. -/
def slice (buffer : Bytes) (start stop : Nat) : Res Str :=
  if start ≤ stop ∧ stop ≤ buffer.length then
    match fromUtf8 ((buffer.drop start).take (stop - start)) with
    | some s => .ok s
    | none => .panic
  else .panic

/-- The part of an iteration of `run` from the decoding of the buffer on,
crates/brack-language-server/src/server.rs L137-165, without the dispatch: the message and the rest of the
buffer, or `none` if the iteration ends with `continue`. -/
def nextMessage (checks : Bool) (P : Protocol) (buffer : Bytes) : Res (Option (Json × Bytes)) :=
  match fromUtf8 buffer with
  | none => .err "invalid utf-8 sequence"
  | some text =>
    match splitStr (chars! "\r\n\r\n") text with
    | header :: _ :: _ => do
      let headerLength := (utf8 header).length + 4
      let contentLength ← headerLoop (-1) (splitStr (chars! "\r\n") header)
      if contentLength = -1 then return none
      else
        let totalLength ← usizeAdd checks headerLength (i32AsUsize contentLength)
        if buffer.length < totalLength then return none
        else
          let body ← slice buffer headerLength totalLength
          match P.parse body with
          | none => .err "invalid JSON"
          | some msg => return some (msg, buffer.drop totalLength)
    | _ => .ok none

/-- `run`, crates/brack-language-server/src/server.rs L123-171. The list contains the bytes obtained by the
successive reads of the standard input, of which the last, at the end of the input, is empty (L132-134); a
list that does not end so is cut there. Simplified: reads do not fail and may have any length. -/
def run (X : ServerEnv) : List Bytes → Bytes → Server → IOM Server
  | [], _, s => return s
  | chunk :: rest, buffer, s =>
    if chunk = [] then return s
    else do
      match ← IOM.lift (nextMessage X.E.checks X.P (buffer ++ chunk)) with
      | none => run X rest (buffer ++ chunk) s
      | some (msg, buffer) => do
        let s ← dispatch X s msg
        run X rest buffer s

end Server

end Brack
