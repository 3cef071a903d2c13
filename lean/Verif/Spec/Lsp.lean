import Verif.Spec.Server

/-
The forms that the Language Server Protocol fixes for the messages a server sends, as far as they are used: for every
object which fields it must have, which it may have, and what their values are.
-/

namespace Brack

namespace Lsp

/-- The value is an object that has the required fields, no field twice and no fields but the required and the optional
ones, and the values of the fields are as stated. -/
def HasForm (required optional : List (Str × (Json → Prop))) (v : Json) : Prop :=
  ∃ fs : List (Str × Json), v = .obj fs ∧ (fs.map (·.1)).Nodup ∧ (∀ r ∈ required, r.1 ∈ fs.map (·.1)) ∧
    ∀ f ∈ fs, ∃ r ∈ required ++ optional, r.1 = f.1 ∧ r.2 f.2

/-- A text. -/
def Text (v : Json) : Prop := ∃ s, v = .str s

/-- This text. -/
def Just (s : Str) (v : Json) : Prop := v = .str s

/-- A truth value. -/
def Truth (v : Json) : Prop := ∃ b, v = .bool b

/-- A whole number in a range. -/
def Between (a b : Int) (v : Json) : Prop := ∃ n, a ≤ n ∧ n ≤ b ∧ v = .int n

/-- A number of 32 bits without sign. -/
def Unsigned : Json → Prop := Between 0 (2 ^ 32 - 1)

/-- A number of 32 bits with sign. -/
def Signed : Json → Prop := Between (-2 ^ 31) (2 ^ 31 - 1)

/-- A list of such values. -/
def ListOf (p : Json → Prop) (v : Json) : Prop := ∃ vs, v = .arr vs ∧ ∀ x ∈ vs, p x

/-- `Position` -/
def Position : Json → Prop := HasForm [(chars! "line", Unsigned), (chars! "character", Unsigned)] []

/-- `Range` -/
def Range : Json → Prop := HasForm [(chars! "start", Position), (chars! "end", Position)] []

/-- `Diagnostic` -/
def Diagnostic : Json → Prop :=
  HasForm [(chars! "range", Range), (chars! "message", Text)] [(chars! "severity", Between 1 4), (chars! "source", Text)]

/-- `PublishDiagnosticsParams` -/
def PublishDiagnosticsParams : Json → Prop :=
  HasForm [(chars! "uri", Text), (chars! "diagnostics", ListOf Diagnostic)] [(chars! "version", Signed)]

/-- `LogMessageParams` with the message type `Info` -/
def LogMessageParams : Json → Prop := HasForm [(chars! "type", Between 3 3), (chars! "message", Text)] []

/-- `ResponseError` -/
def ResponseError : Json → Prop := HasForm [(chars! "code", Signed), (chars! "message", Text)] []

/-- `CompletionOptions` -/
def CompletionOptions : Json → Prop :=
  HasForm [] [(chars! "resolveProvider", Truth), (chars! "triggerCharacters", ListOf Text)]

/-- `SemanticTokensLegend` -/
def SemanticTokensLegend : Json → Prop :=
  HasForm [(chars! "tokenTypes", ListOf Text), (chars! "tokenModifiers", ListOf Text)] []

/-- `SemanticTokensOptions` -/
def SemanticTokensOptions : Json → Prop :=
  HasForm [(chars! "legend", SemanticTokensLegend)] [(chars! "range", Truth), (chars! "full", Truth)]

/-- `ServerCapabilities` -/
def ServerCapabilities : Json → Prop :=
  HasForm [] [(chars! "textDocumentSync", Between 0 2), (chars! "completionProvider", CompletionOptions),
    (chars! "semanticTokensProvider", SemanticTokensOptions)]

/-- `InitializeResult` -/
def InitializeResult : Json → Prop :=
  HasForm [(chars! "capabilities", ServerCapabilities)]
    [(chars! "serverInfo", HasForm [(chars! "name", Text)] [(chars! "version", Text)])]

/-- `SemanticTokens`: five numbers for each token -/
def SemanticTokens : Json → Prop :=
  HasForm [(chars! "data", fun v => ∃ vs, v = .arr vs ∧ 5 ∣ vs.length ∧ ∀ x ∈ vs, Unsigned x)] [(chars! "resultId", Text)]

/-- `CompletionItem` -/
def CompletionItem : Json → Prop :=
  HasForm [(chars! "label", Text)]
    [(chars! "detail", Text), (chars! "insertText", Text), (chars! "insertTextFormat", Between 1 2)]

/-- The results of requests. -/
inductive Result : (method : Str) → Json → Prop where
  | initialize {v : Json} : InitializeResult v → Result (chars! "initialize") v
  | semanticTokens {v : Json} : SemanticTokens v → Result (chars! "textDocument/semanticTokens/full") v
  | completion {v : Json} : ListOf CompletionItem v → Result (chars! "textDocument/completion") v

/-- A notification. -/
def Notification (method : Str) (params : Json → Prop) : Json → Prop :=
  HasForm [(chars! "jsonrpc", Just (chars! "2.0")), (chars! "method", Just method), (chars! "params", params)] []

/-- The messages a server may send on receiving a message. -/
inductive Message (received : Json) : Json → Prop where
  /-- a line for the log -/
  | log {v : Json} : Notification (chars! "window/logMessage") LogMessageParams v → Message received v
  /-- the diagnostics of a document -/
  | diagnostics {v : Json} : Notification (chars! "textDocument/publishDiagnostics") PublishDiagnosticsParams v →
      Message received v
  /-- the result of a request -/
  | result {id : Int} {method : Str} {v : Json} : received.IsRequest id method →
      HasForm [(chars! "jsonrpc", Just (chars! "2.0")), (chars! "id", (· = .int id)), (chars! "result", Result method)] [] v →
      Message received v
  /-- the failure of a request -/
  | error {id : Int} {method : Str} {v : Json} : received.IsRequest id method →
      HasForm [(chars! "jsonrpc", Just (chars! "2.0")), (chars! "id", (· = .int id)), (chars! "error", ResponseError)] [] v →
      Message received v
  /-- something was received that is no message -/
  | invalid {v : Json} : (∀ id method, ¬ received.IsRequest id method) →
      HasForm [(chars! "jsonrpc", Just (chars! "2.0")), (chars! "id", (· = .null)), (chars! "error", ResponseError)] [] v →
      Message received v

end Lsp

/-- The bytes are the frame of such a message, or what was written of it before the write failed. -/
def Utters (P : Protocol) (Q : Json → Prop) (bytes : Bytes) : Prop := ∃ v, Q v ∧ bytes <+: frame (P.print v)

end Brack
