import Verif.Spec.Crash
import Verif.Spec.Opened
import Verif.Spec.Main

/-
Vocabulary for the reasons why the language server stops.
-/

namespace Brack

/-- The message has a method but no number of 64 bits as id: it counts as a notification. -/
def Json.Notifies (v : Json) (method : Str) : Prop :=
  (∀ id : Int, -2 ^ 63 ≤ id → id < 2 ^ 63 → v.get (chars! "id") ≠ some (.int id)) ∧
    v.get (chars! "method") = some (.str method)

/-- The path consists of these names, each preceded by a slash. -/
def pathOf (names : List Str) : Str := names.flatMap (fun n => '/' :: n)

/-- The path is absolute: the root, or names each preceded by a slash. -/
def AbsolutePath (path : Str) : Prop :=
  path = ['/'] ∨ ∃ names, names ≠ [] ∧ (∀ n ∈ names, n ≠ [] ∧ '/' ∉ n) ∧ path = pathOf names

/-- The path is the root or lies directly below it. -/
def TopLevel (path : Str) : Prop := ∃ name, '/' ∉ name ∧ path = '/' :: name

/-- The messages after which the server stops. -/
inductive Fatal (X : ServerEnv) (w : World) (msg : Json) : Prop where
  /-- a known request with parameters that cannot be read -/
  | request {id : Int} {method : Str} : msg.IsRequest id method → Malformed X.P method (msg.index (chars! "params")) →
      Fatal X w msg
  /-- a known notification with parameters that cannot be read -/
  | openParams : msg.Notifies (chars! "textDocument/didOpen") → X.P.didOpen (msg.index (chars! "params")) = none → Fatal X w msg
  | changeParams : msg.Notifies (chars! "textDocument/didChange") → X.P.didChange (msg.index (chars! "params")) = false →
      Fatal X w msg
  | saveParams : msg.Notifies (chars! "textDocument/didSave") → X.P.didSave (msg.index (chars! "params")) = none → Fatal X w msg
  /-- a document was opened that is no file, or a file without two directories above -/
  | openNoFile {uri : Str} : msg.Notifies (chars! "textDocument/didOpen") →
      X.P.didOpen (msg.index (chars! "params")) = some uri → X.P.toFilePath uri = none → Fatal X w msg
  | openTop {uri path : Str} : msg.Notifies (chars! "textDocument/didOpen") →
      X.P.didOpen (msg.index (chars! "params")) = some uri → X.P.toFilePath uri = some path → TopLevel path → Fatal X w msg
  /-- a document was opened in a project with a plugin that is not there and cannot be fetched or stored -/
  | openPlugin {uri path root dir file name : Str} {c : Config} {sch : PluginSchema} {n : Nat} :
      msg.Notifies (chars! "textDocument/didOpen") → X.P.didOpen (msg.index (chars! "params")) = some uri →
      X.P.toFilePath uri = some path → DocumentPath root dir file path → w.ConfigAt X.E.toml root c →
      c.plugin name = some sch → w.pathExists (pluginFile X.E.hash name sch) = false →
      (chars! "plugins" ∉ w.dirs ∨ w.http n (pluginUrl c.document.backend name sch) = none) → Fatal X w msg
  /-- a document was saved that is no file -/
  | saveNoFile {uri : Str} : msg.Notifies (chars! "textDocument/didSave") →
      X.P.didSave (msg.index (chars! "params")) = some uri → X.P.toFilePath uri = none → Fatal X w msg
  /-- a document was saved whose brackets cannot be read -/
  | saveRejected {uri path text : Str} {toks : List Token} : msg.Notifies (chars! "textDocument/didSave") →
      X.P.didSave (msg.index (chars! "params")) = some uri → X.P.toFilePath uri = some path → w.Contains path text →
      tokenizeStr X.E.S text = .ok toks → accepts [] .start (toks.map (·.kind)) = false → Fatal X w msg
  /-- a document was saved with a separator outside brackets -/
  | saveLoose {uri path text : Str} : msg.Notifies (chars! "textDocument/didSave") →
      X.P.didSave (msg.index (chars! "params")) = some uri → X.P.toFilePath uri = some path → w.Contains path text →
      LooseText X.E.S text → Fatal X w msg

/-- The messages after which the server may crash: a document was saved with a separator outside brackets, or the
semantic tokens are asked of a document with 2^32 characters or more. -/
def Crashing (X : ServerEnv) (w : World) (msg : Json) : Prop :=
  (msg.Notifies (chars! "textDocument/didSave") ∧ ∃ uri path text, X.P.didSave (msg.index (chars! "params")) = some uri ∧
    X.P.toFilePath uri = some path ∧ w.Contains path text ∧ LooseText X.E.S text) ∨
  ∃ id method, msg.IsRequest id method ∧ Oversized X.P w method (msg.index (chars! "params"))

/-- Nothing can be read or written any more. -/
def World.Dead (w : World) : Prop := ∀ n, w.clock ≤ n → w.faults n = .refused

/-- A request to which there is nothing to say: completion without a project, or without a character that triggers
it. -/
def Silenced (P : Protocol) (s : Server) (method : Str) (params : Json) : Prop :=
  method = chars! "textDocument/completion" ∧
    ∃ context, P.completion params = some context ∧ (s.project = none ∨ context = some none)

end Brack
