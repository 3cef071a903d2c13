import Verif.Proof.ProjectCases
import Verif.Proof.JsonText
import Verif.Proof.Utf8
import Verif.Spec.Server

/-
A client and a project for the concrete cases.
-/

namespace Brack

/-- The value at the end of a path of keys. -/
def Json.follow (v : Json) : List Str → Option Json
  | [] => some v
  | k :: ks => (v.get k).bind (Json.follow · ks)

/-- The URI of the document in the parameters. -/
def documentUri (params : Json) : Option Str :=
  (params.follow [chars! "textDocument", chars! "uri"]).bind Json.asStr

/-- Libraries that read and print JSON and know URIs of files, for concrete cases. -/
def sampleProtocol : Protocol where
  parse := JsonText.parse
  print := JsonText.print
  initParams params :=
    (params.get (chars! "capabilities")).map (fun c =>
      (c.follow [chars! "textDocument", chars! "publishDiagnostics"]).isSome)
  didOpen := documentUri
  didChange params := (documentUri params).isSome
  didSave := documentUri
  semanticTokens := documentUri
  completion params :=
    (documentUri params).map (fun _ => (params.get (chars! "context")).map (fun c =>
      (c.get (chars! "triggerCharacter")).bind Json.asStr))
  toFilePath uri := if (chars! "file://").isPrefixOf uri then some (uri.drop 7) else none
  showTypes _ _ := chars! "types"

theorem sampleProtocol_faithful : sampleProtocol.Faithful := fun v hv => JsonText.parse_print v hv

/-- Everything the language server takes from libraries, for concrete cases. -/
def sampleServerEnv (W : Wasm) : ServerEnv := ⟨sampleEnv, sampleProtocol, W⟩

/-- A message with one header field. -/
def Wire.plain (content : Str) : Wire := ⟨[(chars! "Content-Length", decimal (utf8 content).length)], content⟩

/-- Two requests. -/
def twoRequests : List Wire :=
  [Wire.plain (chars! "{\"id\":1,\"method\":\"a\"}"), Wire.plain (chars! "{\"id\":2,\"method\":\"b\"}")]

theorem twoRequests_proper : ∀ m ∈ twoRequests, m.Proper := by
  intro m hm
  rcases List.mem_cons.mp hm with rfl | hm
  · exact ⟨by decide, by decide, by decide, by decide⟩
  · rw [List.mem_singleton.mp hm]
    exact ⟨by decide, by decide, by decide, by decide⟩

/-- The two requests as JSON. -/
def twoRequestsJson : List Json :=
  [.obj [(chars! "id", .int 1), (chars! "method", .str (chars! "a"))],
    .obj [(chars! "id", .int 2), (chars! "method", .str (chars! "b"))]]

theorem twoRequests_parse (W : Wasm) :
    twoRequests.map (fun m => (sampleServerEnv W).P.parse m.content) = twoRequestsJson.map some := by
  have : twoRequests.map (fun m => JsonText.parse m.content) = twoRequestsJson.map some := by rfl
  exact this

theorem forall_splits {α : Type} {p : List α → Prop} {l : List α} (h : ∀ n ≤ l.length, p (l.take n)) :
    ∀ xs ys, l = xs ++ ys → p xs := by
  rintro xs ys rfl
  have := h xs.length (by simp)
  simpa using this

theorem forall_reads {α : Type} {p : List α → α → Prop} {l : List α}
    (h : ∀ n, (hn : n < l.length) → p (l.take n) l[n]) : ∀ xs r ys, l = xs ++ r :: ys → p xs r := by
  rintro xs r ys rfl
  have := h xs.length (by simp)
  simpa using this

/-- The parts of a list. -/
def infixes {α : Type} (l : List α) : List (List α) :=
  (List.range (l.length + 1)).flatMap (fun i => (List.range (l.length + 1)).map (fun n => (l.drop i).take n))

theorem forall_infix {α : Type} {p : List α → Prop} {l : List α} (h : ∀ u ∈ infixes l, p u) : ∀ u, u <:+: l → p u := by
  rintro u ⟨a, b, rfl⟩
  refine h u (List.mem_flatMap.mpr ⟨a.length, List.mem_range.mpr (by simp; omega), List.mem_map.mpr
    ⟨u.length, List.mem_range.mpr (by simp; omega), by simp⟩⟩)

/-- A request. -/
def requestJson (id : Int) (method : Str) (params : Json) : Json :=
  .obj [(chars! "jsonrpc", .str (chars! "2.0")), (chars! "id", .int id), (chars! "method", .str method),
    (chars! "params", params)]

theorem requestJson_is {id : Int} (h : -2 ^ 63 ≤ id ∧ id < 2 ^ 63) (method : Str) (params : Json) :
    (requestJson id method params).IsRequest id method := ⟨rfl, h, rfl⟩

/-- A notification. -/
def eventJson (method : Str) (params : Json) : Json :=
  .obj [(chars! "jsonrpc", .str (chars! "2.0")), (chars! "method", .str method), (chars! "params", params)]

theorem eventJson_is (method : Str) (params : Json) : (eventJson method params).IsEvent method := ⟨rfl, rfl⟩

/-- Parameters naming a document. -/
def documentParams : Json := .obj [(chars! "textDocument", .obj [(chars! "uri", .str (chars! "file:///w/docs/a.[]"))])]

/-- Parameters of a completion request. -/
def completionParams (trigger : Str) : Json :=
  .obj [(chars! "textDocument", .obj [(chars! "uri", .str (chars! "file:///w/docs/a.[]"))]),
    (chars! "context", .obj [(chars! "triggerKind", .int 2), (chars! "triggerCharacter", .str trigger)])]

/-- A directory with a document with this text and a plugin. -/
def workspace (text : Str) : World :=
  { sampleWorld (fun _ => .none) with
    files := [(chars! "/w/docs/a.[]", utf8 text), (chars! "plugins/std_00.wasm", [1])]
    dirs := [chars! "plugins"] }

theorem workspace_healthy (text : Str) : (workspace text).Healthy := fun _ _ => rfl

theorem workspace_contains (text : Str) : (workspace text).Contains (chars! "/w/docs/a.[]") text :=
  ⟨_, rfl, fromUtf8_utf8 text⟩

/-- A server that has been told about diagnostics and the plugin. -/
def sampleServer : Server := ⟨true, some [(chars! "std", (chars! "plugins/std_00.wasm", noHooks))]⟩

end Brack
