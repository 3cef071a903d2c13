import Verif.Proof.Session
import Verif.Proof.ServerJson
import Verif.Proof.ServerCases
import Verif.Props.Server
import Verif.Props.Editor

/-
Properties of sessions with the language server: C78, C79, C80, C81, C84.
-/

namespace Brack

/-! ### C78 -/

/-- C78 does not hold while a document is being edited: a notification of a change makes no difference to anything
that follows, … -/
theorem C78_changes_refuted (X : ServerEnv) (before after : List Json) (msg : Json) (s : Server)
    (hm : msg.IsEvent (chars! "textDocument/didChange")) (hp : X.P.didChange (msg.index (chars! "params")) = true) :
    handleAll X (before ++ msg :: after) s = handleAll X (before ++ after) s := by
  refine handleAll_skip (fun s w => ?_) after before s
  rw [Server.dispatch_event hm, Server.handleNotification, if_neg (by decide), if_neg (by decide), if_pos rfl, hp]
  rfl

/-- … although the server asks for them, with the whole text. -/
theorem C78_announced_refuted (X : ServerEnv) (s : Server) (msg : Json) (id : Int) (w : World) (publish : Bool)
    (hw : w.Healthy) (hm : msg.IsRequest id (chars! "initialize"))
    (hp : X.P.initParams (msg.index (chars! "params")) = some publish) :
    ∃ log reply, w.Said X.P (Server.dispatch X s msg w).2 [log, reply] ∧ reply.IsReply (.int id) ∧
      reply.capability [chars! "textDocumentSync"] = some (.int 1) := by
  obtain ⟨h1, h2⟩ := Server.initialize_says (s := s) hw hm hp
  exact ⟨_, _, h2, Server.resultJson_reply .., rfl⟩

/-- A change to a document between two requests for its tokens. -/
example (after : List Json) (request : Json) : handleAll (sampleServerEnv sampleWasm)
      ([request] ++ eventJson (chars! "textDocument/didChange") documentParams :: request :: after) sampleServer =
    handleAll (sampleServerEnv sampleWasm) ([request] ++ request :: after) sampleServer :=
  C78_changes_refuted _ _ _ _ _ (eventJson_is ..) rfl

/-- C78 (partial): what the server says about the tokens of a document is about its text on the disk at that time:
it depends on nothing else, neither on what happened before nor on other files. Missing: text that is not saved. -/
theorem C78_tokens_partial (X : ServerEnv) (msg : Json) (id : Int) (uri path : Str) (b : Option Bytes)
    (hm : msg.IsRequest id (chars! "textDocument/semanticTokens/full"))
    (hp : X.P.semanticTokens (msg.index (chars! "params")) = some uri) (hf : X.P.toFilePath uri = some path) :
    ∃ vs, ∀ (s : Server) (w : World), w.Healthy → w.files.get path = b →
      w.Said X.P (Server.dispatch X s msg w).2 vs := by
  obtain ⟨r, vs, h⟩ := Determined.tokens (b := b) hf id (chars! "semantic tokens failed")
  refine ⟨vs, fun s w hw hb => ?_⟩
  obtain ⟨h1, h2, _, _⟩ := h w hw hb
  rw [Server.dispatch_request hm, Server.handleRequest, if_neg (by decide), if_pos rfl, hp]
  simp only
  rw [IOM.bind_run]
  rcases hr : Server.respond X.P id (chars! "semantic tokens failed") (Server.handleSemanticTokens X uri) w with ⟨r1, w1⟩
  rw [hr] at h2
  rcases r1 with a | m | _ <;> exact h2

/-- C78 (partial): so it is with the diagnostics after a document was saved, for clients that want them. -/
theorem C78_saved_partial (X : ServerEnv) (msg : Json) (uri path : Str) (b : Option Bytes)
    (hm : msg.IsEvent (chars! "textDocument/didSave"))
    (hp : X.P.didSave (msg.index (chars! "params")) = some uri) (hf : X.P.toFilePath uri = some path) :
    ∃ vs, ∀ (s : Server) (w : World), s.publishDiagnostics = true → w.Healthy → w.files.get path = b →
      w.Said X.P (Server.dispatch X s msg w).2 vs := by
  obtain ⟨r, vs, h⟩ := Determined.didSave (b := b) hf true
  refine ⟨vs, fun s w hs hw hb => ?_⟩
  obtain ⟨_, h2⟩ := h s w hs hw hb
  rw [Server.dispatch_event hm, Server.handleNotification, if_neg (by decide), if_neg (by decide), if_neg (by decide),
    if_pos rfl, hp]
  simp only
  rw [IOM.bind_run]
  rcases hr : Server.didSave X s uri w with ⟨r1, w1⟩
  rw [hr] at h2
  rcases r1 with a | m | _ <;> exact h2

/-- The tokens of a document with the same text in two worlds that differ otherwise. -/
example : ∃ vs, (workspace (chars! "a")).Said sampleProtocol (Server.dispatch (sampleServerEnv sampleWasm) sampleServer
      (requestJson 7 (chars! "textDocument/semanticTokens/full") documentParams) (workspace (chars! "a"))).2 vs ∧
    ({ workspace [] with files := [(chars! "/w/docs/a.[]", utf8 (chars! "a"))] } : World).Said sampleProtocol
      (Server.dispatch (sampleServerEnv sampleWasm) {}
        (requestJson 7 (chars! "textDocument/semanticTokens/full") documentParams)
        { workspace [] with files := [(chars! "/w/docs/a.[]", utf8 (chars! "a"))] }).2 vs := by
  obtain ⟨vs, h⟩ := C78_tokens_partial (sampleServerEnv sampleWasm)
    (requestJson 7 (chars! "textDocument/semanticTokens/full") documentParams) 7 (chars! "file:///w/docs/a.[]")
    (chars! "/w/docs/a.[]") (some (utf8 (chars! "a"))) (requestJson_is (by decide) _ _) rfl rfl
  exact ⟨vs, h _ _ (workspace_healthy _) rfl, h _ _ (fun _ _ => rfl) rfl⟩

/-! ### C79 -/

/-- C79 (partial): the diagnostics of a saved document are addressed to the path of that document. -/
theorem C79_path_partial (X : ServerEnv) (s : Server) (msg : Json) (uri path text : Str) (w : World)
    (toks : List Token) (c : CST) (hw : w.Healthy) (hm : msg.IsEvent (chars! "textDocument/didSave"))
    (hp : X.P.didSave (msg.index (chars! "params")) = some uri) (hf : X.P.toFilePath uri = some path)
    (hc : w.Contains path text) (ht : tokenizeStr X.E.S text = .ok toks)
    (hpc : parse toks = .ok c) (hl : ∀ e ∈ trace [] toks, e.looseSeparator = false) (hs : s.publishDiagnostics = true) :
    ∃ v ds, w.Said X.P (Server.dispatch X s msg w).2 [v] ∧ v.seenDiagnostics = some ds ∧
      v.at [chars! "params", chars! "uri"] = some (.str path) := by
  have hh : World.Healthy { w with clock := w.clock + 1 } := healthy_later hw (by simp) rfl
  have h17 := C17_panic_iff toks c (X.E.ids 0) hpc
  obtain ⟨a, es, hx⟩ := h17.2 (by
    rw [Ne, h17.1]
    simpa using hl)
  rw [Server.save_run hw hm hp hf hc ht, hpc]
  simp only
  rw [hx]
  simp only [Server.sendDiagnostics, hs, if_true]
  rw [IOM.bind_of_ok (Server.send_run hh)]
  exact ⟨_, _, Server.said_send X.P _ { w with clock := w.clock + 1 }, Server.seen_diagnostics .., rfl⟩

/-- C79 refuted: a client that knows the document by a URI with a scheme is never sent diagnostics for that URI: the
address in the message is another one. -/
theorem C79_uri_refuted (X : ServerEnv) (s : Server) (msg : Json) (uri path text : Str) (w : World)
    (toks : List Token) (c : CST) (hw : w.Healthy) (hm : msg.IsEvent (chars! "textDocument/didSave"))
    (hp : X.P.didSave (msg.index (chars! "params")) = some uri) (hf : X.P.toFilePath uri = some path)
    (hc : w.Contains path text) (ht : tokenizeStr X.E.S text = .ok toks)
    (hpc : parse toks = .ok c) (hl : ∀ e ∈ trace [] toks, e.looseSeparator = false) (hs : s.publishDiagnostics = true)
    (hscheme : chars! "file:" <+: uri) (habs : chars! "/" <+: path) :
    ∃ v ds, w.Said X.P (Server.dispatch X s msg w).2 [v] ∧ v.seenDiagnostics = some ds ∧
      v.at [chars! "params", chars! "uri"] ≠ some (.str uri) := by
  obtain ⟨v, ds, h1, h2, h3⟩ := C79_path_partial X s msg uri path text w toks c hw hm hp hf hc ht hpc hl hs
  refine ⟨v, ds, h1, h2, fun h => ?_⟩
  rw [h3] at h
  injection h with h
  injection h with h
  subst h
  obtain ⟨a, ha⟩ := hscheme
  obtain ⟨b, hb⟩ := habs
  rw [← ha] at hb
  simp at hb

/-- Saving a document without errors. -/
example : ∃ v ds, (workspace (chars! "a")).Said sampleProtocol (Server.dispatch (sampleServerEnv sampleWasm) sampleServer
      (eventJson (chars! "textDocument/didSave") documentParams) (workspace (chars! "a"))).2 [v] ∧
    v.seenDiagnostics = some ds ∧ v.at [chars! "params", chars! "uri"] ≠ some (.str (chars! "file:///w/docs/a.[]")) :=
  C79_uri_refuted (sampleServerEnv sampleWasm) sampleServer _ _ (chars! "/w/docs/a.[]") (chars! "a") _ _ _
    (workspace_healthy _) (eventJson_is ..) rfl rfl (workspace_contains _) (tokenize_ascii _ _ (by decide)) rfl
    (by decide) rfl ⟨chars! "///w/docs/a.[]", rfl⟩ ⟨chars! "w/docs/a.[]", rfl⟩

/-! ### C80 -/

/-- C80 refuted: the request `shutdown` is answered with an error, … -/
theorem C80_shutdown_refuted (X : ServerEnv) (s : Server) (msg : Json) (id : Int) (w : World) (hw : w.Healthy)
    (hm : msg.IsRequest id (chars! "shutdown")) :
    ∃ v, (Server.dispatch X s msg w).1 = .ok s ∧ w.Said X.P (Server.dispatch X s msg w).2 [v] ∧ v.IsReply (.int id) ∧
      v.get (chars! "result") = none ∧ v.errorCode = some (-32601) := by
  obtain ⟨h1, h2⟩ := Server.unknown_says (s := s) hw hm (by decide) (by decide) (by decide)
  exact ⟨_, h1, h2, Server.errorJson_reply .., rfl, rfl⟩

/-- … the notification `exit` does not end the server: the messages after it are handled as if it were not there, … -/
theorem C80_exit_refuted (X : ServerEnv) (before after : List Json) (msg : Json) (s : Server)
    (hm : msg.IsEvent (chars! "exit")) : handleAll X (before ++ msg :: after) s = handleAll X (before ++ after) s := by
  refine handleAll_skip (fun s w => ?_) after before s
  rw [Server.dispatch_event hm, Server.handleNotification, if_neg (by decide), if_neg (by decide), if_neg (by decide),
    if_neg (by decide)]
  rfl

/-- … and a request that comes before `initialize`, or after `shutdown`, is served instead of being refused. -/
theorem C80_early_refuted (X : ServerEnv) (msg : Json) (id : Int) (uri path text : Str) (w : World)
    (toks : List Token) (hw : w.Healthy) (hm : msg.IsRequest id (chars! "textDocument/semanticTokens/full"))
    (hp : X.P.semanticTokens (msg.index (chars! "params")) = some uri) (hf : X.P.toFilePath uri = some path)
    (hc : w.Contains path text) (hlen : text.length < 2 ^ 32) (ht : tokenizeStr X.E.S text = .ok toks) :
    ∃ reply tokens, w.Said X.P (Server.dispatch X {} msg w).2 [reply] ∧ reply.IsReply (.int id) ∧
      reply.seenTokens = some tokens ∧ reply.errorCode = none := by
  obtain ⟨d, h1, h2⟩ := Server.semanticTokens_tiles (checks := X.E.checks) ht hlen
  obtain ⟨_, h4, h5⟩ := Server.tokens_request_of (s := {}) hw hm hp hf hc ht h1
  exact ⟨_, _, h4, h5, h2 id, rfl⟩

/-- The session `shutdown`, `exit` and a further request. -/
example (W : Wasm) (request : Json) : handleAll (sampleServerEnv W)
      ([requestJson 1 (chars! "shutdown") .null] ++ eventJson (chars! "exit") .null :: [request]) {} =
    handleAll (sampleServerEnv W) ([requestJson 1 (chars! "shutdown") .null] ++ [request]) {} :=
  C80_exit_refuted _ _ _ _ _ (eventJson_is ..)

example : ∃ v, (Server.dispatch (sampleServerEnv sampleWasm) {} (requestJson 1 (chars! "shutdown") .null) (workspace [])).1 =
      .ok {} ∧ (workspace []).Said sampleProtocol
      (Server.dispatch (sampleServerEnv sampleWasm) {} (requestJson 1 (chars! "shutdown") .null) (workspace [])).2 [v] ∧
    v.IsReply (.int 1) ∧ v.get (chars! "result") = none ∧ v.errorCode = some (-32601) :=
  C80_shutdown_refuted (sampleServerEnv sampleWasm) {} _ 1 _ (workspace_healthy _) (requestJson_is (by decide) _ _)

example : ∃ reply tokens, (workspace (chars! "a")).Said sampleProtocol (Server.dispatch (sampleServerEnv sampleWasm) {}
      (requestJson 7 (chars! "textDocument/semanticTokens/full") documentParams) (workspace (chars! "a"))).2 [reply] ∧
    reply.IsReply (.int 7) ∧ reply.seenTokens = some tokens ∧ reply.errorCode = none :=
  C80_early_refuted (sampleServerEnv sampleWasm) _ 7 (chars! "file:///w/docs/a.[]")
    (chars! "/w/docs/a.[]") (chars! "a") (workspace (chars! "a")) _ (workspace_healthy _)
    (requestJson_is (by decide) _ _) rfl rfl (workspace_contains _) (by decide) (tokenize_ascii _ _ (by decide))

/-- C80 (partial): the end of the input ends the server, successfully if all messages before it were handled, and
whatever there is behind it is not read. -/
theorem C80_ends_partial (X : ServerEnv) (ms : List Wire) (vs : List Json) (reads more : List Bytes) (s s' : Server)
    (w w' : World) (hm : ∀ m ∈ ms, m.Proper) (hv : ms.map (fun m => X.P.parse m.content) = vs.map some)
    (hne : ∀ r ∈ reads, r ≠ []) (hs : reads.flatten = stream ms)
    (hu : ∀ xs ys, reads = xs ++ ys → (fromUtf8 xs.flatten).isSome)
    (hone : ∀ xs r ys, reads = xs ++ r :: ys → ((messageEnds 0 ms).filter
      (fun e => xs.flatten.length < e ∧ e ≤ xs.flatten.length + r.length)).length ≤ 1)
    (hall : handleAll X vs s w = (.ok s', w')) :
    Server.run X (reads ++ [] :: more) [] s w = (.ok s', w') := by
  rw [Server.run_stops, ← Server.run_end, C48_all_partial X ms vs reads s hm hv hne hs hu hone, hall]

/-- Two requests, then the end of the input. -/
example (more : List Bytes) : Server.run (sampleServerEnv sampleWasm)
    ([(stream twoRequests).take 20, ((stream twoRequests).drop 20).take 50, (stream twoRequests).drop 70] ++ [] :: more) [] {}
      (sampleWorld (fun _ => .none)) = handleAll (sampleServerEnv sampleWasm) twoRequestsJson {} (sampleWorld (fun _ => .none)) := by
  have hok : (handleAll (sampleServerEnv sampleWasm) twoRequestsJson {} (sampleWorld (fun _ => .none))).1 = .ok {} := by
    decide +kernel
  rcases h : handleAll (sampleServerEnv sampleWasm) twoRequestsJson {} (sampleWorld (fun _ => .none)) with ⟨r, w'⟩
  rw [h] at hok
  simp only at hok
  subst hok
  refine C80_ends_partial _ twoRequests twoRequestsJson _ more _ _ _ _ twoRequests_proper (twoRequests_parse _) (by decide)
    (by decide) ?_ ?_ h
  · exact forall_splits (by decide)
  · exact forall_reads (by decide)

/-! ### C81 -/

/-- C81 (partial): of the requests a client makes only if the server announces the capability for them, exactly those
announced in the response to `initialize` are not rejected as unknown. Missing: the characters announced to trigger
completion (`C81_triggers_refuted`). -/
theorem C81_announced_partial (X : ServerEnv) (s₀ : Server) (msg₀ : Json) (id₀ : Int) (w₀ : World) (publish : Bool)
    (hw₀ : w₀.Healthy) (hm₀ : msg₀.IsRequest id₀ (chars! "initialize"))
    (hp₀ : X.P.initParams (msg₀.index (chars! "params")) = some publish) :
    ∃ log reply₀, w₀.Said X.P (Server.dispatch X s₀ msg₀ w₀).2 [log, reply₀] ∧ reply₀.IsReply (.int id₀) ∧
      ∀ method keys, (method, keys) ∈ capabilityFor → ∀ (s : Server) (msg : Json) (id : Int) (w : World), w.Healthy →
        msg.IsRequest id method → ∃ vs, w.Said X.P (Server.dispatch X s msg w).2 vs ∧
          ((∃ v ∈ vs, v.errorCode = some (-32601)) ↔ ¬ reply₀.Announces keys) := by
  obtain ⟨_, h2⟩ := Server.initialize_says (s := s₀) hw₀ hm₀ hp₀
  refine ⟨_, _, h2, Server.resultJson_reply .., fun method keys hk s msg id w hw hm => ?_⟩
  by_cases hc : method = chars! "textDocument/completion" ∨ method = chars! "textDocument/semanticTokens/full"
  · obtain ⟨vs, h3, h4⟩ := Server.known_says (X := X) (s := s) hw hm (hc.elim .inr .inl)
    refine ⟨vs, h3, ⟨fun ⟨v, hv, he⟩ => absurd he (h4 v hv), fun hn => absurd ?_ hn⟩⟩
    simp only [capabilityFor, List.mem_cons, Prod.mk.injEq, List.not_mem_nil, or_false] at hk
    rcases hc with rfl | rfl
    · rcases hk with ⟨_, rfl⟩ | ⟨h, _⟩ | ⟨h, _⟩ | ⟨h, _⟩ | ⟨h, _⟩ | ⟨h, _⟩ | ⟨h, _⟩ | ⟨h, _⟩ | ⟨h, _⟩ | ⟨h, _⟩ | ⟨h, _⟩ |
        ⟨h, _⟩ | ⟨h, _⟩
      · exact ⟨_, rfl, by simp, by simp⟩
      all_goals exact absurd h (by decide)
    · rcases hk with ⟨h, _⟩ | ⟨h, _⟩ | ⟨_, rfl⟩ | ⟨h, _⟩ | ⟨h, _⟩ | ⟨h, _⟩ | ⟨h, _⟩ | ⟨h, _⟩ | ⟨h, _⟩ | ⟨h, _⟩ | ⟨h, _⟩ |
        ⟨h, _⟩ | ⟨h, _⟩
      · exact absurd h (by decide)
      · exact absurd h (by decide)
      · exact ⟨_, rfl, by simp, by simp⟩
      all_goals exact absurd h (by decide)
  · rw [not_or] at hc
    have hi : method ≠ chars! "initialize" := by
      rintro rfl
      exact absurd (List.mem_map.mpr ⟨_, hk, rfl⟩ : chars! "initialize" ∈ capabilityFor.map Prod.fst) (by decide)
    obtain ⟨_, h3⟩ := Server.unknown_says (s := s) hw hm hi hc.2 hc.1
    refine ⟨_, h3, ⟨fun _ => ?_, fun _ => ⟨_, List.mem_singleton.mpr rfl, rfl⟩⟩⟩
    rintro ⟨v, hv, hn, hb⟩
    simp only [capabilityFor, List.mem_cons, Prod.mk.injEq, List.not_mem_nil, or_false] at hk
    rcases hk with ⟨h, rfl⟩ | ⟨h, rfl⟩ | ⟨h, rfl⟩ | ⟨h, rfl⟩ | ⟨h, rfl⟩ | ⟨h, rfl⟩ | ⟨h, rfl⟩ | ⟨h, rfl⟩ | ⟨h, rfl⟩ |
      ⟨h, rfl⟩ | ⟨h, rfl⟩ | ⟨h, rfl⟩ | ⟨h, rfl⟩
    · exact hc.1 h
    · injection hv with hv
      exact hb hv.symm
    · exact hc.2 h
    · injection hv
    · injection hv with hv
      exact hb hv.symm
    all_goals injection hv

/-- C81 refuted for the trigger characters: among them are `<`, the blank and the dot, for which, whatever the plugins
offer, nothing is ever listed. -/
theorem C81_triggers_refuted (X : ServerEnv) (s₀ : Server) (msg₀ : Json) (id₀ : Int) (w₀ : World) (publish : Bool)
    (hw₀ : w₀.Healthy) (hm₀ : msg₀.IsRequest id₀ (chars! "initialize"))
    (hp₀ : X.P.initParams (msg₀.index (chars! "params")) = some publish)
    (s : Server) (msg : Json) (id : Int) (md : PluginsMetadata) (trigger : Str)
    (w : World) (hw : w.Healthy) (hm : msg.IsRequest id (chars! "textDocument/completion"))
    (hp : X.P.completion (msg.index (chars! "params")) = some (some (some trigger))) (hs : s.project = some md)
    (hl : AllLoadable X.W w md) (htr : trigger ∈ [chars! "<", chars! " ", chars! "."]) :
    ∃ log reply₀ triggers reply, w₀.Said X.P (Server.dispatch X s₀ msg₀ w₀).2 [log, reply₀] ∧
      reply₀.IsReply (.int id₀) ∧ reply₀.triggers = some triggers ∧ trigger ∈ triggers ∧
      w.Said X.P (Server.dispatch X s msg w).2 [reply] ∧ reply.IsReply (.int id) ∧ reply.seenItems = some [] := by
  obtain ⟨_, h2⟩ := Server.initialize_says (s := s₀) hw₀ hm₀ hp₀
  have htr' : trigger ≠ chars! "[" ∧ trigger ≠ chars! "{" := by
    constructor <;> (rintro rfl; exact absurd htr (by decide))
  obtain ⟨reply, h3, h4, h5⟩ := C55_macros_refuted X s msg id md trigger w hw hm hp hs hl htr'.1 htr'.2
  refine ⟨_, _, _, reply, h2, Server.resultJson_reply .., rfl, ?_, h3, h4, h5⟩
  simp only [List.mem_cons, List.not_mem_nil, or_false] at htr
  rcases htr with rfl | rfl | rfl <;> decide

example : ∃ log reply₀ triggers reply, (workspace []).Said sampleProtocol (Server.dispatch (sampleServerEnv sampleWasm) {}
      (requestJson 1 (chars! "initialize") (.obj [(chars! "capabilities", .obj [])])) (workspace [])).2 [log, reply₀] ∧
    reply₀.IsReply (.int 1) ∧ reply₀.triggers = some triggers ∧ chars! "<" ∈ triggers ∧
    (workspace (chars! "a")).Said sampleProtocol (Server.dispatch (sampleServerEnv sampleWasm) sampleServer
      (requestJson 7 (chars! "textDocument/completion") (completionParams (chars! "<"))) (workspace (chars! "a"))).2 [reply] ∧
    reply.IsReply (.int 7) ∧ reply.seenItems = some [] :=
  C81_triggers_refuted (sampleServerEnv sampleWasm) {} _ 1 _ false (workspace_healthy _) (requestJson_is (by decide) _ _)
    rfl sampleServer _ 7 _ (chars! "<") _ (workspace_healthy _) (requestJson_is (by decide) _ _) rfl rfl
    (workspace_loadable _) (by decide)

/-! ### C84 -/

/-- C84 (partial): a message with no method, or with one the server does not know, does not stop the server; a request
is answered with an error, and so is a message that has neither an id nor a method. Missing: messages of known methods
with other parameters, invalid JSON and other headers, see below. -/
theorem C84_unknown_partial (X : ServerEnv) (s : Server) (msg : Json) (w : World) (hw : w.Healthy)
    (hm : ∀ method, msg.get (chars! "method") = some (.str method) → method ∉ knownMethods) :
    (Server.dispatch X s msg w).1 = .ok s ∧
      (∀ id method, msg.IsRequest id method → ∃ v, w.Said X.P (Server.dispatch X s msg w).2 [v] ∧ v.IsReply (.int id) ∧
        v.errorCode = some (-32601)) ∧
      (∀ method, msg.IsEvent method → (Server.dispatch X s msg w).2 = w) ∧
      (msg.get (chars! "id") = none → msg.get (chars! "method") = none →
        ∃ v, w.Said X.P (Server.dispatch X s msg w).2 [v] ∧ v.IsReply .null ∧ v.errorCode = some (-32600)) := by
  refine ⟨?_, ?_, ?_, ?_⟩
  · exact Server.unknown_ok hw hm
  · intro id method hr
    have h := hm method hr.2.2
    obtain ⟨_, h2⟩ := Server.unknown_says (s := s) hw hr (by rintro rfl; exact h (by decide))
      (by rintro rfl; exact h (by decide)) (by rintro rfl; exact h (by decide))
    exact ⟨_, h2, Server.errorJson_reply .., rfl⟩
  · intro method hr
    have h := hm method hr.2
    rw [Server.dispatch_event hr, Server.handleNotification, if_neg (by rintro rfl; exact h (by decide)),
      if_neg (by rintro rfl; exact h (by decide)), if_neg (by rintro rfl; exact h (by decide)),
      if_neg (by rintro rfl; exact h (by decide))]
    rfl
  · intro h1 h2
    rw [Server.dispatch, h1, h2]
    simp only [Option.bind_none]
    rw [Server.sendInvalidRequest, Server.sendError, IOM.bind_of_ok (Server.send_run hw)]
    exact ⟨_, Server.said_send .., ⟨rfl, rfl, .inr rfl⟩, rfl⟩

/-- C84 does not hold for notifications whose parameters do not have the required form: the server stops. -/
theorem C84_params_refuted (X : ServerEnv) (s : Server) (msg : Json) (method : Str) (w : World)
    (hm : msg.IsEvent method)
    (hp : (method = chars! "textDocument/didOpen" ∧ X.P.didOpen (msg.index (chars! "params")) = none) ∨
      (method = chars! "textDocument/didChange" ∧ X.P.didChange (msg.index (chars! "params")) = false) ∨
      (method = chars! "textDocument/didSave" ∧ X.P.didSave (msg.index (chars! "params")) = none)) :
    ∃ e, Server.dispatch X s msg w = (.err e, w) := by
  rw [Server.dispatch_event hm, Server.handleNotification]
  rcases hp with ⟨rfl, hp⟩ | ⟨rfl, hp⟩ | ⟨rfl, hp⟩
  · rw [if_neg (by decide), if_pos rfl, hp]
    exact ⟨_, rfl⟩
  · rw [if_neg (by decide), if_neg (by decide), if_pos rfl, hp]
    exact ⟨_, rfl⟩
  · rw [if_neg (by decide), if_neg (by decide), if_neg (by decide), if_pos rfl, hp]
    exact ⟨_, rfl⟩

/-- C84 does not hold for a message whose content is not JSON: the server stops. -/
theorem C84_json_refuted (X : ServerEnv) (m : Wire) (rest : List Bytes) (s : Server) (w : World) (hm : m.Proper)
    (hv : X.P.parse m.content = none) : ∃ e, Server.run X (m.bytes :: rest) [] s w = (.err e, w) := by
  have hne : m.bytes ≠ [] := fun h => by
    have := m.bytes_pos
    rw [h] at this
    simp at this
  have h := Server.nextMessage_unparsable (checks := X.E.checks) (P := X.P) (rest := []) hm
    (by rw [List.append_nil, Wire.bytes, fromUtf8_utf8]; rfl) hv
  rw [List.append_nil] at h
  exact ⟨_, Server.run_cons_err hne (by rw [List.nil_append]; exact h) w⟩

/-- C84 does not hold for a header line without a colon followed by a blank: the server panics. -/
theorem C84_header_refuted (X : ServerEnv) (line content : Str) (rest : List Bytes) (s : Server) (w : World)
    (hne : line ≠ []) (hr : '\r' ∉ line) (hc : ∀ a b, line ≠ a ++ chars! ": " ++ b) :
    Server.run X (utf8 (line ++ chars! "\r\n\r\n" ++ content) :: rest) [] s w = (.panic, w) := by
  have h := Server.nextMessage_colon (checks := X.E.checks) (P := X.P) (content := content) hne hr hc
  rw [Server.run, if_neg, List.nil_append, h]
  · rfl
  · intro he
    rw [utf8_append, utf8_append, List.append_eq_nil_iff, List.append_eq_nil_iff] at he
    exact absurd he.1.2 (by decide)

/-- C84 does not hold for a message without a length: from then on no message is handled any more, whatever the
client sends. -/
theorem C84_length_refuted (X : ServerEnv) (m : Wire) (rest : List Bytes) (s : Server) (w : World)
    (hf : ∀ f ∈ m.fields, '\r' ∉ f.1 ∧ '\r' ∉ f.2 ∧ ':' ∉ f.1) (hne : m.fields ≠ [])
    (hl : ∀ f ∈ m.fields, f.1 ≠ chars! "Content-Length") :
    (Server.run X (m.bytes :: rest) [] s w = (.ok s, w)) ∨ ∃ e, Server.run X (m.bytes :: rest) [] s w = (.err e, w) := by
  have hb : m.bytes ≠ [] := fun h => by
    have := m.bytes_pos
    rw [h] at this
    simp at this
  have key : ∀ (cs : List Bytes) (r : Bytes), (Server.run X cs (m.bytes ++ r) s w = (.ok s, w)) ∨
      ∃ e, Server.run X cs (m.bytes ++ r) s w = (.err e, w) := by
    intro cs
    induction cs with
    | nil => intro r; exact .inl rfl
    | cons c cs ih =>
      intro r
      by_cases hc : c = []
      · rw [Server.run, if_pos hc]
        exact .inl rfl
      · rcases Server.nextMessage_unannounced (checks := X.E.checks) (P := X.P) hf hne hl (r ++ c) with h | ⟨_, e, h⟩
        · rw [← List.append_assoc] at h
          rw [Server.run_cons_none hc h, List.append_assoc]
          exact ih (r ++ c)
        · rw [← List.append_assoc] at h
          exact .inr ⟨e, Server.run_cons_err hc h w⟩
  rcases Server.nextMessage_unannounced (checks := X.E.checks) (P := X.P) hf hne hl [] with h | ⟨_, e, h⟩
  · rw [List.append_nil] at h
    rw [Server.run_cons_none hb (by rw [List.nil_append]; exact h), List.nil_append, ← List.append_nil m.bytes]
    exact key rest []
  · rw [List.append_nil] at h
    exact .inr ⟨e, Server.run_cons_err hb (by rw [List.nil_append]; exact h) w⟩

/-- A message with an unknown method; a notification without parameters; a name of a field in small letters, which
other servers accept; a field without a blank. -/
example : (Server.dispatch (sampleServerEnv sampleWasm) {} (requestJson 7 (chars! "textDocument/hover") .null) (workspace [])).1 =
    .ok {} :=
  (C84_unknown_partial (sampleServerEnv sampleWasm) {} _ _ (workspace_healthy _) (by
    intro method h
    injection h with h
    injection h with h
    subst h
    decide)).1

example : ∃ e, Server.dispatch (sampleServerEnv sampleWasm) {} (eventJson (chars! "textDocument/didOpen") .null) (workspace []) =
    (.err e, workspace []) :=
  C84_params_refuted (sampleServerEnv sampleWasm) {} _ _ _ (eventJson_is ..) (.inl ⟨rfl, rfl⟩)

example : ∃ e, Server.run (sampleServerEnv sampleWasm) [(Wire.plain (chars! "{")).bytes, []] [] {} (workspace []) =
    (.err e, workspace []) :=
  C84_json_refuted (sampleServerEnv sampleWasm) (Wire.plain (chars! "{")) _ {} _
    ⟨by decide, by decide, by decide, by decide⟩ (by decide +kernel)

example (rest : List Bytes) :
    let m : Wire := ⟨[(chars! "content-length", chars! "2")], chars! "{}"⟩
    (Server.run (sampleServerEnv sampleWasm) (m.bytes :: rest) [] {} (workspace []) = (.ok {}, workspace [])) ∨
      ∃ e, Server.run (sampleServerEnv sampleWasm) (m.bytes :: rest) [] {} (workspace []) = (.err e, workspace []) :=
  C84_length_refuted _ _ _ _ _ (by decide) (by decide) (by decide)

example (rest : List Bytes) : Server.run (sampleServerEnv sampleWasm)
    (utf8 (chars! "Content-Length:2" ++ chars! "\r\n\r\n" ++ chars! "{}") :: rest) [] {} (workspace []) =
      (.panic, workspace []) :=
  C84_header_refuted _ _ _ _ _ _ (by decide) (by decide) (fun a b h => by
    have h1 := congrArg (fun s : Str => s.contains ' ') h
    simp at h1)

end Brack
