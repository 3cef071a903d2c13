import Verif.Proof.ServerJson
import Verif.Proof.ServerReplies
import Verif.Proof.ServerCases

/-
Properties of the messages of the language server: C48, C49, C50.
-/

namespace Brack

/-! ### C48 -/

/-- C48 (partial), exactly what happens: the reads get well-formed messages, cut between characters; after each
read one message is handled, provided it is complete. Missing: see `C48_burst_refuted` and
`C48_character_refuted`. -/
theorem C48_handled_partial (X : ServerEnv) (ms : List Wire) (vs : List Json) (reads : List Bytes) (tail : Bytes)
    (s : Server) (hm : ∀ m ∈ ms, m.Proper) (hv : ms.map (fun m => X.P.parse m.content) = vs.map some)
    (hne : ∀ r ∈ reads, r ≠ []) (hs : reads.flatten ++ tail = stream ms)
    (hu : ∀ xs ys, reads = xs ++ ys → (fromUtf8 xs.flatten).isSome) :
    Server.run X (reads ++ [[]]) [] s = handleAll X (vs.take (handled (messageEnds 0 ms) (readEnds 0 reads))) s := by
  rw [Server.run_end]
  have := Server.run_stream (X := X) (s := s) (b := []) 0 hm hv hne (by simpa using hs)
    (fun xs ys h _ => by simpa using hu xs ys h)
  simpa using this

/-- C48 (partial): if moreover at most one message ends in each read, all messages are handled, in order, and
the way the stream is cut makes no difference. -/
theorem C48_all_partial (X : ServerEnv) (ms : List Wire) (vs : List Json) (reads : List Bytes) (s : Server)
    (hm : ∀ m ∈ ms, m.Proper) (hv : ms.map (fun m => X.P.parse m.content) = vs.map some)
    (hne : ∀ r ∈ reads, r ≠ []) (hs : reads.flatten = stream ms)
    (hu : ∀ xs ys, reads = xs ++ ys → (fromUtf8 xs.flatten).isSome)
    (hone : ∀ xs r ys, reads = xs ++ r :: ys → ((messageEnds 0 ms).filter
      (fun e => xs.flatten.length < e ∧ e ≤ xs.flatten.length + r.length)).length ≤ 1) :
    Server.run X (reads ++ [[]]) [] s = handleAll X vs s := by
  rw [C48_handled_partial X ms vs reads [] s hm hv hne (by simpa using hs) hu]
  have h1 := messageEnds_sorted ms 0
  have h2 := handled_count (cs := reads) (es := messageEnds 0 ms) (p := 0) h1.1 h1.2 (by
    intro xs c ys h e he e' he' h1 h2 h3 h4
    have := hone xs c ys h
    have hb : e ∈ (messageEnds 0 ms).filter
        (fun e => xs.flatten.length < e ∧ e ≤ xs.flatten.length + c.length) := by
      simp only [List.mem_filter, decide_eq_true_eq]; exact ⟨he, by omega, by omega⟩
    have hb' : e' ∈ (messageEnds 0 ms).filter
        (fun e => xs.flatten.length < e ∧ e ≤ xs.flatten.length + c.length) := by
      simp only [List.mem_filter, decide_eq_true_eq]; exact ⟨he', by omega, by omega⟩
    rcases hl : (messageEnds 0 ms).filter
        (fun e => xs.flatten.length < e ∧ e ≤ xs.flatten.length + c.length) with _ | ⟨a, _ | ⟨b, l⟩⟩
    · rw [hl] at hb; simp at hb
    · rw [hl] at hb hb'
      rw [List.mem_singleton.mp hb, List.mem_singleton.mp hb']
    · rw [hl] at this; simp at this)
  have h3 : (messageEnds 0 ms).countP (· ≤ 0 + reads.flatten.length) = vs.length := by
    have hl : vs.length = ms.length := by
      have := congrArg List.length hv
      simpa using this.symm
    rw [hl, ← messageEnds_length ms 0, List.countP_eq_length]
    intro e he
    have := messageEnds_le ms 0 e he
    rw [hs]
    simpa using this
  rw [h2, h3, List.take_length]

/-- The hypotheses are met by two requests in three reads, the first of them ending in the second read and the
second in the third. -/
example (s : Server) : Server.run (sampleServerEnv sampleWasm)
    ([(stream twoRequests).take 20, ((stream twoRequests).drop 20).take 50, (stream twoRequests).drop 70] ++ [[]]) [] s =
      handleAll (sampleServerEnv sampleWasm) twoRequestsJson s := by
  refine C48_all_partial _ twoRequests twoRequestsJson _ s twoRequests_proper (twoRequests_parse _) (by decide)
    (by decide) ?_ ?_
  · exact forall_splits (by decide)
  · exact forall_reads (by decide)

/-- C48 does not hold for all ways to cut: of two messages got in one read only the first is handled, … -/
theorem C48_burst_refuted (X : ServerEnv) (m m' : Wire) (v v' : Json) (s : Server) (hm : m.Proper) (hm' : m'.Proper)
    (hv : X.P.parse m.content = some v) (hv' : X.P.parse m'.content = some v') :
    Server.run X [stream [m, m'], []] [] s = handleAll X [v] s := by
  have h := C48_handled_partial X [m, m'] [v, v'] [stream [m, m']] [] s (by simp [hm, hm']) (by simp [hv, hv'])
    (by
      intro r hr
      rw [List.mem_singleton.mp hr]
      have := m.bytes_pos
      intro he
      rw [stream, List.flatMap_cons, List.append_eq_nil_iff] at he
      rw [he.1] at this
      simp at this)
    (by simp) ?_
  · have h2 : handled (messageEnds 0 [m, m']) (readEnds 0 [stream [m, m']]) = 1 := by
      have : 0 + m.bytes.length ≤ 0 + (stream [m, m']).length := by simp [stream]
      rw [messageEnds, readEnds, handled, if_pos this]
      simp only [readEnds]
      cases messageEnds (0 + m.bytes.length) [m'] <;> rfl
    rw [h2] at h
    exact h
  · intro xs ys h
    cases xs with
    | nil => rfl
    | cons x xs =>
      have h2 := congrArg List.length h
      simp only [List.cons_append, List.length_cons, List.length_append, List.length_nil] at h2
      have h3 : xs = [] := List.eq_nil_of_length_eq_zero (by omega)
      subst h3
      simp only [List.cons_append, List.cons.injEq] at h
      rw [← h.1]
      simp only [List.flatten_cons, List.flatten_nil, List.append_nil, stream, List.flatMap_cons, List.flatMap_nil,
        Wire.bytes]
      rw [← utf8_append, fromUtf8_utf8]
      rfl

/-- … so that the second of two requests gets no response until more input comes. -/
theorem C48_unanswered_refuted :
    ((Server.run (sampleServerEnv sampleWasm) [stream twoRequests, []] [] {} (sampleWorld (fun _ => .none))).2.sent.length = 1) ∧
    ((handleAll (sampleServerEnv sampleWasm) twoRequestsJson {} (sampleWorld (fun _ => .none))).2.sent.length = 2) := by
  decide +kernel

/-- C48 does not hold either if a read ends inside a character: the server stops. -/
theorem C48_character_refuted (X : ServerEnv) (r : Bytes) (rest : List Bytes) (s : Server) (w : World) (hne : r ≠ [])
    (hr : fromUtf8 r = none) : ∃ e, Server.run X (r :: rest) [] s w = (.err e, w) :=
  ⟨_, Server.run_cons_err hne (by rw [List.nil_append, Server.nextMessage, hr]) w⟩

/-- Such a read, of a well-formed message that is ignored if it comes at once. -/
theorem C48_cut_refuted :
    (Wire.plain (chars! "{\"method\":\"é\"}")).Proper ∧
    (∀ w, Server.run (sampleServerEnv sampleWasm) [stream [Wire.plain (chars! "{\"method\":\"é\"}")], []] [] {} w =
      (.ok {}, w)) ∧
    (∀ w, ∃ e, Server.run (sampleServerEnv sampleWasm) [(stream [Wire.plain (chars! "{\"method\":\"é\"}")]).take 34,
      (stream [Wire.plain (chars! "{\"method\":\"é\"}")]).drop 34, []] [] {} w = (.err e, w)) := by
  refine ⟨⟨by decide, by decide, by decide, by decide⟩, fun w => ?_, fun w => ?_⟩
  · rfl
  · exact C48_character_refuted _ _ _ _ _ (by decide) (by decide)

/-! ### C49 -/

/-- C49: a client that reads messages by the length announced gets back the messages framed. -/
theorem C49_frames (messages : List Str) :
    readMessages messages.length (messages.flatMap frame) = some (messages.map utf8) :=
  readMessages_frames messages _ (Nat.le_refl _)

/-- Non-ASCII text. -/
example : readMessages 2 ([chars! "\"é\"", chars! "\"\r\n\r\n\""].flatMap frame) =
    some [utf8 (chars! "\"é\""), utf8 (chars! "\"\r\n\r\n\"")] :=
  C49_frames [chars! "\"é\"", chars! "\"\r\n\r\n\""]

/-- C49: whatever the server reads, a client reading its output by the lengths announced gets one message for
each that was sent, and decoding it gives the message. -/
theorem C49_recovered (X : ServerEnv) (reads : List Bytes) (s : Server) (w : World) (hw : w.Healthy)
    (h0 : w.sent = []) (hp : X.P.Faithful) :
    ∃ vs : List Json, w.Said X.P (Server.run X reads [] s w).2 vs ∧
      (readMessages vs.length (Server.run X reads [] s w).2.sent.flatten).map
        (List.map (fun bytes => (fromUtf8 bytes).bind X.P.parse)) = some (vs.map some) := by
  obtain ⟨vs, h1, h2⟩ := (Server.run_integral X reads [] s w).said hw
  refine ⟨vs, h2, ?_⟩
  have h3 : (Server.run X reads [] s w).2.sent.flatten = (vs.map X.P.print).flatMap frame := by
    rw [World.Said, h0] at h2
    rw [h2, List.nil_append, List.flatMap_map, List.flatMap_def]
  have h4 := C49_frames (vs.map X.P.print)
  rw [List.length_map] at h4
  rw [h3, h4, Option.map_some, List.map_map, List.map_map]
  congr 1
  refine List.map_congr_left fun v hv => ?_
  simp only [Function.comp_apply]
  rw [fromUtf8_utf8, Option.bind_some, hp v (h1 v hv)]

example : ∃ vs : List Json, (sampleWorld (fun _ => .none)).Said sampleProtocol
      (Server.run (sampleServerEnv sampleWasm) [stream twoRequests, []] [] {} (sampleWorld (fun _ => .none))).2 vs ∧
      (readMessages vs.length (Server.run (sampleServerEnv sampleWasm) [stream twoRequests, []] [] {}
        (sampleWorld (fun _ => .none))).2.sent.flatten).map
        (List.map (fun bytes => (fromUtf8 bytes).bind sampleProtocol.parse)) = some (vs.map some) :=
  C49_recovered (sampleServerEnv sampleWasm) _ _ _ (fun _ _ => rfl) rfl sampleProtocol_faithful

/-! ### C50 -/

/-- C50 (partial): a request gets exactly one response, carrying its id, and the server goes on, unless it is
one of those described by `Malformed`, `Neglected` and `Oversized`; besides, only notifications are sent.
Missing: those requests. -/
theorem C50_answered_partial (X : ServerEnv) (s : Server) (msg : Json) (id : Int) (method : Str) (w : World)
    (hw : w.Healthy) (hm : msg.IsRequest id method) (h1 : ¬ Malformed X.P method (msg.index (chars! "params")))
    (h2 : ¬ Neglected X.P s w method (msg.index (chars! "params")))
    (h3 : ¬ Oversized X.P w method (msg.index (chars! "params"))) :
    ∃ logs reply s', (∀ v ∈ logs, v.IsNotification) ∧ reply.IsReply (.int id) ∧
      (Server.dispatch X s msg w).1 = .ok s' ∧ w.Said X.P (Server.dispatch X s msg w).2 (logs ++ [reply]) := by
  rw [Server.dispatch_request hm]
  obtain ⟨logs, rs, hl, hs, hr⟩ := Server.handleRequest_says (X := X) (s := s) (msg := msg) (id := id)
    (method := method) hw
  have hn : ∀ v ∈ logs, v.IsNotification := fun v hv => by
    obtain ⟨m, rfl⟩ := hl v hv
    exact Server.logJson_notification m
  rcases hr with ⟨v, rfl, hv, s', h⟩ | ⟨_, ⟨_, h⟩ | ⟨_, h⟩ | ⟨_, h⟩⟩
  · exact ⟨logs, v, s', hn, hv, h, hs⟩
  · exact absurd h h3
  · exact absurd h h1
  · exact absurd h h2

/-- The hypotheses are met by a request for the semantic tokens of a document. -/
example : ∃ logs reply s', (∀ v ∈ logs, v.IsNotification) ∧ reply.IsReply (.int 7) ∧
    (Server.dispatch (sampleServerEnv sampleWasm) sampleServer
      (requestJson 7 (chars! "textDocument/semanticTokens/full") documentParams) (workspace (chars! "a"))).1 = .ok s' ∧
    (workspace (chars! "a")).Said sampleProtocol (Server.dispatch (sampleServerEnv sampleWasm) sampleServer
      (requestJson 7 (chars! "textDocument/semanticTokens/full") documentParams) (workspace (chars! "a"))).2
      (logs ++ [reply]) := by
  refine C50_answered_partial (sampleServerEnv sampleWasm) _ _ _ _ _ (workspace_healthy _)
    (requestJson_is (by decide) _ _) ?_ ?_ ?_
  · rintro (⟨h, _⟩ | ⟨_, h⟩ | ⟨h, _⟩)
    · exact absurd h (by decide)
    · exact absurd h (by decide)
    · exact absurd h (by decide)
  · rintro (⟨_, uri, path, h1, h2, h3⟩ | ⟨h, _⟩)
    · injection h1 with h1
      subst h1
      injection h2 with h2
      subst h2
      exact h3 _ _ rfl (fromUtf8_utf8 _)
    · exact absurd h (by decide)
  · rintro ⟨_, uri, h1, path, b, text, h2, h3, h4, h5⟩
    injection h1 with h1
    subst h1
    injection h2 with h2
    subst h2
    injection h3 with h3
    subst h3
    rw [fromUtf8_utf8] at h4
    injection h4 with h4
    subst h4
    exact absurd h5 (by decide)

/-- C50 (partial): no request gets more than one response, and only such as carry its id. -/
theorem C50_once_partial (X : ServerEnv) (s : Server) (msg : Json) (id : Int) (method : Str) (w : World)
    (hw : w.Healthy) (hm : msg.IsRequest id method) :
    ∃ logs rs, (∀ v ∈ logs, v.IsNotification) ∧ rs.length ≤ 1 ∧ (∀ v ∈ rs, v.IsReply (.int id)) ∧
      w.Said X.P (Server.dispatch X s msg w).2 (logs ++ rs) := by
  rw [Server.dispatch_request hm]
  obtain ⟨logs, rs, hl, hs, hr⟩ := Server.handleRequest_says (X := X) (s := s) (msg := msg) (id := id)
    (method := method) hw
  have hn : ∀ v ∈ logs, v.IsNotification := fun v hv => by
    obtain ⟨m, rfl⟩ := hl v hv
    exact Server.logJson_notification m
  refine ⟨logs, rs, hn, ?_, ?_, hs⟩ <;> rcases hr with ⟨v, rfl, hv, s', h⟩ | ⟨rfl, _⟩
  · simp
  · simp
  · intro v' hv'
    rw [List.mem_singleton.mp hv']
    exact hv
  · simp

/-- C50: a message with a method and without an id gets no response: only notifications are sent. -/
theorem C50_notification (X : ServerEnv) (s : Server) (msg : Json) (method : Str) (w : World) (hw : w.Healthy)
    (hi : msg.get (chars! "id") = none) (hm : msg.get (chars! "method") = some (.str method)) :
    ∃ vs, (∀ v ∈ vs, v.IsNotification) ∧ w.Said X.P (Server.dispatch X s msg w).2 vs := by
  have h := Server.handleNotification_talks (X := X) (Q := Json.IsNotification) Server.logJson_notification
    Server.diagnosticsJson_notification s msg method
  have hd : Server.dispatch X s msg = Server.handleNotification X s msg method := by
    rw [Server.dispatch, hi, hm]
    rfl
  rw [hd]
  exact (h w).said hw

/-- The notification `initialized` gets a log message. -/
example : ∃ vs, (∀ v ∈ vs, v.IsNotification) ∧ (workspace []).Said sampleProtocol
    (Server.dispatch (sampleServerEnv sampleWasm) {} (eventJson (chars! "initialized") (.obj [])) (workspace [])).2 vs :=
  C50_notification (sampleServerEnv sampleWasm) _ _ _ _ (workspace_healthy _) rfl rfl

/-- C50: nothing is done about a response. -/
theorem C50_response (X : ServerEnv) (s : Server) (msg : Json) (id : Int) (w : World)
    (hi : msg.get (chars! "id") = some (.int id)) (hr : -2 ^ 63 ≤ id ∧ id < 2 ^ 63)
    (hm : msg.get (chars! "method") = none) : Server.dispatch X s msg w = (.ok s, w) := by
  rw [Server.dispatch, hi, hm, Option.bind_some, Json.asI64, if_pos hr]
  rfl

example (w : World) : Server.dispatch (sampleServerEnv sampleWasm) {}
    (.obj [(chars! "id", .int 3), (chars! "result", .null)]) w = (.ok {}, w) :=
  C50_response _ _ _ 3 w rfl (by decide) rfl

/-- C50 does not hold for requests with a string as id, allowed by the protocol: they get no response. -/
theorem C50_string_id_refuted (X : ServerEnv) (s : Server) (msg : Json) (id method : Str) (w : World) (hw : w.Healthy)
    (hi : msg.get (chars! "id") = some (.str id)) (hm : msg.get (chars! "method") = some (.str method)) :
    ∃ vs, (∀ v ∈ vs, v.IsNotification) ∧ w.Said X.P (Server.dispatch X s msg w).2 vs := by
  have h := Server.handleNotification_talks (X := X) (Q := Json.IsNotification) Server.logJson_notification
    Server.diagnosticsJson_notification s msg method
  have hd : Server.dispatch X s msg = Server.handleNotification X s msg method := by
    rw [Server.dispatch, hi, hm]
    rfl
  rw [hd]
  exact (h w).said hw

/-- The request `initialize` with a string as id gets no response. -/
example : ∃ vs, (∀ v ∈ vs, v.IsNotification) ∧ (workspace []).Said sampleProtocol
    (Server.dispatch (sampleServerEnv sampleWasm) {} (.obj [(chars! "id", .str (chars! "1")),
      (chars! "method", .str (chars! "initialize")), (chars! "params", .obj [])]) (workspace [])).2 vs :=
  C50_string_id_refuted (sampleServerEnv sampleWasm) _ _ (chars! "1") _ _ (workspace_healthy _) rfl rfl

/-- C50 does not hold for completion while there is no project: there is no response. -/
theorem C50_no_project_refuted (X : ServerEnv) (s : Server) (msg : Json) (id : Int) (context : Option (Option Str))
    (w : World) (hw : w.Healthy) (hm : msg.IsRequest id (chars! "textDocument/completion"))
    (hp : X.P.completion (msg.index (chars! "params")) = some context) (hs : s.project = none) :
    (Server.dispatch X s msg w).1 = .ok s ∧ w.Said X.P (Server.dispatch X s msg w).2 [] := by
  have h := Server.completion_request (s := s) hw hm hp
  have h2 : (Server.handleCompletion X s context w).1 = .ok none := by
    rw [Server.handleCompletion, hs]
    rfl
  rw [h2] at h
  exact h

example : (workspace []).Said sampleProtocol (Server.dispatch (sampleServerEnv sampleWasm) {}
    (requestJson 7 (chars! "textDocument/completion") (completionParams ['['])) (workspace [])).2 [] :=
  (C50_no_project_refuted (sampleServerEnv sampleWasm) {} _ 7 _ _ (workspace_healthy _) (requestJson_is (by decide) _ _)
    rfl rfl).2

/-- C50 does not hold for completion asked for without a trigger character, as clients do when the user asks for
it: there is no response. -/
theorem C50_no_trigger_refuted (X : ServerEnv) (s : Server) (msg : Json) (id : Int) (md : PluginsMetadata)
    (plugins : List (Plugin X.W)) (ps : Plugins X.W)
    (w w' : World) (hw : w.Healthy) (hm : msg.IsRequest id (chars! "textDocument/completion"))
    (hp : X.P.completion (msg.index (chars! "params")) = some (some none)) (hs : s.project = some md)
    (hl : loadPlugins X.W md w = (.ok plugins, w')) (hn : Plugins.new plugins = .ok ps) :
    (Server.dispatch X s msg w).1 = .ok s ∧ w.Said X.P (Server.dispatch X s msg w).2 [] := by
  have h := Server.completion_request (s := s) hw hm hp
  have h2 : (Server.handleCompletion X s (some none) w).1 = .ok none := by
    rw [Server.handleCompletion, hs]
    simp only
    rw [IOM.bind_of_ok hl, IOM.bind_run, IOM.lift_run, hn]
    rfl
  rw [h2] at h
  exact h

example : (workspace []).Said sampleProtocol (Server.dispatch (sampleServerEnv sampleWasm) sampleServer
    (requestJson 7 (chars! "textDocument/completion") (.obj [(chars! "textDocument", .obj
      [(chars! "uri", .str (chars! "file:///w/docs/a.[]"))]), (chars! "context", .obj [(chars! "triggerKind", .int 1)])]))
    (workspace [])).2 [] :=
  (C50_no_trigger_refuted (sampleServerEnv sampleWasm) sampleServer _ 7 _ _ _ (workspace []) _ (workspace_healthy _)
    (requestJson_is (by decide) _ _) rfl rfl rfl rfl).2

/-- C50 does not hold for the semantic tokens of a document that cannot be read, such as one not saved yet: there
is only a log message. -/
theorem C50_unreadable_refuted (X : ServerEnv) (s : Server) (msg : Json) (id : Int) (uri path : Str) (w : World)
    (hw : w.Healthy) (hm : msg.IsRequest id (chars! "textDocument/semanticTokens/full"))
    (hp : X.P.semanticTokens (msg.index (chars! "params")) = some uri) (hf : X.P.toFilePath uri = some path)
    (hu : w.Unreadable path) :
    ∃ v, v.IsNotification ∧ (Server.dispatch X s msg w).1 = .ok s ∧
      w.Said X.P (Server.dispatch X s msg w).2 [v] := by
  obtain ⟨m, hr⟩ := Server.readText_fails hu
  have h1 : Server.tokenizeFile X.E.S path w = (.err m, { w with clock := w.clock + 1 }) := by
    rw [Server.tokenizeFile, IOM.bind_run, hr]
  have hh : World.Healthy { w with clock := w.clock + 1 } := healthy_later hw (by simp) rfl
  rw [Server.dispatch_request hm, Server.handleRequest, if_neg (by decide), if_pos rfl, hp]
  simp only
  rw [IOM.bind_run, Server.respond, IOM.bind_run, attempt_run, Server.handleSemanticTokens, hf]
  simp only
  rw [IOM.bind_run, attempt_run, h1]
  simp only
  rw [Server.logMessage, IOM.bind_of_ok (Server.send_run hh)]
  exact ⟨_, Server.logJson_notification _, rfl, Server.said_send X.P _ { w with clock := w.clock + 1 }⟩

example : ∃ v, v.IsNotification ∧
    (Server.dispatch (sampleServerEnv sampleWasm) sampleServer
      (requestJson 7 (chars! "textDocument/semanticTokens/full") documentParams) (sampleWorld fun _ => .none)).1 =
      .ok sampleServer ∧
    (sampleWorld fun _ => .none).Said sampleProtocol (Server.dispatch (sampleServerEnv sampleWasm) sampleServer
      (requestJson 7 (chars! "textDocument/semanticTokens/full") documentParams) (sampleWorld fun _ => .none)).2 [v] :=
  C50_unreadable_refuted (sampleServerEnv sampleWasm) _ _ 7 (chars! "file:///w/docs/a.[]") (chars! "/w/docs/a.[]") _
    (fun _ _ => rfl) (requestJson_is (by decide) _ _) rfl rfl (fun b t h => by simp [sampleWorld, HMap.get] at h)

/-- C50 does not hold for requests whose parameters do not have the required form: there is no response and the
server stops. -/
theorem C50_params_refuted (X : ServerEnv) (s : Server) (msg : Json) (id : Int) (method : Str) (w : World)
    (hw : w.Healthy) (hm : msg.IsRequest id method) (hp : Malformed X.P method (msg.index (chars! "params"))) :
    ∃ vs e, (∀ v ∈ vs, v.IsNotification) ∧ (Server.dispatch X s msg w).1 = .err e ∧
      w.Said X.P (Server.dispatch X s msg w).2 vs := by
  rw [Server.dispatch_request hm, Server.handleRequest]
  rcases hp with ⟨rfl, hp⟩ | ⟨rfl, hp⟩ | ⟨rfl, hp⟩
  · rw [if_pos rfl, hp, IOM.bind_of_ok (x := Server.logMessage X.P _) (Server.send_run hw)]
    exact ⟨[_], _, fun v hv => List.mem_singleton.mp hv ▸ Server.logJson_notification _, rfl, Server.said_send ..⟩
  · rw [if_neg (by decide), if_pos rfl, hp]
    exact ⟨[], _, by simp, rfl, by simp [World.Said, IOM.fail]⟩
  · rw [if_neg (by decide), if_neg (by decide), if_pos rfl, hp]
    exact ⟨[], _, by simp, rfl, by simp [World.Said, IOM.fail]⟩

example : ∃ vs e, (∀ v ∈ vs, v.IsNotification) ∧
    (Server.dispatch (sampleServerEnv sampleWasm) {} (requestJson 7 (chars! "initialize") .null) (workspace [])).1 =
      .err e ∧ (workspace []).Said sampleProtocol
      (Server.dispatch (sampleServerEnv sampleWasm) {} (requestJson 7 (chars! "initialize") .null) (workspace [])).2 vs :=
  C50_params_refuted (sampleServerEnv sampleWasm) {} _ 7 _ _ (workspace_healthy _) (requestJson_is (by decide) _ _)
    (.inl ⟨rfl, rfl⟩)

end Brack
