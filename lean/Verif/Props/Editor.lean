import Verif.Proof.Saving
import Verif.Proof.Offers
import Verif.Props.Parser
import Verif.Proof.ServerCases

/-
Properties of what the language server says about documents: C51, C52, C53, C54, C55.
-/

namespace Brack

/-! ### C51 -/

/-- C51: saving a document that cannot be read gives a log message and the server goes on. -/
theorem C51_unreadable (X : ServerEnv) (s : Server) (msg : Json) (uri path : Str) (w : World) (hw : w.Healthy)
    (hm : msg.IsEvent (chars! "textDocument/didSave")) (hp : X.P.didSave (msg.index (chars! "params")) = some uri)
    (hf : X.P.toFilePath uri = some path) (hu : w.Unreadable path) :
    ∃ v, v.IsNotification ∧ (Server.dispatch X s msg w).1 = .ok s ∧ w.Said X.P (Server.dispatch X s msg w).2 [v] := by
  obtain ⟨m, hr⟩ := Server.readText_fails hu
  have h1 : Server.tokenizeFile X.E.S path w = (.err m, { w with clock := w.clock + 1 }) := by
    rw [Server.tokenizeFile, IOM.bind_run, hr]
  have hh : World.Healthy { w with clock := w.clock + 1 } := healthy_later hw (by simp) rfl
  rw [Server.dispatch_event hm, Server.handleNotification, if_neg (by decide), if_neg (by decide), if_neg (by decide),
    if_pos rfl, hp]
  simp only
  rw [IOM.bind_run, Server.didSave, hf]
  simp only
  rw [IOM.bind_run, attempt_run, h1]
  simp only
  rw [Server.logMessage, Server.send_run hh]
  exact ⟨_, Server.logJson_notification _, rfl, Server.said_send X.P _ { w with clock := w.clock + 1 }⟩

/-- There is no such file. -/
example : ∃ v, v.IsNotification ∧
    (Server.dispatch (sampleServerEnv sampleWasm) sampleServer
      (eventJson (chars! "textDocument/didSave") documentParams) (sampleWorld fun _ => .none)).1 = .ok sampleServer ∧
    (sampleWorld fun _ => .none).Said sampleProtocol (Server.dispatch (sampleServerEnv sampleWasm) sampleServer
      (eventJson (chars! "textDocument/didSave") documentParams) (sampleWorld fun _ => .none)).2 [v] :=
  C51_unreadable (sampleServerEnv sampleWasm) _ _ (chars! "file:///w/docs/a.[]") (chars! "/w/docs/a.[]") _
    (fun _ _ => rfl) (eventJson_is ..) rfl rfl (fun b t h => by simp [sampleWorld, HMap.get] at h)

/-- C51 (partial), which documents stop the server: it goes on exactly if the document is accepted by the parser
(`C11_accepts_iff`) and has no dot, comma or space token outside all brackets. Missing: the other documents
(`C51_rejected_refuted`, `C51_panic_refuted`). -/
theorem C51_continues_iff_partial (X : ServerEnv) (s : Server) (msg : Json) (uri path text : Str) (w : World)
    (toks : List Token) (hw : w.Healthy) (hm : msg.IsEvent (chars! "textDocument/didSave"))
    (hp : X.P.didSave (msg.index (chars! "params")) = some uri) (hf : X.P.toFilePath uri = some path)
    (hc : w.Contains path text) (ht : tokenizeStr X.E.S text = .ok toks) :
    (∃ s', (Server.dispatch X s msg w).1 = .ok s') ↔
      accepts [] .start (toks.map (·.kind)) = true ∧ ∀ e ∈ trace [] toks, e.looseSeparator = false := by
  have hh : World.Healthy { w with clock := w.clock + 1 } := healthy_later hw (by simp) rfl
  rw [Server.save_run hw hm hp hf hc ht, ← C11_accepts_iff]
  rcases hpc : parse toks with c | m | _
  · have h17 := C17_panic_iff toks c (X.E.ids 0) hpc
    have hloose : (∀ e ∈ trace [] toks, e.looseSeparator = false) ↔ transform (X.E.ids 0) c ≠ .panic := by
      rw [Ne, h17.1]
      simp
    rw [hloose]
    rcases hx : transform (X.E.ids 0) c with ⟨a, es⟩ | m | _
    · simp only [hx, Server.sendDiagnostics]
      rcases s.publishDiagnostics with _ | _
      rotate_left
      · simp only [if_true]
        rw [IOM.bind_of_ok (Server.send_run hh)]
        simp [Pure.pure, IOM.pure]
      · simp [Pure.pure, IOM.pure, Bind.bind, IOM.bind]
    · obtain ⟨a, es, h⟩ := h17.2 (by rw [hx]; simp)
      rw [hx] at h
      simp at h
    · simp [hx]
  · simp
  · simp

/-- Both sides occur: the first document is accepted, the second is not, the third has a loose separator. -/
example : (∃ s', (Server.dispatch (sampleServerEnv sampleWasm) sampleServer
      (eventJson (chars! "textDocument/didSave") documentParams) (workspace (chars! "[std.f a"))).1 = .ok s') ∧
    (¬ ∃ s', (Server.dispatch (sampleServerEnv sampleWasm) sampleServer
      (eventJson (chars! "textDocument/didSave") documentParams) (workspace (chars! "a}"))).1 = .ok s') ∧
    (¬ ∃ s', (Server.dispatch (sampleServerEnv sampleWasm) sampleServer
      (eventJson (chars! "textDocument/didSave") documentParams) (workspace (chars! "\\{a.b"))).1 = .ok s') := by
  have h : ∀ text : Str, (∀ c ∈ text, c.toNat < 128 ∧ c ≠ '\r') →
      ((∃ s', (Server.dispatch (sampleServerEnv sampleWasm) sampleServer
        (eventJson (chars! "textDocument/didSave") documentParams) (workspace text)).1 = .ok s') ↔
        accepts [] .start ((run (text.map (fun c => [c])) M.init).map (·.kind)) = true ∧
          ∀ e ∈ trace [] (run (text.map (fun c => [c])) M.init), e.looseSeparator = false) := fun text ha =>
    C51_continues_iff_partial (sampleServerEnv sampleWasm) sampleServer
      (eventJson (chars! "textDocument/didSave") documentParams) (chars! "file:///w/docs/a.[]") (chars! "/w/docs/a.[]")
      text _ _ (workspace_healthy _) (eventJson_is ..) rfl rfl (workspace_contains _) (tokenize_ascii _ _ ha)
  rw [h _ (by decide), h _ (by decide), h _ (by decide)]
  decide +kernel

/-- C51 (partial): saving a document accepted by the parser and without loose separators publishes exactly one
message with one diagnostic per error, at its range, saying what is wrong and in order, provided the client wants diagnostics; in any
case the server goes on, unchanged. -/
theorem C51_published_partial (X : ServerEnv) (s : Server) (msg : Json) (uri path text : Str) (w : World)
    (toks : List Token) (c : CST) (hw : w.Healthy) (hm : msg.IsEvent (chars! "textDocument/didSave"))
    (hp : X.P.didSave (msg.index (chars! "params")) = some uri) (hf : X.P.toFilePath uri = some path)
    (hc : w.Contains path text) (hlen : text.length < 2 ^ 32) (ht : tokenizeStr X.E.S text = .ok toks)
    (hpc : parse toks = .ok c) (hl : ∀ e ∈ trace [] toks, e.looseSeparator = false) :
    ∃ a es, transform (X.E.ids 0) c = .ok (a, es) ∧ (Server.dispatch X s msg w).1 = .ok s ∧
      (s.publishDiagnostics = false → w.Said X.P (Server.dispatch X s msg w).2 []) ∧
      (s.publishDiagnostics = true → ∃ v, w.Said X.P (Server.dispatch X s msg w).2 [v] ∧ v.IsNotification ∧
        v.seenDiagnostics = some (es.map (fun e => ⟨e.loc.start.line, e.loc.start.character, e.loc.stop.line,
          e.loc.stop.character, e.kind.description⟩))) := by
  have hh : World.Healthy { w with clock := w.clock + 1 } := healthy_later hw (by simp) rfl
  have h17 := C17_panic_iff toks c (X.E.ids 0) hpc
  obtain ⟨a, es, hx⟩ := h17.2 (by
    rw [Ne, h17.1]
    simpa using hl)
  refine ⟨a, es, hx, ?_⟩
  rw [Server.save_run hw hm hp hf hc ht, hpc]
  simp only
  rw [hx]
  simp only [Server.sendDiagnostics]
  rcases hs : s.publishDiagnostics with _ | _
  · simp only [Bool.false_eq_true, if_false]
    exact ⟨rfl, fun _ => by simp [World.Said, Pure.pure, IOM.pure, Bind.bind, IOM.bind, World.sent], fun h => h.elim⟩
  · simp only [if_true]
    rw [IOM.bind_of_ok (Server.send_run hh)]
    refine ⟨rfl, fun h => Bool.noConfusion h, fun _ => ⟨_, Server.said_send X.P _ { w with clock := w.clock + 1 },
      Server.diagnosticsJson_notification _ _, ?_⟩⟩
    rw [Server.seen_diagnostics, List.map_map]
    congr 1
    refine List.map_congr_left fun e he => ?_
    obtain ⟨⟨t, hti, h1⟩, ⟨u, hui, h2⟩, _⟩ := C26_ranges X.E.S text toks c _ a es ht hpc hx e he
    have b1 := token_bounds ht t hti
    have b2 := token_bounds ht u hui
    rw [← h1] at b1
    rw [← h2] at b2
    simp only [Function.comp_apply, Server.diagnosticOf]
    rw [Server.asU32_small (by omega), Server.asU32_small (by omega), Server.asU32_small (by omega),
      Server.asU32_small (by omega), Server.errorMessage_description]

/-- C51: a document without errors gets an empty list. -/
theorem C51_clean_partial (X : ServerEnv) (s : Server) (msg : Json) (uri path text : Str) (w : World)
    (toks : List Token) (c : CST) (a : AST) (hw : w.Healthy) (hm : msg.IsEvent (chars! "textDocument/didSave"))
    (hp : X.P.didSave (msg.index (chars! "params")) = some uri) (hf : X.P.toFilePath uri = some path)
    (hc : w.Contains path text) (hlen : text.length < 2 ^ 32) (ht : tokenizeStr X.E.S text = .ok toks)
    (hpc : parse toks = .ok c) (hx : transform (X.E.ids 0) c = .ok (a, [])) (hs : s.publishDiagnostics = true) :
    (Server.dispatch X s msg w).1 = .ok s ∧
      ∃ v, w.Said X.P (Server.dispatch X s msg w).2 [v] ∧ v.seenDiagnostics = some [] := by
  have hl : ∀ e ∈ trace [] toks, e.looseSeparator = false := by
    have := (C17_panic_iff toks c (X.E.ids 0) hpc).1
    rw [hx] at this
    simpa using this
  obtain ⟨a', es, h1, h2, _, h3⟩ := C51_published_partial X s msg uri path text w toks c hw hm hp hf hc hlen ht hpc hl
  rw [hx] at h1
  injection h1 with h1
  injection h1 with _ h1
  subst h1
  obtain ⟨v, h4, _, h5⟩ := h3 hs
  exact ⟨h2, v, h4, h5⟩

/-- A document without errors. -/
example : ∃ v, (workspace (chars! "[std.f a]")).Said sampleProtocol
    (Server.dispatch (sampleServerEnv sampleWasm) sampleServer
      (eventJson (chars! "textDocument/didSave") documentParams) (workspace (chars! "[std.f a]"))).2 [v] ∧
    v.seenDiagnostics = some [] := by
  obtain ⟨ts, c, a, es, h1, h2, h3, h4⟩ := front_case sampleEnv.S (chars! "[std.f a]") (by decide)
    (fun _ _ _ es => es = []) (by decide +kernel)
  subst h4
  exact (C51_clean_partial (sampleServerEnv sampleWasm) sampleServer
    (eventJson (chars! "textDocument/didSave") documentParams) (chars! "file:///w/docs/a.[]") (chars! "/w/docs/a.[]") _
    _ ts c a (workspace_healthy _) (eventJson_is ..) rfl rfl (workspace_contains _) (by decide) h1 h2 h3 rfl).2

/-- A document with two errors. -/
example : ∃ v, (workspace (chars! "[std.f a,,b")).Said sampleProtocol
    (Server.dispatch (sampleServerEnv sampleWasm) sampleServer
      (eventJson (chars! "textDocument/didSave") documentParams) (workspace (chars! "[std.f a,,b"))).2 [v] ∧
    v.seenDiagnostics = some [⟨0, 0, 0, 11, chars! "Square bracket not closed"⟩,
      ⟨0, 9, 0, 10, chars! "Unexpected comma"⟩] := by
  obtain ⟨ts, c, a, es, h1, h2, h3, h4, h5⟩ := front_case sampleEnv.S (chars! "[std.f a,,b") (by decide)
    (fun ts _ _ es => (∀ e ∈ trace [] ts, e.looseSeparator = false) ∧ es.map Server.seenError =
      [⟨0, 0, 0, 11, chars! "Square bracket not closed"⟩,
      ⟨0, 9, 0, 10, chars! "Unexpected comma"⟩]) (by decide +kernel)
  obtain ⟨a', es', h6, _, _, h7⟩ := C51_published_partial (sampleServerEnv sampleWasm) sampleServer
    (eventJson (chars! "textDocument/didSave") documentParams) (chars! "file:///w/docs/a.[]") (chars! "/w/docs/a.[]") _
    _ ts c (workspace_healthy _) (eventJson_is ..) rfl rfl (workspace_contains _) (by decide) h1 h2 h4
  have h8 : transform (sampleEnv.ids 0) c = .ok (a, es) := h3
  rw [show (sampleServerEnv sampleWasm).E.ids 0 = sampleEnv.ids 0 from rfl, h8] at h6
  injection h6 with h6
  injection h6 with _ h6
  subst h6
  obtain ⟨v, h9, _, h10⟩ := h7 rfl
  exact ⟨v, h9, h10.trans (congrArg some h5)⟩

/-- C51 does not hold for all documents: a document the parser does not accept stops the server, and nothing is
published. -/
theorem C51_rejected_refuted (X : ServerEnv) (s : Server) (msg : Json) (uri path text : Str) (w : World)
    (hw : w.Healthy) (hm : msg.IsEvent (chars! "textDocument/didSave"))
    (hp : X.P.didSave (msg.index (chars! "params")) = some uri) (hf : X.P.toFilePath uri = some path)
    (hc : w.Contains path text) (ht : text = chars! "a]b") :
    (∃ e, (Server.dispatch X s msg w).1 = .err e) ∧ w.Said X.P (Server.dispatch X s msg w).2 [] := by
  subst ht
  rw [Server.save_run hw hm hp hf hc (tokenize_ascii _ _ (by decide))]
  have : ∃ e, parse (run ((chars! "a]b").map (fun c => [c])) M.init) = .err e := ⟨_, rfl⟩
  obtain ⟨e, he⟩ := this
  rw [he]
  exact ⟨⟨e, rfl⟩, by simp [World.Said, World.sent]⟩

/-- The hypotheses are met. -/
example : ∃ e, (Server.dispatch (sampleServerEnv sampleWasm) sampleServer
    (eventJson (chars! "textDocument/didSave") documentParams) (workspace (chars! "a]b"))).1 = .err e :=
  (C51_rejected_refuted (sampleServerEnv sampleWasm) _ _ (chars! "file:///w/docs/a.[]") (chars! "/w/docs/a.[]") _ _
    (workspace_healthy _) (eventJson_is ..) rfl rfl (workspace_contains _) rfl).1

/-- C51 does not hold for all documents: this one makes the server panic. -/
theorem C51_panic_refuted (X : ServerEnv) (s : Server) (msg : Json) (uri path text : Str) (w : World)
    (hw : w.Healthy) (hm : msg.IsEvent (chars! "textDocument/didSave"))
    (hp : X.P.didSave (msg.index (chars! "params")) = some uri) (hf : X.P.toFilePath uri = some path)
    (hc : w.Contains path text) (ht : text = chars! "\\[hello world") :
    (Server.dispatch X s msg w).1 = .panic ∧ w.Said X.P (Server.dispatch X s msg w).2 [] := by
  subst ht
  obtain ⟨ts, c, h1, h2, h3⟩ := panic_case X.E.S (chars! "\\[hello world") (by decide) (by decide +kernel)
  have h4 := (C17_panic_iff ts c (X.E.ids 0) h2).1.mpr ((C17_panic_iff ts c someIds h2).1.mp h3)
  rw [Server.save_run hw hm hp hf hc h1, h2]
  simp only
  rw [h4]
  exact ⟨rfl, by simp [World.Said, World.sent]⟩

/-- The hypotheses are met. -/
example : (Server.dispatch (sampleServerEnv sampleWasm) sampleServer
    (eventJson (chars! "textDocument/didSave") documentParams) (workspace (chars! "\\[hello world"))).1 = .panic :=
  (C51_panic_refuted (sampleServerEnv sampleWasm) _ _ (chars! "file:///w/docs/a.[]") (chars! "/w/docs/a.[]") _ _
    (workspace_healthy _) (eventJson_is ..) rfl rfl (workspace_contains _) rfl).1

/-! ### C52 -/

/-- C52 (partial): the response to a request for the semantic tokens of a document of less than 2^32 characters
decodes to the tokens of the document, in order: line, column and length of each. Missing: longer documents (`C52_large_refuted`). -/
theorem C52_decode_partial (X : ServerEnv) (s : Server) (msg : Json) (id : Int) (uri path text : Str) (w : World)
    (toks : List Token) (hw : w.Healthy) (hm : msg.IsRequest id (chars! "textDocument/semanticTokens/full"))
    (hp : X.P.semanticTokens (msg.index (chars! "params")) = some uri) (hf : X.P.toFilePath uri = some path)
    (hc : w.Contains path text) (hlen : text.length < 2 ^ 32) (ht : tokenizeStr X.E.S text = .ok toks) :
    ∃ reply tokens, (Server.dispatch X s msg w).1 = .ok s ∧ w.Said X.P (Server.dispatch X s msg w).2 [reply] ∧
      reply.IsReply (.int id) ∧ reply.seenTokens = some tokens ∧
      tokens.map (fun k => (k.line, k.character, k.length)) =
        toks.map (fun t => (t.loc.start.line, t.loc.start.character, t.loc.stop.character - t.loc.start.character)) := by
  obtain ⟨reply, h1, h2, h3, h4⟩ := Server.tokens_request (s := s) hw hm hp hf hc hlen ht
  exact ⟨reply, _, h1, h2, h3, h4, by rw [List.map_map]; rfl⟩

/-- A document with two lines. -/
example : ∃ reply, (workspace (chars! "a\n[std.f b]")).Said sampleProtocol
    (Server.dispatch (sampleServerEnv sampleWasm) sampleServer
      (requestJson 7 (chars! "textDocument/semanticTokens/full") documentParams)
      (workspace (chars! "a\n[std.f b]"))).2 [reply] ∧
    (reply.seenTokens.map (List.map (fun k => (k.line, k.character, k.length)))) = some [(0, 0, 1), (0, 1, 1), (1, 0, 1),
      (1, 1, 3), (1, 4, 1), (1, 5, 1), (1, 6, 1), (1, 7, 1), (1, 8, 1), (1, 9, 0)] := by
  obtain ⟨reply, tokens, _, h2, _, h4, h5⟩ := C52_decode_partial (sampleServerEnv sampleWasm) sampleServer
    (requestJson 7 (chars! "textDocument/semanticTokens/full") documentParams) 7 (chars! "file:///w/docs/a.[]")
    (chars! "/w/docs/a.[]") (chars! "a\n[std.f b]") (workspace (chars! "a\n[std.f b]")) _ (workspace_healthy _)
    (requestJson_is (by decide) _ _) rfl rfl (workspace_contains _) (by decide) (tokenize_ascii _ _ (by decide))
  refine ⟨reply, h2, ?_⟩
  rw [h4, Option.map_some, h5]
  decide +kernel

/-- C52 refuted for larger documents: a document of 2^32 letters is one token, the response says that its length is
zero. -/
theorem C52_large_refuted (X : ServerEnv) (s : Server) (msg : Json) (id : Int) (uri path : Str) (w : World)
    (hw : w.Healthy) (hm : msg.IsRequest id (chars! "textDocument/semanticTokens/full"))
    (hp : X.P.semanticTokens (msg.index (chars! "params")) = some uri) (hf : X.P.toFilePath uri = some path)
    (hc : w.Contains path (List.replicate (2 ^ 32) 'a')) :
    ∃ toks reply tokens, tokenizeStr X.E.S (List.replicate (2 ^ 32) 'a') = .ok toks ∧
      w.Said X.P (Server.dispatch X s msg w).2 [reply] ∧ reply.seenTokens = some tokens ∧
      toks.map (fun t => t.loc.stop.character - t.loc.start.character) = [2 ^ 32, 0] ∧
      tokens.map (·.length) = [0, 0] := by
  have key : ∀ n, n ≠ 0 → tokenizeStr X.E.S (List.replicate n 'a') = .ok [⟨.text (List.replicate n 'a'), ⟨⟨0, 0⟩, ⟨0, n⟩⟩⟩,
      ⟨.eof, ⟨⟨0, n⟩, ⟨0, n⟩⟩⟩] := by
    intro n hn
    rw [tokenize_ascii _ _ (fun c h => by rw [List.eq_of_mem_replicate h]; decide), List.map_replicate,
      run_plain _ _ rfl rfl (fun g h => by rw [List.eq_of_mem_replicate h]; decide) (by simp [hn])]
    have : ∀ n : Nat, (List.replicate n ['a']).flatten = List.replicate n 'a' := by
      intro n
      induction n with
      | zero => rfl
      | succ n ih => rw [List.replicate_succ, List.flatten_cons, ih]; rfl
    rw [this, List.length_replicate]
    simp [M.init]
  have ht := key (2 ^ 32) (by decide)
  have hd : Server.semanticTokens X.E.checks [⟨.text (List.replicate (2 ^ 32) 'a'), ⟨⟨0, 0⟩, ⟨0, 2 ^ 32⟩⟩⟩,
      ⟨.eof, ⟨⟨0, 2 ^ 32⟩, ⟨0, 2 ^ 32⟩⟩⟩] = .ok [⟨0, 0, 0, 100, 0⟩, ⟨0, 0, 0, 100, 0⟩] := by
    generalize List.replicate (2 ^ 32) 'a' = v
    cases X.E.checks <;> simp [Server.semanticTokens, Server.separateLoop, Server.unsignedSub, Server.asU32, Server.tokenType] <;> rfl
  obtain ⟨_, h2, _⟩ := Server.tokens_request_of (s := s) hw hm hp hf hc ht hd
  exact ⟨_, _, _, ht, h2, rfl, rfl, rfl⟩

/-! ### C53 -/

/-- C53 (partial): the type of each token that names or encloses a command is an index into the list of types
announced in the response to `initialize`, and the entry there is the right one. No token has modifiers. Missing: the other tokens
(`C53_types_refuted`). -/
theorem C53_types_partial (X : ServerEnv) (s₀ : Server) (msg₀ : Json) (id₀ : Int) (w₀ : World) (publish : Bool)
    (hw₀ : w₀.Healthy) (hm₀ : msg₀.IsRequest id₀ (chars! "initialize"))
    (hp₀ : X.P.initParams (msg₀.index (chars! "params")) = some publish)
    (s : Server) (msg : Json) (id : Int) (uri path text : Str) (w : World)
    (toks : List Token) (hw : w.Healthy) (hm : msg.IsRequest id (chars! "textDocument/semanticTokens/full"))
    (hp : X.P.semanticTokens (msg.index (chars! "params")) = some uri) (hf : X.P.toFilePath uri = some path)
    (hc : w.Contains path text) (hlen : text.length < 2 ^ 32) (ht : tokenizeStr X.E.S text = .ok toks) :
    ∃ log reply₀ legend reply tokens, w₀.Said X.P (Server.dispatch X s₀ msg₀ w₀).2 [log, reply₀] ∧
      reply₀.legend = some legend ∧ w.Said X.P (Server.dispatch X s msg w).2 [reply] ∧
      reply.seenTokens = some tokens ∧ tokens.length = toks.length ∧ (∀ k ∈ tokens, k.modifiers = 0) ∧
      ∀ (i : Nat) t k name, toks[i]? = some t → tokens[i]? = some k → t.kind.typeName = some name →
        legend[k.typ]? = some name := by
  obtain ⟨log, reply₀, _, h0, h0', h0''⟩ := Server.initialize_request (X := X) (s := s₀) hw₀ hm₀ hp₀
  obtain ⟨reply, h1, h2, h3, h4⟩ := Server.tokens_request (s := s) hw hm hp hf hc hlen ht
  refine ⟨log, reply₀, _, reply, _, h0, h0'', h2, h4, by simp, by simp [Server.seen], ?_⟩
  intro i t k name h5 h6 h7
  rw [List.getElem?_map, h5, Option.map_some] at h6
  injection h6 with h6
  rw [← h6]
  obtain ⟨kind, loc⟩ := t
  simp only [Server.seen]
  have : ∀ kind : TokKind, kind.typeName = some name → Server.tokenTypes[Server.tokenType kind]? = some name := by
    intro kind
    cases kind with
    | bopen b => cases b <;> (intro e; injection e with e; subst e; rfl)
    | bclose b => cases b <;> (intro e; injection e with e; subst e; rfl)
    | module n => intro e; injection e with e; subst e; rfl
    | ident n => intro e; injection e with e; subst e; rfl
    | _ => intro e; simp [TokKind.typeName] at e
  exact this kind h7

/-- The types of the brackets, the module and the name in `[std.f a]`. -/
example : ∃ reply₀ legend reply tokens,
    (∃ log, (workspace []).Said sampleProtocol (Server.dispatch (sampleServerEnv sampleWasm) {}
      (requestJson 1 (chars! "initialize") (.obj [(chars! "capabilities", .obj [])])) (workspace [])).2 [log, reply₀]) ∧
    reply₀.legend = some legend ∧ (workspace (chars! "[std.f a]")).Said sampleProtocol
      (Server.dispatch (sampleServerEnv sampleWasm) sampleServer
        (requestJson 7 (chars! "textDocument/semanticTokens/full") documentParams) (workspace (chars! "[std.f a]"))).2
      [reply] ∧ reply.seenTokens = some tokens ∧ ∀ i k name, tokens[i]? = some k →
        (i, name) ∈ [(0, chars! "function"), (1, chars! "namespace"), (3, chars! "variable")] → legend[k.typ]? = some name := by
  obtain ⟨log, reply₀, legend, reply, tokens, h1, h2, h3, h4, h5, _, h6⟩ := C53_types_partial
    (sampleServerEnv sampleWasm) {} (requestJson 1 (chars! "initialize") (.obj [(chars! "capabilities", .obj [])])) 1
    (workspace []) false (workspace_healthy _) (requestJson_is (by decide) _ _) rfl sampleServer
    (requestJson 7 (chars! "textDocument/semanticTokens/full") documentParams) 7 (chars! "file:///w/docs/a.[]")
    (chars! "/w/docs/a.[]") (chars! "[std.f a]") (workspace (chars! "[std.f a]")) _ (workspace_healthy _)
    (requestJson_is (by decide) _ _) rfl rfl (workspace_contains _) (by decide) (tokenize_ascii _ _ (by decide))
  refine ⟨reply₀, legend, reply, tokens, ⟨log, h1⟩, h2, h3, h4, fun i k name hk hi => ?_⟩
  have h7 : ∀ x ∈ [(0, chars! "function"), (1, chars! "namespace"), (3, chars! "variable")],
      (run ((chars! "[std.f a]").map (fun c => [c])) M.init)[x.1]?.bind (·.kind.typeName) = some x.2 := by decide +kernel
  obtain ⟨t, ht, hn⟩ := Option.bind_eq_some_iff.mp (h7 _ hi)
  exact h6 i t k name ht hk hn

/-- C53 does not hold for all tokens: in every document there is a token whose type is not announced. -/
theorem C53_types_refuted (X : ServerEnv) (s₀ : Server) (msg₀ : Json) (id₀ : Int) (w₀ : World) (publish : Bool)
    (hw₀ : w₀.Healthy) (hm₀ : msg₀.IsRequest id₀ (chars! "initialize"))
    (hp₀ : X.P.initParams (msg₀.index (chars! "params")) = some publish)
    (s : Server) (msg : Json) (id : Int) (uri path text : Str) (w : World)
    (hw : w.Healthy) (hm : msg.IsRequest id (chars! "textDocument/semanticTokens/full"))
    (hp : X.P.semanticTokens (msg.index (chars! "params")) = some uri) (hf : X.P.toFilePath uri = some path)
    (hc : w.Contains path text) (hlen : text.length < 2 ^ 32) :
    ∃ log reply₀ legend reply tokens k, w₀.Said X.P (Server.dispatch X s₀ msg₀ w₀).2 [log, reply₀] ∧
      reply₀.legend = some legend ∧ w.Said X.P (Server.dispatch X s msg w).2 [reply] ∧
      reply.seenTokens = some tokens ∧ k ∈ tokens ∧ legend[k.typ]? = none := by
  obtain ⟨log, reply₀, _, h0, h0', h0''⟩ := Server.initialize_request (X := X) (s := s₀) hw₀ hm₀ hp₀
  obtain ⟨body, eof, ht, he, _⟩ := C01_tokenize_total X.E.S text
  obtain ⟨reply, h1, h2, h3, h4⟩ := Server.tokens_request (s := s) hw hm hp hf hc hlen ht
  refine ⟨log, reply₀, _, reply, _, Server.seen eof, h0, h0'', h2, h4, by simp, ?_⟩
  simp only [Server.seen, he]
  rfl

/-! ### C54 -/

/-- C54 (partial): in texts of which every part has as many grapheme clusters as UTF-16 code units, without
carriage returns and without a line feed before a closing bracket, the columns and lengths are those of the
protocol. Missing: other texts (`C54_units_refuted`). -/
theorem C54_units_partial (X : ServerEnv) (s : Server) (msg : Json) (id : Int) (uri path text : Str) (w : World)
    (hw : w.Healthy) (hm : msg.IsRequest id (chars! "textDocument/semanticTokens/full"))
    (hp : X.P.semanticTokens (msg.index (chars! "params")) = some uri) (hf : X.P.toFilePath uri = some path)
    (hc : w.Contains path text) (hlen : text.length < 2 ^ 32)
    (hu : ∀ u, u <:+: text → (X.E.S.graphemes u).length = utf16Length u) (hcr : '\r' ∉ text)
    (hclose : ∀ a b, ∀ c ∈ closeChars, text ≠ a ++ '\n' :: c :: b) :
    ∃ reply tokens toks, w.Said X.P (Server.dispatch X s msg w).2 [reply] ∧ reply.seenTokens = some tokens ∧
      tokenizeStr X.E.S text = .ok toks ∧ tokens.length = toks.length ∧
      ∀ pre t post, toks = pre ++ t :: post → ∀ k, tokens[pre.length]? = some k →
        (k.line, k.character) = utf16After (spell pre) ∧ k.length = utf16Length t.kind.spelling := by
  obtain ⟨body, eof, ht, he, _⟩ := C01_tokenize_total X.E.S text
  obtain ⟨reply, h1, h2, h3, h4⟩ := Server.tokens_request (s := s) hw hm hp hf hc hlen ht
  refine ⟨reply, _, _, h2, h4, ht, by simp, ?_⟩
  intro pre t post h k hk
  rw [h, List.getElem?_map] at hk
  simp only [List.getElem?_append_right (Nat.le_refl _), Nat.sub_self, List.getElem?_cons_zero, Option.map_some,
    Option.some.injEq] at hk
  have hpos := C04_position_text_partial X.E.S text hcr hclose pre t post (by rw [ht, h])
  have htile := C03_tiles X.E.S text _ ht
  have hspell : spell (body ++ [eof]) <+: text := by
    rw [tokenizeStr_eq] at ht
    injection ht with ht
    rw [← ht, tokens_spell]
    exact List.takeWhile_prefix _
  rw [h] at hspell htile
  have hinf : ∀ u, u <:+: spell (pre ++ t :: post) → (X.E.S.graphemes u).length = utf16Length u := fun u hu' =>
    hu u (hu'.trans hspell.isInfix)
  have hsp : spell (pre ++ t :: post) = spell pre ++ (t.kind.spelling ++ spell post) := by simp [spell]
  rw [← hk]
  simp only [Server.seen, hpos, posAfter, utf16After, Prod.mk.injEq, true_and]
  constructor
  · refine hinf _ ?_
    rw [hsp]
    refine List.IsInfix.trans (List.IsSuffix.isInfix ?_) (List.prefix_append _ _).isInfix
    rw [← List.reverse_prefix, List.reverse_reverse]
    exact List.takeWhile_prefix _
  · have hwid := tiles_width X.E.S _ _ htile t (by simp)
    have : t.loc.stop.character - t.loc.start.character = (X.E.S.graphemes t.kind.spelling).length := by omega
    rw [hpos] at this
    simp only [posAfter] at this
    rw [this]
    refine hinf _ ?_
    rw [hsp]
    exact ⟨spell pre, spell post, by simp⟩

/-- C54 (partial): ASCII texts. -/
theorem C54_ascii_partial (X : ServerEnv) (s : Server) (msg : Json) (id : Int) (uri path text : Str) (w : World)
    (hw : w.Healthy) (hm : msg.IsRequest id (chars! "textDocument/semanticTokens/full"))
    (hp : X.P.semanticTokens (msg.index (chars! "params")) = some uri) (hf : X.P.toFilePath uri = some path)
    (hc : w.Contains path text) (hlen : text.length < 2 ^ 32)
    (hu : ∀ c ∈ text, c.toNat < 128 ∧ c ≠ '\r')
    (hclose : ∀ a b, ∀ c ∈ closeChars, text ≠ a ++ '\n' :: c :: b) :
    ∃ reply tokens toks, w.Said X.P (Server.dispatch X s msg w).2 [reply] ∧ reply.seenTokens = some tokens ∧
      tokenizeStr X.E.S text = .ok toks ∧ tokens.length = toks.length ∧
      ∀ pre t post, toks = pre ++ t :: post → ∀ k, tokens[pre.length]? = some k →
        (k.line, k.character) = utf16After (spell pre) ∧ k.length = utf16Length t.kind.spelling := by
  refine C54_units_partial X s msg id uri path text w hw hm hp hf hc hlen ?_ (fun h => (hu _ h).2 rfl) hclose
  intro u hui
  have hu' : ∀ c ∈ u, c.toNat < 128 ∧ c ≠ '\r' := fun c hcu => hu c (hui.subset hcu)
  rw [X.E.S.ascii u hu', List.length_map]
  clear hui
  induction u with
  | nil => rfl
  | cons c u ih =>
    have h1 := (hu' c (List.mem_cons_self ..)).1
    have h2 := ih (fun d hd => hu' d (List.mem_cons_of_mem _ hd))
    rw [utf16Length, List.map_cons, List.sum_cons, if_pos (by omega), List.length_cons, h2, utf16Length]
    omega

/-- C54 does not hold for all documents: in this one the text has length 1 instead of 2 and the end of the document
is in column 1 instead of 2. -/
theorem C54_units_refuted (X : ServerEnv) (s : Server) (msg : Json) (id : Int) (uri path text : Str) (w : World)
    (hw : w.Healthy) (hm : msg.IsRequest id (chars! "textDocument/semanticTokens/full"))
    (hp : X.P.semanticTokens (msg.index (chars! "params")) = some uri) (hf : X.P.toFilePath uri = some path)
    (hc : w.Contains path text) (ht : text = chars! "😀") :
    utf16After text = (0, 2) ∧
    ∃ reply tokens, w.Said X.P (Server.dispatch X s msg w).2 [reply] ∧ reply.seenTokens = some tokens ∧
      tokens.map (fun k => (k.line, k.character, k.length)) = [(0, 0, 1), (0, 1, 0)] := by
  subst ht
  refine ⟨by decide, ?_⟩
  have hg : X.E.S.graphemes (chars! "😀") = [chars! "😀"] := single_cluster X.E.S _
  have ht : tokenizeStr X.E.S (chars! "😀") = .ok (Brack.run [chars! "😀"] M.init) := by
    rw [tokenizeStr_eq, hg]
  obtain ⟨reply, tokens, _, h2, _, h4, h5⟩ := C52_decode_partial X s msg id uri path _ w _ hw hm hp hf hc (by decide) ht
  refine ⟨reply, tokens, h2, h4, ?_⟩
  rw [h5]
  decide +kernel

/-- The hypotheses are met. -/
example : ∃ reply tokens, (workspace (chars! "😀")).Said sampleProtocol
      (Server.dispatch (sampleServerEnv sampleWasm) sampleServer
        (requestJson 7 (chars! "textDocument/semanticTokens/full") documentParams) (workspace (chars! "😀"))).2 [reply] ∧
      reply.seenTokens = some tokens ∧
      tokens.map (fun k => (k.line, k.character, k.length)) = [(0, 0, 1), (0, 1, 0)] :=
  (C54_units_refuted (sampleServerEnv sampleWasm) sampleServer _ 7 (chars! "file:///w/docs/a.[]")
    (chars! "/w/docs/a.[]") _ _ (workspace_healthy _) (requestJson_is (by decide) _ _) rfl rfl (workspace_contains _)
    rfl).2

/-- A text with characters beyond ASCII that meets the hypotheses of `C54_units_partial`: the columns are right. -/
example : ∃ reply tokens toks, (workspace (chars! "[std.f é]\nx")).Said sampleProtocol
      (Server.dispatch (sampleServerEnv sampleWasm) sampleServer
        (requestJson 7 (chars! "textDocument/semanticTokens/full") documentParams) (workspace (chars! "[std.f é]\nx"))).2
      [reply] ∧ reply.seenTokens = some tokens ∧
      tokenizeStr sampleEnv.S (chars! "[std.f é]\nx") = .ok toks ∧ tokens.length = toks.length ∧
      ∀ pre t post, toks = pre ++ t :: post → ∀ k, tokens[pre.length]? = some k →
        (k.line, k.character) = utf16After (spell pre) ∧ k.length = utf16Length t.kind.spelling := by
  refine C54_units_partial (sampleServerEnv sampleWasm) sampleServer _ 7 (chars! "file:///w/docs/a.[]")
    (chars! "/w/docs/a.[]") _ _ (workspace_healthy _) (requestJson_is (by decide) _ _) rfl rfl (workspace_contains _)
    (by decide) ?_ (by decide) ?_
  · exact forall_infix (by decide +kernel)
  · intro a b c hc h
    have h1 : ∀ c ∈ closeChars, ∀ u ∈ infixes (chars! "[std.f é]\nx"), u ≠ ['\n', c] := by decide +kernel
    exact forall_infix (h1 c hc) ['\n', c] (by rw [h]; exact ⟨a, b, by simp⟩) rfl

/-! ### C55 -/

/-- C55 (partial): on `[` the completion lists the inline commands of all plugins and on `{` the block commands,
each exactly once, provided the plugins can be loaded. Missing: macros on `<` (`C55_macros_refuted`). -/
theorem C55_listed_partial (X : ServerEnv) (s : Server) (msg : Json) (id : Int) (md : PluginsMetadata) (trigger : Str)
    (typ : PType) (close : Str) (w : World) (hw : w.Healthy)
    (hm : msg.IsRequest id (chars! "textDocument/completion"))
    (hp : X.P.completion (msg.index (chars! "params")) = some (some (some trigger))) (hs : s.project = some md)
    (hl : AllLoadable X.W w md)
    (htr : (trigger, typ, close) ∈ [(chars! "[", PType.inline, chars! "]"), (chars! "{", PType.block, chars! "}")]) :
    ∃ (reply : Json) (commands : List (Str × Str)), (Server.dispatch X s msg w).1 = .ok s ∧
      w.Said X.P (Server.dispatch X s msg w).2 [reply] ∧ reply.IsReply (.int id) ∧ commands.Nodup ∧
      (∀ plugin command, (plugin, command) ∈ commands ↔ Offers X.W w md typ plugin command) ∧
      reply.seenItems = some (commands.map (fun c => ⟨c.1 ++ chars! "." ++ c.2,
        c.1 ++ chars! "." ++ c.2 ++ chars! " $0" ++ close, true⟩)) := by
  have htrig : Server.Trigger trigger typ close := by
    simp only [List.mem_cons, Prod.mk.injEq, List.not_mem_nil, or_false] at htr
    rcases htr with ⟨rfl, rfl, rfl⟩ | ⟨rfl, rfl, rfl⟩
    · exact .square
    · exact .curly
  obtain ⟨h1, h2⟩ := Server.completion_request (s := s) hw hm hp
  obtain ⟨commands, items, h3, h4, h5, h6⟩ := Server.completion_offers (X := X) (s := s) hw hs hl htrig
  rw [h3] at h2
  exact ⟨_, commands, h1, h2, Server.resultJson_reply .., h4, h5, h6 id⟩

/-- C55: completion never makes the server panic or stop, whatever the plugins are. -/
theorem C55_continues (X : ServerEnv) (s : Server) (msg : Json) (id : Int) (context : Option (Option Str))
    (w : World) (hw : w.Healthy) (hm : msg.IsRequest id (chars! "textDocument/completion"))
    (hp : X.P.completion (msg.index (chars! "params")) = some context) : (Server.dispatch X s msg w).1 = .ok s :=
  (Server.completion_request hw hm hp).1

/-- C55 does not hold for macros: on `<`, and on the other characters announced as triggers, nothing is listed,
whatever the plugins offer. -/
theorem C55_macros_refuted (X : ServerEnv) (s : Server) (msg : Json) (id : Int) (md : PluginsMetadata) (trigger : Str)
    (w : World) (hw : w.Healthy) (hm : msg.IsRequest id (chars! "textDocument/completion"))
    (hp : X.P.completion (msg.index (chars! "params")) = some (some (some trigger))) (hs : s.project = some md)
    (hl : AllLoadable X.W w md) (h1 : trigger ≠ chars! "[") (h2 : trigger ≠ chars! "{") :
    ∃ reply, w.Said X.P (Server.dispatch X s msg w).2 [reply] ∧ reply.IsReply (.int id) ∧ reply.seenItems = some [] := by
  obtain ⟨_, h3⟩ := Server.completion_request (s := s) hw hm hp
  obtain ⟨plugins, w', ps, h4, h5⟩ := Server.all_loaded (X := X) hw hl
  have h6 : (Server.handleCompletion X s (some (some trigger)) w).1 = .ok (some (.arr [])) := by
    rw [Server.handleCompletion, hs]
    simp only
    rw [IOM.bind_of_ok h4, IOM.bind_run, IOM.lift_run, h5]
    simp only
    rw [IOM.bind_run, IOM.lift_run, Server.completionItems_other h1 h2]
    rfl
  rw [h6] at h3
  exact ⟨_, h3, Server.resultJson_reply .., rfl⟩

theorem workspace_loadable (text : Str) :
    AllLoadable sampleWasm (workspace text) [(chars! "std", (chars! "plugins/std_00.wasm", noHooks))] where
  names := by decide
  files := by
    intro x hx
    rw [List.mem_singleton.mp hx]
    exact ⟨[1], _, rfl, rfl, fun k h => absurd h (by cases k <;> decide)⟩
  hooks := by
    intro k x hx y hy _ _
    rw [List.mem_singleton.mp hx, List.mem_singleton.mp hy]

/-- The plugin of the sample project offers the inline commands `f`, `g` and others. -/
example : ∃ (reply : Json) (commands : List (Str × Str)),
    (workspace []).Said sampleProtocol (Server.dispatch (sampleServerEnv sampleWasm) sampleServer
      (requestJson 7 (chars! "textDocument/completion") (completionParams ['['])) (workspace [])).2 [reply] ∧
    (chars! "std", chars! "f") ∈ commands ∧ (chars! "std", chars! "h") ∉ commands ∧
    reply.seenItems = some (commands.map (fun c => ⟨c.1 ++ chars! "." ++ c.2,
        c.1 ++ chars! "." ++ c.2 ++ chars! " $0" ++ chars! "]", true⟩)) := by
  obtain ⟨reply, commands, _, h1, _, _, h2, h3⟩ := C55_listed_partial (sampleServerEnv sampleWasm) sampleServer
    (requestJson 7 (chars! "textDocument/completion") (completionParams ['['])) 7 _ ['['] .inline (chars! "]")
    (workspace []) (workspace_healthy _) (requestJson_is (by decide) _ _) rfl rfl (workspace_loadable _) (by decide)
  refine ⟨reply, commands, h1, (h2 _ _).mpr ?_, fun h => ?_, h3⟩
  · exact ⟨_, _, [1], _, List.mem_singleton.mpr rfl, rfl, rfl, by decide⟩
  · obtain ⟨path, flag, b, ms, g1, g2, g3, g4⟩ := (h2 _ _).mp h
    simp only [List.mem_singleton, Prod.mk.injEq, true_and] at g1
    obtain ⟨rfl, rfl⟩ := g1
    injection g2 with g2
    subst g2
    injection g3 with g3
    subst g3
    revert g4
    decide

/-- The plugin offers the macro `m`, and nothing is listed on `<`. -/
example : Offers sampleWasm (workspace []) [(chars! "std", (chars! "plugins/std_00.wasm", noHooks))] .ast
      (chars! "std") (chars! "m") ∧
    ∃ reply, (workspace []).Said sampleProtocol (Server.dispatch (sampleServerEnv sampleWasm) sampleServer
      (requestJson 7 (chars! "textDocument/completion") (completionParams ['<'])) (workspace [])).2 [reply] ∧
    reply.IsReply (.int 7) ∧ reply.seenItems = some [] :=
  ⟨⟨_, _, [1], _, List.mem_singleton.mpr rfl, rfl, rfl, by decide⟩,
    C55_macros_refuted (sampleServerEnv sampleWasm) sampleServer _ 7 _ ['<'] _ (workspace_healthy _)
      (requestJson_is (by decide) _ _) rfl rfl (workspace_loadable _) (by decide) (by decide)⟩

end Brack
