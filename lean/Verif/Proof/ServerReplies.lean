import Verif.Proof.SemTokens
import Verif.Proof.Completion

/-
The responses to requests.
-/

namespace Brack

namespace Server

/-- A request for semantic tokens. -/
theorem handleSemanticTokens_run {X : ServerEnv} {uri path : Str} {w : World} {b : Bytes} {text : Str} (hw : w.Healthy)
    (hf : X.P.toFilePath uri = some path) (hb : w.files.get path = some b) (ht : fromUtf8 b = some text) :
    ∃ toks, tokenizeStr X.E.S text = .ok toks ∧
      (handleSemanticTokens X uri w).1 = (match semanticTokens X.E.checks toks with
        | .ok d => .ok (some (semanticTokensJson d))
        | .err m => .err m
        | .panic => .panic) := by
  refine ⟨_, tokenizeStr_eq X.E.S text, ?_⟩
  have h1 : tokenizeFile X.E.S path w = (.ok (Brack.run (X.E.S.graphemes text) M.init), { w with clock := w.clock + 1 }) := by
    rw [tokenizeFile, IOM.bind_of_ok (readText_run hb ht (hw _ (Nat.le_refl _))), IOM.lift_run, tokenizeStr_eq]
  rw [handleSemanticTokens, hf]
  simp only
  rw [IOM.bind_run, attempt_run, h1]
  simp only
  rw [IOM.bind_run, IOM.lift_run]
  rcases semanticTokens X.E.checks (Brack.run (X.E.S.graphemes text) M.init) with d | m | _ <;> rfl

theorem handleSemanticTokens_panic {X : ServerEnv} {uri : Str} {w : World} (hw : w.Healthy)
    (h : (handleSemanticTokens X uri w).1 = .panic) :
    ∃ path b text, X.P.toFilePath uri = some path ∧ w.files.get path = some b ∧ fromUtf8 b = some text ∧
      2 ^ 32 ≤ text.length := by
  rcases hf : X.P.toFilePath uri with _ | path
  · rw [handleSemanticTokens, hf] at h
    simp [IOM.fail] at h
  · by_cases hu : w.Unreadable path
    · exfalso
      obtain ⟨m, hr⟩ := readText_fails hu
      rw [handleSemanticTokens, hf] at h
      simp only at h
      have h1 : tokenizeFile X.E.S path w = (.err m, { w with clock := w.clock + 1 }) := by
        rw [tokenizeFile, IOM.bind_run, hr]
      rw [IOM.bind_run, attempt_run, h1] at h
      simp only at h
      have hh : World.Healthy { w with clock := w.clock + 1 } := healthy_later hw (by simp) rfl
      rw [logMessage, IOM.bind_of_ok (send_run hh)] at h
      simp [Pure.pure, IOM.pure] at h
    · have hex : ∃ b t, w.files.get path = some b ∧ fromUtf8 b = some t :=
        Classical.byContradiction fun hn => hu fun b t h1 h2 => hn ⟨b, t, h1, h2⟩
      obtain ⟨b, t, hb, ht⟩ := hex
      refine ⟨path, b, t, rfl, hb, ht, Classical.byContradiction fun hn => ?_⟩
      obtain ⟨toks, h1, h2⟩ := handleSemanticTokens_run hw hf hb ht
      obtain ⟨d, h3, _⟩ := semanticTokens_tiles (checks := X.E.checks) h1 (by omega)
      rw [h3] at h2
      rw [h2] at h
      simp at h

/-- What is sent for a request. -/
theorem handleRequest_says {X : ServerEnv} {s : Server} {msg : Json} {id : Int} {method : Str} {w : World}
    (hw : w.Healthy) :
    ∃ logs rs, (∀ v ∈ logs, ∃ m, v = logJson m) ∧
      w.Said X.P (handleRequest X s msg id method w).2 (logs ++ rs) ∧
      ((∃ v, rs = [v] ∧ v.IsReply (.int id) ∧ ∃ s', (handleRequest X s msg id method w).1 = .ok s') ∨
        (rs = [] ∧
          (((handleRequest X s msg id method w).1 = .panic ∧
              Oversized X.P w method (msg.index (chars! "params"))) ∨
            ((∃ e, (handleRequest X s msg id method w).1 = .err e) ∧
              Malformed X.P method (msg.index (chars! "params"))) ∨
            ((handleRequest X s msg id method w).1 = .ok s ∧
              Neglected X.P s w method (msg.index (chars! "params")))))) := by
  rw [handleRequest]
  split
  · next hm =>
    have h1 := send_run (P := X.P) (v := logJson (chars! "Brack Language Server is initializing...")) hw
    have hs := said_send X.P (logJson (chars! "Brack Language Server is initializing...")) w
    rw [IOM.bind_of_ok (x := logMessage X.P _) h1]
    generalize hw1 : ({ w with clock := w.clock + 1, log := _ } : World) = w1 at *
    have hh : w1.Healthy := by subst hw1; exact healthy_later hw (by simp) rfl
    rcases hp : X.P.initParams (msg.index (chars! "params")) with _ | publish
    · exact ⟨[_], [], fun v hv => ⟨_, List.mem_singleton.mp hv⟩, hs, .inr ⟨rfl, .inr (.inl ⟨⟨_, rfl⟩, .inl ⟨hm, hp⟩⟩)⟩⟩
    · simp only
      rw [IOM.bind_of_ok (send_run hh)]
      exact ⟨[_], [_], fun v hv => ⟨_, List.mem_singleton.mp hv⟩, Said.append hs (said_send ..), .inl ⟨_, rfl, resultJson_reply .., _, rfl⟩⟩
  split
  · next hm =>
    rcases hp : X.P.semanticTokens (msg.index (chars! "params")) with _ | uri
    · exact ⟨[], [], by simp, by simp [World.Said, IOM.fail],
        .inr ⟨rfl, .inr (.inl ⟨⟨_, rfl⟩, .inr (.inl ⟨hm, hp⟩)⟩)⟩⟩
    · simp only
      obtain ⟨logs, h1, h2, h3, h4⟩ := respond_run (id := id) (failure := chars! "semantic tokens failed") hw
        (handleSemanticTokens_talks (X := X) (Q := fun v => ∃ m, v = logJson m) (fun m => ⟨m, rfl⟩) uri)
      rcases hr : respond X.P id (chars! "semantic tokens failed") (handleSemanticTokens X uri) w with ⟨r, w1⟩
      rw [hr] at h2 h3 h4
      simp only at h2 h3
      rcases hx : (handleSemanticTokens X uri w).1 with a | m | _
      · rw [hx] at h2 h3
        simp only at h3
        subst h3
        rw [IOM.bind_of_ok hr]
        rcases a with _ | result
        · refine ⟨logs, [], h1, h2, .inr ⟨rfl, .inr (.inr ⟨rfl, .inl ⟨hm, uri, ?_⟩⟩)⟩⟩
          rw [handleSemanticTokens] at hx
          rcases hf : X.P.toFilePath uri with _ | path
          · rw [hf] at hx
            simp [IOM.fail] at hx
          · refine ⟨path, hp, rfl, ?_⟩
            rw [hf] at hx
            simp only at hx
            rw [IOM.bind_run, attempt_run] at hx
            rcases ht : tokenizeFile X.E.S path w with ⟨r, w2⟩
            rw [ht] at hx
            rcases r with toks | e | _
            · simp only at hx
              rw [IOM.bind_run, IOM.lift_run] at hx
              rcases hd : semanticTokens X.E.checks toks with d | e | _ <;> rw [hd] at hx <;>
                simp [Pure.pure, IOM.pure] at hx
            · exact tokenizeFile_err ht hw
            · simp at hx
        · exact ⟨logs, [_], h1, h2, .inl ⟨_, rfl, resultJson_reply .., _, rfl⟩⟩
      · rw [hx] at h2 h3
        simp only at h3
        subst h3
        rw [IOM.bind_of_ok hr]
        exact ⟨logs, [_], h1, h2, .inl ⟨_, rfl, errorJson_reply .., _, rfl⟩⟩
      · rw [hx] at h2 h3
        simp only at h3
        subst h3
        rw [IOM.bind_run, hr]
        exact ⟨logs, [], h1, h2, .inr ⟨rfl, .inl ⟨rfl, hm, uri, hp, handleSemanticTokens_panic hw hx⟩⟩⟩
  split
  · next hm =>
    rcases hp : X.P.completion (msg.index (chars! "params")) with _ | context
    · exact ⟨[], [], by simp, by simp [World.Said, IOM.fail],
        .inr ⟨rfl, .inr (.inl ⟨⟨_, rfl⟩, .inr (.inr ⟨hm, hp⟩)⟩)⟩⟩
    · simp only
      obtain ⟨logs, h1, h2, h3, h4⟩ := respond_run (id := id) (failure := chars! "completion failed") hw
        (Silent.talks (P := X.P) (Q := fun v => ∃ m, v = logJson m) (handleCompletion_silent (X := X) s context))
      rcases hr : respond X.P id (chars! "completion failed") (handleCompletion X s context) w with ⟨r, w1⟩
      rw [hr] at h2 h3 h4
      simp only at h2 h3
      rcases hx : (handleCompletion X s context w).1 with a | m | _
      · rw [hx] at h2 h3
        simp only at h3
        subst h3
        rw [IOM.bind_of_ok hr]
        rcases a with _ | result
        · refine ⟨logs, [], h1, h2, .inr ⟨rfl, .inr (.inr ⟨rfl, .inr ⟨hm, context, hp, ?_⟩⟩)⟩⟩
          rcases hq : s.project with _ | md
          · exact .inl rfl
          · refine .inr ?_
            rw [handleCompletion, hq] at hx
            simp only at hx
            rw [IOM.bind_run] at hx
            rcases hl : loadPlugins X.W md w with ⟨r, w2⟩
            rw [hl] at hx
            rcases r with plugins | e | _
            · simp only at hx
              rw [IOM.bind_run, IOM.lift_run] at hx
              rcases hn : Plugins.new plugins with ps | e | _
              · rw [hn] at hx
                simp only at hx
                rcases context with _ | _ | start
                · simp [IOM.fail] at hx
                · rfl
                · simp only at hx
                  rw [IOM.bind_run, IOM.lift_run] at hx
                  rcases hi : completionItems X.P start ps.nameToPlugin with d | e | _ <;> rw [hi] at hx <;>
                    simp [Pure.pure, IOM.pure] at hx
              · rw [hn] at hx
                simp at hx
              · rw [hn] at hx
                simp at hx
            · simp at hx
            · simp at hx
        · exact ⟨logs, [_], h1, h2, .inl ⟨_, rfl, resultJson_reply .., _, rfl⟩⟩
      · rw [hx] at h2 h3
        simp only at h3
        subst h3
        rw [IOM.bind_of_ok hr]
        exact ⟨logs, [_], h1, h2, .inl ⟨_, rfl, errorJson_reply .., _, rfl⟩⟩
      · exact absurd hx (handleCompletion_ne_panic X s context w)
  · rw [sendMethodNotFound, sendError, IOM.bind_of_ok (send_run hw)]
    exact ⟨[], [_], by simp, said_send .., .inl ⟨_, rfl, errorJson_reply .., _, rfl⟩⟩

/-- A request for semantic tokens. -/
theorem tokens_request_of {X : ServerEnv} {s : Server} {msg : Json} {id : Int} {uri path text : Str} {w : World}
    {toks : List Token} {d : List SemanticToken} (hw : w.Healthy)
    (hm : msg.IsRequest id (chars! "textDocument/semanticTokens/full"))
    (hp : X.P.semanticTokens (msg.index (chars! "params")) = some uri) (hf : X.P.toFilePath uri = some path)
    (hc : w.Contains path text) (ht : tokenizeStr X.E.S text = .ok toks) (h1 : semanticTokens X.E.checks toks = .ok d) :
    (dispatch X s msg w).1 = .ok s ∧ w.Said X.P (dispatch X s msg w).2 [resultJson id (semanticTokensJson d)] ∧
      (resultJson id (semanticTokensJson d)).IsReply (.int id) := by
  obtain ⟨b, hb, hbt⟩ := hc
  have h3 : handleSemanticTokens X uri w = (.ok (some (semanticTokensJson d)), { w with clock := w.clock + 1 }) := by
    have h4 : tokenizeFile X.E.S path w = (.ok toks, { w with clock := w.clock + 1 }) := by
      rw [tokenizeFile, IOM.bind_of_ok (readText_run hb hbt (hw _ (Nat.le_refl _))), IOM.lift_run, ht]
    rw [handleSemanticTokens, hf]
    simp only
    rw [IOM.bind_run, attempt_run, h4]
    simp only
    rw [IOM.bind_run, IOM.lift_run, h1]
    rfl
  have hh : World.Healthy { w with clock := w.clock + 1 } := healthy_later hw (by simp) rfl
  rw [dispatch_request hm, handleRequest, if_neg (by decide), if_pos rfl, hp]
  simp only
  rw [IOM.bind_run, respond, IOM.bind_run, attempt_run, h3]
  simp only
  rw [send_run hh]
  exact ⟨rfl, said_send X.P _ { w with clock := w.clock + 1 }, resultJson_reply ..⟩

theorem tokens_request {X : ServerEnv} {s : Server} {msg : Json} {id : Int} {uri path text : Str} {w : World}
    {toks : List Token} (hw : w.Healthy) (hm : msg.IsRequest id (chars! "textDocument/semanticTokens/full"))
    (hp : X.P.semanticTokens (msg.index (chars! "params")) = some uri) (hf : X.P.toFilePath uri = some path)
    (hc : w.Contains path text) (hlen : text.length < 2 ^ 32) (ht : tokenizeStr X.E.S text = .ok toks) :
    ∃ reply, (dispatch X s msg w).1 = .ok s ∧ w.Said X.P (dispatch X s msg w).2 [reply] ∧
      reply.IsReply (.int id) ∧ reply.seenTokens = some (toks.map seen) := by
  obtain ⟨d, h1, h2⟩ := semanticTokens_tiles (checks := X.E.checks) ht hlen
  obtain ⟨h3, h4, h5⟩ := tokens_request_of (s := s) hw hm hp hf hc ht h1
  exact ⟨_, h3, h4, h5, h2 id⟩

/-- The request `initialize`. -/
theorem initialize_request {X : ServerEnv} {s : Server} {msg : Json} {id : Int} {w : World} {publish : Bool}
    (hw : w.Healthy) (hm : msg.IsRequest id (chars! "initialize"))
    (hp : X.P.initParams (msg.index (chars! "params")) = some publish) :
    ∃ log reply, (dispatch X s msg w).1 = .ok { s with publishDiagnostics := publish } ∧
      w.Said X.P (dispatch X s msg w).2 [log, reply] ∧ reply.IsReply (.int id) ∧ reply.legend = some tokenTypes := by
  have h1 := send_run (P := X.P) (v := logJson (chars! "Brack Language Server is initializing...")) hw
  have hs := said_send X.P (logJson (chars! "Brack Language Server is initializing...")) w
  rw [dispatch_request hm, handleRequest, if_pos rfl, IOM.bind_of_ok (x := logMessage X.P _) h1]
  generalize hw1 : ({ w with clock := w.clock + 1, log := _ } : World) = w1 at *
  have hh : w1.Healthy := by subst hw1; exact healthy_later hw (by simp) rfl
  rw [hp]
  simp only
  rw [IOM.bind_of_ok (send_run hh)]
  exact ⟨_, _, rfl, Said.append hs (said_send ..), resultJson_reply .., rfl⟩

end Server

end Brack
