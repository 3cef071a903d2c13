import Verif.Proof.Saving
import Verif.Proof.Offers

/-
Lemmas about sessions with the language server.
-/

namespace Brack

/-- As long as nothing goes wrong on the file system, the result and the messages sent depend on nothing but the
contents of one file. -/
def Determined (P : Protocol) (path : Str) (b : Option Bytes) (x : IOM α) : Prop :=
  ∃ r vs, ∀ w : World, w.Healthy → w.files.get path = b →
    (x w).1 = r ∧ w.Said P (x w).2 vs ∧ (x w).2.Healthy ∧ (x w).2.files.get path = b

namespace Determined

variable {P : Protocol} {path : Str} {b : Option Bytes}

theorem lift (r : Res α) : Determined P path b (IOM.lift r) :=
  ⟨r, [], fun w hw hb => ⟨rfl, by simp [World.Said, IOM.lift], hw, hb⟩⟩

theorem pure (a : α) : Determined P path b (Pure.pure a : IOM α) := lift (.ok a)

theorem fail (m : String) : Determined P path b (IOM.fail m : IOM α) := lift (.err m)

theorem bind {x : IOM α} {f : α → IOM β} (hx : Determined P path b x) (hf : ∀ a, Determined P path b (f a)) :
    Determined P path b (x >>= f) := by
  obtain ⟨r, vs, h⟩ := hx
  rcases r with a | m | _
  · obtain ⟨r', vs', h'⟩ := hf a
    refine ⟨r', vs ++ vs', fun w hw hb => ?_⟩
    obtain ⟨h1, h2, h3, h4⟩ := h w hw hb
    rcases hr : x w with ⟨r1, w1⟩
    rw [hr] at h1 h2 h3 h4
    simp only at h1 h2 h3 h4
    subst h1
    rw [IOM.bind_of_ok hr]
    obtain ⟨k1, k2, k3, k4⟩ := h' w1 h3 h4
    refine ⟨k1, ?_, k3, k4⟩
    rw [World.Said] at *
    rw [k2, h2, List.map_append, List.append_assoc]
  · refine ⟨.err m, vs, fun w hw hb => ?_⟩
    obtain ⟨h1, h2, h3, h4⟩ := h w hw hb
    rcases hr : x w with ⟨r1, w1⟩
    rw [hr] at h1 h2 h3 h4
    simp only at h1 h2 h3 h4
    subst h1
    rw [IOM.bind_run, hr]
    exact ⟨rfl, h2, h3, h4⟩
  · refine ⟨.panic, vs, fun w hw hb => ?_⟩
    obtain ⟨h1, h2, h3, h4⟩ := h w hw hb
    rcases hr : x w with ⟨r1, w1⟩
    rw [hr] at h1 h2 h3 h4
    simp only at h1 h2 h3 h4
    subst h1
    rw [IOM.bind_run, hr]
    exact ⟨rfl, h2, h3, h4⟩

theorem attempt {x : IOM α} (hx : Determined P path b x) : Determined P path b (IOM.attempt x) := by
  obtain ⟨r, vs, h⟩ := hx
  refine ⟨match r with | .ok a => .ok (.ok a) | .err m => .ok (.error m) | .panic => .panic, vs, fun w hw hb => ?_⟩
  obtain ⟨h1, h2, h3, h4⟩ := h w hw hb
  rw [attempt_run, h1]
  rcases r with a | m | _ <;> exact ⟨rfl, h2, h3, h4⟩

theorem send (v : Json) : Determined P path b (Server.send P v) :=
  ⟨.ok (), [v], fun w hw hb => by
    rw [Server.send_run hw]
    exact ⟨rfl, Server.said_send P v w, healthy_later hw (by simp) rfl, hb⟩⟩

theorem readFile : Determined P path b (IOM.readFile path) := by
  refine ⟨match b with | some c => .ok c | none => .err "no such file", [], fun w hw hb => ?_⟩
  rcases step_cases w with ⟨_, h⟩ | ⟨h, _⟩
  · rw [IOM.readFile, IOM.bind_of_ok h]
    simp only
    rw [hb]
    rcases b with _ | c <;>
      exact ⟨rfl, by simp [World.Said, World.sent], healthy_later hw (by simp) rfl, hb⟩
  · exact absurd (hw _ (Nat.le_refl _)) h

theorem readText : Determined P path b (IOM.readText path) := by
  refine bind readFile fun bytes => ?_
  rcases fromUtf8 bytes with _ | t
  · exact fail _
  · exact pure _

theorem tokenizeFile (S : Segmenter) : Determined P path b (Server.tokenizeFile S path) :=
  bind readText fun _ => lift _

theorem didSave {X : ServerEnv} {uri : Str} (hf : X.P.toFilePath uri = some path) (publish : Bool) :
    ∃ r vs, ∀ (s : Server) (w : World), s.publishDiagnostics = publish → w.Healthy → w.files.get path = b →
      (Server.didSave X s uri w).1 = r ∧ w.Said X.P (Server.didSave X s uri w).2 vs := by
  have h : Determined X.P path b (Server.didSave X ⟨publish, none⟩ uri) := by
    rw [Server.didSave, hf]
    simp only
    refine bind (attempt (tokenizeFile _)) fun r => ?_
    rcases r with e | toks
    · exact send _
    · refine bind (lift _) fun c => bind (lift _) fun p => ?_
      simp only [Server.sendDiagnostics]
      rcases publish with _ | _
      · exact pure _
      · exact send _
  obtain ⟨r, vs, h⟩ := h
  refine ⟨r, vs, fun s w hs hw hb => ?_⟩
  have he : Server.didSave X s uri = Server.didSave X ⟨publish, none⟩ uri := by
    rw [Server.didSave, Server.didSave]
    simp only [Server.sendDiagnostics, hs]
  rw [he]
  exact ⟨(h w hw hb).1, (h w hw hb).2.1⟩

theorem tokens {X : ServerEnv} {uri : Str} (hf : X.P.toFilePath uri = some path) (id : Int) (failure : Str) :
    Determined X.P path b (Server.respond X.P id failure (Server.handleSemanticTokens X uri)) := by
  refine bind (attempt ?_) fun r => ?_
  · rw [Server.handleSemanticTokens, hf]
    simp only
    refine bind (attempt (tokenizeFile _)) fun r => ?_
    rcases r with e | toks
    · exact bind (send _) fun _ => pure _
    · exact bind (lift _) fun _ => pure _
  · rcases r with e | _ | v
    · exact send _
    · exact pure _
    · exact send _

end Determined

/-- A notification that does nothing can be left out. -/
theorem handleAll_skip {X : ServerEnv} {msg : Json} (h : ∀ s w, Server.dispatch X s msg w = (.ok s, w)) (after : List Json) :
    ∀ (before : List Json) (s : Server), handleAll X (before ++ msg :: after) s = handleAll X (before ++ after) s
  | [], s => by
    funext w
    rw [List.nil_append, List.nil_append, handleAll, IOM.bind_of_ok (h s w)]
  | v :: before, s => by
    funext w
    rw [List.cons_append, List.cons_append, handleAll, handleAll, IOM.bind_run, IOM.bind_run]
    rcases Server.dispatch X s v w with ⟨a | m | _, w1⟩
    · simp only
      rw [handleAll_skip h after before a]
    · rfl
    · rfl

theorem splitStrLoop_whole {sep : Str} : ∀ (s acc : Str), (∀ a b, s ≠ a ++ sep ++ b) →
    splitStrLoop sep 0 acc s = [acc.reverse ++ s]
  | [], acc, _ => by simp [splitStrLoop]
  | c :: s, acc, h => by
    rw [splitStrLoop, if_neg, splitStrLoop_whole s (c :: acc)]
    · simp
    · intro a b he
      exact h (c :: a) b (by rw [he]; rfl)
    · intro hp
      obtain ⟨t, ht⟩ := List.isPrefixOf_iff_prefix.mp hp
      exact h [] t (by rw [← ht]; rfl)

theorem splitStr_whole {sep s : Str} (h : ∀ a b, s ≠ a ++ sep ++ b) : splitStr sep s = [s] := by
  rw [splitStr, splitStrLoop_whole s [] h]
  rfl

namespace Server

/-- A header line without a colon and a blank. -/
theorem nextMessage_colon {checks : Bool} {P : Protocol} {line content : Str} (hne : line ≠ []) (hr : '\r' ∉ line)
    (hc : ∀ a b, line ≠ a ++ chars! ": " ++ b) :
    nextMessage checks P (utf8 (line ++ chars! "\r\n\r\n" ++ content)) = .panic := by
  have h1 := split_header [line] (by simpa using ⟨hne, hr⟩) (by simp) [] content
  simp only [joined, List.reverse_nil, List.nil_append] at h1
  rw [nextMessage, fromUtf8_utf8]
  simp only
  rw [List.append_assoc]
  have h2 : splitStr (chars! "\r\n\r\n") (line ++ (chars! "\r\n\r\n" ++ content)) =
      line :: splitStrLoop crlf2 0 [] content := h1
  rw [h2]
  obtain ⟨x, xs, hx⟩ := List.exists_cons_of_ne_nil (splitStrLoop_ne_nil crlf2 0 [] content)
  rw [hx]
  simp only
  have h3 : splitStr (chars! "\r\n") line = [line] := splitStr_text _ hr
  rw [h3, headerLoop, splitStr_whole hc]
  rfl

/-- A header without a length. -/
theorem nextMessage_unannounced {checks : Bool} {P : Protocol} {m : Wire} (hf : ∀ f ∈ m.fields, '\r' ∉ f.1 ∧ '\r' ∉ f.2 ∧ ':' ∉ f.1)
    (hne : m.fields ≠ []) (hl : ∀ f ∈ m.fields, f.1 ≠ chars! "Content-Length") (rest : Bytes) :
    nextMessage checks P (m.bytes ++ rest) = .ok none ∨
      fromUtf8 (m.bytes ++ rest) = none ∧ ∃ e, nextMessage checks P (m.bytes ++ rest) = .err e := by
  rcases hu : fromUtf8 (m.bytes ++ rest) with _ | text
  · exact .inr ⟨rfl, _, nextMessage_invalid hu⟩
  left
  have hb : m.bytes = utf8 (joined (m.fields.map fieldLine) ++ crlf2 ++ m.content) := by
    have h1 : m.fields.flatMap (fun f => f.1 ++ chars! ": " ++ f.2 ++ chars! "\r\n") =
        (m.fields.map fieldLine).flatMap (· ++ crlf) := by
      rw [List.flatMap_map]
      rfl
    rw [Wire.bytes, h1, joined_end _ (by simpa using hne)]
  have hlines : ∀ l ∈ m.fields.map fieldLine, IsLine l := by
    intro l hl
    obtain ⟨f, h, rfl⟩ := List.mem_map.mp hl
    exact fieldLine_isLine (hf f h)
  have ht := fromUtf8_some hu
  rw [hb] at ht
  obtain ⟨r, hr, _⟩ := utf8_prefix ht
  have h1 := split_header _ hlines (by simpa using hne) [] (m.content ++ r)
  simp only [List.reverse_nil, List.nil_append] at h1
  rw [nextMessage, hu]
  simp only
  have h2 : splitStr (chars! "\r\n\r\n") text = joined (m.fields.map fieldLine) :: splitStrLoop crlf2 0 [] (m.content ++ r) := by
    rw [← h1, hr, splitStr]
    simp [crlf2, List.append_assoc]
  rw [h2]
  obtain ⟨x, xs, hx⟩ := List.exists_cons_of_ne_nil (splitStrLoop_ne_nil crlf2 0 [] (m.content ++ r))
  rw [hx]
  simp only
  have h3 : headerLoop (-1) (splitStr (chars! "\r\n") (joined (m.fields.map fieldLine))) = .ok (-1) := by
    have := split_lines _ hlines (by simpa using hne)
    rw [show splitStr (chars! "\r\n") (joined (m.fields.map fieldLine)) = m.fields.map fieldLine from this]
    exact headerLoop_none _ (fun f h => (hf f h).2.2) (by simpa using hl) _
  rw [h3]
  rfl

/-- Invalid JSON. -/
theorem nextMessage_unparsable {checks : Bool} {P : Protocol} {m : Wire} (h : m.Proper) {rest : Bytes}
    (hu : (fromUtf8 (m.bytes ++ rest)).isSome) (hv : P.parse m.content = none) :
    nextMessage checks P (m.bytes ++ rest) = .err "invalid JSON" := by
  rw [nextMessage_whole h hu, hv]

/-- The request `initialize`, with the messages. -/
theorem initialize_says {X : ServerEnv} {s : Server} {msg : Json} {id : Int} {w : World} {publish : Bool}
    (hw : w.Healthy) (hm : msg.IsRequest id (chars! "initialize"))
    (hp : X.P.initParams (msg.index (chars! "params")) = some publish) :
    (dispatch X s msg w).1 = .ok { s with publishDiagnostics := publish } ∧
      w.Said X.P (dispatch X s msg w).2
        [logJson (chars! "Brack Language Server is initializing..."), resultJson id initializeJson] := by
  have h1 := send_run (P := X.P) (v := logJson (chars! "Brack Language Server is initializing...")) hw
  have hs := said_send X.P (logJson (chars! "Brack Language Server is initializing...")) w
  rw [dispatch_request hm, handleRequest, if_pos rfl, IOM.bind_of_ok (x := logMessage X.P _) h1]
  generalize hw1 : ({ w with clock := w.clock + 1, log := _ } : World) = w1 at *
  have hh : w1.Healthy := by subst hw1; exact healthy_later hw (by simp) rfl
  rw [hp]
  simp only
  rw [IOM.bind_of_ok (send_run hh)]
  exact ⟨rfl, Said.append hs (said_send ..)⟩

/-- A request with an unknown method. -/
theorem unknown_says {X : ServerEnv} {s : Server} {msg : Json} {id : Int} {method : Str} {w : World} (hw : w.Healthy)
    (hm : msg.IsRequest id method) (h1 : method ≠ chars! "initialize")
    (h2 : method ≠ chars! "textDocument/semanticTokens/full") (h3 : method ≠ chars! "textDocument/completion") :
    (dispatch X s msg w).1 = .ok s ∧ w.Said X.P (dispatch X s msg w).2
      [errorJson (some id) (-32601) (method ++ chars! " is not supported")] := by
  rw [dispatch_request hm, handleRequest, if_neg h1, if_neg h2, if_neg h3, sendMethodNotFound, sendError,
    IOM.bind_of_ok (send_run hw)]
  exact ⟨rfl, said_send ..⟩

theorem replies_code {id : Int} {failure : Str} {r : Res (Option Json)} :
    ∀ v ∈ replies id failure r, v.errorCode ≠ some (-32601) := by
  intro v hv
  rcases r with _ | _ | _
  · rename_i a
    rcases a with _ | a
    · simp [replies] at hv
    · rw [replies, List.mem_singleton] at hv
      subst hv
      intro h
      injection h
  · rw [replies, List.mem_singleton] at hv
    subst hv
    intro h
    injection h with h
    exact absurd h (by decide)
  · simp [replies] at hv

/-- A request with a known method. -/
theorem known_says {X : ServerEnv} {s : Server} {msg : Json} {id : Int} {method : Str} {w : World} (hw : w.Healthy)
    (hm : msg.IsRequest id method)
    (h : method = chars! "textDocument/semanticTokens/full" ∨ method = chars! "textDocument/completion") :
    ∃ vs, w.Said X.P (dispatch X s msg w).2 vs ∧ ∀ v ∈ vs, v.errorCode ≠ some (-32601) := by
  have key : ∀ (x : IOM (Option Json)) (failure : Str), IOM.Keeps (Talks X.P (fun v => ∃ m, v = logJson m)) x →
      ∃ vs, w.Said X.P ((do respond X.P id failure x; return s : IOM Server) w).2 vs ∧
        ∀ v ∈ vs, v.errorCode ≠ some (-32601) := by
    intro x failure hx
    obtain ⟨logs, h1, h2, h3, h4⟩ := respond_run (id := id) (failure := failure) hw hx
    refine ⟨logs ++ replies id failure (x w).1, ?_, ?_⟩
    · rw [IOM.bind_run]
      rcases hr : respond X.P id failure x w with ⟨r, w1⟩
      rw [hr] at h2
      rcases r with _ | _ | _ <;> exact h2
    · intro v hv
      rcases List.mem_append.mp hv with hv | hv
      · obtain ⟨m, rfl⟩ := h1 v hv
        intro h
        injection h
      · exact replies_code v hv
  rw [dispatch_request hm, handleRequest]
  rcases h with rfl | rfl
  · rw [if_neg (by decide), if_pos rfl]
    rcases X.P.semanticTokens (msg.index (chars! "params")) with _ | uri
    · exact ⟨[], by simp [World.Said, IOM.fail], by simp⟩
    · exact key _ _ (handleSemanticTokens_talks (fun m => ⟨m, rfl⟩) uri)
  · rw [if_neg (by decide), if_neg (by decide), if_pos rfl]
    rcases X.P.completion (msg.index (chars! "params")) with _ | context
    · exact ⟨[], by simp [World.Said, IOM.fail], by simp⟩
    · exact key _ _ (Silent.talks (handleCompletion_silent s context))

/-- A message with an unknown method or none. -/
theorem unknown_ok {X : ServerEnv} {s : Server} {msg : Json} {w : World} (hw : w.Healthy)
    (hm : ∀ method, msg.get (chars! "method") = some (.str method) → method ∉ knownMethods) :
    (dispatch X s msg w).1 = .ok s := by
  have hk : ∀ method, (msg.get (chars! "method")).bind Json.asStr = some method → method ∉ knownMethods := by
    intro method h
    obtain ⟨v, hv, hs⟩ := Option.bind_eq_some_iff.mp h
    cases v with
    | str t =>
      injection hs with hs
      subst hs
      exact hm t hv
    | _ => simp [Json.asStr] at hs
  rw [dispatch]
  rcases (msg.get (chars! "id")).bind Json.asI64 with _ | id <;>
    rcases hmeth : (msg.get (chars! "method")).bind Json.asStr with _ | method
  · simp only
    rw [sendInvalidRequest, sendError, IOM.bind_of_ok (send_run hw)]
    rfl
  · have h := hk method hmeth
    simp only
    rw [handleNotification, if_neg (by rintro rfl; exact h (by decide)), if_neg (by rintro rfl; exact h (by decide)),
      if_neg (by rintro rfl; exact h (by decide)), if_neg (by rintro rfl; exact h (by decide))]
    rfl
  · rfl
  · have h := hk method hmeth
    simp only
    rw [handleRequest, if_neg (by rintro rfl; exact h (by decide)), if_neg (by rintro rfl; exact h (by decide)),
      if_neg (by rintro rfl; exact h (by decide)), sendMethodNotFound, sendError, IOM.bind_of_ok (send_run hw)]
    rfl

/-- Nothing is read after the end of the input. -/
theorem run_stops {X : ServerEnv} {cs more : List Bytes} : ∀ (b : Bytes) (s : Server),
    run X (cs ++ [] :: more) b s = run X cs b s := by
  induction cs with
  | nil => intro b s; rfl
  | cons c cs ih =>
    intro b s
    funext w
    by_cases hc : c = []
    · rw [List.cons_append, run, if_pos hc, run, if_pos hc]
    · rw [List.cons_append, run, if_neg hc, run, if_neg hc]
      simp only [ih]

end Server

end Brack
