import Verif.Spec.Lsp
import Verif.Proof.ServerJson
import Verif.Proof.Stops

/-
The messages sent have the forms of the Language Server Protocol.
-/

namespace Brack

namespace Lsp

theorem HasForm.nil {optional : List (Str × (Json → Prop))} : HasForm [] optional (.obj []) :=
  ⟨[], rfl, List.nodup_nil, by simp, by simp⟩

theorem text (s : Str) : Text (.str s) := ⟨s, rfl⟩

theorem truth (b : Bool) : Truth (.bool b) := ⟨b, rfl⟩

theorem texts (ss : List Str) : ListOf Text (.arr (ss.map .str)) := by
  refine ⟨_, rfl, fun x hx => ?_⟩
  obtain ⟨s, _, rfl⟩ := List.mem_map.mp hx
  exact text s

theorem unsigned {n : Nat} (h : n < 2 ^ 32) : Unsigned (.int n) := ⟨n, by omega, by omega, rfl⟩

theorem form1 {a : Str} {p : Json → Prop} {o : List (Str × (Json → Prop))} {x : Json} (hx : p x) :
    HasForm [(a, p)] o (.obj [(a, x)]) := by
  refine ⟨_, rfl, by simp, by simp, ?_⟩
  intro f hf
  rw [List.mem_singleton.mp hf]
  exact ⟨(a, p), by simp, rfl, hx⟩

theorem form2 {a b : Str} {p q : Json → Prop} {o : List (Str × (Json → Prop))} {x y : Json} (hab : a ≠ b) (hx : p x) (hy : q y) :
    HasForm [(a, p), (b, q)] o (.obj [(a, x), (b, y)]) := by
  refine ⟨_, rfl, by simpa using hab, by simp, ?_⟩
  intro f hf
  simp only [List.mem_cons, List.not_mem_nil, or_false] at hf
  rcases hf with rfl | rfl
  · exact ⟨(a, p), by simp, rfl, hx⟩
  · exact ⟨(b, q), by simp, rfl, hy⟩

theorem form3 {a b c : Str} {p q r : Json → Prop} {x y z : Json} (hab : [a, b, c].Nodup) (hx : p x) (hy : q y)
    (hz : r z) : HasForm [(a, p), (b, q), (c, r)] [] (.obj [(a, x), (b, y), (c, z)]) := by
  refine ⟨_, rfl, by simpa using hab, by simp, ?_⟩
  intro f hf
  simp only [List.mem_cons, List.not_mem_nil, or_false] at hf
  rcases hf with rfl | rfl | rfl
  · exact ⟨(a, p), by simp, rfl, hx⟩
  · exact ⟨(b, q), by simp, rfl, hy⟩
  · exact ⟨(c, r), by simp, rfl, hz⟩

end Lsp

namespace Server
open Lsp

theorem logJson_form (m : Str) : Notification (chars! "window/logMessage") LogMessageParams (logJson m) :=
  form3 (by decide) rfl rfl (form2 (by decide) ⟨3, by omega, by omega, rfl⟩ (text m))

theorem asU32_lt (n : Nat) : asU32 n < 2 ^ 32 := Nat.mod_lt _ (by decide)

theorem positionJson_form {a b : Nat} (ha : a < 2 ^ 32) (hb : b < 2 ^ 32) : Lsp.Position (positionJson a b) :=
  form2 (by decide) (unsigned ha) (unsigned hb)

theorem diagnosticsJson_form (u : Str) (es : List TErr) :
    Notification (chars! "textDocument/publishDiagnostics") PublishDiagnosticsParams (diagnosticsJson u (es.map diagnosticOf)) := by
  refine form3 (by decide) rfl rfl (form2 (by decide) (text u) ⟨_, rfl, fun x hx => ?_⟩)
  obtain ⟨d, hd, rfl⟩ := List.mem_map.mp hx
  obtain ⟨e, _, rfl⟩ := List.mem_map.mp hd
  exact form2 (by decide) (form2 (by decide) (positionJson_form (asU32_lt _) (asU32_lt _))
    (positionJson_form (asU32_lt _) (asU32_lt _))) (text _)

theorem responseError_form {code : Int} (h : -2 ^ 31 ≤ code ∧ code ≤ 2 ^ 31 - 1) (message : Str) :
    ResponseError (.obj [(chars! "code", .int code), (chars! "message", .str message)]) :=
  form2 (by decide) ⟨code, h.1, h.2, rfl⟩ (text _)

theorem errorJson_form {msg : Json} {id : Int} {method : Str} (hm : msg.IsRequest id method) {code : Int}
    (h : -2 ^ 31 ≤ code ∧ code ≤ 2 ^ 31 - 1) (message : Str) : Message msg (errorJson (some id) code message) :=
  .error hm (form3 (by decide) rfl rfl (responseError_form h message))

theorem resultJson_form {msg : Json} {id : Int} {method : Str} (hm : msg.IsRequest id method) {v : Json}
    (h : Result method v) : Message msg (resultJson id v) :=
  .result hm (form3 (by decide) rfl rfl h)

theorem initializeJson_form : InitializeResult initializeJson := by
  refine ⟨_, rfl, by decide, by decide, ?_⟩
  intro f hf
  simp only [List.mem_cons, List.not_mem_nil, or_false] at hf
  rcases hf with rfl | rfl
  · refine ⟨_, List.mem_cons_self, rfl, _, rfl, by decide, by decide, ?_⟩
    intro f hf
    simp only [List.mem_cons, List.not_mem_nil, or_false] at hf
    rcases hf with rfl | rfl | rfl
    · exact ⟨(chars! "textDocumentSync", Between 0 2), by simp, rfl, 1, by decide, by decide, rfl⟩
    · refine ⟨(chars! "completionProvider", CompletionOptions), by simp, rfl, _, rfl, by decide, by decide, ?_⟩
      intro f hf
      simp only [List.mem_cons, List.not_mem_nil, or_false] at hf
      rcases hf with rfl | rfl
      · exact ⟨(chars! "resolveProvider", Truth), by simp, rfl, truth _⟩
      · exact ⟨(chars! "triggerCharacters", ListOf Text), by simp, rfl, texts _⟩
    · refine ⟨(chars! "semanticTokensProvider", SemanticTokensOptions), by simp, rfl, _, rfl, by decide, by decide, ?_⟩
      intro f hf
      simp only [List.mem_cons, List.not_mem_nil, or_false] at hf
      rcases hf with rfl | rfl | rfl
      · exact ⟨(chars! "legend", SemanticTokensLegend), by simp, rfl, form2 (by decide) (texts _) (texts _)⟩
      · exact ⟨(chars! "range", Truth), by simp, rfl, truth _⟩
      · exact ⟨(chars! "full", Truth), by simp, rfl, truth _⟩
  · refine ⟨(chars! "serverInfo", HasForm [(chars! "name", Text)] [(chars! "version", Text)]), by simp, rfl, _, rfl,
      by decide, by decide, ?_⟩
    intro f hf
    simp only [List.mem_cons, List.not_mem_nil, or_false] at hf
    rcases hf with rfl | rfl
    · exact ⟨(chars! "name", Text), by simp, rfl, text _⟩
    · exact ⟨(chars! "version", Text), by simp, rfl, text _⟩

theorem unsignedSub_lt {checks : Bool} {a b n : Nat} (ha : a < 2 ^ 32) (h : unsignedSub 32 checks a b = .ok n) : n < 2 ^ 32 := by
  rw [unsignedSub] at h
  by_cases hb : b ≤ a
  · rw [if_pos hb] at h
    injection h with h
    omega
  · rw [if_neg hb] at h
    cases checks
    · simp only [Bool.false_eq_true, if_false] at h
      injection h with h
      omega
    · cases h

theorem tokenType_lt (k : TokKind) : tokenType k < 2 ^ 32 := by
  cases k with
  | bopen b => cases b <;> (simp only [tokenType]; decide)
  | bclose b => cases b <;> (simp only [tokenType]; decide)
  | _ => simp only [tokenType]; decide

/-- All numbers of the token have 32 bits. -/
def SemanticToken.Fits (t : SemanticToken) : Prop :=
  t.deltaLine < 2 ^ 32 ∧ t.deltaStart < 2 ^ 32 ∧ t.length < 2 ^ 32 ∧ t.tokenType < 2 ^ 32 ∧ t.modifiers < 2 ^ 32

theorem separateLoop_fits {checks : Bool} (ts : List Token) : ∀ {l c : Nat} {ds : List SemanticToken},
    separateLoop checks l c ts = .ok ds → ∀ d ∈ ds, d.Fits := by
  induction ts with
  | nil =>
    intro l c ds h
    injection h with h
    subst h
    simp
  | cons t ts ih =>
    intro l c ds h
    rw [separateLoop] at h
    obtain ⟨dl, h1, h⟩ := Res.bind_ok.mp h
    have key : ∃ dc rest n, dc < 2 ^ 32 ∧ separateLoop checks (asU32 t.loc.start.line) (asU32 t.loc.start.character) ts = .ok rest ∧
        ds = ⟨dl, dc, asU32 n, tokenType t.kind, 0⟩ :: rest := by
      by_cases hz : dl = 0
      · rw [if_pos hz] at h
        obtain ⟨dc, h2, h⟩ := Res.bind_ok.mp h
        obtain ⟨n, _, h⟩ := Res.bind_ok.mp h
        obtain ⟨rest, h4, h⟩ := Res.bind_ok.mp h
        injection h with h
        exact ⟨dc, rest, n, unsignedSub_lt (asU32_lt _) h2, h4, h.symm⟩
      · rw [if_neg hz] at h
        obtain ⟨dc, h2, h⟩ := Res.bind_ok.mp h
        obtain ⟨n, _, h⟩ := Res.bind_ok.mp h
        obtain ⟨rest, h4, h⟩ := Res.bind_ok.mp h
        injection h with h
        injection h2 with h2
        exact ⟨dc, rest, n, by rw [← h2]; exact asU32_lt _, h4, h.symm⟩
    obtain ⟨dc, rest, n, h2, h4, rfl⟩ := key
    intro d hd
    rcases List.mem_cons.mp hd with rfl | hd
    · exact ⟨unsignedSub_lt (asU32_lt _) h1, h2, asU32_lt _, tokenType_lt _, by show 0 < 2 ^ 32; decide⟩
    · exact ih h4 d hd

theorem semanticTokensJson_form {ds : List SemanticToken} (h : ∀ d ∈ ds, d.Fits) : Lsp.SemanticTokens (semanticTokensJson ds) := by
  refine form1 ⟨_, rfl, ?_, fun x hx => ?_⟩
  · clear h
    induction ds with
    | nil => simp
    | cons d ds ih =>
      rw [List.flatMap_cons, List.length_append]
      exact Nat.dvd_add ⟨1, rfl⟩ ih
  · obtain ⟨d, hd, hx⟩ := List.mem_flatMap.mp hx
    obtain ⟨h1, h2, h3, h4, h5⟩ := h d hd
    simp only [List.mem_cons, List.not_mem_nil, or_false] at hx
    rcases hx with rfl | rfl | rfl | rfl | rfl <;> exact unsigned (by assumption)

theorem handleSemanticTokens_form {X : ServerEnv} {uri : Str} {w : World} {v : Json}
    (h : (handleSemanticTokens X uri w).1 = .ok (some v)) : Lsp.SemanticTokens v := by
  rcases hx : handleSemanticTokens X uri w with ⟨r, w1⟩
  rw [hx] at h
  simp only at h
  subst h
  rw [handleSemanticTokens] at hx
  rcases hf : X.P.toFilePath uri with _ | path
  · rw [hf] at hx
    simp [IOM.fail] at hx
  · rw [hf] at hx
    obtain ⟨r, w2, _, h2⟩ := IOM.bind_ok.mp hx
    rcases r with e | toks
    · obtain ⟨_, _, _, h3⟩ := IOM.bind_ok.mp h2
      simp [Pure.pure, IOM.pure] at h3
    · obtain ⟨d, _, hd, h3⟩ := IOM.bind_ok.mp h2
      injection h3 with h3
      injection h3 with h3
      injection h3 with h3
      subst h3
      exact semanticTokensJson_form (separateLoop_fits _ (IOM.lift_ok.mp hd).1)

theorem completionItem_form {P : Protocol} {m n : Str} {t : PType} {d : Metadata} {v : Json}
    (h : completionItem P m n t d = .ok v) : CompletionItem v := by
  unfold completionItem at h
  obtain ⟨ins, _, h⟩ := Res.bind_ok.mp h
  injection h with h
  subst h
  refine ⟨_, rfl, by simp only [List.map_cons, List.map_nil]; decide, by simp, ?_⟩
  intro f hf
  simp only [List.mem_cons, List.not_mem_nil, or_false] at hf
  rcases hf with rfl | rfl | rfl | rfl
  · exact ⟨(chars! "label", Text), by simp, rfl, text _⟩
  · exact ⟨(chars! "detail", Text), by simp, rfl, text _⟩
  · exact ⟨(chars! "insertText", Text), by simp, rfl, text _⟩
  · exact ⟨(chars! "insertTextFormat", Between 1 2), by simp, rfl, 2, by decide, by decide, rfl⟩

theorem completionCommands_form {P : Protocol} {start plugin : Str} {cs : List ((Str × PType) × Metadata)} :
    ∀ {vs : List Json}, completionCommands P start plugin cs = .ok vs → ∀ v ∈ vs, CompletionItem v := by
  induction cs with
  | nil => intro vs h; injection h with h; subst h; simp
  | cons c cs ih =>
    obtain ⟨⟨name, typ⟩, m⟩ := c
    intro vs h
    rw [completionCommands] at h
    split at h
    · obtain ⟨item, h1, h⟩ := Res.bind_ok.mp h
      obtain ⟨items, h2, h⟩ := Res.bind_ok.mp h
      injection h with h
      subst h
      intro v hv
      rcases List.mem_cons.mp hv with rfl | hv
      · exact completionItem_form h1
      · exact ih h2 v hv
    · exact ih h

theorem completionItems_form {W : Wasm} {P : Protocol} {start : Str} {ps : List (Str × Plugin W)} :
    ∀ {vs : List Json}, completionItems P start ps = .ok vs → ∀ v ∈ vs, CompletionItem v := by
  induction ps with
  | nil => intro vs h; injection h with h; subst h; simp
  | cons p ps ih =>
    obtain ⟨n, p⟩ := p
    intro vs h
    rw [completionItems] at h
    obtain ⟨items, h1, h⟩ := Res.bind_ok.mp h
    obtain ⟨more, h2, h⟩ := Res.bind_ok.mp h
    injection h with h
    subst h
    intro v hv
    rcases List.mem_append.mp hv with hv | hv
    · exact completionCommands_form h1 v hv
    · exact ih h2 v hv

theorem handleCompletion_form {X : ServerEnv} {s : Server} {c : Option (Option Str)} {w : World} {v : Json}
    (h : (handleCompletion X s c w).1 = .ok (some v)) : ListOf CompletionItem v := by
  rcases hx : handleCompletion X s c w with ⟨r, w1⟩
  rw [hx] at h
  simp only at h
  subst h
  rw [handleCompletion] at hx
  rcases hq : s.project with _ | md
  · rw [hq] at hx
    simp [Pure.pure, IOM.pure] at hx
  · rw [hq] at hx
    obtain ⟨plugins, w2, _, h2⟩ := IOM.bind_ok.mp hx
    obtain ⟨ps, w3, _, h3⟩ := IOM.bind_ok.mp h2
    rcases c with _ | _ | start
    · simp [IOM.fail] at h3
    · simp [Pure.pure, IOM.pure] at h3
    · obtain ⟨items, w4, h4, h5⟩ := IOM.bind_ok.mp h3
      injection h5 with h5
      injection h5 with h5
      injection h5 with h5
      subst h5
      exact ⟨_, rfl, completionItems_form (IOM.lift_ok.mp h4).1⟩

theorem respond_talks {P : Protocol} {Q : Json → Prop} {id : Int} {failure : Str} {x : IOM (Option Json)}
    (hx : IOM.Keeps (Talks P Q) x) (he : Q (errorJson (some id) (-32000) failure))
    (hv : ∀ w v, (x w).1 = .ok (some v) → Q (resultJson id v)) :
    IOM.Keeps (Talks P Q) (respond P id failure x) := by
  refine IOM.Keeps.bind_ok (Talks.frame _ _) (Keeps.attempt hx) fun w a w1 h => ?_
  rw [attempt_run] at h
  rcases h1 : (x w).1 with r | m | _
  · rw [h1] at h
    simp only [Prod.mk.injEq, Res.ok.injEq] at h
    obtain ⟨rfl, _⟩ := h
    rcases r with _ | v
    · exact (Talks.frame _ _).refl _
    · exact send_talks (hv w v h1) w1
  · rw [h1] at h
    simp only [Prod.mk.injEq, Res.ok.injEq] at h
    obtain ⟨rfl, _⟩ := h
    exact send_talks he w1
  · rw [h1] at h
    simp at h

theorem didSave_form {X : ServerEnv} (msg : Json) (s : Server) (uri : Str) :
    IOM.Keeps (Talks X.P (Message msg)) (didSave X s uri) := by
  unfold didSave
  split
  · exact IOM.Keeps.fail (Talks.frame _ _) _
  · refine IOM.Keeps.bind (Talks.frame _ _) (Silent.talks (Keeps.attempt (tokenizeFile_silent _ _))) fun r => ?_
    split
    · exact send_talks (.log (logJson_form _))
    · refine IOM.Keeps.bind (Talks.frame _ _) (IOM.Keeps.lift (Talks.frame _ _) _) fun _ => ?_
      refine IOM.Keeps.bind (Talks.frame _ _) (IOM.Keeps.lift (Talks.frame _ _) _) fun _ => ?_
      simp only [sendDiagnostics]
      split
      · exact send_talks (.diagnostics (diagnosticsJson_form _ _))
      · exact IOM.Keeps.pure (Talks.frame _ _) _

theorem handleNotification_form {X : ServerEnv} (s : Server) (msg : Json) (method : Str) :
    IOM.Keeps (Talks X.P (Message msg)) (handleNotification X s msg method) := by
  unfold handleNotification
  repeat' split
  · exact IOM.Keeps.bind (Talks.frame _ _) (send_talks (.log (logJson_form _))) fun _ => IOM.Keeps.pure (Talks.frame _ _) _
  · exact IOM.Keeps.fail (Talks.frame _ _) _
  · exact Silent.talks (didOpen_silent _ _)
  · exact IOM.Keeps.pure (Talks.frame _ _) _
  · exact IOM.Keeps.fail (Talks.frame _ _) _
  · exact IOM.Keeps.fail (Talks.frame _ _) _
  · exact IOM.Keeps.bind (Talks.frame _ _) (didSave_form _ _ _) fun _ => IOM.Keeps.pure (Talks.frame _ _) _
  · exact IOM.Keeps.pure (Talks.frame _ _) _

theorem handleRequest_form {X : ServerEnv} {s : Server} {msg : Json} {id : Int} {method : Str} (hm : msg.IsRequest id method) :
    IOM.Keeps (Talks X.P (Message msg)) (handleRequest X s msg id method) := by
  have herr : ∀ (code : Int) (m : Str), -2 ^ 31 ≤ code ∧ code ≤ 2 ^ 31 - 1 → Message msg (errorJson (some id) code m) :=
    fun _ m h => errorJson_form hm h m
  unfold handleRequest
  split
  · next h =>
    subst h
    refine IOM.Keeps.bind (Talks.frame _ _) (send_talks (.log (logJson_form _))) fun _ => ?_
    split
    · exact IOM.Keeps.fail (Talks.frame _ _) _
    · exact IOM.Keeps.bind (Talks.frame _ _) (send_talks (resultJson_form hm (.initialize initializeJson_form))) fun _ =>
        IOM.Keeps.pure (Talks.frame _ _) _
  split
  · next h =>
    subst h
    split
    · exact IOM.Keeps.fail (Talks.frame _ _) _
    · exact IOM.Keeps.bind (Talks.frame _ _) (respond_talks (handleSemanticTokens_talks (fun m => .log (logJson_form m)) _)
        (herr _ _ (by decide)) fun _ _ hv => resultJson_form hm (.semanticTokens (handleSemanticTokens_form hv)))
        fun _ => IOM.Keeps.pure (Talks.frame _ _) _
  split
  · next h =>
    subst h
    split
    · exact IOM.Keeps.fail (Talks.frame _ _) _
    · exact IOM.Keeps.bind (Talks.frame _ _) (respond_talks (Silent.talks (handleCompletion_silent _ _))
        (herr _ _ (by decide)) fun _ _ hv => resultJson_form hm (.completion (handleCompletion_form hv)))
        fun _ => IOM.Keeps.pure (Talks.frame _ _) _
  · exact IOM.Keeps.bind (Talks.frame _ _) (send_talks (herr _ _ (by decide))) fun _ =>
      IOM.Keeps.pure (Talks.frame _ _) _

theorem dispatch_form (X : ServerEnv) (s : Server) (msg : Json) :
    IOM.Keeps (Talks X.P (Message msg)) (Server.dispatch X s msg) := by
  rcases hm : (msg.get (chars! "method")).bind Json.asStr with _ | method
  · rcases hi : (msg.get (chars! "id")).bind Json.asI64 with _ | id
    · simp only [Server.dispatch, hm, hi]
      refine IOM.Keeps.bind (Talks.frame _ _) (send_talks (.invalid (fun id method h => ?_)
        (form3 (by decide) rfl rfl (responseError_form (by decide) _)))) fun _ => IOM.Keeps.pure (Talks.frame _ _) _
      rw [h.2.2] at hm
      cases hm
    · simp only [Server.dispatch, hm, hi]
      exact IOM.Keeps.pure (Talks.frame _ _) _
  · rcases hi : (msg.get (chars! "id")).bind Json.asI64 with _ | id
    · simp only [Server.dispatch, hm, hi]
      exact handleNotification_form s msg method
    · simp only [Server.dispatch, hm, hi]
      obtain ⟨h1, h2⟩ := asI64_some hi
      exact handleRequest_form ⟨h1, h2, asStr_some hm⟩

theorem run_form (X : ServerEnv) (cs : List Bytes) :
    ∀ b s, IOM.Keeps (Talks X.P (fun v => ∃ msg, Message msg v)) (run X cs b s) := by
  have hmono : ∀ {Q Q' : Json → Prop}, (∀ v, Q v → Q' v) → ∀ {α : Type} {x : IOM α}, IOM.Keeps (Talks X.P Q) x →
      IOM.Keeps (Talks X.P Q') x := by
    intro Q Q' hq α x h w
    refine ⟨(h w).clock, (h w).faults, fun hw => ?_, ?_⟩
    · obtain ⟨vs, h1, h2⟩ := (h w).said hw
      exact ⟨vs, fun v hv => hq v (h1 v hv), h2⟩
    · obtain ⟨l, h1, h2⟩ := (h w).sends
      refine ⟨l, h1, fun b hb => ?_⟩
      obtain ⟨v, h3, h4⟩ := h2 b hb
      exact ⟨v, hq v h3, h4⟩
  induction cs with
  | nil => intro b s; exact IOM.Keeps.pure (Talks.frame _ _) _
  | cons c cs ih =>
    intro b s
    unfold run
    split
    · exact IOM.Keeps.pure (Talks.frame _ _) _
    · refine IOM.Keeps.bind (Talks.frame _ _) (IOM.Keeps.lift (Talks.frame _ _) _) fun r => ?_
      split
      · exact ih _ _
      · exact IOM.Keeps.bind (Talks.frame _ _) (hmono (fun v hv => ⟨_, hv⟩) (dispatch_form X s _)) fun _ => ih _ _

end Server

end Brack
