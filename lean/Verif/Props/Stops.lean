import Verif.Proof.Stops

/-
Properties of the end of the language server: C104.
-/

namespace Brack

/-! ### C104 -/

/-- C104 (partial), one message: if nothing goes wrong on the file system and the network is steady, the server goes on
after a message if and only if the message is not one of those described by `Fatal` (documents with fewer than 2^32
characters; the paths of documents are absolute, hashes and plugin names contain no slash). Missing: those messages. -/
theorem C104_message_iff_partial (X : ServerEnv) (hpath : ∀ uri path, X.P.toFilePath uri = some path → AbsolutePath path)
    (hh : ∀ s, '/' ∉ X.E.hash s) (s : Server) (msg : Json) (w : World) (hw : w.Healthy) (hflat : w.FlatConfigs X.E.toml)
    (hsteady : ∀ n n' url, w.http n url = w.http n' url)
    (hsize : ∀ id method, msg.IsRequest id method → ¬ Oversized X.P w method (msg.index (chars! "params"))) :
    (∃ s', (Server.dispatch X s msg w).1 = .ok s') ↔ ¬ Fatal X w msg :=
  ⟨fun h hf => stops_of_fatal hh hw hflat hsteady hf h, continues_of_not_fatal hpath hh hw hflat hsize⟩

/-- C104 (partial), whole sessions: the client sends well-formed messages, cut between characters, none of which is
described by `Fatal` for the documents, projects and plugins as they are at the beginning; then the server runs until the
end of its input. -/
theorem C104_session_partial (X : ServerEnv) (hpath : ∀ uri path, X.P.toFilePath uri = some path → AbsolutePath path)
    (hh : ∀ s, '/' ∉ X.E.hash s) (ms : List Wire) (vs : List Json) (reads : List Bytes) (tail : Bytes)
    (s : Server) (w : World) (hm : ∀ m ∈ ms, m.Proper) (hv : ms.map (fun m => X.P.parse m.content) = vs.map some)
    (hne : ∀ r ∈ reads, r ≠ []) (hs : reads.flatten ++ tail = stream ms)
    (hu : ∀ xs ys, reads = xs ++ ys → (fromUtf8 xs.flatten).isSome) (hw : w.Healthy) (hflat : w.FlatConfigs X.E.toml)
    (hsize : ∀ v ∈ vs, ∀ id method, v.IsRequest id method → ¬ Oversized X.P w method (v.index (chars! "params")))
    (h : ∀ v ∈ vs, ¬ Fatal X w v) : ∃ s', (Server.run X (reads ++ [[]]) [] s w).1 = .ok s' := by
  rw [C48_handled_partial X ms vs reads tail s hm hv hne hs hu]
  exact handleAll_continues hpath hh _ s w hw hflat fun v hv =>
    ⟨h v (List.mem_of_mem_take hv), hsize v (List.mem_of_mem_take hv)⟩

/-- C104: whatever goes wrong on the file system, a session of well-formed messages crashes only if a document is saved with
a separator outside brackets, or semantic tokens are asked of a document with 2^32 characters or more. -/
theorem C104_crash_partial (X : ServerEnv) (hpath : ∀ uri path, X.P.toFilePath uri = some path → AbsolutePath path)
    (hh : ∀ s, '/' ∉ X.E.hash s) (ms : List Wire) (vs : List Json) (reads : List Bytes) (tail : Bytes)
    (s : Server) (w : World) (hm : ∀ m ∈ ms, m.Proper) (hv : ms.map (fun m => X.P.parse m.content) = vs.map some)
    (hne : ∀ r ∈ reads, r ≠ []) (hs : reads.flatten ++ tail = stream ms)
    (hu : ∀ xs ys, reads = xs ++ ys → (fromUtf8 xs.flatten).isSome) (hflat : w.FlatConfigs X.E.toml)
    (h : (Server.run X (reads ++ [[]]) [] s w).1 = .panic) : ∃ v ∈ vs, Crashing X w v := by
  rw [C48_handled_partial X ms vs reads tail s hm hv hne hs hu] at h
  obtain ⟨v, hv, hc⟩ := handleAll_panic hpath hh _ s w hflat h
  exact ⟨v, List.mem_of_mem_take hv, hc⟩

/-- C104: if nothing can be written any more, the server stops with an error at the next request to which there is
something to say. -/
theorem C104_written (X : ServerEnv) (s : Server) (msg : Json) (id : Int) (method : Str) (w : World) (hw : w.Dead)
    (hm : msg.IsRequest id method) (hn : ¬ Silenced X.P s method (msg.index (chars! "params"))) :
    ∃ e, (Server.dispatch X s msg w).1 = .err e :=
  request_dead hw hm hn

/-- A request with an unknown method. -/
example : ∃ e, (Server.dispatch (sampleServerEnv sampleWasm) {} (requestJson 7 (chars! "a") .null)
    (sampleWorld (fun _ => .refused))).1 = .err e :=
  C104_written _ _ _ 7 (chars! "a") _ (fun _ _ => rfl) (requestJson_is (by decide) _ _) (fun h => absurd h.1 (by decide))

/-- A protocol in which there is one document. -/
private def oneDocument : ServerEnv :=
  { sampleServerEnv sampleWasm with
    P := { sampleProtocol with toFilePath := fun uri =>
      if uri = chars! "file:///w/docs/a.[]" then some (chars! "/w/docs/a.[]") else none } }

private theorem oneDocument_paths : ∀ uri path, oneDocument.P.toFilePath uri = some path → AbsolutePath path := by
  intro uri path h
  have h' : (if uri = chars! "file:///w/docs/a.[]" then some (chars! "/w/docs/a.[]") else none) = some path := h
  by_cases hu : uri = chars! "file:///w/docs/a.[]"
  · rw [if_pos hu] at h'
    injection h' with h'
    exact .inr ⟨[chars! "w", chars! "docs", chars! "a.[]"], by decide, by decide, by rw [← h']; rfl⟩
  · rw [if_neg hu] at h'
    cases h'

private theorem workspace_flat (text : Str) (T : Toml) : (workspace text).FlatConfigs T := by
  intro p b t v c hp hb
  have hk : p = chars! "/w/docs/a.[]" ∨ p = chars! "plugins/std_00.wasm" := by
    simp only [workspace, HMap.get] at hb
    by_cases h1 : chars! "/w/docs/a.[]" = p
    · exact .inl h1.symm
    · rw [if_neg h1] at hb
      by_cases h2 : chars! "plugins/std_00.wasm" = p
      · exact .inr h2.symm
      · rw [if_neg h2] at hb
        cases hb
  rcases hk with rfl | rfl <;> exact absurd hp (by decide)

/-- The messages of a session: a document is opened and saved, its semantic tokens are asked for. -/
private def session : List Json :=
  [eventJson (chars! "textDocument/didOpen") documentParams, eventJson (chars! "textDocument/didSave") documentParams,
    requestJson 7 (chars! "textDocument/semanticTokens/full") documentParams]

private def sessionWires : List Wire := session.map (fun v => Wire.plain (JsonText.print v))

/-- The session ends with the input. -/
example : ∃ s', (Server.run oneDocument (sessionWires.map Wire.bytes ++ [[]]) [] {} (workspace (chars! "[a.b c]"))).1 = .ok s' := by
  have hcont : ∀ path text, (workspace (chars! "[a.b c]")).Contains path text → path = chars! "/w/docs/a.[]" →
      text = chars! "[a.b c]" := by
    rintro path text ⟨b, hb, ht⟩ rfl
    have hb' : (workspace (chars! "[a.b c]")).files.get (chars! "/w/docs/a.[]") = some (utf8 (chars! "[a.b c]")) := rfl
    rw [hb'] at hb
    injection hb with hb
    subst hb
    rw [fromUtf8_utf8] at ht
    injection ht with ht
    exact ht.symm
  have hfile : oneDocument.P.toFilePath (chars! "file:///w/docs/a.[]") = some (chars! "/w/docs/a.[]") := rfl
  refine C104_session_partial oneDocument oneDocument_paths (fun _ => by show _ ∉ chars! "00"; decide) sessionWires session _ [] _ _
    ?_ (by rfl) (by decide) (by simp [stream, List.flatMap]) ?_ (workspace_healthy _) (workspace_flat _ _) ?_ ?_
  · intro m hm
    simp only [sessionWires, session, List.map_cons, List.map_nil, List.mem_cons, List.not_mem_nil, or_false] at hm
    rcases hm with rfl | rfl | rfl <;> exact ⟨by decide, by decide, by decide, by decide⟩
  · exact forall_splits (by decide +kernel)
  · intro v hv id method hm ho
    obtain ⟨rfl, uri, hp, path, b, text, hf, hb, ht, hl⟩ := ho
    simp only [session, List.mem_cons, List.not_mem_nil, or_false] at hv
    rcases hv with rfl | rfl | rfl
    · exact absurd hm.2.2 (by simp [Json.get, Json.field, eventJson])
    · exact absurd hm.2.2 (by simp [Json.get, Json.field, eventJson])
    · injection hp with hp
      subst hp
      rw [hfile] at hf
      injection hf with hf
      rw [hcont _ _ ⟨b, hb, ht⟩ hf.symm] at hl
      exact absurd hl (by decide)
  · have hreq : ∀ (m : Str) (p : Json) (id : Int) (m' : Str), ¬ (eventJson m p).IsRequest id m' := fun m p id m' h => by
      have : (eventJson m p).get (chars! "id") = none := rfl
      rw [h.1] at this
      cases this
    have hev : ∀ (m : Str) (p : Json) (m' : Str), (eventJson m p).Notifies m' → m' = m := fun m p m' h => by
      have : (eventJson m p).get (chars! "method") = some (.str m) := rfl
      rw [h.2] at this
      injection this with this
      injection this
    have hno : ∀ (m : Str) (p : Json) (m' : Str), ¬ (requestJson 7 m p).Notifies m' := fun m p m' h =>
      h.1 7 (by decide) (by decide) rfl
    intro v hv hf
    simp only [session, List.mem_cons, List.not_mem_nil, or_false] at hv
    rcases hv with rfl | rfl | rfl
    · cases hf with
      | request hm => exact hreq _ _ _ _ hm
      | openParams _ hp => exact absurd hp (by decide)
      | changeParams hm => exact absurd (hev _ _ _ hm) (by decide)
      | saveParams hm => exact absurd (hev _ _ _ hm) (by decide)
      | openNoFile _ hp hf =>
        injection hp with hp
        subst hp
        exact absurd hf (by decide)
      | openTop _ hp hf ht =>
        injection hp with hp
        subst hp
        rw [hfile] at hf
        injection hf with hf
        subst hf
        obtain ⟨name, hn, h⟩ := ht
        injection h with _ h
        subst h
        exact absurd hn (by decide)
      | openPlugin _ hp hf hd hc =>
        obtain ⟨b, t, v, h1, _⟩ := hc
        have hk : ∀ p, (chars! "Brack.toml") <:+ p → (workspace (chars! "[a.b c]")).files.get p = none := by
          intro p hp
          simp only [workspace, HMap.get]
          rw [if_neg (by rintro rfl; exact absurd hp (by decide)), if_neg (by rintro rfl; exact absurd hp (by decide))]
        rw [hk _ ⟨_ ++ ['/'], by rw [List.append_assoc]; rfl⟩] at h1
        cases h1
      | saveNoFile hm => exact absurd (hev _ _ _ hm) (by decide)
      | saveRejected hm => exact absurd (hev _ _ _ hm) (by decide)
      | saveLoose hm => exact absurd (hev _ _ _ hm) (by decide)
    · have ht := tokenize_ascii oneDocument.E.S (chars! "[a.b c]") (by decide)
      cases hf with
      | request hm => exact hreq _ _ _ _ hm
      | openParams hm => exact absurd (hev _ _ _ hm) (by decide)
      | changeParams hm => exact absurd (hev _ _ _ hm) (by decide)
      | saveParams _ hp => exact absurd hp (by decide)
      | openNoFile hm => exact absurd (hev _ _ _ hm) (by decide)
      | openTop hm => exact absurd (hev _ _ _ hm) (by decide)
      | openPlugin hm => exact absurd (hev _ _ _ hm) (by decide)
      | saveNoFile _ hp hf =>
        injection hp with hp
        subst hp
        exact absurd hf (by decide)
      | saveRejected _ hp hf hc ht' ha =>
        injection hp with hp
        subst hp
        rw [hfile] at hf
        injection hf with hf
        rw [hcont _ _ hc hf.symm, ht] at ht'
        injection ht' with ht'
        subst ht'
        exact absurd ha (by decide +kernel)
      | saveLoose _ hp hf hc hl =>
        injection hp with hp
        subst hp
        rw [hfile] at hf
        injection hf with hf
        rw [hcont _ _ hc hf.symm] at hl
        obtain ⟨ts, _, ht', _, e, he, hel⟩ := hl
        rw [ht] at ht'
        injection ht' with ht'
        subst ht'
        have hall : ∀ e ∈ trace [] (run ((chars! "[a.b c]").map (fun c => [c])) M.init), e.looseSeparator = false := by decide +kernel
        rw [hall e he] at hel
        cases hel
    · cases hf with
      | request hm h =>
        rcases h with ⟨rfl, _⟩ | ⟨_, h⟩ | ⟨rfl, _⟩
        · exact absurd hm.2.2 (by simp [requestJson, Json.get, Json.field])
        · exact absurd h (by decide)
        · exact absurd hm.2.2 (by simp [requestJson, Json.get, Json.field])
      | openParams hm => exact hno _ _ _ hm
      | changeParams hm => exact hno _ _ _ hm
      | saveParams hm => exact hno _ _ _ hm
      | openNoFile hm => exact hno _ _ _ hm
      | openTop hm => exact hno _ _ _ hm
      | openPlugin hm => exact hno _ _ _ hm
      | saveNoFile hm => exact hno _ _ _ hm
      | saveRejected hm => exact hno _ _ _ hm
      | saveLoose hm => exact hno _ _ _ hm

/-- A session whose only message is that the document was saved. -/
private def saving : List Wire := [Wire.plain (JsonText.print (eventJson (chars! "textDocument/didSave") documentParams))]

private theorem saving_proper : ∀ m ∈ saving, m.Proper := by
  intro m hm
  rw [List.mem_singleton.mp hm]
  exact ⟨by decide, by decide, by decide, by decide⟩

private theorem saving_run (more : List Bytes) (w : World) : Server.run oneDocument (saving.map Wire.bytes ++ more) [] {} w = (do
    let s ← Server.dispatch oneDocument {} (eventJson (chars! "textDocument/didSave") documentParams)
    Server.run oneDocument more [] s) w := by
  refine congrFun (Server.run_cons_some (by decide) ?_) w
  have := Server.nextMessage_complete (checks := oneDocument.E.checks) (P := oneDocument.P) (saving_proper _ List.mem_cons_self)
    (rest := []) (by rw [List.append_nil, Wire.bytes, fromUtf8_utf8]; rfl)
    (v := eventJson (chars! "textDocument/didSave") documentParams) (by rfl)
  rw [List.append_nil] at this
  exact this

private theorem saving_crashes (more : List Bytes) :
    (Server.run oneDocument (saving.map Wire.bytes ++ more) [] {} (workspace (chars! "\\[hello world"))).1 = .panic := by
  have he := (C51_panic_refuted oneDocument {} _ (chars! "file:///w/docs/a.[]") (chars! "/w/docs/a.[]") _ _
    (workspace_healthy _) (eventJson_is _ documentParams) rfl rfl (workspace_contains _) rfl).1
  rw [saving_run, IOM.bind_run]
  rcases hd : Server.dispatch oneDocument {} (eventJson (chars! "textDocument/didSave") documentParams)
    (workspace (chars! "\\[hello world")) with ⟨r, w1⟩
  rw [hd] at he
  simp only at he
  rw [he]

/-- The full statement of C104 says that a session of well-formed messages always ends with its input. It is refuted: the
server stops with an error after a document with an unopened bracket was saved, and crashes after one with a space behind
an escaped bracket, although there is more input. -/
theorem C104_refuted : ∃ (X : ServerEnv) (ms : List Wire) (w w' : World), (∀ m ∈ ms, m.Proper) ∧ w.Healthy ∧ w'.Healthy ∧
    (∀ more, ∃ e, (Server.run X (ms.map Wire.bytes ++ more) [] {} w).1 = .err e) ∧
    ∀ more, (Server.run X (ms.map Wire.bytes ++ more) [] {} w').1 = .panic := by
  refine ⟨oneDocument, saving, workspace (chars! "a]b"), workspace (chars! "\\[hello world"), saving_proper, workspace_healthy _,
    workspace_healthy _, fun more => ?_, saving_crashes⟩
  obtain ⟨e, he⟩ := (C51_rejected_refuted oneDocument {} _ (chars! "file:///w/docs/a.[]") (chars! "/w/docs/a.[]") _ _
    (workspace_healthy _) (eventJson_is _ documentParams) rfl rfl (workspace_contains _) rfl).1
  refine ⟨e, ?_⟩
  rw [saving_run, IOM.bind_run]
  rcases hd : Server.dispatch oneDocument {} (eventJson (chars! "textDocument/didSave") documentParams) (workspace (chars! "a]b")) with ⟨r, w1⟩
  rw [hd] at he
  simp only at he
  rw [he]

/-- A session that crashes. -/
example : ∃ v ∈ [eventJson (chars! "textDocument/didSave") documentParams],
    Crashing oneDocument (workspace (chars! "\\[hello world")) v :=
  C104_crash_partial oneDocument oneDocument_paths (fun _ => by show _ ∉ chars! "00"; decide) saving _ (saving.map Wire.bytes) [] {} _
    saving_proper (by rfl) (by decide) (by simp [stream, List.flatMap]) (forall_splits (by decide +kernel)) (workspace_flat _ _)
    (saving_crashes _)

/-- A message after which the server stops, and why. -/
example : Fatal oneDocument (workspace (chars! "a]b")) (eventJson (chars! "textDocument/didSave") documentParams) := by
  have h := C104_message_iff_partial oneDocument oneDocument_paths (fun _ => by show _ ∉ chars! "00"; decide) {}
    (eventJson (chars! "textDocument/didSave") documentParams) _ (workspace_healthy (chars! "a]b")) (workspace_flat _ _)
    (fun _ _ _ => rfl) (fun id method hm => by
      have : (eventJson (chars! "textDocument/didSave") documentParams).get (chars! "id") = none := rfl
      rw [hm.1] at this
      cases this)
  obtain ⟨e, he⟩ := (C51_rejected_refuted oneDocument {} _ (chars! "file:///w/docs/a.[]") (chars! "/w/docs/a.[]") _ _
    (workspace_healthy _) (eventJson_is _ documentParams) rfl rfl (workspace_contains _) rfl).1
  rw [he] at h
  by_cases hf : Fatal oneDocument (workspace (chars! "a]b")) (eventJson (chars! "textDocument/didSave") documentParams)
  · exact hf
  · obtain ⟨s', hs⟩ := h.mpr hf
    cases hs

end Brack
