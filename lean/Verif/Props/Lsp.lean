import Verif.Proof.Lsp
import Verif.Proof.ServerCases

/-
Properties of the form of the messages the language server sends: C105.
-/

namespace Brack

/-! ### C105 -/

/-- C105: on receiving a message, the server sends only messages of the form that the protocol fixes: log messages,
diagnostics, and for a request a response with its id, whose result has the form fixed for the method. -/
theorem C105_reaction (X : ServerEnv) (s : Server) (msg : Json) (w : World) (hw : w.Healthy) :
    ∃ vs, (∀ v ∈ vs, Lsp.Message msg v) ∧ w.Said X.P (Server.dispatch X s msg w).2 vs :=
  (Server.dispatch_form X s msg w).said hw

/-- C105: whatever bytes the server receives, all it sends are such messages. -/
theorem C105_session (X : ServerEnv) (reads : List Bytes) (buffer : Bytes) (s : Server) (w : World) (hw : w.Healthy) :
    ∃ vs, (∀ v ∈ vs, ∃ msg, Lsp.Message msg v) ∧ w.Said X.P (Server.run X reads buffer s w).2 vs :=
  (Server.run_form X reads buffer s w).said hw

/-- C105: also if something goes wrong on the file system or the output, nothing is written but such messages and
beginnings of such messages. -/
theorem C105_faults (X : ServerEnv) (reads : List Bytes) (buffer : Bytes) (s : Server) (w : World) :
    ∃ l, (Server.run X reads buffer s w).2.sent = w.sent ++ l ∧
      ∀ bytes ∈ l, Utters X.P (fun v => ∃ msg, Lsp.Message msg v) bytes :=
  (Server.run_form X reads buffer s w).sends

/-- A request for the semantic tokens of a document. -/
example : ∃ vs, (∀ v ∈ vs, Lsp.Message (requestJson 7 (chars! "textDocument/semanticTokens/full") documentParams) v) ∧
    (workspace (chars! "[a.b c]")).Said sampleProtocol (Server.dispatch (sampleServerEnv sampleWasm) sampleServer
      (requestJson 7 (chars! "textDocument/semanticTokens/full") documentParams) (workspace (chars! "[a.b c]"))).2 vs :=
  C105_reaction (sampleServerEnv sampleWasm) _ _ _ (workspace_healthy _)

/-- Bytes that are no message, read in two parts. -/
example : ∃ vs, (∀ v ∈ vs, ∃ msg, Lsp.Message msg v) ∧ (workspace []).Said sampleProtocol
    (Server.run (sampleServerEnv sampleWasm) [utf8 (chars! "Content-Length: 2\r\n"), utf8 (chars! "\r\n{}"), []] [] {}
      (workspace [])).2 vs :=
  C105_session (sampleServerEnv sampleWasm) _ _ _ _ (workspace_healthy _)

/-- The output is closed after the first write. -/
example : ∃ l, (Server.run (sampleServerEnv sampleWasm) [utf8 (chars! "Content-Length: 2\r\n\r\n{}"), []] [] {}
      (sampleWorld (fun n => if n = 0 then .cut 5 else .refused))).2.sent = [] ++ l ∧
    ∀ bytes ∈ l, Utters sampleProtocol (fun v => ∃ msg, Lsp.Message msg v) bytes :=
  C105_faults (sampleServerEnv sampleWasm) _ _ _ _

/-- A message shown to the user in a window of its own is not of this form. -/
example (received : Json) (params : Json) : ¬ Lsp.Message received
    (.obj [(chars! "jsonrpc", .str (chars! "2.0")), (chars! "method", .str (chars! "window/showMessage")),
      (chars! "params", params)]) := by
  have key : ∀ (required : List (Str × (Json → Prop))) (fs : List (Str × Json)) (k : Str) (x : Json) (p : Json → Prop),
      Lsp.HasForm required [] (.obj fs) → (k, x) ∈ fs → (∀ r ∈ required, r.1 = k → r.2 x → p x) → p x := by
    intro required fs k x p ⟨fs', he, _, _, h⟩ hx hr
    injection he with he
    subst he
    obtain ⟨r, h1, h2, h3⟩ := h _ hx
    rw [List.append_nil] at h1
    exact hr r h1 h2 h3
  intro h
  cases h with
  | log h | diagnostics h =>
    refine key _ _ (chars! "method") (.str (chars! "window/showMessage")) (fun _ => False) h (by simp) ?_
    intro r hr hk hv
    simp only [List.mem_cons, List.not_mem_nil, or_false] at hr
    rcases hr with rfl | rfl | rfl
    · exact absurd hk (by decide)
    · injection hv with hv
      exact absurd hv (by decide)
    · exact absurd hk (by decide)
  | result _ h | error _ h | invalid _ h =>
    refine key _ _ (chars! "method") (.str (chars! "window/showMessage")) (fun _ => False) h (by simp) ?_
    intro r hr hk hv
    simp only [List.mem_cons, List.not_mem_nil, or_false] at hr
    rcases hr with rfl | rfl | rfl <;> simp at hk

end Brack
