import Verif.Proof.Saved
import Verif.Props.Repair
import Verif.Props.Doubled
import Verif.Props.Reword

/-
Properties of the diagnostics shown after an edit (C139).
-/

namespace Brack

/-! ### C139 -/

/-- C139: if a word or a name in a document is replaced by another one, the diagnostics shown when it is saved have the same
messages on the same lines in the same order as before. -/
theorem C139_reworded (X : ServerEnv) (text text' : Str) (h : Reworded X.E.S text text') (hlen : text.length < 2 ^ 32)
    (hlen' : text'.length < 2 ^ 32) (a : AST) (es : List TErr) (hr : Reads X.E.S (X.E.ids 0) text a es) :
    ∃ ds ds', X.Shows text ds ∧ X.Shows text' ds' ∧
      ds.map (fun d => (d.message, d.startLine, d.endLine)) = ds'.map (fun d => (d.message, d.startLine, d.endLine)) := by
  obtain ⟨ts, ts', h1, h2, _, h3⟩ := C137_reworded X.E.S (X.E.ids 0) (X.E.ids 0) text text' h
  have hr0 := hr
  obtain ⟨ts0, c0, k1, k2, k3⟩ := hr0
  rw [h1] at k1; injection k1 with k1; subst k1
  rcases h3 with ⟨⟨m, hm⟩, _⟩ | ⟨c, c', hc, hc', h3⟩
  · rw [hm] at k2; cases k2
  · rw [hc] at k2; injection k2 with k2; subst k2
    rcases h3 with ⟨hx, _⟩ | ⟨b, b', fs, fs', hx, hx', hk⟩
    · rw [hx] at k3; cases k3
    · refine ⟨_, _, shows_of_reads hlen ⟨ts, c, h1, hc, hx⟩, shows_of_reads hlen' ⟨ts', c', h2, hc', hx'⟩, ?_⟩
      rw [seenErrors_lines, seenErrors_lines, hk]

/-- C139: if the brackets open at the end of a document are closed on a further line, the diagnostics shown say no more that they
are not closed; what is said about other brackets stays as it is. -/
theorem C139_closed (X : ServerEnv) (text : Str) (hcr : ∀ x, text ≠ x ++ ['\r'])
    (hnul : Char.ofNat 0 ∉ text) (ts : List Token) (e : Token) (ht : tokenizeStr X.E.S text = .ok (ts ++ [e]))
    (hn : nameDue false ts = false) (hlen : (text ++ '\n' :: closersOf (openAtEnd [] ts)).length < 2 ^ 32)
    (a : AST) (es : List TErr) (hr : Reads X.E.S (X.E.ids 0) text a es) :
    ∃ ds ds', X.Shows text ds ∧ X.Shows (text ++ '\n' :: closersOf (openAtEnd [] ts)) ds' ∧
      ds.filterMap SeenDiagnostic.notClosed? =
        ds'.filterMap SeenDiagnostic.notClosed? ++ (openAtEnd [] ts).filterMap Token.opening? := by
  obtain ⟨a', es', h1, h2⟩ := C135_closed X.E.S (X.E.ids 0) text hcr hnul ts e ht hn a es hr
  refine ⟨_, _, shows_of_reads (by simp at hlen; omega) hr, shows_of_reads hlen h1, ?_⟩
  rw [seenErrors_notClosed, seenErrors_notClosed, h2]

/-- C139: if a backslash that escapes nothing is doubled, the diagnostics shown have the same messages on the same lines in the same
order as before, except that its own is no more shown. -/
theorem C139_doubled (X : ServerEnv) (a b : Str) (hnul : Char.ofNat 0 ∉ a) (hS : BackslashAlone X.E.S a b)
    (ts : List Token) (e : Token) (hta : tokenizeStr X.E.S a = .ok (ts ++ [e]))
    (hesc : escapePending (ts.map (·.kind)) = false)
    (all : List Token) (ht : tokenizeStr X.E.S (a ++ '\\' :: b) = .ok all)
    (hnext : ∀ u, all[ts.length + 1]? = some u → escapedChar u.kind = none)
    (hlen : (a ++ '\\' :: '\\' :: b).length < 2 ^ 32)
    (A : AST) (es : List TErr) (hr : Reads X.E.S (X.E.ids 0) (a ++ '\\' :: b) A es) :
    ∃ ds ds' xs d ys, X.Shows (a ++ '\\' :: b) ds ∧ X.Shows (a ++ '\\' :: '\\' :: b) ds' ∧ ds = xs ++ d :: ys ∧
      d.message = chars! "Backslash must be followed by dot, comma, backslash, or bracket" ∧
      all[ts.length]?.map (fun t => (t.loc.start.line, t.loc.start.character)) = some (d.startLine, d.startCharacter) ∧
      ds'.map (fun d => (d.message, d.startLine, d.endLine)) = (xs ++ ys).map (fun d => (d.message, d.startLine, d.endLine)) := by
  obtain ⟨A', es', xs, ys, l, h1, ⟨h2, h3⟩, h4⟩ :=
    C136_doubled X.E.S (X.E.ids 0) a b hnul hS ts e hta hesc all ht hnext A es hr
  refine ⟨_, _, xs.map Server.seenError, Server.seenError ⟨.invalidBackslash, l⟩, ys.map Server.seenError,
    shows_of_reads (by simp at hlen ⊢; omega) hr, shows_of_reads hlen h1, ?_, rfl, ?_, ?_⟩
  · rw [h3, List.map_append, List.map_cons]
  · rcases hq : all[ts.length]? with _ | t
    · rw [hq] at h2; cases h2
    · rw [hq] at h2
      simp only [Option.map_some, Option.some.injEq] at h2
      subst h2
      rfl
  · rw [seenErrors_lines, h4, ← List.map_append, seenErrors_lines]

/-- What is shown for this document in a workspace that has it, by `ServerEnv.Shows`: its hypotheses can be met. -/
example (ds : List SeenDiagnostic) (h : (sampleServerEnv sampleWasm).Shows (chars! "[std.f a,,b") ds) :
    ∃ v, (workspace (chars! "[std.f a,,b")).Said sampleProtocol (Server.dispatch (sampleServerEnv sampleWasm) sampleServer
      (eventJson (chars! "textDocument/didSave") documentParams) (workspace (chars! "[std.f a,,b"))).2 [v] ∧
      v.seenDiagnostics = some ds := by
  obtain ⟨_, v, h1, _, h2⟩ := h sampleServer (eventJson (chars! "textDocument/didSave") documentParams)
    (chars! "file:///w/docs/a.[]") (chars! "/w/docs/a.[]") _ (workspace_healthy _) (eventJson_is ..) rfl rfl
    (workspace_contains _) rfl
  exact ⟨v, h1, h2⟩

/-- A document with three errors, of which the first word, the bracket open at the end and the backslash can be edited. -/
example : ∃ ts e a es, Reworded sampleEnv.S (chars! "[m.f ,x\\q]\n{n.g x") (chars! "[mod.f ,x\\q]\n{n.g x") ∧
    tokenizeStr sampleEnv.S (chars! "[m.f ,x\\q]\n{n.g x") = .ok (ts ++ [e]) ∧ nameDue false ts = false ∧
    (openAtEnd [] ts).length = 1 ∧ Reads sampleEnv.S (sampleEnv.ids 0) (chars! "[m.f ,x\\q]\n{n.g x") a es ∧
    es.map Server.seenError = [⟨0, 7, 0, 8, chars! "Backslash must be followed by dot, comma, backslash, or bracket"⟩,
      ⟨0, 5, 0, 6, chars! "Unexpected comma"⟩, ⟨1, 0, 1, 6, chars! "Curly bracket not closed"⟩] := by
  obtain ⟨ts, c, a, es, h1, h2, h3, h4, h5, h6, h7⟩ := front_case sampleEnv.S (chars! "[m.f ,x\\q]\n{n.g x") (by decide +kernel)
    (fun ts _ _ es => ts ≠ [] ∧ nameDue false ts.dropLast = false ∧ (openAtEnd [] ts.dropLast).length = 1 ∧
      es.map Server.seenError = [⟨0, 7, 0, 8, chars! "Backslash must be followed by dot, comma, backslash, or bracket"⟩,
      ⟨0, 5, 0, 6, chars! "Unexpected comma"⟩, ⟨1, 0, 1, 6, chars! "Curly bracket not closed"⟩]) (by decide +kernel)
  refine ⟨ts.dropLast, ts.getLast h4, a, es, ⟨(chars! "[").map fun c => [c], (chars! "m").map fun c => [c],
    (chars! "mod").map fun c => [c], (chars! ".f ,x\\q]\n{n.g x").map fun c => [c], ?_, ?_, by simp, by simp, ?_, ?_⟩,
    by rw [List.dropLast_concat_getLast]; exact h1, h5, h6, ⟨ts, c, h1, h2, h3⟩, h7⟩
  · rw [sampleEnv.S.ascii _ (by decide +kernel)]; rfl
  · rw [sampleEnv.S.ascii _ (by decide +kernel)]; rfl
  · intro g hg; simp at hg; subst hg; unfold WordChar; decide
  · intro g hg; simp at hg; rcases hg with rfl | rfl | rfl <;> unfold WordChar <;> decide

/-- The backslash of this document is neither escaped nor escapes anything. -/
example : ∃ ts e all, BackslashAlone sampleEnv.S (chars! "[m.f ,x") (chars! "q]\n{n.g x") ∧
    tokenizeStr sampleEnv.S (chars! "[m.f ,x") = .ok (ts ++ [e]) ∧ escapePending (ts.map (·.kind)) = false ∧
    tokenizeStr sampleEnv.S (chars! "[m.f ,x" ++ '\\' :: chars! "q]\n{n.g x") = .ok all ∧
    (all[ts.length + 1]?.any fun u => escapedChar u.kind = none) := by
  obtain ⟨ts, c, a, es, h1, h2, h3, h4, h5, h6⟩ := front_case sampleEnv.S (chars! "[m.f ,x") (by decide +kernel)
    (fun ts _ _ _ => ts ≠ [] ∧ escapePending (ts.dropLast.map (·.kind)) = false ∧ ts.dropLast.length = 7) (by decide +kernel)
  obtain ⟨all, c', A, es', k1, k2, k3, k4⟩ := front_case sampleEnv.S (chars! "[m.f ,x\\q]\n{n.g x") (by decide +kernel)
    (fun all _ _ _ => (all[8]?.any fun u => escapedChar u.kind = none) = true) (by decide +kernel)
  refine ⟨ts.dropLast, ts.getLast h4, all, ⟨?_, ?_⟩, by rw [List.dropLast_concat_getLast]; exact h1, h5, k1,
    by rw [h6]; exact k4⟩ <;>
    rw [sampleEnv.S.ascii _ (by decide +kernel), sampleEnv.S.ascii _ (by decide +kernel),
      sampleEnv.S.ascii _ (by decide +kernel)] <;> rfl

end Brack
