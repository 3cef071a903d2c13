import Verif.Proof.Units
import Verif.Props.Editor

/-
Properties of the columns the language server sends (C54, continued).
-/

namespace Brack

/-! ### C54 -/

/-- C54: exactly which positions and lengths are right, for all documents of less than 2^32 characters. The position of a
token is the one of the protocol if and only if no earlier token other than NewLine contains a line feed and each cluster
before it on its line is one UTF-16 code unit; its length, if and only if each of its own clusters is one. -/
theorem C54_exact (X : ServerEnv) (s : Server) (msg : Json) (id : Int) (uri path text : Str) (w : World)
    (hw : w.Healthy) (hm : msg.IsRequest id (chars! "textDocument/semanticTokens/full"))
    (hp : X.P.semanticTokens (msg.index (chars! "params")) = some uri) (hf : X.P.toFilePath uri = some path)
    (hc : w.Contains path text) (hlen : text.length < 2 ^ 32) :
    ∃ reply tokens toks, w.Said X.P (Server.dispatch X s msg w).2 [reply] ∧ reply.seenTokens = some tokens ∧
      tokenizeStr X.E.S text = .ok toks ∧ tokens.length = toks.length ∧
      ∀ pre t post, toks = pre ++ t :: post → ∀ k, tokens[pre.length]? = some k →
        ((k.line, k.character) = utf16After (spell pre) ↔
          (∀ u ∈ pre, u.kind ≠ .newLine → '\n' ∉ u.kind.spelling) ∧
          ∀ g ∈ X.E.S.graphemes ((spell pre).reverse.takeWhile (· ≠ '\n')).reverse, utf16Length g = 1) ∧
        (k.length = utf16Length t.kind.spelling ↔ ∀ g ∈ X.E.S.graphemes t.kind.spelling, utf16Length g = 1) := by
  obtain ⟨body, eof, ht, he, _⟩ := C01_tokenize_total X.E.S text
  obtain ⟨reply, h1, h2, h3, h4⟩ := Server.tokens_request (s := s) hw hm hp hf hc hlen ht
  refine ⟨reply, _, _, h2, h4, ht, by simp, ?_⟩
  intro pre t post h k hk
  rw [h, List.getElem?_map] at hk
  simp only [List.getElem?_append_right (Nat.le_refl _), Nat.sub_self, List.getElem?_cons_zero, Option.map_some,
    Option.some.injEq] at hk
  rw [h] at ht
  have hex := C04_exact X.E.S text pre t post ht
  have hline := C04_line X.E.S text pre t post ht
  have htile := C03_tiles X.E.S text _ ht
  have hwid := tiles_width X.E.S _ _ htile t (by simp)
  rw [← hk, ← units_clusters, ← units_clusters]
  simp only [Server.seen, utf16After, Prod.mk.injEq]
  refine ⟨⟨fun ⟨e1, e2⟩ => ?_, fun ⟨e1, e2⟩ => ?_⟩, ?_⟩
  · have hall : ∀ u ∈ pre, u.kind ≠ .newLine → '\n' ∉ u.kind.spelling := by
      intro u hu hne hmem
      have hz : ((pre.filter (·.kind ≠ .newLine)).map (·.kind.spelling.count '\n')).sum = 0 := by
        simp only [posAfter] at hline
        omega
      have := List.sum_eq_zero_iff_forall_eq_nat.mp hz (u.kind.spelling.count '\n')
        (List.mem_map.mpr ⟨u, List.mem_filter.mpr ⟨hu, by simp [hne]⟩, rfl⟩)
      exact absurd (List.count_eq_zero.mp this) (fun h => h hmem)
    refine ⟨hall, ?_⟩
    rw [← e2, hex.2 hall, posAfter]
  · rw [hex.2 e1]
    exact ⟨rfl, e2⟩
  · have : t.loc.stop.character - t.loc.start.character = (X.E.S.graphemes t.kind.spelling).length := by omega
    rw [this]

/-- A line with a character of two code units, and a line without: the position behind the character is too small by one,
the one on the next line is right. -/
example : ∃ reply tokens toks, (workspace (chars! "[std.f 😀]\nx")).Said sampleProtocol
      (Server.dispatch (sampleServerEnv sampleWasm) sampleServer
        (requestJson 7 (chars! "textDocument/semanticTokens/full") documentParams) (workspace (chars! "[std.f 😀]\nx"))).2
      [reply] ∧ reply.seenTokens = some tokens ∧
      tokenizeStr sampleEnv.S (chars! "[std.f 😀]\nx") = .ok toks ∧ tokens.length = toks.length ∧
      ∀ pre t post, toks = pre ++ t :: post → ∀ k, tokens[pre.length]? = some k →
        ((k.line, k.character) = utf16After (spell pre) ↔
          (∀ u ∈ pre, u.kind ≠ .newLine → '\n' ∉ u.kind.spelling) ∧
          ∀ g ∈ sampleEnv.S.graphemes ((spell pre).reverse.takeWhile (· ≠ '\n')).reverse, utf16Length g = 1) ∧
        (k.length = utf16Length t.kind.spelling ↔ ∀ g ∈ sampleEnv.S.graphemes t.kind.spelling, utf16Length g = 1) :=
  C54_exact (sampleServerEnv sampleWasm) sampleServer _ 7 (chars! "file:///w/docs/a.[]")
    (chars! "/w/docs/a.[]") _ _ (workspace_healthy _) (requestJson_is (by decide) _ _) rfl rfl (workspace_contains _)
    (by decide)

/-- In its first line the condition fails behind that character and holds before it, in the second line it holds. -/
example : (sampleEnv.S.graphemes (chars! "[std.f 😀")).map utf16Length = [1, 1, 1, 1, 1, 1, 1, 2] ∧
    (sampleEnv.S.graphemes (chars! "x")).map utf16Length = [1] := by decide +kernel

end Brack
