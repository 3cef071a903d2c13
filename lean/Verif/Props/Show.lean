import Verif.Proof.Cases
import Verif.Proof.Expressed
import Verif.Proof.GenDone
import Verif.Proof.ParaGen
import Verif.Proof.Show
import Verif.Props.Transform

/-
Properties of printed trees and errors (C101).
-/

namespace Brack

/-- What the leaves of a document hold. -/
theorem reads_content {S : Segmenter} {ids : Nat → Str} {text : Str} {a : AST} {es : List TErr} (h : Reads S ids text a es) :
    ∀ x ∈ a.contents, (x.value = none ↔ x.kind = .invalid ∨ x.kind = .ignored) ∧
      (NoCrLf text → ∀ v ∈ x.value, '\n' ∉ v.dropLast) := by
  obtain ⟨ts, c, h1, h2, h3⟩ := h
  intro x hx
  rw [C22_content ts c ids a es h2 h3] at hx
  obtain ⟨ev, he, hc⟩ := List.mem_filterMap.1 hx
  have key : NoCrLf text → ∀ st t, Event.plain st t ∈ trace [] ts → t.kind ≠ .newLine → '\n' ∉ t.kind.spelling.dropLast := by
    intro hn st t ht hk
    rw [tokenizeStr_eq] at h1
    injection h1 with h1
    refine run_few_breaks (S.graphemes text) M.init ?_ (by simp [M.init]) t (h1 ▸ trace_plain_mem ts.length ts [] (Nat.le_refl _) st t ht) hk
    intro g hg hl
    rcases S.lf text g hg hl with h | h
    · exact h
    · obtain ⟨u, w, e⟩ := List.append_of_mem hg
      refine (hn u.flatten w.flatten ?_).elim
      rw [← S.flatten text, e, h]
      simp
  rcases ev with ⟨st, k, l⟩ | ⟨st, b, ch, t⟩ | ⟨st, t⟩ | ⟨o, t⟩ | o | t
  · rcases k with _ | v | v | v | _ | _ | _ | _ | _ | _ | _ | _ <;> simp only [Event.content?, Option.some.injEq, reduceCtorEq] at hc <;>
      subst hc <;> refine ⟨by simp, fun hn w hw => ?_⟩ <;> cases hw <;> exact key hn st _ he (by simp)
  · simp only [Event.content?, Option.some.injEq] at hc
    subst hc
    refine ⟨by simp, fun _ w hw => ?_⟩
    cases hw
    simp
  · simp only [Event.content?, Option.some.injEq] at hc
    subst hc
    exact ⟨by simp, fun _ w hw => by cases hw⟩
  · cases hc
  · cases hc
  · cases hc

/-! ### C101 -/

/-- C101: the tree of every document can be printed. -/
theorem C101_shown (S : Segmenter) (ids : Nat → Str) (text : Str) (a : AST) (es : List TErr) (h : Reads S ids text a es) :
    ∃ s, a.display 0 = .ok s :=
  display_ok 0 a (fun x hx hv => (reads_content h x hx).1.1 hv)

/-- C101 (partial): without CR LF line ends, two documents print alike exactly if they are read alike: the same
commands, names, arguments and texts, in the same order. -/
theorem C101_ast_partial (S : Segmenter) (ids ids' : Nat → Str) (text text' : Str) (a a' : AST) (es es' : List TErr)
    (h : Reads S ids text a es) (h' : Reads S ids' text' a' es') (hn : NoCrLf text) (hn' : NoCrLf text') :
    a.display 0 = a'.display 0 ↔ a.shape = a'.shape := by
  refine ⟨fun he => ?_, fun he => display_shape a a' he 0⟩
  obtain ⟨s, hs⟩ := C101_shown S ids text a es h
  exact (display_unique a a' 0 s s [] [] hs (he ▸ hs) (fun x hx => (reads_content h x hx).2 hn)
    (fun x hx => (reads_content h' x hx).2 hn') (fun x hx hk => (reads_content h x hx).1.2 hk)
    (fun x hx hk => (reads_content h' x hx).1.2 hk) (.inl rfl) (.inl rfl) rfl).1

/-- C101 refuted: with a CR LF line end, one text can print like a text and a mark for something invalid. -/
theorem C101_ast_refuted (S : Segmenter) : ∃ text text' a a' es', Reads S someIds text a [] ∧ Reads S someIds text' a' es' ∧
    a.display 0 = a'.display 0 ∧ a.contents.length = 1 ∧ a'.contents.length = 2 := by
  have e1 : S.graphemes (chars! "\r\n      Invalid") = ['\r', '\n'] :: (chars! "      Invalid").map (fun c => [c]) := by
    rw [show chars! "\r\n      Invalid" = '\r' :: '\n' :: chars! "      Invalid" from rfl, S.crlf, S.ascii _ (by decide)]
  have e2 : S.graphemes (chars! "\r\\") = ['\r'] :: (chars! "\\").map (fun c => [c]) := by
    have hf := S.flatten (chars! "\r\\")
    rcases hg : S.graphemes (chars! "\r\\") with _ | ⟨g, gs⟩
    · rw [hg] at hf; cases hf
    · have hne := S.nonempty _ g (by rw [hg]; simp)
      have hs := S.suffix _ g gs hg
      rw [hg, List.flatten_cons] at hf
      rcases g with _ | ⟨x, g⟩
      · exact absurd rfl hne
      · injection hf with hx hf
        subst hx
        rcases S.cr (chars! "\r\\") ('\r' :: g) (by rw [hg]; simp) (List.mem_cons_self ..) with h | h
        · injection h with _ h
          subst h
          replace hf : gs.flatten = ['\\'] := hf
          rw [← hs, hf, S.ascii _ (by decide)]
        · injection h with _ h
          subst h
          cases hf
  have case : ∀ (gs : List Str) (P : AST → List TErr → Bool),
      (match parse (run gs M.init) with
        | .ok c => match transform someIds c with | .ok (a, es) => P a es | _ => false
        | _ => false) = true →
      ∃ c a es, parse (run gs M.init) = .ok c ∧ transform someIds c = .ok (a, es) ∧ P a es = true := by
    intro gs P h
    rcases hp : parse (run gs M.init) with c | _ | _ <;> rw [hp] at h <;> simp only [Bool.false_eq_true] at h
    rcases hx : transform someIds c with ⟨a, es⟩ | _ | _ <;> rw [hx] at h <;> simp only [Bool.false_eq_true] at h
    exact ⟨c, a, es, rfl, hx, h⟩
  obtain ⟨c, a, es, h1, h2, h3⟩ := case (['\r', '\n'] :: (chars! "      Invalid").map (fun c => [c]))
    (fun a es => es.isEmpty && decide (a.contents.length = 1) &&
      match a.display 0 with | .ok s => decide (s = chars! "Document\n  Stmt\n    Expr\n      Text: \r\n      Invalid\n") | _ => false) (by decide +kernel)
  obtain ⟨c', a', es', h1', h2', h3'⟩ := case (['\r'] :: (chars! "\\").map (fun c => [c]))
    (fun a _ => decide (a.contents.length = 2) &&
      match a.display 0 with | .ok s => decide (s = chars! "Document\n  Stmt\n    Expr\n      Text: \r\n      Invalid\n") | _ => false) (by decide +kernel)
  simp only [Bool.and_eq_true, decide_eq_true_eq, List.isEmpty_iff] at h3 h3'
  obtain ⟨⟨rfl, h4⟩, h5⟩ := h3
  obtain ⟨h4', h5'⟩ := h3'
  refine ⟨_, _, a, a', es', ⟨_, c, by rw [tokenizeStr_eq, e1], h1, h2⟩, ⟨_, c', by rw [tokenizeStr_eq, e2], h1', h2'⟩, ?_, h4, h4'⟩
  rcases hd : a.display 0 with s | _ | _ <;> rw [hd] at h5 <;> simp only [decide_eq_true_eq, Bool.false_eq_true] at h5
  rcases hd' : a'.display 0 with s' | _ | _ <;> rw [hd'] at h5' <;> simp only [decide_eq_true_eq, Bool.false_eq_true] at h5'
  rw [h5, h5']

/-- Such documents, with several kinds of nodes; one has an error, another a name that ends with a line break. -/
example : ∃ ts c a es, tokenizeStr UTable.sampleSeg (chars! "[a.b c, {d.e \\.}]\n<x\\") = .ok ts ∧ parse ts = .ok c ∧
    transform someIds c = .ok (a, es) ∧ es ≠ [] ∧ a.contents.length = 8 ∧ a.contents.any (fun x => decide (x.kind = .invalid)) = true :=
  front_case _ _ (by decide) _ (by decide +kernel)

example : ∃ ts c a es, tokenizeStr UTable.sampleSeg (chars! "[a.\n]") = .ok ts ∧ parse ts = .ok c ∧
    transform someIds c = .ok (a, es) ∧ a.contents.any (fun x => decide (x.value = some (chars! "\n"))) = true :=
  front_case _ _ (by decide) (fun _ _ a _ => a.contents.any (fun x => decide (x.value = some (chars! "\n"))) = true) (by decide +kernel)

/-- C101 (partial): concrete syntax trees that print alike are the same up to their positions and what stands behind
backslashes, and print alike if they are and have the same identifiers. -/
theorem C101_cst_partial (printable : Char → Bool) (ids ids' : List Nat → Str) (hi : ∀ p, IsUuid (ids p)) (hi' : ∀ p, IsUuid (ids' p))
    (c c' : CST) : (c.display printable ids [] 0 = c'.display printable ids' [] 0 → c.Alike c') ∧
      (c.Alike c' → c.display printable ids [] 0 = c'.display printable ids [] 0) :=
  ⟨fun h => (CST.display_unique hi hi' c c' [] [] 0 [] [] (by rw [h])).1, fun h => CST.display_alike h [] 0⟩

/-- The tree of a document of one escaped character. -/
def escapedTree (ch : Char) : CST :=
  .node .document [.node .stmt [.node .expr [.node .backSlash [.leaf (.text [ch]) ⟨⟨0, 1⟩, ⟨0, 2⟩⟩] ⟨⟨0, 0⟩, ⟨0, 1⟩⟩] ⟨⟨0, 0⟩, ⟨0, 1⟩⟩]
    ⟨⟨0, 0⟩, ⟨0, 1⟩⟩, .leaf .eof ⟨⟨0, 2⟩, ⟨0, 2⟩⟩] ⟨⟨0, 0⟩, ⟨0, 2⟩⟩

/-- C101 refuted: an escaped backslash prints like an escaped bracket. -/
theorem C101_cst_refuted (S : Segmenter) (printable : Char → Bool) (ids : List Nat → Str) : ∃ ts ts' c c',
    tokenizeStr S (chars! "\\\\") = .ok ts ∧ tokenizeStr S (chars! "\\[") = .ok ts' ∧ parse ts = .ok c ∧ parse ts' = .ok c' ∧
    c.display printable ids [] 0 = c'.display printable ids [] 0 ∧ c.tokens ≠ c'.tokens := by
  refine ⟨_, _, escapedTree '\\', escapedTree '[', tokenize_ascii S _ (by decide), tokenize_ascii S _ (by decide), by rfl,
    by rfl, CST.display_alike ?_ [] 0, by decide⟩
  exact .node (.cons (.node (.cons (.node (.cons .backSlash .nil)) .nil)) (.cons .leaf .nil))

/-- What is printed for a document, with some identifiers. -/
example : (caseParse (chars! "[a.b\n\"]")).any (fun (_, c) => decide (c.display (fun _ => true) (fun p => (p.map Nat.digitChar)) [] 0 =
    chars! "Document(id: ) [\n  Stmt(id: 0) [\n    Expr(id: 00) [\n      Square(id: 000) [\n        SquareBracketOpen(id: 0000),\n        Expr(id: 0001) [\n          Module(id: 00010, value: Some(\"a\")),\n          Dot(id: 00011),\n          Text(id: 00012, value: Some(\"b\")),\n        ],\n        Newline(id: 0002),\n        Expr(id: 0003) [\n          Ident(id: 00030, value: Some(\"\\\"\")),\n        ],\n        SquareBracketClose(id: 0004),\n      ],\n    ],\n  ],\n  EOF(id: 1),\n]")) = true := by
  decide +kernel

/-- C101: the text of an error tells its kind and its range. -/
theorem C101_errors (e e' : TErr) : e.display = e'.display ↔ e = e' := ⟨TErr.display_inj, fun h => by rw [h]⟩

example : (⟨.notClosed .square, ⟨⟨0, 1⟩, ⟨12, 3⟩⟩⟩ : TErr).display = chars! "Error at line 0, column 1 to line 12, column 3: Square bracket not closed" := by
  decide +kernel

end Brack
