import Verif.Proof.WalkCst
import Verif.Spec.Ast
import Verif.Props.Parser
import Verif.Proof.Below
import Verif.Proof.Cases

/-
Properties of the methods of concrete trees (C140).
-/

namespace Brack

/-! ### C140 -/

/-- C140: asking for children leads to all nodes of a concrete tree. -/
theorem C140_met (a n : CST) : a.Met n ↔ CST.NodeOf n a := cstMet_iff a n

/-- C140: each node met in the concrete tree of a document can be asked for its children or for its value, and for one of both only. -/
theorem C140_nodes (ts : List Token) (c : CST) (hp : parse ts = .ok c) (n : CST) (hn : c.Met n) :
    ((∃ cs, n.askChildren = .ok cs) ∧ n.askValue = .panic) ∨ ((∃ v, n.askValue = .ok v) ∧ n.askChildren = .panic) := by
  have ha := (C12_grammar ts c hp).askable ((cstMet_iff c n).1 hn)
  rcases n with ⟨k, l⟩ | ⟨k, cs, l⟩
  · right
    refine ⟨⟨k.storedValue, ?_⟩, rfl⟩
    cases k <;> first | rfl | exact absurd rfl (ha.1 l)
  · exact .inl ⟨⟨cs, rfl⟩, rfl⟩

/-- C140: the words of a document, be they text or names, are met as values, with their ranges. -/
theorem C140_words (S : Segmenter) (text : Str) (ts : List Token) (c : CST) (ht : tokenizeStr S text = .ok ts)
    (hp : parse ts = .ok c) (t : Token) (hm : t ∈ ts) (w : Str) (hw : t.word? = some w) :
    ∃ n, c.Met n ∧ n.askValue = .ok (some w) ∧ n.loc = t.loc := by
  obtain ⟨body, e, rfl⟩ : ∃ body e, ts = body ++ [e] := by
    have hne : ts ≠ [] := by rintro rfl; cases hm
    exact ⟨ts.dropLast, ts.getLast hne, (List.dropLast_concat_getLast hne).symm⟩
  rw [← C09_keeps_all_tokens body e (fun u hu => ((tokens_eof ht).2 u hu).1) c hp] at hm
  obtain ⟨k, h1, h2, _⟩ := tokens_leaf c t hm w (by
    rcases t with ⟨k, l⟩
    cases k <;> simp_all [Token.word?, TokKind.word?])
  refine ⟨_, (cstMet_iff c _).2 h1, ?_, rfl⟩
  cases k <;> simp_all [CST.askValue, LKind.storedValue]

/-- C140: and each value met is a word of the document with its range, or an escaped character with its range. -/
theorem C140_values (ts : List Token) (c : CST) (hp : parse ts = .ok c) (n : CST) (hn : c.Met n) (w : Str)
    (hw : n.askValue = .ok (some w)) :
    (∃ t ∈ ts, t.word? = some w ∧ t.loc = n.loc) ∨ ∃ ch k, w = [ch] ∧ (ch, k) ∈ escapes ∧ ⟨k, n.loc⟩ ∈ ts := by
  have hN := (cstMet_iff c n).1 hn
  obtain ⟨rest, hrest⟩ := C09_keeps_tokens ts c hp
  have hsub : ∀ t ∈ c.tokens, t ∈ ts := fun t h => by rw [hrest]; exact List.mem_append_left _ h
  rcases n with ⟨k, l⟩ | ⟨k, cs, l⟩
  · have hk : k.storedValue = some w := by
      cases k <;> simp_all [CST.askValue]
    rcases leaf_tokens hN (fun m hm => (C12_grammar ts c hp).askable hm) k l w rfl hk with ⟨t, h1, h2, h3⟩ | ⟨ch, j, h1, h2, h3⟩
    · refine .inl ⟨t, hsub t h1, ?_, h2⟩
      rcases t with ⟨k', l'⟩
      cases k' <;> simp_all [Token.word?, TokKind.word?]
    · exact .inr ⟨ch, j, h1, h2, hsub _ h3⟩
  · cases hw

/-- C140: a walk from left to right succeeds and meets the values in the order of the document: they are said by some of its
tokens, one after the other, among which are all words. -/
theorem C140_order (S : Segmenter) (text : Str) (ts : List Token) (c : CST) (ht : tokenizeStr S text = .ok ts)
    (hp : parse ts = .ok c) :
    (∃ vs, c.Walked vs) ∧ ∀ vs, c.Walked vs →
      ∃ us, us.Sublist ts ∧ Json.Each Token.Says us vs ∧ us.filterMap Token.word? = ts.filterMap Token.word? := by
  have ha := fun m => (C12_grammar ts c hp).askable (n := m)
  refine ⟨⟨_, walked_values c (fun m hm => ha m hm)⟩, fun vs hv => ?_⟩
  have h := spoken_values c (fun m hm => ha m hm)
  obtain ⟨body, e, rfl⟩ : ∃ body e, ts = body ++ [e] := by
    have hne : ts ≠ [] := by
      rintro rfl
      obtain ⟨body, eof, h1, _⟩ := run_shape (S.graphemes text) M.init
      rw [tokenizeStr_eq, h1] at ht
      simp at ht
    exact ⟨ts.dropLast, ts.getLast hne, (List.dropLast_concat_getLast hne).symm⟩
  rw [← C09_keeps_all_tokens body e (fun u hu => ((tokens_eof ht).2 u hu).1) c hp, hv.values]
  exact h

/-- A document with words, names and an escaped character. -/
example (S : Segmenter) : ∃ ts c a es, tokenizeStr S (chars! "a [m.f \\, e") = .ok ts ∧ parse ts = .ok c ∧
    transform someIds c = .ok (a, es) ∧ ts.filterMap Token.word? = [chars! "a ", chars! "m", chars! "f", chars! "e"] ∧
      (TokKind.comma ∈ ts.map (·.kind)) :=
  front_case S (chars! "a [m.f \\, e") (by decide +kernel)
    (fun ts _ _ _ => ts.filterMap Token.word? = [chars! "a ", chars! "m", chars! "f", chars! "e"] ∧
      (TokKind.comma ∈ ts.map (·.kind))) (by decide +kernel)

/-- The escaped character of this tree is met, and its value can be asked for. -/
example : (CST.node .document [.node .stmt [.node .expr [.node .backSlash [.leaf (.text [',']) l1] l2] l3] l4, .leaf .eof l5]
      l6).Met (.leaf (.text [',']) l1) ∧
    (CST.leaf (.text [',']) l1).askValue = .ok (some [',']) ∧ (CST.leaf .invalid l1).askValue = .panic :=
  ⟨.child (.child (.child (.child .root rfl (.head _)) rfl (.head _)) rfl (.head _)) rfl (.head _), rfl, rfl⟩

/-- The walk through this tree collects `a`, `f` and the escaped comma, in this order; the dot says nothing. -/
example : (CST.node .document [.node .stmt [.node .expr [.leaf (.text ['a']) l1, .leaf (.ident ['f']) l2, .leaf .dot l3,
      .node .backSlash [.leaf (.text [',']) l4] l5] l6] l7, .leaf .eof l8] l9).Walked [(['a'], l1), (['f'], l2), ([','], l4)] ∧
    Token.Says ⟨.comma, l4⟩ ([','], l4) :=
  ⟨show CST.Walked _ (([(['a'], l1)] ++ ([(['f'], l2)] ++ ([] ++ (([([','], l4)] ++ []) ++ [])))) ++ [] ++ ([] ++ [])) from
    .children rfl (.cons (.children rfl (.cons (.children rfl (.cons (.value (n := .leaf (.text ['a']) l1) rfl)
      (.cons (.value (n := .leaf (.ident ['f']) l2) rfl) (.cons (.nothing rfl)
        (.cons (.children rfl (.cons (.value (n := .leaf (.text [',']) l4) rfl) .nil)) .nil))))) .nil)) (.cons (.nothing rfl) .nil)),
    rfl, .inr ⟨',', rfl, by simp [escapes]⟩⟩

end Brack
