import Verif.Proof.ReadBack
import Verif.Props.Nesting

/-
Property of JSON output that is read with the types of the library: C113.
-/

namespace Brack

/-! ### C113 -/

/-- C113 (partial): a text of JSON that shows the tokens of a document, with its fields in any order and any white
space, is read as these tokens; what `brack compile --level 1 --json` prints is such a text. (Whole property: also for
trees of any depth.) -/
theorem C113_tokens_partial (S : Segmenter) (text : Str) (ts : List Token) (ht : tokenizeStr S text = .ok ts)
    (hl : text.length < 2 ^ 64) :
    (∀ line v, IsJson line v → v.ShowsTokens ts → v.Distinct → v.depth ≤ 127 → readTokens line = some ts) ∧
    readTokens (JsonText.print (Serde.ofTokens ts)) = some ts := by
  have hs : ∀ t ∈ ts, t.loc.Sized := fun t h => loc_sized (tokens_sized S text ts ht hl t h)
  constructor
  · intro line v hj hv hd hn
    rw [readTokens, (JsonText.parse_iff _ _).mpr hj]
    exact read_tokens hv hd hs hn
  · rw [readTokens, JsonText.parse_print _ (integral_tokens ts), Option.bind_some]
    refine read_tokens (shows_tokens ts) (distinct_tokens ts) hs ?_
    have := depth_tokens ts
    have hm : Serde.maxNesting = 127 := rfl
    omega

/-- C113: the trees printed for a document are read back, with their identifiers, exactly if no more than 42 nodes stand
on any way down; and so if at most 18 commands are open at once. -/
theorem C113_trees_partial (S : Segmenter) (text : Str) (ts : List Token) (c : CST) (ids : Nat → Str) (a : AST)
    (es : List TErr) (names : List Nat → Str) (ht : tokenizeStr S text = .ok ts) (hp : parse ts = .ok c)
    (hx : transform ids c = .ok (a, es)) (hl : text.length < 2 ^ 64) :
    readCST (JsonText.print (Serde.ofTree Serde.cstTags (c.tree names []))) =
      (if c.height ≤ 42 then some (c.tree names []) else none) ∧
    readAST (JsonText.print (Serde.ofAST a)) = (if a.height ≤ 42 then some a else none) ∧
    (openMost ts ≤ 18 → c.height ≤ 42 ∧ a.height ≤ 42) := by
  have hs := tokens_sized S text ts ht hl
  have hm : Serde.maxNesting = 127 := rfl
  refine ⟨?_, ?_, ?_⟩
  · rw [readCST, JsonText.parse_print _ (integral_tree _ _), Option.bind_some, read_cst _ _ _ _ (parse_sized hp hs)]
    by_cases h : c.height ≤ 42
    · rw [if_pos h, if_pos (by omega)]
    · rw [if_neg h, if_neg (by omega)]
  · rw [readAST, JsonText.parse_print (Serde.ofAST a) (integral_tree _ _), Option.bind_some, toAST_ofAST a (transform_sized hp hx hs)]
  · have h1 := (parse_measure hp).1
    have h2 := (transform_measure hp hx).1
    omega

/-- C113 refuted for deeply nested documents: with 20 commands inside of each other, a document without errors is
printed, but neither of its trees can be read back. -/
theorem C113_deep_refuted (S : Segmenter) : ∃ ts c a, tokenizeStr S (nestedCommands 20) = .ok ts ∧ parse ts = .ok c ∧
    transform someIds c = .ok (a, []) ∧
    (∀ names, readCST (JsonText.print (Serde.ofTree Serde.cstTags (c.tree names []))) = none) ∧
    readAST (JsonText.print (Serde.ofAST a)) = none := by
  obtain ⟨ts, c, a, es, h1, h2, h3, h4, h5, rfl⟩ := front_case S (nestedCommands 20) (by decide +kernel)
    (fun _ c a es => 42 < c.height ∧ 42 < a.height ∧ es = []) (by decide +kernel)
  have h := fun names => C113_trees_partial S _ ts c someIds a [] names h1 h2 h3 (by decide +kernel)
  refine ⟨ts, c, a, h1, h2, h3, fun names => ?_, ?_⟩
  · rw [(h names).1, if_neg (by omega)]
  · rw [(h fun _ => []).2.1, if_neg (by omega)]

/-- Concrete case: 18 commands inside of each other, with separators, an escaped character and line breaks. -/
example : ∃ ts c a es, tokenizeStr UTable.sampleSeg (nestedCommands 18 ++ chars! "\n\n[p.g a, b\\]]") = .ok ts ∧
    parse ts = .ok c ∧ transform someIds c = .ok (a, es) ∧ openMost ts = 18 ∧ c.height = 40 :=
  front_case _ _ (by decide +kernel) (fun ts c _ _ => openMost ts = 18 ∧ c.height = 40) (by decide +kernel)

/-- Concrete case: tokens written by hand. -/
example : readTokens (chars! "[ {\"Comma\": {\"end\":{\"character\":1,\"line\":0,\"x\":[]},\"start\":{\"line\":0,\"character\":0}}},\n{\"Text\":[\"a\",{\"start\":{\"line\":0,\"character\":1},\"end\":{\"line\":0,\"character\":2}}]}]") =
    some [⟨.comma, ⟨⟨0, 0⟩, ⟨0, 1⟩⟩⟩, ⟨.text (chars! "a"), ⟨⟨0, 1⟩, ⟨0, 2⟩⟩⟩] := by decide +kernel

end Brack
