import Verif.Proof.TransMost
import Verif.Proof.Cases
import Verif.Props.Nesting

/-
Properties of `transform`: how many errors a document has (C125).
-/

namespace Brack

open UTable (sampleSeg)

/-! ### C125 -/

/-- C125: at most three of the reported errors start at the same place. So a document has at most three errors for each of its
tokens, and at most three for each of its characters and its end. -/
theorem C125_errors (S : Segmenter) (text : Str) (ts : List Token) (c : CST) (ids : Nat → Str) (a : AST)
    (es : List TErr) (ht : tokenizeStr S text = .ok ts) (hp : parse ts = .ok c) (hx : transform ids c = .ok (a, es)) :
    (∀ p, (es.filter fun e => e.loc.start = p).length ≤ 3) ∧ es.length ≤ 3 * ts.length ∧
    es.length ≤ 3 * (text.length + 1) := by
  have h := transform_most ht hp hx
  have hl : es.length ≤ 3 * ts.length := by
    have := errs_length 3 (ts.map (·.loc.start)) es (fun e he => by
      obtain ⟨t, ht, e1⟩ := h.errs e he
      exact List.mem_map.mpr ⟨t, ht, e1.symm⟩) h.all
    simpa using this
  refine ⟨fun p => ?_, hl, Nat.le_trans hl (Nat.mul_le_mul_left 3 ?_)⟩
  · rw [← List.countP_eq_length_filter]
    exact h.all p
  · exact (C100_size S text ts c ids a es ht hp hx).1

/-- Three errors do start at one place: a dot after the last comma of a command is reported as a dot by two checks, and as a
comma by a third. -/
theorem C125_three (S : Segmenter) : ∃ ts c a es, tokenizeStr S (chars! "[a.b c,.]") = .ok ts ∧
    parse ts = .ok c ∧ transform someIds c = .ok (a, es) ∧
    es = [⟨.unexpectedDot, ⟨⟨0, 7⟩, ⟨0, 8⟩⟩⟩, ⟨.unexpectedDot, ⟨⟨0, 7⟩, ⟨0, 8⟩⟩⟩, ⟨.unexpectedComma, ⟨⟨0, 7⟩, ⟨0, 8⟩⟩⟩] :=
  front_case _ _ (by decide) _ (by decide +kernel)

/-- Six errors at four places, in a document of 21 tokens. -/
example : ∃ ts c a es, tokenizeStr sampleSeg (chars! "[a.b c,,.] {x..} \\q [") = .ok ts ∧
    parse ts = .ok c ∧ transform someIds c = .ok (a, es) ∧ ts.length = 21 ∧ es.map (·.loc.start.character) = [8, 7, 8, 8, 17, 20] :=
  front_case _ _ (by decide) _ (by decide +kernel)

end Brack
