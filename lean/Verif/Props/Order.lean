import Verif.Proof.Order
import Verif.Proof.Cases

/-
Property theorem C116: the order in which errors are reported.
-/

namespace Brack

/-- C116 (partial): the errors that start before a text, or before an opening bracket, that stands outside of all
brackets are reported before those that start there or later. So the errors of different commands, lines and paragraphs
come in the order of the document. Missing: errors of one and the same outermost command, for which the claim is
false (`C116_nested_refuted`, `C116_flat_refuted`). -/
theorem C116_outside_partial (S : Segmenter) (text : Str) (ts : List Token) (c : CST) (ids : Nat → Str) (a : AST)
    (es : List TErr) (ht : tokenizeStr S text = .ok ts) (hp : parse ts = .ok c) (hx : transform ids c = .ok (a, es))
    (x : Part) (hpart : ([], x) ∈ tokenParts [] ts) :
    ∃ fs gs, es = fs ++ gs ∧ (∀ e ∈ fs, e.loc.start.before x.start) ∧ ∀ e ∈ gs, x.start.le e.loc.start := by
  obtain ⟨us, h⟩ := transform_cut ht hp hx
  exact h.cut x hpart

/-- C116 (partial): if an error is reported before another one that starts earlier, then no text and no opening bracket
outside of all brackets stands between the two: they are about the same outermost command. Missing: as for
`C116_outside_partial`. -/
theorem C116_swapped_partial (S : Segmenter) (text : Str) (ts : List Token) (c : CST) (ids : Nat → Str) (a : AST)
    (as bs cs : List TErr) (e f : TErr) (ht : tokenizeStr S text = .ok ts) (hp : parse ts = .ok c)
    (hx : transform ids c = .ok (a, as ++ e :: bs ++ f :: cs)) (x : Part) (hpart : ([], x) ∈ tokenParts [] ts)
    (hf : f.loc.start.before x.start) : e.loc.start.before x.start := by
  obtain ⟨fs, gs, h, h1, h2⟩ := C116_outside_partial S text ts c ids a _ ht hp hx x hpart
  have hnot : f ∉ gs := fun hm => by
    have := h2 f hm
    unfold Pos.le at this
    unfold Pos.before at hf
    omega
  rcases List.append_eq_append_iff.mp h with ⟨ds, rfl, h'⟩ | ⟨ds, hd, rfl⟩
  · exact h1 e (by simp)
  · exact absurd (by simp) hnot

/-- Two outermost commands with an error each, and text with one between them. -/
example : ∃ ts c a es, tokenizeStr sampleSeg (chars! "x[a b]\\c{.e}") = .ok ts ∧ parse ts = .ok c ∧
    transform someIds c = .ok (a, es) ∧ ([], Part.command .curly ⟨0, 8⟩) ∈ tokenParts [] ts ∧
    es.map (fun e => e.loc.start.character) = [2, 3, 4, 6, 9, 10, 11] :=
  front_case _ _ (by decide) _ (by decide +kernel)

/-- C116 is false for nested commands: in `[a b [c] ]` the errors of the inner command are reported before those of the
outer one, which start earlier. -/
theorem C116_nested_refuted (S : Segmenter) : ∃ ts c a es, tokenizeStr S (chars! "[a b [c] ]") = .ok ts ∧
    parse ts = .ok c ∧ transform someIds c = .ok (a, es) ∧ es.map (fun e => e.loc.start) = [⟨0, 6⟩, ⟨0, 7⟩, ⟨0, 1⟩, ⟨0, 2⟩, ⟨0, 3⟩] :=
  front_case _ _ (by decide) _ (by decide +kernel)

/-- C116 is false for commands without commands in them: in `[a.b ,c.d]` the dot is reported before the comma. -/
theorem C116_flat_refuted (S : Segmenter) : ∃ ts c a es, tokenizeStr S (chars! "[a.b ,c.d]") = .ok ts ∧
    parse ts = .ok c ∧ transform someIds c = .ok (a, es) ∧ 
    es.map (fun e => (e.kind, e.loc.start)) =
      [(.unexpectedDot, ⟨0, 7⟩), (.unexpectedComma, ⟨0, 5⟩), (.unexpectedDot, ⟨0, 7⟩)] :=
  front_case _ _ (by decide) _ (by decide +kernel)

end Brack
