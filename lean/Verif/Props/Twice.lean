import Verif.Proof.TransFew
import Verif.Proof.Cases

/-
Properties of `transform`: how often one problem is reported (C60, continued).
-/

namespace Brack

open UTable (sampleSeg)

/-! ### C60 -/

/-- C60 refuted for commas as well: the last of two commas before the end of a command is reported twice. -/
theorem C60_comma_refuted (S : Segmenter) : ∃ ts c a es, tokenizeStr S (chars! "[a.b c,,]") = .ok ts ∧
    parse ts = .ok c ∧ transform someIds c = .ok (a, es) ∧
    es = [⟨.unexpectedComma, ⟨⟨0, 7⟩, ⟨0, 8⟩⟩⟩, ⟨.unexpectedComma, ⟨⟨0, 7⟩, ⟨0, 8⟩⟩⟩] :=
  front_case _ _ (by decide) _ (by decide +kernel)

/-- C60 (partial): no error is reported more than twice, and only unexpected dots and unexpected commas can be
reported twice: every other error is reported at most once. Missing: dots and commas that are reported twice
(`C60_once_refuted`, `C60_comma_refuted`). -/
theorem C60_twice_partial (S : Segmenter) (text : Str) (ts : List Token) (c : CST) (ids : Nat → Str)
    (a : AST) (es : List TErr) (ht : tokenizeStr S text = .ok ts) (hp : parse ts = .ok c)
    (hx : transform ids c = .ok (a, es)) :
    (∀ e, es.count e ≤ 2) ∧ (es.filter fun e => e.kind != .unexpectedDot && e.kind != .unexpectedComma).Nodup := by
  have h := transform_few ht hp hx
  refine ⟨fun e => Nat.le_trans (h e) (by cases e.kind <;> simp [TErrKind.most]), List.nodup_iff_count.mpr fun e => ?_⟩
  by_cases hk : (e.kind != .unexpectedDot && e.kind != .unexpectedComma) = true
  · refine Nat.le_trans (List.filter_sublist.count_le e) (Nat.le_trans (h e) ?_)
    obtain ⟨k, l⟩ := e
    cases k <;> simp [TErrKind.most] at hk ⊢
  · refine Nat.le_trans (Nat.le_of_eq (List.count_eq_zero.mpr fun hm => ?_)) (Nat.zero_le 1)
    exact hk (List.mem_filter.mp hm).2

/-- Thirteen reports, of which two commas and a dot are reported twice. -/
example : ∃ ts c a es, tokenizeStr sampleSeg (chars! "[a.b c,,] [x y.z w.v,,] \\q {a.b") = .ok ts ∧
    parse ts = .ok c ∧ transform someIds c = .ok (a, es) ∧ es.map (·.kind) =
      [.unexpectedComma, .unexpectedComma, .moduleNotFound, .dotNotFound, .identifierNotFound, .unexpectedDot,
        .unexpectedDot, .unexpectedDot, .unexpectedComma, .unexpectedComma, .invalidBackslash, .notClosed .curly,
        .identifierNotFound] :=
  front_case _ _ (by decide) _ (by decide +kernel)

end Brack
