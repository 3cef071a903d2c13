import Verif.Proof.Exchange
import Verif.Proof.Cases

/-
Properties of reading documents with other kinds of brackets (C126).
-/

namespace Brack

open UTable (sampleSeg)

/-! ### C126 -/

/-- C126: whatever kinds of brackets take the place of which, the tokens are the same up to that, and stand at the same
places. -/
theorem C126_tokens (S : Segmenter) (x : Bracket → Bracket) (hS : S.Exchanges x) (text : Str) :
    tokenizeStr S (exchangeStr x text) = (tokenizeStr S text).map (List.map (Token.exchange x)) := tokenize_exchange S hS text

/-- C126: if different kinds stay different, the concrete trees are the same up to the exchange, and a document is refused
exactly if the other one is. -/
theorem C126_tree (S : Segmenter) (x : Bracket → Bracket) (hS : S.Exchanges x) (hx : ∀ b b', x b = x b' → b = b') (text : Str) :
    (do parse (← tokenizeStr S (exchangeStr x text))) = (do parse (← tokenizeStr S text)).map (CST.exchange x) := by
  rw [tokenize_exchange S hS]
  rcases tokenizeStr S text with ts | _ | _
  · exact parse_exchange hx ts
  · rfl
  · rfl

/-- C126: a document in which curly brackets take the place of square ones and the other way around has the same tree and the
same errors, up to the exchange and at the same places. It is refused, or crashes the transformer, exactly if the other one
does. -/
theorem C126_read (S : Segmenter) (hS : S.Exchanges Bracket.other) (ids : Nat → Str) (text : Str) :
    (do transform ids (← parse (← tokenizeStr S (exchangeStr Bracket.other text)))) =
      (do transform ids (← parse (← tokenizeStr S text))).map
        fun ((a, es) : AST × List TErr) => (a.exchange Bracket.other, es.map (TErr.exchange Bracket.other)) := by
  have hx : ∀ b b', Bracket.other b = Bracket.other b' → b = b' := fun b b' => by cases b <;> cases b' <;> simp [Bracket.other]
  have ha : ∀ b, Bracket.other b = .angle ↔ b = .angle := fun b => by cases b <;> simp [Bracket.other]
  rw [tokenize_exchange S hS]
  rcases tokenizeStr S text with ts | _ | _
  · show (parse (ts.map _)).bind _ = ((parse ts).bind _).map _
    rw [parse_exchange hx]
    rcases parse ts with c | _ | _
    · exact transform_exchange hx ha ids c
    · rfl
    · rfl
  · rfl
  · rfl

/-- The assumption about the segmenter holds by the rules of Unicode, which say the same about all brackets. -/
theorem C126_unicode (T : UTable) (h : ∀ b : Bracket, T.gcb b.openChar = .other ∧ T.gcb b.closeChar = .other)
    (x : Bracket → Bracket) : T.segmenter.Exchanges x := segmenter_exchanges T h x

/-- Angle brackets are different: a macro can stand for a name, other commands cannot. -/
theorem C126_angle (S : Segmenter) : exchangeStr Bracket.turn (chars! "[<a.b>.<c.d>]") = chars! "<{a.b}.{c.d}>" ∧
    (∃ ts c a es, tokenizeStr S (chars! "[<a.b>.<c.d>]") = .ok ts ∧ parse ts = .ok c ∧ transform someIds c = .ok (a, es) ∧ es = []) ∧
    ∃ ts c a es, tokenizeStr S (chars! "<{a.b}.{c.d}>") = .ok ts ∧ parse ts = .ok c ∧ transform someIds c = .ok (a, es) ∧
      es = [⟨.moduleNotFound, ⟨⟨0, 1⟩, ⟨0, 6⟩⟩⟩, ⟨.identifierNotFound, ⟨⟨0, 7⟩, ⟨0, 12⟩⟩⟩] :=
  ⟨by decide, front_case _ _ (by decide) _ (by decide +kernel), front_case _ _ (by decide) _ (by decide +kernel)⟩

/-- A table that says the same about all brackets. -/
example : sampleSeg.Exchanges Bracket.other ∧ sampleSeg.Exchanges Bracket.turn :=
  ⟨C126_unicode UTable.sample (fun b => by cases b <;> decide) _, C126_unicode UTable.sample (fun b => by cases b <;> decide) _⟩

/-- A document with nested commands, an escaped bracket and a bracket that is not closed, and the one with the brackets
exchanged. -/
example : exchangeStr Bracket.other (chars! "a [p.f {q.g x}, y] \\} {p.h <m.n>") = chars! "a {p.f [q.g x], y} \\] [p.h <m.n>" ∧
    (∃ ts c a es, tokenizeStr sampleSeg (chars! "a [p.f {q.g x}, y] \\} {p.h <m.n>") = .ok ts ∧ parse ts = .ok c ∧
      transform someIds c = .ok (a, es) ∧ es = [⟨.notClosed .curly, ⟨⟨0, 22⟩, ⟨0, 32⟩⟩⟩, ⟨.dotNotFound, ⟨⟨0, 24⟩, ⟨0, 26⟩⟩⟩,
        ⟨.identifierNotFound, ⟨⟨0, 26⟩, ⟨0, 27⟩⟩⟩]) ∧
    ∃ ts c a es, tokenizeStr sampleSeg (chars! "a {p.f [q.g x], y} \\] [p.h <m.n>") = .ok ts ∧ parse ts = .ok c ∧
      transform someIds c = .ok (a, es) ∧ es = [⟨.notClosed .square, ⟨⟨0, 22⟩, ⟨0, 32⟩⟩⟩, ⟨.dotNotFound, ⟨⟨0, 24⟩, ⟨0, 26⟩⟩⟩,
        ⟨.identifierNotFound, ⟨⟨0, 26⟩, ⟨0, 27⟩⟩⟩] :=
  ⟨by decide, front_case _ _ (by decide) _ (by decide +kernel), front_case _ _ (by decide) _ (by decide +kernel)⟩

end Brack
