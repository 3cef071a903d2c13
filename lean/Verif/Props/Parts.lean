import Verif.Proof.Parts
import Verif.Props.Tokenizer
import Verif.Proof.Cases

/-
C97: what stands inside of what.
-/

namespace Brack

/-- C97: the tree has the commands and leaves of the document in their order, each inside exactly those commands whose
brackets are open there; also if the document has errors. -/
theorem C97_parts (ts : List Token) (c : CST) (ids : Nat → Str) (a : AST) (es : List TErr) (hp : parse ts = .ok c)
    (hx : transform ids c = .ok (a, es)) : a.parts [] = tokenParts [] ts :=
  transform_parts hp hx

/-- C97 for the commands: without backslashes, the commands of the tree are the opening brackets of the document, none
lost, none invented, none moved. -/
theorem C97_commands (S : Segmenter) (text : Str) (ts : List Token) (c : CST) (ids : Nat → Str) (a : AST)
    (es : List TErr) (ht : tokenizeStr S text = .ok ts) (hp : parse ts = .ok c) (hx : transform ids c = .ok (a, es))
    (hb : ∀ t ∈ ts, t.kind ≠ .backSlash) :
    (a.parts []).filterMap (fun x => x.2.command?) = ts.filterMap Token.opening? := by
  obtain ⟨body, eof, h1, h2, h3⟩ := C01_tokenize_total S text
  rw [ht] at h1
  injection h1 with h1
  subst h1
  rw [C97_parts _ c ids a es hp hx, tokenParts_commands eof h2 body [] (fun t h => hb t (by simp [h])) h3,
    List.filterMap_append]
  obtain ⟨k, l⟩ := eof
  cases h2
  simp [Token.opening?]

/-- Nested commands of all kinds, one of them not closed, over several lines; the text `d` after the last bracket
stands in no command. -/
example : ∃ ts c a es, tokenizeStr sampleSeg (chars! "[a.b {c.f x\n<m.n y]{z}d") = .ok ts ∧ parse ts = .ok c ∧
    transform someIds c = .ok (a, es) ∧ es ≠ [] ∧ (∀ t ∈ ts, t.kind ≠ .backSlash) ∧
    (a.parts []).filterMap (fun x => x.2.command?) =
      [(.square, ⟨0, 0⟩), (.curly, ⟨0, 5⟩), (.angle, ⟨1, 0⟩), (.curly, ⟨1, 7⟩)] ∧
    (a.parts []).map (fun x => x.1.map (·.1)) = [[], [.square], [.square], [.square], [.curly, .square],
      [.curly, .square], [.curly, .square], [.curly, .square], [.angle, .curly, .square], [.angle, .curly, .square],
      [.angle, .curly, .square], [], [.curly], []] :=
  front_case _ _ (by decide) _ (by decide +kernel)

end Brack
