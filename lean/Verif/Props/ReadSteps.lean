import Verif.Spec.ReadSteps
import Verif.Proof.TokenizerSteps
import Verif.Props.Resources
import Verif.Props.TransformSteps

/-
How long reading a document takes.
-/

namespace Brack

/-- C134: the steps of the tokenizer are at most quadratic in the length of the text. -/
theorem C134_tokenizer (S : Segmenter) (text : Str) :
    tokenizerSteps S text ≤ 20 * ((text.length + 1) * (text.length + 1)) := by
  have h1 := activations_steps S (2 * text.length) (S.graphemes text) text [] M.init rfl (by
    have := clusters_le S text
    rw [toT_bulk]
    simp only [M.init, tokensBulk, List.length_nil, List.map_nil, List.sum_nil]; omega)
  have h2 := (C90_quadratic_partial S text).2
  rw [callDepth, initTokenizer_eq] at h2
  rw [tokenizerSteps, initTokenizer_eq]
  have h3 : (activations S (toT [] text M.init)).length * (6 + 10 * (2 * text.length)) ≤
      (text.length + 1) * (6 + 10 * (2 * text.length)) := Nat.mul_le_mul_right _ h2
  have h4 : 20 * ((text.length + 1) * (text.length + 1)) =
      (text.length + 1) * (6 + 10 * (2 * text.length)) + (text.length + 1) * 14 := by
    rw [← Nat.mul_add, Nat.mul_left_comm]; congr 1; omega
  omega

/-- C134: tokenizing, parsing and transforming any text takes steps that are at most quadratic in its length, whether
it can be read or not. -/
theorem C134_quadratic (S : Segmenter) (text : Str) :
    readSteps S text ≤ 2500 * ((text.length + 1) * (text.length + 1)) := by
  have h1 := C134_tokenizer S text
  rw [readSteps]
  rcases ht : tokenizeStr S text with ts | m | _ <;> simp only []
  · have h2 := C120_quadratic S text ts ht
    have h3 := tokens_length S text ts ht
    have h4 : ts.length * ts.length ≤ (text.length + 1) * (text.length + 1) := Nat.mul_le_mul h3 h3
    rcases hp : parse ts with c | m | _ <;> simp only []
    · have h5 := C133_quadratic S text ts c ht hp
      omega
    · omega
    · omega
  · omega
  · omega

/-- C134: this is the order it is of: for all texts without NUL it is at least quadratic in the number of clusters. -/
theorem C134_least (S : Segmenter) (text : Str) (h : Char.ofNat 0 ∉ text) :
    (S.graphemes text).length * ((S.graphemes text).length + 1) ≤ 2 * readSteps S text := by
  have h1 := C90_quadratic S text h
  have h2 := held_le_steps S (activations S (initTokenizer text))
  rw [charsHeld] at h1
  rw [readSteps, tokenizerSteps]
  omega

/-- A text of 32 clusters: between 528 and 2722500 steps. -/
example (S : Segmenter) : 528 ≤ readSteps S (chars! "a [p.f {p.g b\\]}]\n\n[p.f [p.f c]]") ∧
    readSteps S (chars! "a [p.f {p.g b\\]}]\n\n[p.f [p.f c]]") ≤ 2722500 := by
  have h1 := C134_least S (chars! "a [p.f {p.g b\\]}]\n\n[p.f [p.f c]]") (by decide)
  have h2 := C134_quadratic S (chars! "a [p.f {p.g b\\]}]\n\n[p.f [p.f c]]")
  rw [S.ascii _ (by decide)] at h1
  exact ⟨by simp only [List.length_map] at h1; revert h1; generalize readSteps S _ = n; intro h1; simp at h1; omega,
    Nat.le_trans h2 (by decide)⟩

end Brack
