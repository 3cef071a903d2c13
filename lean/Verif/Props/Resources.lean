import Verif.Proof.Resources
import Verif.Proof.Cases
import Verif.Proof.Uax29

/-
How much memory tokenizing takes.
-/

namespace Brack

theorem held_eq (S : Segmenter) (text : Str) :
    (activations S (initTokenizer text)).map Tokenizer.held = heldBy (S.graphemes text) := by
  rw [initTokenizer_eq]; exact activations_eq S _ _ _ _ rfl

/-- C90: the calls are nested as deeply as the text has clusters, and one more (up to the first NUL,
which ends the text). -/
theorem C90_depth (S : Segmenter) (text : Str) :
    callDepth S text = ((S.graphemes text).takeWhile (· ≠ NUL)).length + 1 := by
  rw [callDepth, ← List.length_map (f := Tokenizer.held), held_eq, heldBy_length]

/-- C90 refuted: no stack is deep enough for all texts. -/
theorem C90_depth_refuted (S : Segmenter) (limit : Nat) : ∃ text, limit < callDepth S text := by
  refine ⟨List.replicate limit 'a', ?_⟩
  rw [C90_depth, S.ascii _ (by intro c hc; rw [List.eq_of_mem_replicate hc]; decide), List.map_replicate,
    List.takeWhile_replicate]
  rw [if_pos (by decide)]
  simp

/-- C90 (partial): the characters held by the nested calls are at most quadratic in the length of the
text, each call holding at most the text. Missing: the linear bound, see `C90_linear_refuted`. -/
theorem C90_quadratic_partial (S : Segmenter) (text : Str) :
    charsHeld S text ≤ callDepth S text * text.length ∧ callDepth S text ≤ text.length + 1 := by
  constructor
  · rw [charsHeld, callDepth, ← List.length_map (f := Tokenizer.held), held_eq]
    refine sum_le_of (fun x hx => ?_)
    have := heldBy_le _ x hx
    rwa [S.flatten] at this
  · rw [C90_depth]
    have h1 := flatten_length_ge (S.graphemes text) (S.nonempty text)
    rw [S.flatten] at h1
    have h2 := (List.takeWhile_prefix (l := S.graphemes text) (p := (· ≠ NUL))).length_le
    omega

/-- C90: and at least quadratic in the number of clusters, for all texts without NUL. -/
theorem C90_quadratic (S : Segmenter) (text : Str) (h : Char.ofNat 0 ∉ text) :
    (S.graphemes text).length * ((S.graphemes text).length + 1) ≤ 2 * charsHeld S text := by
  rw [charsHeld, held_eq]
  refine heldBy_ge _ (S.nonempty text) ?_
  rintro g hg rfl
  apply h
  rw [← S.flatten text]
  exact List.mem_flatten.mpr ⟨_, hg, by simp [NUL]⟩

/-- C90 refuted: no number of bytes per character is enough for all texts. -/
theorem C90_linear_refuted (S : Segmenter) (k : Nat) : ∃ text, k * text.length < charsHeld S text := by
  refine ⟨List.replicate (2 * k + 1) 'a', ?_⟩
  have hg : S.graphemes (List.replicate (2 * k + 1) 'a') = List.replicate (2 * k + 1) ['a'] := by
    rw [S.ascii _ (by intro c hc; rw [List.eq_of_mem_replicate hc]; decide), List.map_replicate]
  have h := C90_quadratic S (List.replicate (2 * k + 1) 'a') (by
    intro hc; have := List.eq_of_mem_replicate hc; revert this; decide)
  rw [hg, List.length_replicate] at h
  rw [List.length_replicate]
  generalize charsHeld S _ = x at h
  have h1 : (2 * k + 1) * (2 * k + 1 + 1) = 2 * (k * (2 * k + 1)) + 2 * (2 * k + 1) := by
    rw [Nat.mul_comm, Nat.add_mul, Nat.add_mul, Nat.mul_assoc]; omega
  omega

/-- What is held for a short text. -/
example : callDepth UTable.sampleSeg (chars! "[a.b c]") = 8 ∧ charsHeld UTable.sampleSeg (chars! "[a.b c]") = 28 := by
  rw [callDepth, charsHeld, ← List.length_map (f := Tokenizer.held), held_eq]
  decide +kernel

end Brack
