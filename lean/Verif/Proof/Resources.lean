import Verif.Model.Resources
import Verif.Proof.TokMore

/-
Helper lemmas on the memory held while tokenizing.
-/

namespace Brack

/-- The remaining texts held, from the clusters. -/
def heldBy : List Str → List Nat
  | [] => [0]
  | g :: gs => if g = NUL then [(g :: gs).flatten.length] else (g :: gs).flatten.length :: heldBy gs

theorem activations_eq (S : Segmenter) (gs : List Str) : ∀ (s toks m), S.graphemes s = gs →
    (activations S (toT toks s m)).map Tokenizer.held = heldBy gs := by
  induction gs with
  | nil =>
    intro s toks m h
    have h1 := step_stop S s toks m (by simp [separate_nil S s h])
    have hs : s = [] := by have := S.flatten s; rw [h] at this; simpa using this.symm
    rw [activations]
    split <;> simp_all [heldBy, Tokenizer.held, toT]
  | cons g gs ih =>
    intro s toks m h
    have hs : s = (g :: gs).flatten := by have := S.flatten s; rw [h] at this; exact this.symm
    rw [activations]
    by_cases hg : g = NUL
    · have h1 := step_stop S s toks m (by simp [separate_cons S s _ _ h, hg])
      split
      · next h2 => rw [h1] at h2; cases h2
      · rw [heldBy, if_pos hg, ← hs]; rfl
    · have h1 := step_cons S s toks m g gs h hg
      have h2 := ih gs.flatten (toks ++ (emit (act g gs m) g m).1) (emit (act g gs m) g m).2
        (S.suffix s g gs h)
      split
      · next h3 =>
        rw [h1] at h3
        injection h3 with h3
        injection h3 with h3
        rw [heldBy, if_neg hg, List.map_cons, ← h3, h2, ← hs]; rfl
      · next h3 => exact absurd h1 (h3 _)

theorem initTokenizer_eq (text : Str) : initTokenizer text = toT [] text M.init := rfl

theorem heldBy_length (gs : List Str) : (heldBy gs).length = (gs.takeWhile (· ≠ NUL)).length + 1 := by
  induction gs with
  | nil => rfl
  | cons g gs ih =>
    rw [heldBy]
    by_cases h : g = NUL
    · rw [if_pos h]; simp [h]
    · rw [if_neg h]; simp [h, ih]

theorem flatten_length_ge (gs : List Str) (h : ∀ g ∈ gs, g ≠ []) : gs.length ≤ gs.flatten.length := by
  induction gs with
  | nil => simp
  | cons g gs ih =>
    have h1 := h g (by simp)
    have h2 := ih (fun x hx => h x (by simp [hx]))
    have : 1 ≤ g.length := by rcases g with _ | _ <;> simp_all
    simp only [List.flatten_cons, List.length_append, List.length_cons]
    omega

theorem heldBy_ge (gs : List Str) (h : ∀ g ∈ gs, g ≠ []) (h0 : ∀ g ∈ gs, g ≠ NUL) :
    gs.length * (gs.length + 1) ≤ 2 * (heldBy gs).sum := by
  induction gs with
  | nil => simp
  | cons g gs ih =>
    have h2 := ih (fun x hx => h x (by simp [hx])) (fun x hx => h0 x (by simp [hx]))
    have h3 := flatten_length_ge (g :: gs) h
    rw [heldBy, if_neg (h0 g (by simp)), List.sum_cons]
    simp only [List.length_cons] at h3 ⊢
    generalize (g :: gs).flatten.length = a at h3
    have : (gs.length + 1) * (gs.length + 1 + 1) = gs.length * (gs.length + 1) + 2 * (gs.length + 1) := by
      rw [Nat.mul_comm, ← Nat.add_mul]
    omega

theorem heldBy_le (gs : List Str) : ∀ x ∈ heldBy gs, x ≤ gs.flatten.length := by
  induction gs with
  | nil => simp [heldBy]
  | cons g gs ih =>
    intro x hx
    rw [heldBy] at hx
    split at hx
    · simp only [List.mem_singleton] at hx; omega
    · rcases List.mem_cons.mp hx with rfl | hx
      · omega
      · have := ih x hx
        simp only [List.flatten_cons, List.length_append]; omega

theorem sum_le_of {xs : List Nat} {n : Nat} (h : ∀ x ∈ xs, x ≤ n) : xs.sum ≤ xs.length * n := by
  induction xs with
  | nil => simp
  | cons x xs ih =>
    have h1 := h x (by simp)
    have h2 := ih (fun y hy => h y (by simp [hy]))
    simp only [List.sum_cons, List.length_cons, Nat.add_mul, Nat.one_mul]
    omega

end Brack
