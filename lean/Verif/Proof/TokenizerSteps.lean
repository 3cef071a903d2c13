import Verif.Model.TokenizerSteps
import Verif.Proof.Resources

/-
Bounds for the steps the tokenizer takes.
-/

namespace Brack

theorem armSteps_le (s pool head : Str) (tokens : List Token) (a : Action) :
    armSteps s pool head tokens a ≤ 3 + 3 * s.length + pool.length + head.length + tokensBulk tokens := by
  cases a <;> simp only [armSteps, separateSteps] <;> omega

theorem separate_lengths (S : Segmenter) (s : Str) (h : (separate S s).1 ≠ NUL) :
    (separate S s).1.length + (separate S s).2.length = s.length := by
  rcases hg : S.graphemes s with _ | ⟨g, gs⟩
  · rw [separate_nil S s hg] at h; exact absurd rfl h
  · have := S.flatten s
    rw [separate_cons S s g gs hg]
    rw [hg] at this
    rw [← this]; simp

/-- A call, from what its tokenizer and the next one hold. -/
theorem dispatchSteps_le (S : Segmenter) (t : Tokenizer) {n : Nat} (h : t.bulk ≤ n)
    (h' : ∀ t', step S t = .ok (.inr t') → t'.bulk ≤ n) : dispatchSteps S t ≤ 6 + 10 * n := by
  rw [Tokenizer.bulk] at h
  rw [dispatchSteps]
  simp only [separateSteps]
  split
  · omega
  · next hn =>
    have h1 := separate_lengths S _ hn
    have h2 := armSteps_le (t.untreated.getD []) (t.pool.getD []) (separate S (t.untreated.getD [])).1 (t.tokens.getD [])
      (action (separate S (t.untreated.getD [])).1 (separate S (separate S (t.untreated.getD [])).2).1
        (t.lookingForIdentifier.getD false)
        (decide (t.angleNestCount.getD 0 + t.curlyNestCount.getD 0 + t.squareNestCount.getD 0 > 0)))
    split
    · next t' ht =>
      have h3 := h' t' ht
      omega
    · omega

theorem tokensBulk_append (ts us : List Token) : tokensBulk (ts ++ us) = tokensBulk ts + tokensBulk us := by
  simp [tokensBulk]

/-- What a token holds is taken from the pool and the cluster. -/
theorem emit_bulk (a : Action) (g : Str) (m : M) :
    tokensBulk (emit a g m).1 + (emit a g m).2.pool.length ≤ m.pool.length + g.length + 1 := by
  cases a with
  | bopen b => cases b <;> simp [emit, tokensBulk, TokKind.word, M.single, M.adv, M.addCount]
  | bclose b => cases b <;> simp [emit, tokensBulk, TokKind.word, M.single, M.adv, M.addCount]
  | _ => simp [emit, tokensBulk, TokKind.word, M.single, M.pooled, M.adv] <;> omega

theorem toT_bulk (toks s m) : (toT toks s m).bulk = s.length + m.pool.length + tokensBulk toks := rfl

/-- What the tokenizers hold, with a unit for each cluster that remains, does not grow. -/
theorem activations_steps (S : Segmenter) (n : Nat) (gs : List Str) : ∀ (s toks m), S.graphemes s = gs →
    (toT toks s m).bulk + gs.length ≤ n →
    ((activations S (toT toks s m)).map (dispatchSteps S)).sum ≤ (activations S (toT toks s m)).length * (6 + 10 * n) := by
  induction gs with
  | nil =>
    intro s toks m h hn
    have h1 := step_stop S s toks m (by simp [separate_nil S s h])
    have h2 := dispatchSteps_le S (toT toks s m) (n := n) (by omega) (by intro t' ht; rw [h1] at ht; cases ht)
    rw [activations]
    split
    · next h3 => rw [h1] at h3; cases h3
    · simpa using h2
  | cons g gs ih =>
    intro s toks m h hn
    by_cases hg : g = NUL
    · have h1 := step_stop S s toks m (by simp [separate_cons S s _ _ h, hg])
      have h2 := dispatchSteps_le S (toT toks s m) (n := n) (by omega) (by intro t' ht; rw [h1] at ht; cases ht)
      rw [activations]
      split
      · next h3 => rw [h1] at h3; cases h3
      · simpa using h2
    · have h1 := step_cons S s toks m g gs h hg
      have hs : s.length = g.length + gs.flatten.length := by
        have := S.flatten s; rw [h] at this; rw [← this]; simp
      have he := emit_bulk (act g gs m) g m
      have hb : (toT (toks ++ (emit (act g gs m) g m).1) gs.flatten (emit (act g gs m) g m).2).bulk + gs.length ≤ n := by
        rw [toT_bulk] at hn ⊢
        rw [tokensBulk_append]
        simp only [List.length_cons] at hn
        omega
      have h2 := dispatchSteps_le S (toT toks s m) (n := n) (by omega) (by
        intro t' ht
        rw [h1] at ht
        injection ht with ht
        injection ht with ht
        rw [← ht]; omega)
      have h4 := ih gs.flatten (toks ++ (emit (act g gs m) g m).1) (emit (act g gs m) g m).2 (S.suffix s g gs h) hb
      rw [activations]
      split
      · next h3 =>
        rw [h1] at h3
        injection h3 with h3
        injection h3 with h3
        rw [← h3, List.map_cons, List.sum_cons, List.length_cons, Nat.add_mul]
        omega
      · next h3 => exact absurd h1 (h3 _)

theorem clusters_le (S : Segmenter) (text : Str) : (S.graphemes text).length ≤ text.length := by
  have := flatten_length_ge _ (S.nonempty text)
  rwa [S.flatten] at this

theorem held_le_steps (S : Segmenter) (ts : List Tokenizer) :
    (ts.map Tokenizer.held).sum ≤ (ts.map (dispatchSteps S)).sum := by
  induction ts with
  | nil => simp
  | cons t ts ih =>
    have : t.held ≤ dispatchSteps S t := by
      rw [dispatchSteps, Tokenizer.held]
      omega
    simp only [List.map_cons, List.sum_cons]; omega

end Brack
