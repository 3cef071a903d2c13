import Verif.Proof.Uax29
import Verif.Spec.Layout

/-
Helper lemmas: between two texts there is room for blanks, if the first ends with an ASCII character and
the second does not begin with a combining character.
-/

namespace Brack

namespace UTable

variable (T : UTable)

/-- The context after a text. -/
def fin : SegSt → Str → SegSt
  | s, [] => s
  | s, c :: cs => fin (if T.join s c then T.next s c else T.start c) cs

theorem fin_append (s : SegSt) (a b : Str) : T.fin s (a ++ b) = T.fin (T.fin s a) b := by
  induction a generalizing s with
  | nil => rfl
  | cons c a ih => exact ih _

theorem go_split (x : Char) (rest : Str) : ∀ (w : Str) (s cur), T.join (T.fin s w) x = false →
    T.go s cur (w ++ x :: rest) = T.go s cur w ++ T.go (T.start x) [x] rest
  | [], s, cur, h => by
    have h : T.join s x = false := h
    simp [go, h]
  | c :: w, s, cur, h => by
    rw [List.cons_append, go, go]
    by_cases hj : T.join s c = true
    · rw [if_pos hj, if_pos hj]
      exact go_split x rest w _ _ (by simpa [fin, hj] using h)
    · rw [if_neg hj, if_neg hj, List.cons_append]
      rw [go_split x rest w _ _ (by simpa [fin, hj] using h)]

/-- The context after an ASCII character. -/
theorem fin_ascii (s : SegSt) (w : Str) (c : Char) (hc : c.toNat < 128) (hcr : c ≠ '\r') :
    let f := T.fin s (w ++ [c])
    (f.prev = .other ∨ f.prev = .control ∨ f.prev = .lf) ∧ f.pict = .no ∧ f.conj = .no := by
  have hg := T.ascii_prev c hc hcr
  rw [fin_append]
  generalize T.fin s w = s0
  simp only [fin]
  by_cases hj : T.join s0 c = true
  · rw [if_pos hj]
    refine ⟨hg, ?_, ?_⟩
    · rcases hg with h | h | h <;> simp [next, T.asciiPict c hc, h]
    · simp [next, T.asciiIncb c hc]
  · rw [if_neg hj]
    exact ⟨hg, by simp [start, T.asciiPict c hc], by simp [start, T.asciiIncb c hc]⟩

theorem join_plain (s : SegSt) (x : Char) (h : (s.prev = .other ∨ s.prev = .control ∨ s.prev = .lf) ∧ s.pict = .no ∧ s.conj = .no)
    (hx : ¬ T.combining x) : T.join s x = false := by
  obtain ⟨h1, h2, h3⟩ := h
  unfold combining at hx
  simp only [not_or] at hx
  unfold join
  rcases h1 with h1 | h1 | h1 <;> simp [h1, h2, h3, hx.1, hx.2.1, hx.2.2]

theorem clusters_split (w : Str) (c x : Char) (rest : Str) (hc : c.toNat < 128) (hcr : c ≠ '\r') (hx : ¬ T.combining x) :
    T.clusters (w ++ [c] ++ x :: rest) = T.clusters (w ++ [c]) ++ T.clusters (x :: rest) := by
  rcases w with _ | ⟨d, w⟩
  · have : T.join (T.start c) x = false := by
      refine T.join_plain _ _ ⟨T.ascii_prev c hc hcr, ?_, ?_⟩ hx
      · simp [start, T.asciiPict c hc]
      · simp [start, T.asciiIncb c hc]
    simp [clusters, go, this]
  · simp only [List.cons_append, clusters]
    exact T.go_split x rest (w ++ [c]) _ _ (T.join_plain _ _ (T.fin_ascii _ w c hc hcr) hx)

theorem not_combining_ascii (c : Char) (hc : c.toNat < 128) (hcr : c ≠ '\r') : ¬ T.combining c := by
  unfold combining
  rcases T.ascii_prev c hc hcr with h | h | h <;> simp [h]

theorem room (w : Str) (c : Char) (after : Str) (hc : c.toNat < 128) (hcr : c ≠ '\r') (hx : ∀ x ∈ after.head?, ¬ T.combining x) :
    Room T.segmenter (w ++ [c]) after := by
  intro b
  show Blanks b → T.clusters _ = T.clusters _ ++ _ ++ T.clusters _
  induction b generalizing w c with
  | nil =>
    intro _
    rcases after with _ | ⟨x, rest⟩
    · simp [clusters]
    · simpa using T.clusters_split w c x rest hc hcr (hx x (by simp))
  | cons y b ih =>
    intro hb
    have hy : y.toNat < 128 ∧ y ≠ '\r' := by
      rcases hb y (by simp) with rfl | rfl <;> decide
    have h1 := ih (w ++ [c]) y hy.1 hy.2 (fun z hz => hb z (List.mem_cons_of_mem _ hz))
    have h2 := T.clusters_split w c y [] hc hcr (T.not_combining_ascii y hy.1 hy.2)
    have e : w ++ [c] ++ (y :: b) ++ after = w ++ [c] ++ [y] ++ b ++ after := by simp
    rw [e, h1, h2]
    simp [clusters, go]

end UTable

end Brack
