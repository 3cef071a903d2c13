import Verif.Spec.Location

/-
Helper lemmas about the order of positions and `merge_location`.
-/

namespace Brack

theorem Pos.le_refl (p : Pos) : p.le p := by simp [Pos.le]

theorem Pos.le_trans {p q r : Pos} (h1 : p.le q) (h2 : q.le r) : p.le r := by
  simp only [Pos.le] at *; omega

theorem Pos.le_antisymm {p q : Pos} (h1 : p.le q) (h2 : q.le p) : p = q := by
  obtain ⟨a, b⟩ := p
  obtain ⟨c, d⟩ := q
  simp only [Pos.le] at *
  have : a = c ∧ b = d := by omega
  rw [this.1, this.2]

theorem merge_start_facts (a b : Loc) :
    (mergeLocation a b).start.le a.start ∧ (mergeLocation a b).start.le b.start ∧
      ((mergeLocation a b).start = a.start ∨ (mergeLocation a b).start = b.start) := by
  obtain ⟨⟨al, ac⟩, ae⟩ := a
  obtain ⟨⟨bl, bc⟩, be⟩ := b
  simp only [mergeLocation, Pos.le]
  rcases Nat.lt_trichotomy al bl with h | h | h
  · simp [Nat.compare_eq_lt.mpr h]; omega
  · subst h
    rcases Nat.lt_trichotomy ac bc with h | h | h
    · simp [Nat.compare_eq_lt.mpr h]; omega
    · simp [h]
    · simp [Nat.compare_eq_gt.mpr h]; omega
  · simp [Nat.compare_eq_gt.mpr h]; omega

theorem merge_start_left {a b : Loc} (h : a.start.le b.start) :
    (mergeLocation a b).start = a.start := by
  obtain ⟨h1, _, h3⟩ := merge_start_facts a b
  rcases h3 with h3 | h3
  · exact h3
  · exact Pos.le_antisymm h1 (by rw [h3]; exact h)

theorem merge_stop_facts (a b : Loc) :
    (mergeLocation a b).stop = a.stop ∨ (mergeLocation a b).stop = b.stop := by
  simp only [mergeLocation]
  split
  · simp
  · split <;> simp
  · simp

end Brack
