import Verif.Spec.Server

/-
Helper lemmas: clusters and UTF-16 code units.
-/

namespace Brack

/-- A text has as many clusters as UTF-16 code units exactly if each of its clusters is one code unit. -/
theorem units_clusters (S : Segmenter) (u : Str) :
    (S.graphemes u).length = utf16Length u ↔ ∀ g ∈ S.graphemes u, utf16Length g = 1 := by
  have hf := S.flatten u
  have hn := S.nonempty u
  generalize S.graphemes u = gs at hf hn
  subst hf
  have happ : ∀ a b : Str, utf16Length (a ++ b) = utf16Length a + utf16Length b := fun a b => by simp [utf16Length]
  have hpos : ∀ g : Str, g ≠ [] → 1 ≤ utf16Length g := by
    intro g hg
    rcases g with _ | ⟨c, g⟩
    · exact absurd rfl hg
    · simp only [utf16Length, List.map_cons, List.sum_cons]
      split <;> omega
  have hle : ∀ gs : List Str, (∀ g ∈ gs, g ≠ []) → gs.length ≤ utf16Length gs.flatten := by
    intro gs
    induction gs with
    | nil => intro _; exact Nat.zero_le _
    | cons g gs ih =>
      intro h
      have h1 := hpos g (h g (by simp))
      have h2 := ih fun g hg => h g (by simp [hg])
      rw [List.flatten_cons, happ, List.length_cons]
      omega
  induction gs with
  | nil => simp [utf16Length]
  | cons g gs ih =>
    have h1 := hpos g (hn g (by simp))
    have hn' : ∀ g ∈ gs, g ≠ [] := fun g hg => hn g (by simp [hg])
    have h2 := hle gs hn'
    have ih' := ih hn'
    rw [List.flatten_cons, happ, List.length_cons, List.forall_mem_cons]
    exact ⟨fun h => ⟨by omega, ih'.1 (by omega)⟩, fun h => by have := ih'.2 h.2; omega⟩

end Brack
