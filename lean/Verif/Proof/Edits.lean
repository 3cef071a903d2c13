import Verif.Proof.TokMore
import Verif.Proof.Uax29

/-
Texts that begin in the same way have the same first tokens.
-/

namespace Brack

theorem emit_one (a : Action) (g : Str) (m : M) : (emit a g m).1 = [] ∨ ∃ t, (emit a g m).1 = [t] := by
  cases a <;> simp [emit]

/-- The first token spells at least what is pending. -/
theorem run_first_pool : ∀ (gs : List Str) (m : M) (t : Token) (v : List Token), PoolOK gs m → run gs m = t :: v →
    m.pool.length ≤ t.kind.spelling.length
  | [], m, t, v, hp, _ => by rw [poolOK_end [] m hp rfl]; simp
  | g :: gs, m, t, v, hp, h => by
    by_cases hg : g = NUL
    · rw [poolOK_end (g :: gs) m hp (by simp [hg])]; simp
    · rw [run, if_neg hg] at h
      have hs := emit_spell g gs m hg hp
      rcases emit_one (act g gs m) g m with he | ⟨x, he⟩
      · rw [he] at h hs
        have := run_first_pool gs _ t v (emit_poolOK g gs m hg hp) h
        have hl := congrArg List.length hs
        simp [spell] at hl
        omega
      · rw [he] at h hs
        simp only [List.cons_append, List.nil_append, List.cons.injEq] at h
        obtain ⟨rfl, -⟩ := h
        have hnil : (emit (act g gs m) g m).2.pool = [] := by
          have hne : act g gs m ≠ .pool := by
            intro e
            rw [e] at he
            simp [emit] at he
          exact emit_pool_nil g gs m hp hne
        rw [hnil] at hs
        have hl := congrArg List.length hs
        simp [spell] at hl
        omega

/-- The first token spells at least what is pending and the next cluster. -/
theorem run_first {g : Str} {gs : List Str} {m : M} {t : Token} {v : List Token} (hg : g ≠ NUL) (hp : PoolOK (g :: gs) m)
    (h : run (g :: gs) m = t :: v) : m.pool.length + g.length ≤ t.kind.spelling.length := by
  rw [run, if_neg hg] at h
  have hs := congrArg List.length (emit_spell g gs m hg hp)
  rcases emit_one (act g gs m) g m with he | ⟨x, he⟩
  · rw [he] at h hs
    have := run_first_pool gs _ t v (emit_poolOK g gs m hg hp) h
    simp [spell] at hs
    omega
  · have hnil : (emit (act g gs m) g m).2.pool = [] := by
      have hne : act g gs m ≠ .pool := by
        intro e
        rw [e] at he
        simp [emit] at he
      exact emit_pool_nil g gs m hp hne
    rw [he, hnil] at hs
    rw [he] at h
    simp only [List.cons_append, List.nil_append, List.cons.injEq] at h
    obtain ⟨rfl, -⟩ := h
    simp [spell] at hs
    omega

/-- After the same clusters, the tokens that end before the last of them are the same. -/
theorem run_common (a b : List Str) : ∀ (p : List Str) (m : M) (u : List Token) (t : Token) (v : List Token),
    PoolOK (p ++ a) m → PoolOK (p ++ b) m → run (p ++ a) m = u ++ t :: v →
    (spell (u ++ [t])).length < m.pool.length + p.flatten.length → ∃ v', run (p ++ b) m = u ++ t :: v'
  | [], m, u, t, v, hp, _, h, hl => by
    exfalso
    have : ∃ t' v', run ([] ++ a) m = t' :: v' ∧ t'.kind.spelling.length ≤ (spell (u ++ [t])).length := by
      rcases u with _ | ⟨x, u⟩
      · exact ⟨t, v, h, by simp [spell]⟩
      · exact ⟨x, _, h, by simp [spell]⟩
    obtain ⟨t', v', h1, h2⟩ := this
    have := run_first_pool _ m t' v' hp h1
    simp at hl
    omega
  | g :: p, m, u, t, v, hp, hq, h, hl => by
    by_cases hg : g = NUL
    · refine ⟨v, ?_⟩
      rw [← h]
      simp only [List.cons_append]
      rw [run, run, if_pos hg, if_pos hg]
    · rcases p with _ | ⟨g', p⟩
      · exfalso
        have : ∃ t' v', run (g :: a) m = t' :: v' ∧ t'.kind.spelling.length ≤ (spell (u ++ [t])).length := by
          rcases u with _ | ⟨x, u⟩
          · exact ⟨t, v, h, by simp [spell]⟩
          · exact ⟨x, _, h, by simp [spell]⟩
        obtain ⟨t', v', h1, h2⟩ := this
        have := run_first hg hp h1
        simp at hl
        omega
      · have hact : act g (g' :: p ++ b) m = act g (g' :: p ++ a) m := rfl
        have hp' := emit_poolOK g (g' :: p ++ a) m hg hp
        have hq' := emit_poolOK g (g' :: p ++ b) m hg hq
        have hs := congrArg List.length (emit_spell g (g' :: p ++ a) m hg hp)
        rw [hact] at hq'
        rw [List.cons_append, run, if_neg hg] at h
        rw [List.cons_append, run, if_neg hg, hact]
        simp only [List.length_append, List.flatten_cons] at hs hl
        rcases emit_one (act g (g' :: p ++ a) m) g m with he | ⟨x, he⟩
        · rw [he] at h hs
          rw [he]
          simp only [List.nil_append, spell, List.flatMap_nil, List.length_nil] at h hs ⊢
          refine run_common a b (g' :: p) _ u t v hp' hq' h ?_
          simp only [List.flatten_cons, List.length_append]
          omega
        · rw [he] at h hs
          rw [he]
          rcases u with _ | ⟨y, u⟩
          · simp only [List.cons_append, List.nil_append, List.cons.injEq] at h ⊢
            exact ⟨_, h.1, rfl⟩
          · simp only [List.cons_append, List.nil_append, List.cons.injEq] at h ⊢
            obtain ⟨v', h'⟩ := run_common a b (g' :: p) _ u t v hp' hq' h.2 (by
              rw [← h.1] at hl
              simp only [List.cons_append, spell_cons, List.length_append, List.flatten_cons] at hs hl ⊢
              simp only [spell, List.flatMap_nil, List.length_nil] at hs hl ⊢
              omega)
            exact ⟨v', h.1, h'⟩

namespace UTable

variable (T : UTable)

/-- Adding text changes at most the last cluster. -/
theorem go_prefix (y : Str) : ∀ (x : Str) (s : SegSt) (cur : Str),
    ∃ r, T.go s cur (x ++ y) = (T.go s cur x).dropLast ++ r
  | [], s, cur => ⟨T.go s cur y, by simp [go]⟩
  | c :: x, s, cur => by
    rw [List.cons_append, go, go]
    split
    · exact go_prefix y x _ _
    · obtain ⟨r, hr⟩ := go_prefix y x (T.start c) [c]
      refine ⟨r, ?_⟩
      have hne : T.go (T.start c) [c] x ≠ [] := by
        rcases x with _ | ⟨d, x⟩
        · simp [go]
        · rw [go]
          split
          · intro e
            have := T.go_flatten (T.next (T.start c) d) ([c] ++ [d]) x
            rw [e] at this
            simp at this
          · simp
      rw [hr, List.dropLast_cons_of_ne_nil hne]
      rfl

theorem clusters_prefix (x y : Str) : ∃ r, T.clusters (x ++ y) = (T.clusters x).dropLast ++ r := by
  rcases x with _ | ⟨c, x⟩
  · exact ⟨T.clusters y, by simp [clusters]⟩
  · exact T.go_prefix y x _ _

end UTable

end Brack
