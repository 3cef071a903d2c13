import Verif.Proof.ServerSays
import Verif.Proof.TokMore
import Verif.Spec.Location

/-
Semantic tokens.
-/

namespace Brack

theorem graphemes_length_le (S : Segmenter) (s : Str) : (S.graphemes s).length ≤ s.length := by
  have h1 := S.flatten s
  have h2 := S.nonempty s
  have : ∀ gs : List Str, (∀ g ∈ gs, g ≠ []) → gs.length ≤ gs.flatten.length := by
    intro gs
    induction gs with
    | nil => intro _; simp
    | cons g gs ih =>
      intro h
      have := ih (fun x hx => h x (List.mem_cons_of_mem _ hx))
      have hg : 0 < g.length := List.length_pos_iff.mpr (h g (List.mem_cons_self ..))
      simp only [List.length_cons, List.flatten_cons, List.length_append]
      omega
  have := this _ h2
  rwa [h1] at this

/-- Positions are bounded by the length of the text. -/
theorem tiles_bound {S : Segmenter} {toks : List Token} : ∀ {p : Pos}, Tiles S p toks → ∀ t ∈ toks,
    t.loc.start.line ≤ p.line + (spell toks).length ∧
    t.loc.stop.character ≤ p.character + (spell toks).length := by
  induction toks with
  | nil => intro p _ t ht; simp at ht
  | cons u toks ih =>
    intro p h t ht
    obtain ⟨h1, h2, h3⟩ := h
    have hl : (spell (u :: toks)).length = u.kind.spelling.length + (spell toks).length := by simp [spell]
    have hg := graphemes_length_le S u.kind.spelling
    rcases List.mem_cons.mp ht with rfl | ht
    · rw [h1, h2]
      simp only
      omega
    · have := ih h3 t ht
      split at this
      · next hk =>
        have hs : u.kind.spelling.length = 1 := by rw [hk]; rfl
        simp only at this
        omega
      · rw [h2] at this
        simp only at this
        omega

namespace Server

theorem asU32_small {n : Nat} (h : n < 2 ^ 32) : asU32 n = n := Nat.mod_eq_of_lt h

theorem unsignedSub_ok {bits : Nat} {checks : Bool} {a b : Nat} (h : b ≤ a) :
    unsignedSub bits checks a b = .ok (a - b) := by rw [unsignedSub, if_pos h]

/-- A token as it should be seen. -/
def seen (t : Token) : SeenToken :=
  ⟨t.loc.start.line, t.loc.start.character, t.loc.stop.character - t.loc.start.character, tokenType t.kind, 0⟩

theorem separateLoop_tiles {S : Segmenter} {checks : Bool} {toks : List Token} : ∀ {p q : Pos}, Tiles S p toks →
    q.le p → (∀ t ∈ toks, t.loc.start.line < 2 ^ 32 ∧ t.loc.stop.character < 2 ^ 32) →
    ∃ d, separateLoop checks q.line q.character toks = .ok d ∧
      decodeTokens q.line q.character (d.flatMap (fun t =>
        [.int t.deltaLine, .int t.deltaStart, .int t.length, .int t.tokenType, .int t.modifiers])) =
        some (toks.map seen) := by
  induction toks with
  | nil => intro p q _ _ _; exact ⟨[], rfl, rfl⟩
  | cons t toks ih =>
    intro p q h hq hb
    obtain ⟨h1, h2, h3⟩ := h
    have hb1 := hb t (List.mem_cons_self ..)
    have hc : t.loc.start.character ≤ t.loc.stop.character := by rw [h1, h2]; exact Nat.le_add_right _ _
    have hq1 : q.line ≤ t.loc.start.line := by
      rw [h1]
      rcases hq with hq | hq <;> omega
    have hle : t.loc.start.le (if t.kind = .newLine then ⟨p.line + 1, 0⟩ else t.loc.stop) := by
      split
      · exact .inl (by rw [h1]; simp)
      · refine .inr ⟨by rw [h1, h2], hc⟩
    obtain ⟨d, hd1, hd2⟩ := ih h3 hle (fun u hu => hb u (List.mem_cons_of_mem _ hu))
    rw [separateLoop, asU32_small hb1.1, asU32_small (Nat.lt_of_le_of_lt hc hb1.2), unsignedSub_ok hq1]
    simp only [Res.bind, Bind.bind]
    by_cases hl : t.loc.start.line - q.line = 0
    · have hch : q.character ≤ t.loc.start.character := by
        rw [h1] at hl ⊢
        rcases hq with hq | hq <;> omega
      rw [if_pos hl, unsignedSub_ok hch]
      simp only
      rw [unsignedSub_ok hc, hd1]
      refine ⟨_, rfl, ?_⟩
      simp only [List.flatMap_cons, List.cons_append, List.nil_append, decodeTokens]
      have e1 : q.line + (((t.loc.start.line - q.line : Nat) : Int)).toNat = t.loc.start.line := by
        rw [Int.toNat_natCast]; omega
      have e2 : (((t.loc.start.line - q.line : Nat) : Int) = 0) := by rw [hl]; rfl
      have e3 : q.character + (((t.loc.start.character - q.character : Nat) : Int)).toNat = t.loc.start.character := by
        rw [Int.toNat_natCast]; omega
      rw [e1, if_pos e2, e3, hd2]
      simp only [Option.map_some, List.map_cons, seen, Int.toNat_natCast]
      rw [asU32_small (by omega)]
    · rw [if_neg hl]
      rw [unsignedSub_ok hc, hd1]
      refine ⟨_, rfl, ?_⟩
      simp only [List.flatMap_cons, List.cons_append, List.nil_append, decodeTokens]
      have e1 : q.line + (((t.loc.start.line - q.line : Nat) : Int)).toNat = t.loc.start.line := by
        rw [Int.toNat_natCast]; omega
      have e2 : ¬ (((t.loc.start.line - q.line : Nat) : Int) = 0) := by
        intro e
        exact hl (by exact_mod_cast e)
      rw [e1, if_neg e2, Int.toNat_natCast, hd2]
      simp only [Option.map_some, List.map_cons, seen, Int.toNat_natCast]
      rw [asU32_small (by omega)]

theorem semanticTokens_tiles {S : Segmenter} {checks : Bool} {text : Str} {toks : List Token}
    (h : tokenizeStr S text = .ok toks) (hb : text.length < 2 ^ 32) :
    ∃ d, semanticTokens checks toks = .ok d ∧ ∀ id,
      (resultJson id (semanticTokensJson d)).seenTokens = some (toks.map seen) := by
  rw [tokenizeStr_eq] at h
  injection h with h
  have ht := tokens_tile S text
  have hs := tokens_spell S text
  rw [h] at ht hs
  have hlen : (spell toks).length ≤ text.length := by
    rw [hs]
    exact (List.takeWhile_sublist _).length_le
  obtain ⟨d, h1, h2⟩ := separateLoop_tiles (checks := checks) ht (q := ⟨0, 0⟩) (.inr ⟨rfl, Nat.le_refl _⟩) (by
    intro t hm
    have := tiles_bound ht t hm
    simp only at this
    omega)
  exact ⟨d, h1, fun id => h2⟩

end Server

end Brack
