import Verif.Spec.Show
import Verif.Proof.DebugShows
import Verif.Proof.TokMore
import Verif.Proof.Saving

/-
Helper lemmas: printed trees and errors can be read in one way only.
-/

namespace Brack

/-- Two texts split before the first character that does not satisfy `p`. -/
theorem split_first {p : Char → Prop} {w w' r r' : Str} (hw : ∀ c ∈ w, p c) (hw' : ∀ c ∈ w', p c)
    (hr : ∀ c, r.head? = some c → ¬ p c) (hr' : ∀ c, r'.head? = some c → ¬ p c)
    (h : w ++ r = w' ++ r') : w = w' ∧ r = r' := by
  induction w generalizing w' with
  | nil =>
    cases w' with
    | nil => exact ⟨rfl, h⟩
    | cons c w' =>
      rw [List.nil_append] at h
      rw [h] at hr
      exact absurd (hw' c (by simp)) (hr c rfl)
  | cons c w ih =>
    cases w' with
    | nil =>
      rw [List.nil_append] at h
      rw [← h] at hr'
      exact absurd (hw c (by simp)) (hr' c rfl)
    | cons c' w' =>
      rw [List.cons_append, List.cons_append] at h
      injection h with h1 h2
      obtain ⟨rfl, rfl⟩ := ih (fun c h => hw c (by simp [h])) (fun c h => hw' c (by simp [h])) h2
      exact ⟨by rw [h1], rfl⟩

theorem split_at {x : Char} {w w' r r' : Str} (hw : x ∉ w) (hw' : x ∉ w') (h : w ++ x :: r = w' ++ x :: r') : w = w' ∧ r = r' := by
  obtain ⟨h1, h2⟩ := split_first (p := (· ≠ x)) (fun c hc e => hw (e ▸ hc)) (fun c hc e => hw' (e ▸ hc))
    (r := x :: r) (r' := x :: r') (by simp) (by simp) h
  exact ⟨h1, by injection h2⟩

/-! ### abstract syntax trees -/

/-- The text is empty or its first line is indented by less than `2 * i`. -/
def Low (i : Nat) (r : Str) : Prop := r = [] ∨ ∃ k c rest, k < 2 * i ∧ (c ≠ ' ' ∧ c ≠ '\n') ∧ r = List.replicate k ' ' ++ c :: rest

theorem Low.succ {i : Nat} {r : Str} (h : Low i r) : Low (i + 1) r := by
  rcases h with h | ⟨k, c, rest, h1, h2, h3⟩
  · exact .inl h
  · exact .inr ⟨k, c, rest, by omega, h2, h3⟩

theorem spaces_split {i k : Nat} {c d : Char} {r r' : Str} (hc : c ≠ ' ' ∧ c ≠ '\n') (hd : d ≠ ' ' ∧ d ≠ '\n')
    (h : List.replicate i ' ' ++ c :: r = List.replicate k ' ' ++ d :: r') : i = k ∧ c :: r = d :: r' := by
  obtain ⟨h1, h2⟩ := split_first (p := (· = ' ')) (fun c hc => List.eq_of_mem_replicate hc) (fun c hc => List.eq_of_mem_replicate hc)
    (by simpa using hc.1) (by simpa using hd.1) h
  have := congrArg List.length h1
  simp at this
  exact ⟨this, h2⟩

theorem Low.not_break {i : Nat} {r r' : Str} (h : Low i r) : r ≠ '\n' :: r' := by
  rintro rfl
  rcases h with h | ⟨k, c, rest, h1, h2, h3⟩
  · cases h
  · cases k with
    | zero => simp at h3; exact h2.2 h3.1.symm
    | succ k => simp [List.replicate_succ] at h3

/-- Two lines that end at the same place, although they may end with a line break themselves. -/
theorem line_split {i j : Nat} {w w' r r' : Str} (hw : w ≠ []) (hw' : w' ≠ []) (h : '\n' ∉ w.dropLast) (h' : '\n' ∉ w'.dropLast)
    (hr : Low i r) (hr' : Low j r') (he : w ++ '\n' :: r = w' ++ '\n' :: r') : w = w' ∧ r = r' := by
  have cut : ∀ {w : Str}, w ≠ [] → '\n' ∉ w.dropLast → '\n' ∉ w ∨ ∃ u, w = u ++ ['\n'] ∧ '\n' ∉ u := by
    intro w hw h
    rw [← List.dropLast_concat_getLast hw]
    by_cases hl : w.getLast hw = '\n'
    · exact .inr ⟨w.dropLast, by rw [hl], h⟩
    · left
      simp only [List.mem_append, List.mem_singleton, not_or]
      exact ⟨h, fun e => hl e.symm⟩
  rcases cut hw h with k | ⟨u, rfl, k⟩ <;> rcases cut hw' h' with k' | ⟨u', rfl, k'⟩
  · exact split_at k k' he
  · rw [List.append_assoc] at he
    obtain ⟨_, h2⟩ := split_at k k' he
    exact (hr.not_break h2).elim
  · rw [List.append_assoc] at he
    obtain ⟨_, h2⟩ := split_at k k' he
    exact (hr'.not_break h2.symm).elim
  · rw [List.append_assoc, List.append_assoc] at he
    obtain ⟨h1, h2⟩ := split_at k k' he
    injection h2 with _ h2
    exact ⟨by rw [h1], h2⟩

/-- The line of a node: what it starts with. -/
theorem kindLabel_head (k : AKind) : ∃ c w, AST.kindLabel k = c :: w ∧ (c ≠ ' ' ∧ c ≠ '\n') ∧ '\n' ∉ (c :: w).dropLast := by
  rcases k with _ | _ | _ | (_ | _ | _) <;> exact ⟨_, _, rfl, by decide, by decide⟩

theorem leafLabel_head {k : ALKind} {v : Option Str} {s : Str} (h : AST.leafLabel k v = .ok s) (hv : ∀ w ∈ v, '\n' ∉ w.dropLast) :
    ∃ c w, s = c :: w ∧ (c ≠ ' ' ∧ c ≠ '\n') ∧ '\n' ∉ (c :: w).dropLast := by
  rcases k <;> rcases v with _ | v <;> simp only [AST.leafLabel] at h <;> cases h
  all_goals first
    | exact ⟨_, _, rfl, by decide, by decide⟩
    | refine ⟨_, _, rfl, by decide, ?_⟩
      have := hv v rfl
      cases v with
      | nil => decide
      | cons d v =>
        intro h
        simp [List.dropLast_cons_of_ne_nil] at h
        exact this h

theorem kindLabel_inj {k k' : AKind} (h : AST.kindLabel k = AST.kindLabel k') : k = k' := by
  rcases k with _ | _ | _ | (_ | _ | _) <;> rcases k' with _ | _ | _ | (_ | _ | _) <;> first | rfl | (revert h; decide)

theorem leafLabel_inj {k k' : ALKind} {v v' : Option Str} {s : Str} (h : AST.leafLabel k v = .ok s) (h' : AST.leafLabel k' v' = .ok s)
    (hk : k = .invalid ∨ k = .ignored → v = none) (hk' : k' = .invalid ∨ k' = .ignored → v' = none) : k = k' ∧ v = v' := by
  rcases k <;> rcases k' <;> rcases v with _ | v <;> rcases v' with _ | v' <;> simp only [AST.leafLabel] at h h' <;> cases h <;>
    simp at h' hk hk' <;> first | exact ⟨rfl, rfl⟩ | (subst h'; exact ⟨rfl, rfl⟩)

theorem leaf_node_label {k : ALKind} {k' : AKind} {v : Option Str} (h : AST.leafLabel k v = .ok (AST.kindLabel k')) : False := by
  rcases k <;> rcases v with _ | v <;> rcases k' with _ | _ | _ | (_ | _ | _) <;> simp [AST.leafLabel, AST.kindLabel] at h

/-- Names and texts contain no line breaks, except perhaps at the end. -/
def AST.FewBreaks (a : AST) : Prop := ∀ x ∈ a.contents, ∀ v ∈ x.value, '\n' ∉ v.dropLast

/-- Leaves that are neither names nor texts have no value. -/
def AST.Bare (a : AST) : Prop := ∀ x ∈ a.contents, x.kind = .invalid ∨ x.kind = .ignored → x.value = none

/-- A printed tree starts with a line that is indented so far. -/
theorem display_starts {i : Nat} {a : AST} {s : Str} (h : a.display i = .ok s) (ho : a.FewBreaks) :
    ∃ c w r, s = List.replicate (2 * i) ' ' ++ (c :: w) ++ '\n' :: r ∧ (c ≠ ' ' ∧ c ≠ '\n') ∧ '\n' ∉ (c :: w).dropLast := by
  rcases a with ⟨k, j, v, l⟩ | ⟨k, j, cs, l⟩ <;> simp only [AST.display] at h
  · generalize hl : AST.leafLabel k v = o at h
    rcases o with t | _ | _ <;> simp only [] at h <;> cases h
    obtain ⟨c, w, rfl, h1, h2⟩ := leafLabel_head hl (fun w hw => ho ⟨k, v, l⟩ (by simp [AST.contents]) w hw)
    exact ⟨c, w, [], rfl, h1, h2⟩
  · generalize hl : AST.displayL (i + 1) cs = o at h
    rcases o with t | _ | _ <;> simp only [] at h <;> cases h
    obtain ⟨c, w, h0, h1, h2⟩ := kindLabel_head k
    exact ⟨c, w, t, by rw [h0]; simp, h1, h2⟩

theorem Low.after {i : Nat} {c : Char} {w : Str} (hc : c ≠ ' ' ∧ c ≠ '\n') : Low (i + 1) (List.replicate (2 * i) ' ' ++ c :: w) :=
  .inr ⟨_, c, w, by omega, hc, rfl⟩

theorem displayL_low {i : Nat} {as : List AST} {y r : Str} (hy : AST.displayL i as = .ok y)
    (ho : ∀ x ∈ AST.contentsL as, ∀ v ∈ x.value, '\n' ∉ v.dropLast) (hr : Low i r) : Low (i + 1) (y ++ r) := by
  rcases as with _ | ⟨a, as⟩
  · simp only [AST.displayL] at hy
    cases hy
    exact hr.succ
  · simp only [AST.displayL] at hy
    generalize hl : a.display i = o at hy
    rcases o with x | _ | _ <;> simp only [] at hy
    · generalize hl' : AST.displayL i as = o at hy
      rcases o with y | _ | _ <;> simp only [] at hy <;> cases hy
      obtain ⟨c, w, q, rfl, h1, _⟩ := display_starts hl (fun z hz => ho z (by simp [AST.contentsL, hz]))
      simp only [List.append_assoc, List.cons_append]
      exact .after h1
    · cases hy
    · cases hy

mutual

theorem display_unique : ∀ (a b : AST) (i : Nat) (s t r r' : Str), a.display i = .ok s → b.display i = .ok t → a.FewBreaks → b.FewBreaks →
    a.Bare → b.Bare → Low (i + 1) r → Low (i + 1) r' → s ++ r = t ++ r' → a.shape = b.shape ∧ r = r'
  | .leaf k j v l, b, i, s, t, r, r', ha, hb, oa, ob, ba, bb, hr, hr', h => by
    simp only [AST.display] at ha
    generalize hl : AST.leafLabel k v = o at ha
    rcases o with x | _ | _ <;> simp only [] at ha <;> cases ha
    obtain ⟨c, w, rfl, h1, h2⟩ := leafLabel_head hl (fun w hw => oa ⟨k, v, l⟩ (by simp [AST.contents]) w hw)
    rcases b with ⟨k', j', v', l'⟩ | ⟨k', j', cs', l'⟩ <;> simp only [AST.display] at hb
    · generalize hl' : AST.leafLabel k' v' = o at hb
      rcases o with x | _ | _ <;> simp only [] at hb <;> cases hb
      obtain ⟨c', w', rfl, h1', h2'⟩ := leafLabel_head hl' (fun w hw => ob ⟨k', v', l'⟩ (by simp [AST.contents]) w hw)
      simp only [List.append_assoc, List.cons_append, List.nil_append] at h
      obtain ⟨_, h3⟩ := spaces_split h1 h1' h
      obtain ⟨h4, h5⟩ := line_split (w := c :: w) (w' := c' :: w') (by simp) (by simp) h2 h2' hr hr' h3
      rw [h4] at hl
      obtain ⟨rfl, rfl⟩ := leafLabel_inj hl hl' (ba ⟨k, v, l⟩ (by simp [AST.contents])) (bb ⟨k', v', l'⟩ (by simp [AST.contents]))
      exact ⟨rfl, h5⟩
    · generalize hl' : AST.displayL (i + 1) cs' = o at hb
      rcases o with x | _ | _ <;> simp only [] at hb <;> cases hb
      obtain ⟨c', w', h0, h1', h2'⟩ := kindLabel_head k'
      rw [h0] at h
      simp only [List.append_assoc, List.cons_append, List.nil_append] at h
      obtain ⟨_, h3⟩ := spaces_split h1 h1' h
      obtain ⟨h4, h5⟩ := line_split (w := c :: w) (w' := c' :: w') (by simp) (by simp) h2 h2' hr (displayL_low hl' (fun z hz => ob z (by simpa [AST.contents] using hz)) hr') h3
      rw [h4, ← h0] at hl
      exact (leaf_node_label hl).elim
  | .node k j cs l, b, i, s, t, r, r', ha, hb, oa, ob, ba, bb, hr, hr', h => by
    simp only [AST.display] at ha
    generalize hl : AST.displayL (i + 1) cs = o at ha
    rcases o with x | _ | _ <;> simp only [] at ha <;> cases ha
    obtain ⟨c, w, h0, h1, h2⟩ := kindLabel_head k
    rcases b with ⟨k', j', v', l'⟩ | ⟨k', j', cs', l'⟩ <;> simp only [AST.display] at hb
    · generalize hl' : AST.leafLabel k' v' = o at hb
      rcases o with x | _ | _ <;> simp only [] at hb <;> cases hb
      obtain ⟨c', w', rfl, h1', h2'⟩ := leafLabel_head hl' (fun w hw => ob ⟨k', v', l'⟩ (by simp [AST.contents]) w hw)
      rw [h0] at h
      simp only [List.append_assoc, List.cons_append, List.nil_append] at h
      obtain ⟨_, h3⟩ := spaces_split h1 h1' h
      obtain ⟨h4, h5⟩ := line_split (w := c :: w) (w' := c' :: w') (by simp) (by simp) h2 h2' (displayL_low hl (fun z hz => oa z (by simpa [AST.contents] using hz)) hr) hr' h3
      rw [← h4, ← h0] at hl'
      exact (leaf_node_label hl').elim
    · generalize hl' : AST.displayL (i + 1) cs' = o at hb
      rcases o with y | _ | _ <;> simp only [] at hb <;> cases hb
      obtain ⟨c', w', h0', h1', h2'⟩ := kindLabel_head k'
      rw [h0, h0'] at h
      simp only [List.append_assoc, List.cons_append, List.nil_append] at h
      obtain ⟨_, h3⟩ := spaces_split h1 h1' h
      obtain ⟨h4, h5⟩ := line_split (w := c :: w) (w' := c' :: w') (by simp) (by simp) h2 h2' (displayL_low hl (fun z hz => oa z (by simpa [AST.contents] using hz)) hr)
        (displayL_low hl' (fun z hz => ob z (by simpa [AST.contents] using hz)) hr') h3
      rw [← h0, ← h0'] at h4
      obtain rfl := kindLabel_inj h4
      obtain ⟨h6, h7⟩ := displayL_unique cs cs' (i + 1) x y r r' hl hl' (fun z hz => oa z (by simpa [AST.contents] using hz))
        (fun z hz => ob z (by simpa [AST.contents] using hz)) (fun z hz => ba z (by simpa [AST.contents] using hz))
        (fun z hz => bb z (by simpa [AST.contents] using hz)) hr hr' h5
      exact ⟨by simp only [AST.shape, h6], h7⟩

theorem displayL_unique : ∀ (as bs : List AST) (i : Nat) (s t r r' : Str), AST.displayL i as = .ok s → AST.displayL i bs = .ok t →
    (∀ x ∈ AST.contentsL as, ∀ v ∈ x.value, '\n' ∉ v.dropLast) → (∀ x ∈ AST.contentsL bs, ∀ v ∈ x.value, '\n' ∉ v.dropLast) →
    (∀ x ∈ AST.contentsL as, x.kind = .invalid ∨ x.kind = .ignored → x.value = none) →
    (∀ x ∈ AST.contentsL bs, x.kind = .invalid ∨ x.kind = .ignored → x.value = none) →
    Low i r → Low i r' → s ++ r = t ++ r' → AST.shapeL as = AST.shapeL bs ∧ r = r'
  | [], bs, i, s, t, r, r', ha, hb, oa, ob, ba, bb, hr, hr', h => by
    simp only [AST.displayL] at ha
    cases ha
    rcases bs with _ | ⟨b, bs⟩
    · simp only [AST.displayL] at hb
      cases hb
      exact ⟨rfl, by simpa using h⟩
    · simp only [AST.displayL] at hb
      generalize hl : b.display i = o at hb
      rcases o with x | _ | _ <;> simp only [] at hb
      · generalize hl' : AST.displayL i bs = o at hb
        rcases o with y | _ | _ <;> simp only [] at hb <;> cases hb
        obtain ⟨c, w, q, rfl, h1, _⟩ := display_starts hl (fun z hz => ob z (by simp [AST.contentsL, hz]))
        simp only [List.append_assoc, List.cons_append, List.nil_append] at h
        rcases hr with rfl | ⟨k, d, rest, k1, k2, rfl⟩
        · simp at h
        · obtain ⟨h3, _⟩ := spaces_split k2 h1 h
          omega
      · cases hb
      · cases hb
  | a :: as, bs, i, s, t, r, r', ha, hb, oa, ob, ba, bb, hr, hr', h => by
    simp only [AST.displayL] at ha
    generalize hl : a.display i = o at ha
    rcases o with x | _ | _ <;> simp only [] at ha
    · generalize hl' : AST.displayL i as = o at ha
      rcases o with y | _ | _ <;> simp only [] at ha <;> cases ha
      have oa1 : a.FewBreaks := fun z hz => oa z (by simp [AST.contentsL, hz])
      have ba1 : a.Bare := fun z hz => ba z (by simp [AST.contentsL, hz])
      rcases bs with _ | ⟨b, bs⟩
      · simp only [AST.displayL] at hb
        cases hb
        obtain ⟨c, w, q, rfl, h1, _⟩ := display_starts hl oa1
        simp only [List.append_assoc, List.cons_append, List.nil_append] at h
        rcases hr' with rfl | ⟨k, d, rest, k1, k2, rfl⟩
        · simp at h
        · obtain ⟨h3, _⟩ := spaces_split h1 k2 h
          omega
      · simp only [AST.displayL] at hb
        generalize hm : b.display i = o at hb
        rcases o with x' | _ | _ <;> simp only [] at hb
        · generalize hm' : AST.displayL i bs = o at hb
          rcases o with y' | _ | _ <;> simp only [] at hb <;> cases hb
          rw [List.append_assoc, List.append_assoc] at h
          obtain ⟨h1, h2⟩ := display_unique a b i x x' (y ++ r) (y' ++ r') hl hm oa1 (fun z hz => ob z (by simp [AST.contentsL, hz]))
            ba1 (fun z hz => bb z (by simp [AST.contentsL, hz])) (displayL_low hl' (fun z hz => oa z (by simp [AST.contentsL, hz])) hr)
            (displayL_low hm' (fun z hz => ob z (by simp [AST.contentsL, hz])) hr') h
          obtain ⟨h3, h4⟩ := displayL_unique as bs i y y' r r' hl' hm' (fun z hz => oa z (by simp [AST.contentsL, hz]))
            (fun z hz => ob z (by simp [AST.contentsL, hz])) (fun z hz => ba z (by simp [AST.contentsL, hz]))
            (fun z hz => bb z (by simp [AST.contentsL, hz])) hr hr' h2
          exact ⟨by simp only [AST.shapeL, h1, h3], h4⟩
        · cases hb
        · cases hb
    · cases ha
    · cases ha

end

/-! ### concrete syntax trees -/

namespace CST

theorem innerName_letters (k : IKind) : ∃ c w, innerName k = c :: w ∧ c ≠ ' ' ∧ c ≠ ']' ∧ '(' ∉ c :: w := by
  rcases k with _ | _ | _ | (_ | _ | _) | _ <;> exact ⟨_, _, rfl, by decide, by decide, by decide⟩

theorem leafName_letters (k : LKind) : ∃ c w, leafName k = c :: w ∧ c ≠ ' ' ∧ c ≠ ']' ∧ '(' ∉ c :: w := by
  rcases k with (_ | _ | _) | (_ | _ | _) | _ | _ | _ | _ | _ | _ | _ | _ | _ <;>
    exact ⟨_, _, rfl, by decide, by decide, by decide⟩

theorem innerName_inj {k k' : IKind} (h : innerName k = innerName k') : k = k' := by
  rcases k with _ | _ | _ | (_ | _ | _) | _ <;> rcases k' with _ | _ | _ | (_ | _ | _) | _ <;> first | rfl | (revert h; decide)

theorem inner_leaf {k : IKind} {k' : LKind} (h : innerName k = leafName k') : False := by
  rcases k with _ | _ | _ | (_ | _ | _) | _ <;>
    rcases k' with (_ | _ | _) | (_ | _ | _) | _ | _ | _ | _ | _ | _ | _ | _ | _ <;> simp [innerName, leafName] at h

theorem uuid_split {w w' r r' : Str} (hw : IsUuid w) (hw' : IsUuid w') (hr : ∀ c, r.head? = some c → c = ',' ∨ c = ')')
    (hr' : ∀ c, r'.head? = some c → c = ',' ∨ c = ')') (h : w ++ r = w' ++ r') : w = w' ∧ r = r' := by
  refine split_first (p := fun c => c.isAlphanum = true ∨ c = '-') hw hw' ?_ ?_ h
  · intro c hc
    rcases hr c hc with rfl | rfl <;> decide
  · intro c hc
    rcases hr' c hc with rfl | rfl <;> decide

variable {printable : Char → Bool}

/-- The rest of the line of a leaf, after its identifier. -/
theorem leafValue_unique {k k' : LKind} {r r' : Str} (hn : leafName k = leafName k')
    (h : leafValue printable k ++ chars! ")" ++ r = leafValue printable k' ++ chars! ")" ++ r') : k = k' ∧ r = r' := by
  have key : ∀ v v' : Str, chars! ", value: Some(" ++ debugStr printable v ++ chars! ")" ++ chars! ")" ++ r =
      chars! ", value: Some(" ++ debugStr printable v' ++ chars! ")" ++ chars! ")" ++ r' → v = v' ∧ r = r' := by
    intro v v' h
    simp only [debugStr, List.append_assoc] at h
    have h1 := List.append_cancel_left h
    simp only [List.cons_append, List.append_assoc, List.nil_append] at h1
    injection h1 with _ h1
    obtain ⟨rfl, h2⟩ := (quotes_flatMap printable v).unique (quotes_flatMap printable v') h1
    exact ⟨rfl, by simpa using h2⟩
  rcases k with (_ | _ | _) | (_ | _ | _) | _ | _ | _ | _ | _ | _ | _ | _ | _ <;>
    rcases k' with (_ | _ | _) | (_ | _ | _) | _ | _ | _ | _ | _ | _ | _ | _ | _ <;>
    first
      | exact absurd hn (by decide)
      | (simp [leafName] at hn; done)
      | (simp only [leafValue] at h
         obtain ⟨rfl, rfl⟩ := key _ _ h
         exact ⟨rfl, rfl⟩)
      | (simp only [leafValue] at h
         exact ⟨rfl, by simpa using h⟩)

theorem display_node (ids : List Nat → Str) (path : List Nat) (i : Nat) {k : IKind} (cs : List CST) (l : Loc) (hk : k ≠ .backSlash) :
    display printable ids path i (.node k cs l) = indentation i ++ innerName k ++ chars! "(id: " ++ ids path ++ chars! ") [\n" ++
      displayL printable ids path 0 (i + 1) cs ++ indentation i ++ chars! "]" := by
  rcases k with _ | _ | _ | _ | _ <;> first | rfl | exact absurd rfl hk

/-- What is written for a node, after the indentation. -/
theorem display_starts (ids : List Nat → Str) (path : List Nat) (i : Nat) (a : CST) :
    ∃ c w, display printable ids path i a = indentation i ++ c :: w ∧ c ≠ ' ' ∧ c ≠ ']' := by
  rcases a with ⟨k, l⟩ | ⟨k, cs, l⟩
  · obtain ⟨c, w, h, h1, h2, _⟩ := leafName_letters k
    exact ⟨c, _, by rw [display, h]; simp [List.append_assoc]; rfl, h1, h2⟩
  · obtain ⟨c, w, h, h1, h2, _⟩ := innerName_letters k
    by_cases hk : k = .backSlash
    · subst hk
      exact ⟨c, _, by rw [display, h]; simp [List.append_assoc]; rfl, h1, h2⟩
    · exact ⟨c, _, by rw [display_node _ _ _ _ _ hk, h]; simp [List.append_assoc]; rfl, h1, h2⟩

theorem displayL_starts (ids : List Nat → Str) (path : List Nat) (n i : Nat) (a : CST) (as : List CST) (r : Str) :
    ∃ c w, displayL printable ids path n i (a :: as) ++ r = indentation i ++ c :: w ∧ c ≠ ' ' ∧ c ≠ ']' := by
  obtain ⟨c, w, h, h1, h2⟩ := display_starts (printable := printable) ids (path ++ [n]) i a
  exact ⟨c, _, by rw [displayL, h]; simp [List.append_assoc]; rfl, h1, h2⟩

theorem end_ne {i : Nat} {c : Char} {w r : Str} (hc : c ≠ ' ' ∧ c ≠ ']') (h : indentation (i + 1) ++ c :: w = indentation i ++ ']' :: r) :
    False := by
  obtain ⟨h1, _⟩ := split_first (p := (· = ' ')) (w := indentation (i + 1)) (w' := indentation i)
    (fun c hc => List.eq_of_mem_replicate hc) (fun c hc => List.eq_of_mem_replicate hc) (by simpa using hc.1) (by simp) h
  have := congrArg List.length h1
  simp [indentation] at this
  omega

variable {ids ids' : List Nat → Str}

mutual

theorem display_unique (hi : ∀ p, IsUuid (ids p)) (hi' : ∀ p, IsUuid (ids' p)) : ∀ (a b : CST) (path path' : List Nat) (i : Nat) (r r' : Str),
    display printable ids path i a ++ r = display printable ids' path' i b ++ r' → a.Alike b ∧ r = r'
  | .leaf k l, b, path, path', i, r, r', h => by
    obtain ⟨c, w, e, _, _, h2⟩ := leafName_letters k
    rw [display, e] at h
    rcases b with ⟨k', l'⟩ | ⟨k', cs', l'⟩
    · obtain ⟨c', w', e', _, _, h2'⟩ := leafName_letters k'
      rw [display, e'] at h
      simp only [List.append_assoc] at h
      obtain ⟨h3, h4⟩ := split_at h2 h2' (List.append_cancel_left h)
      rw [← e, ← e'] at h3
      replace h4 := List.append_cancel_left (as := chars! "id: ") h4
      obtain ⟨_, h5⟩ := uuid_split (hi path) (hi' path') (by cases k <;> simp [leafValue]) (by cases k' <;> simp [leafValue]) h4
      obtain ⟨rfl, rfl⟩ := leafValue_unique h3 (by simpa [List.append_assoc] using h5)
      exact ⟨.leaf, rfl⟩
    · exfalso
      obtain ⟨c', w', e', _, _, h2'⟩ := innerName_letters k'
      by_cases hk : k' = .backSlash
      · subst hk
        rw [display, e'] at h
        simp only [List.append_assoc] at h
        obtain ⟨h3, h4⟩ := split_at h2 h2' (List.append_cancel_left h)
        rw [← e, ← e'] at h3
        exact inner_leaf h3.symm
      · rw [display_node _ _ _ _ _ hk, e'] at h
        simp only [List.append_assoc] at h
        obtain ⟨h3, h4⟩ := split_at h2 h2' (List.append_cancel_left h)
        rw [← e, ← e'] at h3
        exact inner_leaf h3.symm
  | .node k cs l, b, path, path', i, r, r', h => by
    obtain ⟨c, w, e, _, _, h2⟩ := innerName_letters k
    by_cases hk : k = .backSlash
    · subst hk
      rw [display, e] at h
      rcases b with ⟨k', l'⟩ | ⟨k', cs', l'⟩
      · exfalso
        obtain ⟨c', w', e', _, _, h2'⟩ := leafName_letters k'
        rw [display, e'] at h
        simp only [List.append_assoc] at h
        obtain ⟨h3, h4⟩ := split_at h2 h2' (List.append_cancel_left h)
        rw [← e, ← e'] at h3
        exact inner_leaf h3
      · obtain ⟨c', w', e', _, _, h2'⟩ := innerName_letters k'
        by_cases hk : k' = .backSlash
        · subst hk
          rw [display, e'] at h
          simp only [List.append_assoc] at h
          obtain ⟨h3, h4⟩ := split_at h2 h2' (List.append_cancel_left h)
          replace h4 := List.append_cancel_left (as := chars! "id: ") h4
          obtain ⟨_, h5⟩ := uuid_split (hi path) (hi' path') (by simp) (by simp) h4
          injection h5 with _ h5
          exact ⟨.backSlash, h5⟩
        · exfalso
          rw [display_node _ _ _ _ _ hk, e'] at h
          simp only [List.append_assoc] at h
          obtain ⟨h3, h4⟩ := split_at h2 h2' (List.append_cancel_left h)
          rw [← e, ← e'] at h3
          exact hk (innerName_inj h3).symm
    · rw [display_node _ _ _ _ _ hk, e] at h
      rcases b with ⟨k', l'⟩ | ⟨k', cs', l'⟩
      · exfalso
        obtain ⟨c', w', e', _, _, h2'⟩ := leafName_letters k'
        rw [display, e'] at h
        simp only [List.append_assoc] at h
        obtain ⟨h3, h4⟩ := split_at h2 h2' (List.append_cancel_left h)
        rw [← e, ← e'] at h3
        exact inner_leaf h3
      · obtain ⟨c', w', e', _, _, h2'⟩ := innerName_letters k'
        by_cases hk' : k' = .backSlash
        · exfalso
          subst hk'
          rw [display, e'] at h
          simp only [List.append_assoc] at h
          obtain ⟨h3, h4⟩ := split_at h2 h2' (List.append_cancel_left h)
          rw [← e, ← e'] at h3
          exact hk (innerName_inj h3)
        · rw [display_node _ _ _ _ _ hk', e'] at h
          simp only [List.append_assoc] at h
          obtain ⟨h3, h4⟩ := split_at h2 h2' (List.append_cancel_left h)
          rw [← e, ← e'] at h3
          obtain rfl := innerName_inj h3
          replace h4 := List.append_cancel_left (as := chars! "id: ") h4
          obtain ⟨_, h5⟩ := uuid_split (hi path) (hi' path') (by simp) (by simp) h4
          replace h5 := List.append_cancel_left (as := chars! ") [\n") h5
          obtain ⟨h6, h7⟩ := displayL_unique hi hi' cs cs' path path' 0 i r r' h5
          exact ⟨.node h6, h7⟩

theorem displayL_unique (hi : ∀ p, IsUuid (ids p)) (hi' : ∀ p, IsUuid (ids' p)) : ∀ (as bs : List CST) (path path' : List Nat)
    (n i : Nat) (r r' : Str), displayL printable ids path n (i + 1) as ++ (indentation i ++ ']' :: r) =
      displayL printable ids' path' n (i + 1) bs ++ (indentation i ++ ']' :: r') → AlikeL as bs ∧ r = r'
  | [], bs, path, path', n, i, r, r', h => by
    rcases bs with _ | ⟨b, bs⟩
    · rw [displayL, displayL, List.nil_append, List.nil_append] at h
      have := List.append_cancel_left h
      injection this with _ this
      exact ⟨.nil, this⟩
    · obtain ⟨c, w, h1, h2⟩ := displayL_starts (printable := printable) ids' path' n (i + 1) b bs (indentation i ++ ']' :: r')
      rw [h1, displayL, List.nil_append] at h
      exact (end_ne h2 h.symm).elim
  | a :: as, bs, path, path', n, i, r, r', h => by
    rcases bs with _ | ⟨b, bs⟩
    · obtain ⟨c, w, h1, h2⟩ := displayL_starts (printable := printable) ids path n (i + 1) a as (indentation i ++ ']' :: r)
      rw [h1, displayL, List.nil_append] at h
      exact (end_ne h2 h).elim
    · rw [displayL, displayL] at h
      simp only [List.append_assoc] at h
      obtain ⟨h1, h2⟩ := display_unique hi hi' a b (path ++ [n]) (path' ++ [n]) (i + 1) _ _ h
      simp only [List.cons_append, List.nil_append, List.cons.injEq, true_and] at h2
      obtain ⟨h3, h4⟩ := displayL_unique hi hi' as bs path path' (n + 1) i r r' h2
      exact ⟨.cons h1 h3, h4⟩

end

mutual

/-- What is printed does not depend on positions or on what stands behind backslashes. -/
theorem display_alike {a b : CST} (h : a.Alike b) (path : List Nat) (i : Nat) : display printable ids path i a = display printable ids path i b := by
  cases h with
  | leaf => rw [display, display]
  | backSlash => rw [display, display]
  | @node k cs cs' l l' h =>
    by_cases hk : k = .backSlash
    · subst hk; rw [display, display]
    · rw [display_node _ _ _ _ _ hk, display_node _ _ _ _ _ hk, displayL_alike h]

theorem displayL_alike {as bs : List CST} (h : AlikeL as bs) (path : List Nat) (n i : Nat) :
    displayL printable ids path n i as = displayL printable ids path n i bs := by
  cases h with
  | nil => rfl
  | cons h hs => rw [displayL, displayL, display_alike h, displayL_alike hs]

end

end CST

/-! ### errors -/

theorem digits_split {n n' : Nat} {r r' : Str} (hr : ∀ c, r.head? = some c → ¬ IsNameChar c) (hr' : ∀ c, r'.head? = some c → ¬ IsNameChar c)
    (h : Nat.toDigits 10 n ++ r = Nat.toDigits 10 n' ++ r') : n = n' ∧ r = r' := by
  obtain ⟨h1, h2⟩ := names_split (toDigits_name (by decide) (by decide) n) (toDigits_name (by decide) (by decide) n') hr hr' h
  exact ⟨toDigits_inj (by decide) (by decide) _ _ h1, h2⟩

theorem errorMessage_inj {k k' : TErrKind} (h : Server.errorMessage k = Server.errorMessage k') : k = k' := by
  rcases k with (_ | _ | _) | (_ | _ | _) | _ | _ | _ | _ | _ | _ | _ | _ <;>
    rcases k' with (_ | _ | _) | (_ | _ | _) | _ | _ | _ | _ | _ | _ | _ | _ <;> first | rfl | (revert h; decide)

theorem TErr.display_inj {e e' : TErr} (h : e.display = e'.display) : e = e' := by
  rcases e with ⟨k, ⟨a, b⟩, c, d⟩
  rcases e' with ⟨k', ⟨a', b'⟩, c', d'⟩
  simp only [TErr.display, List.append_assoc] at h
  obtain ⟨e1, h1⟩ := digits_split (head_not_name (by decide)) (head_not_name (by decide)) (List.append_cancel_left h)
  obtain ⟨e2, h2⟩ := digits_split (head_not_name (by decide)) (head_not_name (by decide)) (List.append_cancel_left (as := chars! ", column ") h1)
  obtain ⟨e3, h3⟩ := digits_split (head_not_name (by decide)) (head_not_name (by decide)) (List.append_cancel_left (as := chars! " to line ") h2)
  obtain ⟨e4, h4⟩ := digits_split (head_not_name (by decide)) (head_not_name (by decide)) (List.append_cancel_left (as := chars! ", column ") h3)
  rw [e1, e2, e3, e4, errorMessage_inj (List.append_cancel_left (as := chars! ": ") h4)]

/-! ### line breaks in tokens -/

theorem actionC_nl_pool (d : Cl) (look nested : Bool) : actionC .nl d look nested ≠ .pool := by
  revert d look nested; decide

theorem run_few_breaks (gs : List Str) : ∀ m, (∀ g ∈ gs, '\n' ∈ g → g = ['\n']) → '\n' ∉ m.pool →
    ∀ t ∈ run gs m, t.kind ≠ .newLine → '\n' ∉ t.kind.spelling.dropLast := by
  induction gs with
  | nil => intro m _ _ t ht; simp [run, M.eof] at ht; simp [ht, TokKind.spelling]
  | cons g gs ih =>
    intro m hg1 hpool t ht
    by_cases hg : g = NUL
    · simp [run, hg, M.eof] at ht; simp [ht, TokKind.spelling]
    · simp only [run, hg, if_false, List.mem_append] at ht
      by_cases hn : g = ['\n']
      · have ha : act g gs m ≠ .pool := by
          rw [act, action_eq, (cls_nl g).2 hn]
          exact actionC_nl_pool _ _ _
        rcases ht with ht | ht
        · intro hk
          rcases emit_kind _ _ _ _ ht with ⟨_, h⟩ | ⟨_, h⟩ | ⟨_, h⟩ | ⟨k, h1, h⟩
          · simp [h, M.pooled, TokKind.spelling, hn, hpool]
          · simp [h, M.pooled, TokKind.spelling, hn, hpool]
          · simp [h, M.pooled, TokKind.spelling, hn, hpool]
          · rw [h] at hk ⊢
            exact fun h => single_no_nl _ k h1 hk (List.dropLast_subset _ h)
        · refine ih _ (fun g' h' => hg1 g' (by simp [h'])) ?_ t ht
          rw [emit_pool, if_neg ha]
          split
          · exact hpool
          · simp
      · have hng : '\n' ∉ g := fun h => hn (hg1 g (by simp) h)
        rcases ht with ht | ht
        · intro hk
          have : '\n' ∉ t.kind.spelling := by
            rcases emit_kind _ _ _ _ ht with ⟨_, h⟩ | ⟨_, h⟩ | ⟨_, h⟩ | ⟨k, h1, h⟩
            · simp [h, M.pooled, TokKind.spelling, hng, hpool]
            · simp [h, M.pooled, TokKind.spelling, hng, hpool]
            · simp [h, M.pooled, TokKind.spelling, hng, hpool]
            · rw [h] at hk ⊢
              exact single_no_nl _ k h1 hk
          exact fun h => this (List.dropLast_subset _ h)
        · refine ih _ (fun g' h' => hg1 g' (by simp [h'])) ?_ t ht
          rw [emit_pool]
          split
          · simp [hng, hpool]
          · split
            · exact hpool
            · simp

end Brack
