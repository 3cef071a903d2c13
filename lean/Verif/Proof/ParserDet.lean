import Verif.Proof.ParserTree

/-
Helper lemmas: the big-step description is deterministic, so it determines the parser's result.
-/

namespace Brack

theorem StopAt.not_item {t : Token} {ts} (h : StopAt (t :: ts)) (he : HasEof (t :: ts)) :
    exprLeaf t.kind = none ∧ t.kind ≠ .backSlash ∧ ∀ b, t.kind ≠ .bopen b := by
  have hs : itemStop t.kind = true := by
    rcases h t rfl with h | ⟨_, h⟩
    · exact h
    · exact absurd he h
  obtain ⟨k, l⟩ := t
  cases k <;> simp [itemStop] at hs <;> simp [exprLeaf]

theorem StopAt.no_items {ts c cs r} (hs : StopAt ts) (he : HasEof ts) : ¬ EI ts (c :: cs) r := by
  intro h'
  cases h' with
  | leaf hk _ => have := (hs.not_item he).1; rw [hk] at this; cases this
  | esc ht _ _ => exact absurd ht (hs.not_item he).2.1
  | escN ht _ _ => exact absurd ht (hs.not_item he).2.1
  | bclosed ht _ _ _ => exact absurd ht ((hs.not_item he).2.2 _)
  | bunclosed ht _ _ _ => exact absurd ht ((hs.not_item he).2.2 _)

theorem StopAt.newLine {t : Token} {ts} (h : t.kind = .newLine) : StopAt (t :: ts) := by
  intro u hm
  simp only [List.head?_cons, Option.mem_def, Option.some.injEq] at hm
  subst hm
  exact .inl (by rw [h]; rfl)

mutual

theorem EI.det : ∀ {ts cs r}, EI ts cs r → ∀ {cs' r'}, EI ts cs' r' → HasEof ts →
    cs = cs' ∧ r = r'
  | _, _, _, .stop hs => fun h' he => by
    cases h' with
    | stop => exact ⟨rfl, rfl⟩
    | leaf hk _ => have := (hs.not_item he).1; rw [hk] at this; cases this
    | esc ht _ _ => exact absurd ht (hs.not_item he).2.1
    | escN ht _ _ => exact absurd ht (hs.not_item he).2.1
    | bclosed ht _ _ _ => exact absurd ht ((hs.not_item he).2.2 _)
    | bunclosed ht _ _ _ => exact absurd ht ((hs.not_item he).2.2 _)
  | _, _, _, .leaf hk h => fun h' he => by
    cases h' with
    | stop hs => have := (hs.not_item he).1; rw [hk] at this; cases this
    | leaf hk' h' =>
      obtain ⟨rfl, rfl⟩ := h.det h' (he.tail (exprLeaf_ne_eof hk))
      rw [hk] at hk'; cases hk'; exact ⟨rfl, rfl⟩
    | esc ht _ _ => rw [ht] at hk; cases hk
    | escN ht _ _ => rw [ht] at hk; cases hk
    | bclosed ht _ _ _ => rw [ht] at hk; cases hk
    | bunclosed ht _ _ _ => rw [ht] at hk; cases hk
  | _, _, _, .esc ht hv h => fun h' he => by
    cases h' with
    | stop hs => exact absurd ht (hs.not_item he).2.1
    | leaf hk' h' => rw [ht] at hk'; cases hk'
    | esc ht' hv' h' =>
      obtain ⟨rfl, rfl⟩ := h.det h' ((he.tail (by simp [ht])).tail (escapable_ne_eof hv))
      rw [hv] at hv'; cases hv'; exact ⟨rfl, rfl⟩
    | escN ht' hv' h' => rw [hv] at hv'; cases hv'
    | bclosed ht' _ _ _ => rw [ht] at ht'; cases ht'
    | bunclosed ht' _ _ _ => rw [ht] at ht'; cases ht'
  | _, _, _, .escN ht hv h => fun h' he => by
    cases h' with
    | stop hs => exact absurd ht (hs.not_item he).2.1
    | leaf hk' h' => rw [ht] at hk'; cases hk'
    | esc ht' hv' h' => rw [hv] at hv'; cases hv'
    | escN ht' hv' h' =>
      obtain ⟨rfl, rfl⟩ := h.det h' (he.tail (by simp [ht]))
      exact ⟨rfl, rfl⟩
    | bclosed ht' _ _ _ => rw [ht] at ht'; cases ht'
    | bunclosed ht' _ _ _ => rw [ht] at ht'; cases ht'
  | _, _, _, .bclosed ht hb hu h => fun h' he => by
    have he1 := he.tail (by simp [ht])
    have he2 := hb.suffix.1.mp he1
    cases h' with
    | stop hs => exact absurd ht ((hs.not_item he).2.2 _)
    | leaf hk' h' => rw [ht] at hk'; cases hk'
    | esc ht' hv' h' => rw [ht] at ht'; cases ht'
    | escN ht' hv' h' => rw [ht] at ht'; cases ht'
    | bclosed ht' hb' hu' h' =>
      rw [ht] at ht'; cases ht'
      obtain ⟨rfl, e⟩ := hb.det hb' he1
      cases e
      obtain ⟨rfl, rfl⟩ := h.det h' (he2.tail (by simp [hu]))
      exact ⟨rfl, rfl⟩
    | bunclosed ht' hb' hu' h' =>
      rw [ht] at ht'; cases ht'
      obtain ⟨rfl, e⟩ := hb.det hb' he1
      cases e
      exact absurd hu hu'
  | _, _, _, .bunclosed ht hb hu h => fun h' he => by
    have he1 := he.tail (by simp [ht])
    have he2 := hb.suffix.1.mp he1
    cases h' with
    | stop hs => exact absurd ht ((hs.not_item he).2.2 _)
    | leaf hk' h' => rw [ht] at hk'; cases hk'
    | esc ht' hv' h' => rw [ht] at ht'; cases ht'
    | escN ht' hv' h' => rw [ht] at ht'; cases ht'
    | bclosed ht' hb' hu' h' =>
      rw [ht] at ht'; cases ht'
      obtain ⟨rfl, e⟩ := hb.det hb' he1
      cases e
      exact absurd hu' hu
    | bunclosed ht' hb' hu' h' =>
      rw [ht] at ht'; cases ht'
      obtain ⟨rfl, e⟩ := hb.det hb' he1
      cases e
      obtain ⟨rfl, rfl⟩ := h.det h' he2
      exact ⟨rfl, rfl⟩

theorem BI.det : ∀ {ts cs r}, BI ts cs r → ∀ {cs' r'}, BI ts cs' r' → HasEof ts →
    cs = cs' ∧ r = r'
  | _, _, _, .stop hs hn => fun h' he => by
    cases h' with
    | stop => exact ⟨rfl, rfl⟩
    | expr h1 _ => exact absurd h1 (hs.no_items he)
    | newline ht _ => exact absurd ht (hn _ rfl)
  | _, _, _, .expr h1 h2 => fun h' he => by
    cases h' with
    | stop hs _ => exact absurd h1 (hs.no_items he)
    | expr h1' h2' =>
      obtain ⟨e, rfl⟩ := h1.det h1' he
      cases e
      obtain ⟨rfl, rfl⟩ := h2.det h2' (h1.suffix.1.mp he)
      exact ⟨rfl, rfl⟩
    | newline ht _ => exact absurd h1 ((StopAt.newLine ht).no_items he)
  | _, _, _, .newline ht h => fun h' he => by
    cases h' with
    | stop _ hn => exact absurd ht (hn _ rfl)
    | expr h1 _ => exact absurd h1 ((StopAt.newLine ht).no_items he)
    | newline ht' h' =>
      obtain ⟨rfl, rfl⟩ := h.det h' (he.tail (by simp [ht]))
      exact ⟨rfl, rfl⟩

end

theorem StopAt.close {t : Token} {ts b} (h : t.kind = .bclose b) : StopAt (t :: ts) := by
  intro u hm
  simp only [List.head?_cons, Option.mem_def, Option.some.injEq] at hm
  subst hm
  exact .inl (by rw [h]; rfl)

theorem LI.det {ts c r c' r'} (h : LI ts c r) (h' : LI ts c' r') (he : HasEof ts) :
    c = c' ∧ r = r' := by
  cases h with
  | expr h =>
    cases h' with
    | expr h' => obtain ⟨e, rfl⟩ := h.det h' he; cases e; exact ⟨rfl, rfl⟩
    | close ht => have := h.det (.stop (.close ht)) he; simp at this
  | close ht =>
    cases h' with
    | expr h' => have := h'.det (.stop (.close ht)) he; simp at this
    | close ht' => rw [ht] at ht'; cases ht'; exact ⟨rfl, rfl⟩

theorem SI.det : ∀ {ts cs r}, SI ts cs r → ∀ {cs' r'}, SI ts cs' r' → HasEof ts →
    cs = cs' ∧ r = r'
  | _, _, _, .stop hn => fun h' he => by
    cases h' with
    | stop => exact ⟨rfl, rfl⟩
    | more ht hl _ => exact absurd (hn _ _ rfl ht) (hl.not_noLine (he.tail (by simp [ht])))
  | _, _, _, .more ht hl h => fun h' he => by
    have he1 := he.tail (by simp [ht])
    cases h' with
    | stop hn => exact absurd (hn _ _ rfl ht) (hl.not_noLine he1)
    | more ht' hl' h' =>
      obtain ⟨rfl, rfl⟩ := hl.det hl' he1
      obtain ⟨rfl, rfl⟩ := h.det h' (hl.hasEof.mp he1)
      exact ⟨rfl, rfl⟩

theorem TI.det {ts c r c' r'} (h : TI ts c r) (h' : TI ts c' r') (he : HasEof ts) :
    c = c' ∧ r = r' := by
  cases h with
  | mk h1 h2 =>
    cases h' with
    | mk h1' h2' =>
      obtain ⟨rfl, rfl⟩ := h1.det h1' he
      obtain ⟨rfl, rfl⟩ := h2.det h2' (h1.hasEof.mp he)
      exact ⟨rfl, rfl⟩

theorem NI.det : ∀ {ts cs r}, NI ts cs r → ∀ {cs' r'}, NI ts cs' r' → cs = cs' ∧ r = r'
  | _, _, _, .stop hn => fun h' => by
    cases h' with
    | stop => exact ⟨rfl, rfl⟩
    | more ht _ => exact absurd ht (hn _ rfl)
  | _, _, _, .more ht h => fun h' => by
    cases h' with
    | stop hn => exact absurd ht (hn _ rfl)
    | more ht' h' => obtain ⟨rfl, rfl⟩ := h.det h'; exact ⟨rfl, rfl⟩

theorem DI.det : ∀ {ts cs r}, DI ts cs r → ∀ {cs' r'}, DI ts cs' r' → HasEof ts →
    cs = cs' ∧ r = r'
  | _, _, _, .noStmt hn => fun h' he => by
    cases h' with
    | noStmt => exact ⟨rfl, rfl⟩
    | lastStmt => exact ⟨rfl, rfl⟩
    | more hT _ _ _ => exact absurd hn (hT.not_noLine he)
  | _, _, _, .lastStmt hT hn => fun h' he => by
    cases h' with
    | noStmt => exact ⟨rfl, rfl⟩
    | lastStmt => exact ⟨rfl, rfl⟩
    | more hT' ht _ _ =>
      obtain ⟨_, rfl⟩ := hT.det hT' he
      exact absurd ht (hn _ rfl)
  | _, _, _, .more hT ht hN h => fun h' he => by
    cases h' with
    | noStmt hn => exact absurd hn (hT.not_noLine he)
    | lastStmt hT' hn =>
      obtain ⟨_, rfl⟩ := hT.det hT' he
      exact absurd ht (hn _ rfl)
    | more hT' ht' hN' h' =>
      obtain ⟨rfl, e⟩ := hT.det hT' he
      cases e
      obtain ⟨rfl, rfl⟩ := hN.det hN'
      obtain ⟨rfl, rfl⟩ := h.det h' (hN.hasEof.mp ((hT.hasEof.mp he).tail (by simp [ht])))
      exact ⟨rfl, rfl⟩

theorem OI.det {ts c r c' r'} (h : OI ts c r) (h' : OI ts c' r') (he : HasEof ts) :
    c = c' ∧ r = r' := by
  cases h with
  | none hn =>
    cases h' with
    | none => exact ⟨rfl, rfl⟩
    | some hT => exact absurd hn (hT.not_noLine he)
  | some hT =>
    cases h' with
    | none hn => exact absurd hn (hT.not_noLine he)
    | some hT' => obtain ⟨rfl, rfl⟩ := hT.det hT' he; exact ⟨rfl, rfl⟩

/-- The big-step description determines the parser's result. -/
theorem PI.parse {ts c rest} (h : PI ts c rest) : parse ts = .ok c := by
  have he := h.hasEof
  cases h with
  | mk hD hO hN ht =>
    rcases parse_spec (.inl he) with ⟨c', rest', h1, h2⟩ |
      ⟨m, cs, r, cs2, r2, ns, r3, h1, hD', hO', hN', hne⟩
    · rw [h1]
      cases h2 with
      | mk hD' hO' hN' ht' =>
        obtain ⟨rfl, rfl⟩ := hD.det hD' he
        obtain ⟨rfl, rfl⟩ := hO.det hO' (hD.hasEof.mp he)
        obtain ⟨rfl, e⟩ := hN.det hN'
        cases e
        rfl
    · exfalso
      obtain ⟨rfl, rfl⟩ := hD.det hD' he
      obtain ⟨rfl, rfl⟩ := hO.det hO' (hD.hasEof.mp he)
      obtain ⟨rfl, rfl⟩ := hN.det hN'
      exact hne _ rfl ht

end Brack
