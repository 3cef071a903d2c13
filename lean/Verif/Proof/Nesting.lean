import Verif.Spec.Nesting
import Verif.Proof.Parts
import Verif.Proof.ParserTree

/-
Helper lemmas: trees are as deep as brackets are nested, and not larger than the text.
-/

namespace Brack

theorem heightL_le (cs : List CST) (n : Nat) : CST.heightL cs ≤ n ↔ ∀ c ∈ cs, c.height ≤ n := by
  induction cs with
  | nil => simp [CST.heightL]
  | cons c cs ih => simp [CST.heightL, Nat.max_le, ih]

theorem sizeL_append (cs ds : List CST) : CST.sizeL (cs ++ ds) = CST.sizeL cs + CST.sizeL ds := by
  induction cs with
  | nil => simp [CST.sizeL]
  | cons c cs ih => simp [CST.sizeL, ih]; omega

theorem openMost_le (ts : List Token) (n : Nat) : openMost ts ≤ n ↔ ∀ x ∈ tokenParts [] ts, openAt x ≤ n := by
  unfold openMost
  induction tokenParts [] ts with
  | nil => simp
  | cons x xs ih => simp [Nat.max_le, ih]

/-! ### the kids of a bracket -/

theorem argLoop_kid {tl} (ht : IsTail tl) (cs : List CST) (hs : ∀ c ∈ cs, c.simple = true) :
    ∀ prev xs l comma, ∀ d ∈ (argLoop prev (.node .expr xs l) comma (cs ++ tl)).1,
      (∃ k l, d = .leaf k l) ∨ ∃ ys l, d = .node .expr ys l ∧ ∀ y ∈ ys, y ∈ xs ∨ y ∈ cs := by
  induction cs with
  | nil =>
    intro prev xs l comma d hd
    rw [List.nil_append, argLoop_tail ht, List.mem_append] at hd
    rcases hd with hd | hd
    · split at hd
      · simp at hd
      · rw [List.mem_singleton] at hd
        exact .inr ⟨xs, l, hd, fun y hy => .inl hy⟩
    · rcases ht with rfl | ⟨b, l', rfl⟩
      · simp at hd
      · rw [List.mem_singleton] at hd; exact .inl ⟨_, _, hd⟩
  | cons c cs ih =>
    intro prev xs l comma d hd
    have ih := ih (fun c hc => hs c (by simp [hc]))
    rcases simple_cases (hs c (by simp)) with ⟨l', rfl⟩ | ⟨l', rfl⟩ | hc
    · rcases xs with _ | ⟨x, xs⟩
      · rw [List.cons_append, argLoop_comma_nil] at hd
        rcases ih _ _ _ _ d hd with h | ⟨ys, l, h, hy⟩
        · exact .inl h
        · exact .inr ⟨ys, l, h, fun y h => (hy y h).imp id (List.mem_cons_of_mem _)⟩
      · rw [List.cons_append, argLoop_comma_cons, List.mem_cons] at hd
        rcases hd with rfl | hd
        · exact .inr ⟨_, _, rfl, fun y hy => .inl hy⟩
        · rcases ih _ _ _ _ d hd with h | ⟨ys, l, h, hy⟩
          · exact .inl h
          · exact .inr ⟨ys, l, h, fun y h => .inr (List.mem_cons_of_mem _ ((hy y h).resolve_left (by simp)))⟩
    · rw [List.cons_append, argLoop_dot] at hd
      rcases ih _ _ _ _ d hd with h | ⟨ys, l, h, hy⟩
      · exact .inl h
      · exact .inr ⟨ys, l, h, fun y h => (hy y h).imp id (List.mem_cons_of_mem _)⟩
    · rw [List.cons_append, argLoop_item hc] at hd
      rcases ih _ _ _ _ d hd with h | ⟨ys, l, h, hy⟩
      · exact .inl h
      · refine .inr ⟨ys, l, h, fun y h => ?_⟩
        rcases hy y h with h | h
        · rw [List.mem_append, List.mem_singleton] at h
          rcases h with h | rfl
          · exact .inl h
          · exact .inr (by simp)
        · exact .inr (by simp [h])

theorem bracketKids_kid (b l1) (ds : List CST) (hs : ∀ d ∈ ds, d.simple = true) {tl} (ht : IsTail tl) :
    ∀ d ∈ bracketKids (.leaf (.bopen b) l1 :: ds ++ tl),
      (∃ k l, d = .leaf k l) ∨ d ∈ ds ∨ ∃ ys l, d = .node .expr ys l ∧ ∀ y ∈ ys, y ∈ ds := by
  intro d hd
  unfold bracketKids at hd
  have hd := (List.mem_filter.1 hd).1
  rw [removeBlanks_bracket b l1 ds ht] at hd
  have hm : ∀ c, c ∈ removeBlanks ds → c ∈ ds := fun c hc => (mem_removeBlanks hc).1
  rcases checkValidArguments_cases b l1 (removeBlanks ds) ht with ⟨c1, c2, c3, rest, he, h⟩ | ⟨_, h⟩
  · rw [h] at hd
    rw [he] at hm
    simp only [List.mem_cons] at hd
    rcases hd with rfl | rfl | rfl | rfl | hd
    · exact .inl ⟨_, _, rfl⟩
    · exact .inr (.inl (hm _ (by simp)))
    · exact .inr (.inl (hm _ (by simp)))
    · exact .inr (.inl (hm _ (by simp)))
    · have hr : ∀ c ∈ rest, c.simple = true := fun c hc => hs c (hm c (by simp [hc]))
      rcases argLoop_kid ht rest hr _ _ _ _ d hd with h | ⟨ys, l, h, hy⟩
      · exact .inl h
      · exact .inr (.inr ⟨ys, l, h, fun y h => hm y (by simp [(hy y h).resolve_left (by simp)])⟩)
  · rw [h] at hd
    simp only [List.cons_append, List.mem_cons, List.mem_append] at hd
    rcases hd with rfl | hd | hd
    · exact .inl ⟨_, _, rfl⟩
    · exact .inr (.inl (hm d hd))
    · rcases ht with rfl | ⟨b', l', rfl⟩
      · simp at hd
      · rw [List.mem_singleton] at hd; exact .inl ⟨_, _, hd⟩

theorem sizeL_filter (p : CST → Bool) (cs : List CST) : CST.sizeL (cs.filter p) ≤ CST.sizeL cs := by
  induction cs with
  | nil => simp
  | cons c cs ih =>
    rw [List.filter_cons]
    split
    · simp only [CST.sizeL]; omega
    · simp only [CST.sizeL]; omega

theorem size_length_filter (p : CST → Bool) (cs : List CST) :
    CST.sizeL (cs.filter p) + (cs.filter p).length ≤ CST.sizeL cs + cs.length := by
  have h1 := sizeL_filter p cs
  have h2 := List.length_filter_le p cs
  omega

theorem argLoop_size {tl} (ht : IsTail tl) (cs : List CST) (hs : ∀ c ∈ cs, c.simple = true) :
    ∀ prev xs l comma, CST.sizeL (removeElements (argLoop prev (.node .expr xs l) comma (cs ++ tl)).1) ≤
      CST.sizeL xs + (if xs = [] then 0 else 1) + CST.sizeL cs + cs.length := by
  induction cs with
  | nil =>
    intro prev xs l comma
    rw [List.nil_append, argLoop_tail ht]
    rcases xs with _ | ⟨x, xs⟩ <;> rcases ht with rfl | ⟨b, l', rfl⟩ <;>
      simp [CST.sizeL, CST.size, removeElements, CST.notInAst] <;> omega
  | cons c cs ih =>
    intro prev xs l comma
    have ih := ih (fun c hc => hs c (by simp [hc]))
    rcases simple_cases (hs c (by simp)) with ⟨l', rfl⟩ | ⟨l', rfl⟩ | hc
    · rcases xs with _ | ⟨x, xs⟩
      · rw [List.cons_append, argLoop_comma_nil]
        have := ih (.leaf .comma l') [] l comma
        simp only [CST.sizeL, CST.size, List.length_cons] at this ⊢; omega
      · rw [List.cons_append, argLoop_comma_cons, removeElements_cons, sizeL_append]
        have := ih (.leaf .comma l') [] ⟨⟨0, 0⟩, ⟨0, 0⟩⟩ true
        have h2 := sizeL_filter (fun c => !c.notInAst) [CST.node .expr (x :: xs) l]
        change CST.sizeL (removeElements [CST.node .expr (x :: xs) l]) ≤ _ at h2
        change CST.sizeL (removeElements (argLoop (.leaf .comma l') (CST.new .expr) true (cs ++ tl)).1) ≤ _ at this
        simp only [CST.sizeL, CST.size, List.length_cons, if_true, reduceCtorEq, if_false] at this h2 ⊢
        omega
    · rw [List.cons_append, argLoop_dot]
      have := ih (.leaf .dot l') xs l comma
      simp only [CST.sizeL, CST.size, List.length_cons] at this ⊢; omega
    · rw [List.cons_append, argLoop_item hc]
      have := ih c (xs ++ [c]) (mergeLocation l c.loc) false
      rw [sizeL_append, if_neg (by simp)] at this
      simp only [CST.sizeL, List.length_cons] at this ⊢; split <;> omega

theorem bracketKids_size (b l1) (ds : List CST) (hs : ∀ d ∈ ds, d.simple = true) {tl} (ht : IsTail tl) :
    CST.sizeL (bracketKids (.leaf (.bopen b) l1 :: ds ++ tl)) ≤ CST.sizeL ds + ds.length := by
  unfold bracketKids
  rw [removeBlanks_bracket b l1 ds ht]
  have hm := size_length_filter (fun c => !c.isBlank) ds
  change CST.sizeL (removeBlanks ds) + (removeBlanks ds).length ≤ _ at hm
  have hrem : ∀ cs : List CST, CST.sizeL (removeElements cs) ≤ CST.sizeL cs := fun cs => sizeL_filter _ cs
  have hopen : removeElements [CST.leaf (.bopen b) l1] = [] := rfl
  have htl : removeElements tl = [] := by rcases ht with rfl | ⟨b, l', rfl⟩ <;> rfl
  rcases checkValidArguments_cases b l1 (removeBlanks ds) ht with ⟨c1, c2, c3, rest, he, h⟩ | ⟨_, h⟩
  · rw [h]
    have hr : ∀ c ∈ rest, c.simple = true := fun c hc => hs c (mem_removeBlanks (by rw [he]; simp [hc])).1
    have h1 := argLoop_size ht rest hr c3 [] ⟨⟨0, 0⟩, ⟨0, 0⟩⟩ false
    change CST.sizeL (removeElements (argLoop c3 (CST.new .expr) false (rest ++ tl)).1) ≤ _ at h1
    have h2 := hrem [c1, c2, c3]
    have e : removeElements (.leaf (.bopen b) l1 :: c1 :: c2 :: c3 :: (argLoop c3 (CST.new .expr) false (rest ++ tl)).1) =
        removeElements [c1, c2, c3] ++ removeElements (argLoop c3 (CST.new .expr) false (rest ++ tl)).1 := by
      rw [removeElements_cons, hopen, List.nil_append]
      simp only [removeElements, ← List.filter_append]; rfl
    show CST.sizeL (removeElements (.leaf (.bopen b) l1 :: c1 :: c2 :: c3 :: (argLoop c3 (CST.new .expr) false (rest ++ tl)).1)) ≤ _
    rw [e, sizeL_append]
    rw [he] at hm
    simp only [CST.sizeL, List.length_cons, if_true] at h1 h2 hm ⊢
    omega
  · rw [h]
    have e : removeElements (.leaf (.bopen b) l1 :: removeBlanks ds ++ tl) = removeElements (removeBlanks ds) := by
      rw [List.cons_append, removeElements_cons, hopen, List.nil_append]
      have : removeElements (removeBlanks ds ++ tl) = removeElements (removeBlanks ds) ++ removeElements tl := by
        simp only [removeElements, ← List.filter_append]
      rw [this, htl, List.append_nil]
    show CST.sizeL (removeElements (.leaf (.bopen b) l1 :: removeBlanks ds ++ tl)) ≤ _
    rw [e]
    have := hrem (removeBlanks ds)
    omega

/-! ### heights -/

mutual

theorem XI.height : ∀ {c d es}, XI c d es → ∀ (st : Around) (N : Nat), (∀ x ∈ d.lay st, openAt x ≤ N) →
    d.height ≤ 2 * (N - st.length) + 1 ∧ c.height ≤ 2 * (N - st.length) + 2
  | _, _, _, .leaf _, st, N, _ => by simp [CST.height]
  | _, _, _, .escaped _, st, N, _ => by simp [CST.height, CST.heightL]
  | _, _, _, .stray, st, N, _ => by simp [CST.height, CST.heightL]
  | _, _, _, @XI.closed b cs l l1 l2 ds es h, st, N, hN => by
    have hk := bracketKids_lay ((b, l.start) :: st) b l1 ds h.simple (.inr ⟨b, l2, rfl⟩)
    rw [CST.lay, hk] at hN
    have h0 := hN _ (List.mem_cons_self ..)
    have h1 := h.height ((b, l.start) :: st) N (fun x hx => hN x (List.mem_cons_of_mem _ hx))
    simp only [openAt, List.length_cons] at h0 h1
    rw [CST.height, CST.height]
    constructor
    · have : CST.heightL (bracketKids (.leaf (.bopen b) l1 :: ds ++ [.leaf (.bclose b) l2])) ≤ 2 * (N - (st.length + 1)) + 2 := by
        rw [heightL_le]
        intro d hd
        rcases bracketKids_kid b l1 ds h.simple (.inr ⟨b, l2, rfl⟩) d hd with ⟨k, l, rfl⟩ | hd | ⟨ys, l, rfl, hy⟩
        · simp [CST.height]
        · have := h1.1 d hd; omega
        · rw [CST.height]
          have := (heightL_le ys (2 * (N - (st.length + 1)) + 1)).2 (fun y hyy => h1.1 y (hy y hyy))
          omega
      omega
    · have : CST.heightL (.leaf (.bopen b) l1 :: cs ++ [.leaf (.bclose b) l2]) ≤ 2 * (N - (st.length + 1)) + 3 := by
        rw [heightL_le]
        intro d hd
        simp only [List.cons_append, List.mem_cons, List.mem_append, List.not_mem_nil, or_false] at hd
        rcases hd with rfl | hd | rfl
        · simp [CST.height]
        · exact h1.2 d hd
        · simp [CST.height]
      omega
  | _, _, _, @XI.unclosed b cs l l1 ds es h, st, N, hN => by
    have hk := bracketKids_lay ((b, l.start) :: st) b l1 ds h.simple (.inl rfl)
    have hm := bracketKids_kid b l1 ds h.simple (.inl rfl)
    rw [List.append_nil] at hk hm
    rw [CST.lay, hk] at hN
    have h0 := hN _ (List.mem_cons_self ..)
    have h1 := h.height ((b, l.start) :: st) N (fun x hx => hN x (List.mem_cons_of_mem _ hx))
    simp only [openAt, List.length_cons] at h0 h1
    rw [CST.height, CST.height]
    constructor
    · have : CST.heightL (bracketKids (.leaf (.bopen b) l1 :: ds)) ≤ 2 * (N - (st.length + 1)) + 2 := by
        rw [heightL_le]
        intro d hd
        rcases hm d hd with ⟨k, l, rfl⟩ | hd | ⟨ys, l, rfl, hy⟩
        · simp [CST.height]
        · have := h1.1 d hd; omega
        · rw [CST.height]
          have := (heightL_le ys (2 * (N - (st.length + 1)) + 1)).2 (fun y hyy => h1.1 y (hy y hyy))
          omega
      omega
    · have : CST.heightL (.leaf (.bopen b) l1 :: cs) ≤ 2 * (N - (st.length + 1)) + 3 := by
        rw [heightL_le]
        intro d hd
        rw [List.mem_cons] at hd
        rcases hd with rfl | hd
        · simp [CST.height]
        · exact h1.2 d hd
      omega

theorem XL.height : ∀ {cs ds es}, XL cs ds es → ∀ (st : Around) (N : Nat), (∀ x ∈ CST.layL st ds, openAt x ≤ N) →
    (∀ d ∈ ds, d.height ≤ 2 * (N - st.length) + 1) ∧ ∀ c ∈ cs, c.height ≤ 2 * (N - st.length) + 2
  | _, _, _, .nil, st, N, _ => by simp
  | _, _, _, .cons h hs, st, N, hN => by
    simp only [CST.layL, List.mem_append] at hN
    have h1 := h.height st N (fun x hx => hN x (.inl hx))
    have h2 := hs.height st N (fun x hx => hN x (.inr hx))
    simp only [List.forall_mem_cons]
    exact ⟨⟨h1.1, h2.1⟩, h1.2, h2.2⟩

theorem XB.height : ∀ {cs ds es}, XB cs ds es → ∀ (st : Around) (N : Nat), (∀ x ∈ CST.layL st ds, openAt x ≤ N) →
    (∀ d ∈ ds, d.height ≤ 2 * (N - st.length) + 1) ∧ ∀ c ∈ cs, c.height ≤ 2 * (N - st.length) + 3
  | _, _, _, .nil, st, N, _ => by simp
  | _, _, _, .expr _ h hs, st, N, hN => by
    simp only [layL_append, List.mem_append] at hN
    have h1 := h.height st N (fun x hx => hN x (.inl hx))
    have h2 := hs.height st N (fun x hx => hN x (.inr hx))
    refine ⟨fun d hd => ?_, fun c hc => ?_⟩
    · rcases List.mem_append.1 hd with hd | hd
      · exact h1.1 d hd
      · exact h2.1 d hd
    · rcases List.mem_cons.1 hc with rfl | hc
      · rw [CST.height]
        have := (heightL_le _ _).2 h1.2
        omega
      · exact h2.2 c hc
  | _, _, _, .newline hs, st, N, hN => by
    simp only [CST.layL, List.mem_append] at hN
    have h2 := hs.height st N (fun x hx => hN x (.inr hx))
    refine ⟨fun d hd => ?_, fun c hc => ?_⟩
    · rcases List.mem_cons.1 hd with rfl | hd
      · simp [CST.height]
      · exact h2.1 d hd
    · rcases List.mem_cons.1 hc with rfl | hc
      · simp [CST.height]
      · exact h2.2 c hc

end

theorem XLine.height {c ds es} (h : XLine c ds es) (N : Nat) (hN : ∀ x ∈ CST.layL [] ds, openAt x ≤ N) :
    (∀ d ∈ ds, d.height ≤ 2 * N + 2) ∧ c.height ≤ 2 * N + 3 := by
  cases h with
  | close => simp [CST.height]
  | newline => simp [CST.height]
  | expr _ h =>
    have h1 := h.height [] N (by simpa [CST.layL, CST.lay] using hN)
    have h2 := (heightL_le _ _).2 h1.1
    have h3 := (heightL_le _ _).2 h1.2
    simp only [List.length_nil, Nat.sub_zero] at h2 h3
    simp only [List.mem_singleton, forall_eq, CST.height]
    omega

theorem XLines.height {cs ds es} (h : XLines cs ds es) (N : Nat) (hN : ∀ x ∈ CST.layL [] ds, openAt x ≤ N) :
    (∀ d ∈ ds, d.height ≤ 2 * N + 2) ∧ ∀ c ∈ cs, c.height ≤ 2 * N + 3 := by
  induction h with
  | nil => simp
  | cons h _ ih =>
    simp only [layL_append, List.mem_append] at hN
    have h1 := h.height N (fun x hx => hN x (.inl hx))
    have h2 := ih (fun x hx => hN x (.inr hx))
    refine ⟨fun d hd => ?_, fun c hc => ?_⟩
    · rcases List.mem_append.1 hd with hd | hd
      · exact h1.1 d hd
      · exact h2.1 d hd
    · rcases List.mem_cons.1 hc with rfl | hc
      · exact h1.2
      · exact h2.2 c hc

theorem XChild.height {c ds es} (h : XChild c ds es) (N : Nat) (hN : ∀ x ∈ CST.layL [] ds, openAt x ≤ N) :
    (∀ d ∈ ds, d.height ≤ 2 * N + 3) ∧ c.height ≤ 2 * N + 4 := by
  cases h with
  | eof => simp [CST.height]
  | newline => simp [CST.height]
  | stmt h =>
    have h1 := h.height N (by simpa [CST.layL, CST.lay] using hN)
    have h2 := (heightL_le _ _).2 h1.1
    have h3 := (heightL_le _ _).2 h1.2
    simp only [List.mem_singleton, forall_eq, CST.height]
    omega

theorem XDoc.height {cs ds es} (h : XDoc cs ds es) (N : Nat) (hN : ∀ x ∈ CST.layL [] ds, openAt x ≤ N) :
    (∀ d ∈ ds, d.height ≤ 2 * N + 3) ∧ ∀ c ∈ cs, c.height ≤ 2 * N + 4 := by
  induction h with
  | nil => simp
  | cons h _ ih =>
    simp only [layL_append, List.mem_append] at hN
    have h1 := h.height N (fun x hx => hN x (.inl hx))
    have h2 := ih (fun x hx => hN x (.inr hx))
    refine ⟨fun d hd => ?_, fun c hc => ?_⟩
    · rcases List.mem_append.1 hd with hd | hd
      · exact h1.1 d hd
      · exact h2.1 d hd
    · rcases List.mem_cons.1 hc with rfl | hc
      · exact h1.2
      · exact h2.2 c hc

/-! ### sizes -/

theorem tokensL_expr (cs : List CST) (l) : (CST.node .expr cs l).tokens = CST.tokensL cs := by
  simp [CST.tokens]

mutual

theorem XI.size : ∀ {c d es}, XI c d es → d.size + 1 ≤ 3 * c.tokens.length ∧ c.size + 1 ≤ 3 * c.tokens.length
  | _, _, _, .leaf _ => by simp [CST.size, CST.tokens]
  | _, _, _, @XI.escaped c k l l' hk => by
    have : (escapes.lookup c).isSome = true := by
      rw [List.lookup_isSome_iff]
      exact ⟨(c, k), hk, by simp⟩
    obtain ⟨k', hk'⟩ := Option.isSome_iff_exists.1 this
    simp [CST.size, CST.sizeL, CST.tokens, hk']
  | _, _, _, .stray => by simp [CST.size, CST.sizeL, CST.tokens]
  | _, _, _, @XI.closed b cs l l1 l2 ds es h => by
    have h1 := bracketKids_size b l1 ds h.simple (.inr ⟨b, l2, rfl⟩)
    have h2 := h.size
    simp only [List.cons_append] at h1
    simp only [CST.size, CST.tokens, CST.tokensL, CST.sizeL, sizeL_append, tokensL_append, List.length_append, List.length_cons,
      List.length_nil, List.cons_append]
    omega
  | _, _, _, @XI.unclosed b cs l l1 ds es h => by
    have h1 := bracketKids_size b l1 ds h.simple (.inl rfl)
    have h2 := h.size
    rw [List.append_nil] at h1
    simp only [CST.size, CST.tokens, CST.tokensL, CST.sizeL, List.length_append, List.length_cons, List.length_nil]
    omega

theorem XL.size : ∀ {cs ds es}, XL cs ds es →
    CST.sizeL ds + ds.length ≤ 3 * (CST.tokensL cs).length ∧ CST.sizeL cs + cs.length ≤ 3 * (CST.tokensL cs).length
  | _, _, _, .nil => by simp [CST.sizeL]
  | _, _, _, .cons h hs => by
    have h1 := h.size
    have h2 := hs.size
    simp only [CST.sizeL, CST.tokensL, List.length_append, List.length_cons]
    omega

theorem XB.size : ∀ {cs ds es}, XB cs ds es →
    CST.sizeL ds + ds.length ≤ 3 * (CST.tokensL cs).length ∧ CST.sizeL cs ≤ 3 * (CST.tokensL cs).length
  | _, _, _, .nil => by simp [CST.sizeL]
  | _, _, _, @XB.expr cs l ds es rest ds' es' hne h hs => by
    have h1 := h.size
    have h2 := hs.size
    have h3 := List.length_pos_iff.2 hne
    simp only [CST.sizeL, CST.tokensL, tokensL_expr, sizeL_append, List.length_append, CST.size]
    omega
  | _, _, _, .newline hs => by
    have h2 := hs.size
    simp only [CST.sizeL, CST.size, CST.tokensL, CST.tokens, List.length_append, List.length_cons, List.length_nil]
    omega

end

theorem XLine.size {c ds es} (h : XLine c ds es) : CST.sizeL ds ≤ 3 * c.tokens.length ∧ c.size ≤ 3 * c.tokens.length := by
  cases h with
  | close => simp [CST.size, CST.sizeL, CST.tokens]
  | newline => simp [CST.size, CST.sizeL, CST.tokens]
  | @expr cs ds es l hne h =>
    have h1 := h.size
    have h3 := List.length_pos_iff.2 hne
    have h4 : ds.length = cs.length := by
      clear h1 h3 hne
      induction h using XL.rec (motive_1 := fun _ _ _ _ => True) (motive_3 := fun _ _ _ _ => True) <;> simp_all
    simp only [CST.sizeL, CST.size, tokensL_expr]
    omega

theorem XLines.size {cs ds es} (h : XLines cs ds es) :
    CST.sizeL ds ≤ 3 * (CST.tokensL cs).length ∧ CST.sizeL cs ≤ 3 * (CST.tokensL cs).length := by
  induction h with
  | nil => simp [CST.sizeL]
  | cons h _ ih =>
    have := h.size
    simp only [CST.sizeL, CST.tokensL, sizeL_append, List.length_append]
    omega

theorem XChild.size {c ds es} (h : XChild c ds es) (hc : c.tokens ≠ []) :
    CST.sizeL ds ≤ 4 * c.tokens.length ∧ c.size ≤ 4 * c.tokens.length := by
  have h0 := List.length_pos_iff.2 hc
  cases h with
  | eof => simp [CST.size, CST.sizeL, CST.tokens]
  | newline => simp [CST.size, CST.sizeL, CST.tokens]
  | @stmt cs ds es l h =>
    have h1 := h.size
    simp only [CST.sizeL, CST.size, CST.tokens] at h0 ⊢
    omega

theorem XDoc.size {cs ds es} (h : XDoc cs ds es) (hc : ∀ c ∈ cs, c.tokens ≠ []) :
    CST.sizeL ds ≤ 4 * (CST.tokensL cs).length ∧ CST.sizeL cs ≤ 4 * (CST.tokensL cs).length := by
  induction h with
  | nil => simp [CST.sizeL]
  | cons h _ ih =>
    have h1 := h.size (hc _ (by simp))
    have h2 := ih (fun c h => hc c (by simp [h]))
    simp only [CST.sizeL, CST.tokensL, sizeL_append, List.length_append]
    omega

theorem GItem.tokens_ne {c} (h : GItem c) : c.tokens ≠ [] := by
  cases h <;> simp [CST.tokens, CST.tokensL]

theorem GLine.tokens_ne {c} (h : GLine c) : c.tokens ≠ [] := by
  cases h with
  | close => simp [CST.tokens]
  | @expr cs l hne h =>
    rcases cs with _ | ⟨c, cs⟩
    · exact absurd rfl hne
    · simp [CST.tokens, CST.tokensL, (h c (by simp)).tokens_ne]

theorem GStmt.tokens_ne {c} (h : GStmt c) : c.tokens ≠ [] := by
  cases h with
  | mk h => cases h with
    | one h => simp [CST.tokens, CST.tokensL, h.tokens_ne]
    | more h => simp [CST.tokens, CST.tokensL]

theorem GNewlines.tokens_ne {cs} (h : GNewlines cs) : ∀ c ∈ cs, c.tokens ≠ [] := by
  intro c hc
  obtain ⟨l, rfl⟩ := h c hc
  simp [CST.tokens]

theorem GChildren.tokens_ne {cs} (h : GChildren cs) : ∀ c ∈ cs, c.tokens ≠ [] := by
  induction h with
  | more hs hn _ ih =>
    intro c hc
    simp only [List.cons_append, List.mem_cons, List.mem_append] at hc
    rcases hc with rfl | rfl | rfl | hc | hc
    · exact hs.tokens_ne
    · simp [CST.tokens]
    · simp [CST.tokens]
    · exact hn.tokens_ne c hc
    · exact ih c hc
  | last hs hn =>
    intro c hc
    simp only [List.cons_append, List.mem_cons, List.mem_append, List.not_mem_nil, or_false] at hc
    rcases hc with rfl | hc | rfl
    · exact hs.tokens_ne
    · exact hn.tokens_ne c hc
    · simp [CST.tokens]
  | empty hn =>
    intro c hc
    simp only [List.mem_append, List.mem_cons, List.not_mem_nil, or_false] at hc
    rcases hc with hc | rfl
    · exact hn.tokens_ne c hc
    · simp [CST.tokens]

/-! ### the abstract tree -/

mutual

theorem aux_measure (ids : Nat → Str) : ∀ (c : CST) (n : Nat) {a m}, aux ids n c = .ok (a, m) →
    a.height = c.height ∧ a.size = c.size
  | .leaf k l, n, a, m, h => by
    cases k <;> simp [aux] at h
    all_goals
      obtain ⟨rfl, rfl⟩ := h
      simp [AST.height, CST.height, AST.size, CST.size]
  | .node k cs l, n, a, m, h => by
    rw [aux] at h
    rcases k with _ | _ | _ | b | _ <;> simp only [IKind.toAst] at h <;>
      first
      | cases h
      | (rcases hL : auxL ids n cs with ⟨as, m'⟩ | e | _ <;> rw [hL] at h <;> simp only [] at h <;> cases h
         have := auxL_measure ids cs n hL
         simp [AST.height, CST.height, AST.size, CST.size, this])

theorem auxL_measure (ids : Nat → Str) : ∀ (cs : List CST) (n : Nat) {as m}, auxL ids n cs = .ok (as, m) →
    AST.heightL as = CST.heightL cs ∧ AST.sizeL as = CST.sizeL cs
  | [], n, as, m, h => by
    rw [auxL] at h; cases h
    exact ⟨rfl, rfl⟩
  | c :: cs, n, as, m, h => by
    rw [auxL] at h
    rcases h1 : aux ids n c with ⟨a, m1⟩ | e | _ <;> rw [h1] at h <;> simp only [] at h
    · rcases h2 : auxL ids m1 cs with ⟨as', m2⟩ | e | _ <;> rw [h2] at h <;> simp only [] at h
      · cases h
        have k1 := aux_measure ids c n h1
        have k2 := auxL_measure ids cs m1 h2
        simp [AST.heightL, CST.heightL, AST.sizeL, CST.sizeL, k1, k2]
      · cases h
      · cases h
    · cases h
    · cases h

end

theorem parse_measure {ts : List Token} {c : CST} (hp : parse ts = .ok c) :
    c.height ≤ 2 * openMost ts + 5 ∧ c.size ≤ 4 * ts.length + 1 := by
  obtain ⟨rest, hP⟩ := parse_ok hp
  have hG := parse_grammar hp
  have htok := hP.tokens
  have hne : ∀ cs l, c = .node .document cs l → ∀ d ∈ cs, d.tokens ≠ [] := by
    rintro cs l rfl
    cases hG with
    | mk h => exact h.tokens_ne
  obtain ⟨cs, l, ds, es', rfl, hd⟩ := hG.xdoc
  have hl : ∀ x ∈ CST.layL [] ds, openAt x ≤ openMost ts := by
    have := (openMost_le ts _).1 (Nat.le_refl _)
    rw [hP.parts] at this
    simpa [CST.lay, hd.lay] using this
  have h1 := (heightL_le _ _).2 (hd.height _ hl).2
  have h2 := (hd.size (hne cs l rfl)).2
  have h3 := congrArg List.length htok
  simp only [CST.tokens, List.length_append] at h3
  simp only [CST.height, CST.size]
  omega

theorem transform_measure {ts : List Token} {c : CST} {ids : Nat → Str} {a : AST} {es : List TErr}
    (hp : parse ts = .ok c) (hx : transform ids c = .ok (a, es)) :
    a.height ≤ 2 * openMost ts + 4 ∧ a.size ≤ 4 * ts.length + 1 := by
  obtain ⟨rest, hP⟩ := parse_ok hp
  have hG := parse_grammar hp
  have htok := hP.tokens
  have hne : ∀ cs l, c = .node .document cs l → ∀ d ∈ cs, d.tokens ≠ [] := by
    rintro cs l rfl
    cases hG with
    | mk h => exact h.tokens_ne
  obtain ⟨cs, l, ds, es', rfl, hd⟩ := hG.xdoc
  have hs := hd.simplify_document (l := l)
  rw [transform, hs] at hx
  simp only at hx
  have hl : ∀ x ∈ CST.layL [] ds, openAt x ≤ openMost ts := by
    have := (openMost_le ts _).1 (Nat.le_refl _)
    rw [hP.parts] at this
    simpa [CST.lay, hd.lay] using this
  have h1 := (heightL_le _ _).2 (hd.height _ hl).1
  have h2 := (hd.size (hne cs l rfl)).1
  have h3 := congrArg List.length htok
  rcases ha : aux ids 0 (.node .document ds l) with ⟨a', m⟩ | e | _ <;> rw [ha] at hx <;> simp only [] at hx <;>
    cases hx
  have h4 := aux_measure ids _ _ ha
  rw [h4.1, h4.2]
  simp only [CST.tokens, List.length_append] at h3
  simp only [CST.height, CST.size]
  omega

mutual

theorem parts_height : ∀ (a : AST) (st : Around), ∀ x ∈ a.parts st, openAt x ≤ st.length + a.height
  | .leaf k i v l, st, x, hx => by
    simp only [AST.parts, List.mem_singleton] at hx
    subst hx
    simp [openAt]
  | .node k i cs l, st, x, hx => by
    rw [AST.height]
    cases k
    case bracket b =>
      simp only [AST.parts, List.mem_cons] at hx
      rcases hx with rfl | hx
      · simp only [openAt]; omega
      · have := partsL_height cs _ x hx
        simp only [List.length_cons] at this
        omega
    all_goals
      have := partsL_height cs _ x hx
      omega

theorem partsL_height : ∀ (as : List AST) (st : Around), ∀ x ∈ AST.partsL st as, openAt x ≤ st.length + AST.heightL as
  | [], st, x, hx => by simp [AST.partsL] at hx
  | a :: as, st, x, hx => by
    simp only [AST.partsL, List.mem_append] at hx
    rw [AST.heightL]
    rcases hx with hx | hx
    · have := parts_height a st x hx; omega
    · have := partsL_height as st x hx; omega

end

end Brack
