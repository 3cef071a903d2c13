import Verif.Proof.TransRel
import Verif.Proof.TransAux

/-
Helper lemmas about the argument splitting of commands.
-/

namespace Brack

/-- Elements that become part of an argument. -/
def CST.isArgItem : CST → Bool
  | .leaf .comma _ | .leaf .dot _ | .leaf (.bclose _) _ => false
  | _ => true

/-- Nothing, or a closing bracket. -/
def IsTail (tl : List CST) : Prop := tl = [] ∨ ∃ b l, tl = [.leaf (.bclose b) l]

theorem simple_cases {c : CST} (h : c.simple = true) :
    (∃ l, c = .leaf .comma l) ∨ (∃ l, c = .leaf .dot l) ∨ c.isArgItem = true := by
  rcases c with ⟨k, l⟩ | ⟨k, cs, l⟩
  · cases k <;> simp_all [CST.simple, LKind.inExpr, CST.isArgItem]
  · simp [CST.isArgItem]

theorem argLoop_item {c : CST} (h : c.isArgItem = true) (prev xs l comma cs) :
    argLoop prev (.node .expr xs l) comma (c :: cs) =
      argLoop c (.node .expr (xs ++ [c]) (mergeLocation l c.loc)) false cs := by
  rcases c with ⟨k, l⟩ | ⟨k, cs, l⟩
  · cases k <;> simp [CST.isArgItem] at h <;> simp [argLoop, CST.add]
  · simp [argLoop, CST.add]

theorem argLoop_dot (prev e comma l cs) :
    argLoop prev e comma (.leaf .dot l :: cs) =
      ((argLoop (.leaf .dot l) e comma cs).1,
        ⟨.unexpectedDot, l⟩ :: (argLoop (.leaf .dot l) e comma cs).2) := by
  simp [argLoop]

theorem argLoop_comma_nil (prev l' comma l cs) :
    argLoop prev (.node .expr [] l') comma (.leaf .comma l :: cs) =
      ((argLoop (.leaf .comma l) (.node .expr [] l') comma cs).1,
        ⟨.unexpectedComma, l⟩ :: (argLoop (.leaf .comma l) (.node .expr [] l') comma cs).2) := by
  simp [argLoop, CST.children]

theorem argLoop_comma_cons (prev x xs l' comma l cs) :
    argLoop prev (.node .expr (x :: xs) l') comma (.leaf .comma l :: cs) =
      (.node .expr (x :: xs) l' :: (argLoop (.leaf .comma l) (CST.new .expr) true cs).1,
        (argLoop (.leaf .comma l) (CST.new .expr) true cs).2) := by
  simp [argLoop, CST.children]

theorem argLoop_tail {tl} (h : IsTail tl) (prev xs l comma) :
    (argLoop prev (.node .expr xs l) comma tl).1 =
      (if xs = [] then [] else [.node .expr xs l]) ++ tl := by
  rcases h with rfl | ⟨b, l', rfl⟩
  · rcases xs with _ | ⟨x, xs⟩ <;> simp [argLoop, CST.children]
  · rcases xs with _ | ⟨x, xs⟩ <;> simp [argLoop, CST.children]
    cases comma <;> simp

/-- Nothing is lost by splitting. -/
theorem argLoop_cont {tl} (ht : IsTail tl) (cs : List CST) (hs : ∀ c ∈ cs, c.simple = true) :
    ∀ prev xs l comma, CST.contL (argLoop prev (.node .expr xs l) comma (cs ++ tl)).1 =
      CST.contL xs ++ CST.contL cs := by
  have htl : CST.contL tl = [] := by
    rcases ht with rfl | ⟨b, l', rfl⟩ <;> simp [CST.contL, CST.cont, LKind.content]
  induction cs with
  | nil =>
    intro prev xs l comma
    rw [List.nil_append, argLoop_tail ht, contL_append, htl]
    rcases xs with _ | ⟨x, xs⟩ <;> simp [CST.contL, CST.cont]
  | cons c cs ih =>
    intro prev xs l comma
    have ih := ih (fun c hc => hs c (by simp [hc]))
    rcases simple_cases (hs c (by simp)) with ⟨l', rfl⟩ | ⟨l', rfl⟩ | hc
    · rcases xs with _ | ⟨x, xs⟩
      · rw [List.cons_append, argLoop_comma_nil, ih]
        simp [CST.contL, CST.cont, LKind.content]
      · rw [List.cons_append, argLoop_comma_cons]
        simp only [CST.contL, CST.new, ih, CST.cont, LKind.content, List.nil_append]
    · rw [List.cons_append, argLoop_dot, ih]
      simp [CST.contL, CST.cont, LKind.content]
    · rw [List.cons_append, argLoop_item hc, ih]
      simp [CST.contL, contL_append]

/-- What splitting produces: non-empty expressions made of the items, and the closing bracket. -/
theorem argLoop_mem {tl} (ht : IsTail tl) (cs : List CST) (hs : ∀ c ∈ cs, c.simple = true) :
    ∀ prev xs l comma, ∀ d ∈ (argLoop prev (.node .expr xs l) comma (cs ++ tl)).1,
      d ∈ tl ∨ ∃ ys l', d = .node .expr ys l' ∧ ys ≠ [] ∧
        ∀ y ∈ ys, y ∈ xs ∨ (y ∈ cs ∧ y.isArgItem = true) := by
  induction cs with
  | nil =>
    intro prev xs l comma d hd
    rw [List.nil_append, argLoop_tail ht] at hd
    rcases List.mem_append.mp hd with hd | hd
    · rcases xs with _ | ⟨x, xs⟩
      · simp at hd
      · simp only [reduceCtorEq, if_false, List.mem_singleton] at hd
        subst hd
        exact .inr ⟨_, _, rfl, by simp, fun y hy => .inl hy⟩
    · exact .inl hd
  | cons c cs ih =>
    intro prev xs l comma d hd
    have ih := ih (fun c hc => hs c (by simp [hc]))
    rcases simple_cases (hs c (by simp)) with ⟨l', rfl⟩ | ⟨l', rfl⟩ | hc
    · rcases xs with _ | ⟨x, xs⟩
      · rw [List.cons_append, argLoop_comma_nil] at hd
        rcases ih _ _ _ _ d hd with h | ⟨ys, l', rfl, hne, h⟩
        · exact .inl h
        · exact .inr ⟨ys, l', rfl, hne, fun y hy => (h y hy).imp_right (fun h => ⟨by simp [h.1], h.2⟩)⟩
      · rw [List.cons_append, argLoop_comma_cons] at hd
        rcases List.mem_cons.mp hd with rfl | hd
        · exact .inr ⟨_, _, rfl, by simp, fun y hy => .inl hy⟩
        · rcases ih _ _ _ _ d hd with h | ⟨ys, l', rfl, hne, h⟩
          · exact .inl h
          · exact .inr ⟨ys, l', rfl, hne, fun y hy => .inr (by
              rcases h y hy with h | h
              · simp at h
              · exact ⟨by simp [h.1], h.2⟩)⟩
    · rw [List.cons_append, argLoop_dot] at hd
      rcases ih _ _ _ _ d hd with h | ⟨ys, l', rfl, hne, h⟩
      · exact .inl h
      · exact .inr ⟨ys, l', rfl, hne, fun y hy => (h y hy).imp_right (fun h => ⟨by simp [h.1], h.2⟩)⟩
    · rw [List.cons_append, argLoop_item hc] at hd
      rcases ih _ _ _ _ d hd with h | ⟨ys, l', rfl, hne, h⟩
      · exact .inl h
      · refine .inr ⟨ys, l', rfl, hne, fun y hy => ?_⟩
        rcases h y hy with h | h
        · rcases List.mem_append.mp h with h | h
          · exact .inl h
          · simp only [List.mem_singleton] at h
            subst h
            exact .inr ⟨by simp, hc⟩
        · exact .inr ⟨by simp [h.1], h.2⟩

/-! ### the children of a bracket -/

theorem contL_removeElements (cs : List CST) : CST.contL (removeElements cs) = CST.contL cs := by
  induction cs with
  | nil => rfl
  | cons c cs ih =>
    rw [removeElements_cons, contL_append, ih]
    rcases c with ⟨k, l⟩ | ⟨k, ds, l⟩
    · cases k <;> simp [removeElements, CST.notInAst, CST.contL, CST.cont, LKind.content]
    · simp [removeElements, CST.notInAst, CST.contL]

theorem removeBlanks_cons (d : CST) (ds : List CST) :
    removeBlanks (d :: ds) = removeBlanks [d] ++ removeBlanks ds := by
  simp only [removeBlanks, ← List.filter_append]; rfl

theorem contL_removeBlanks (cs : List CST) : CST.contL (removeBlanks cs) = CST.contL cs := by
  induction cs with
  | nil => rfl
  | cons c cs ih =>
    rw [removeBlanks_cons, contL_append, ih]
    rcases c with ⟨k, l⟩ | ⟨k, ds, l⟩
    · cases k <;> simp [removeBlanks, CST.isBlank, CST.contL, CST.cont, LKind.content]
    · simp [removeBlanks, CST.isBlank, CST.contL]

theorem removeBlanks_bracket (b l1) (ds : List CST) {tl} (ht : IsTail tl) :
    removeBlanks (.leaf (.bopen b) l1 :: ds ++ tl) =
      .leaf (.bopen b) l1 :: removeBlanks ds ++ tl := by
  have : removeBlanks tl = tl := by
    rcases ht with rfl | ⟨b, l', rfl⟩ <;> simp [removeBlanks, CST.isBlank]
  have happ : removeBlanks (ds ++ tl) = removeBlanks ds ++ removeBlanks tl := List.filter_append ..
  rw [List.cons_append, removeBlanks_cons, happ, this]
  simp [removeBlanks, CST.isBlank]

theorem mem_removeBlanks {c : CST} {ds} (h : c ∈ removeBlanks ds) : c ∈ ds ∧ c.isBlank = false := by
  simpa [removeBlanks] using h

/-- The result of `check_valid_arguments` on a bracket. -/
theorem checkValidArguments_cases (b l1) (es : List CST) {tl} (ht : IsTail tl) :
    (∃ c1 c2 c3 rest, es = c1 :: c2 :: c3 :: rest ∧
      checkValidArguments (.leaf (.bopen b) l1 :: es ++ tl) =
        (.leaf (.bopen b) l1 :: c1 :: c2 :: c3 ::
          (argLoop c3 (CST.new .expr) false (rest ++ tl)).1,
          (argLoop c3 (CST.new .expr) false (rest ++ tl)).2)) ∨
    (es.length < 3 ∧ checkValidArguments (.leaf (.bopen b) l1 :: es ++ tl) =
      (.leaf (.bopen b) l1 :: es ++ tl, [])) := by
  rcases es with _ | ⟨c1, _ | ⟨c2, _ | ⟨c3, rest⟩⟩⟩
  · right; rcases ht with rfl | ⟨b, l', rfl⟩ <;> simp [checkValidArguments]
  · right; rcases ht with rfl | ⟨b, l', rfl⟩ <;> simp [checkValidArguments]
  · right; rcases ht with rfl | ⟨b, l', rfl⟩ <;> simp [checkValidArguments, argLoop, CST.children, CST.new]
  · left; exact ⟨c1, c2, c3, rest, rfl, by simp [checkValidArguments]⟩

theorem bracketKids_cont (b l1) (ds : List CST) (hs : ∀ d ∈ ds, d.simple = true) {tl}
    (ht : IsTail tl) : CST.contL (bracketKids (.leaf (.bopen b) l1 :: ds ++ tl)) = CST.contL ds := by
  have htl : CST.contL tl = [] := by
    rcases ht with rfl | ⟨b, l', rfl⟩ <;> simp [CST.contL, CST.cont, LKind.content]
  unfold bracketKids
  rw [contL_removeElements, removeBlanks_bracket b l1 ds ht, ← contL_removeBlanks ds]
  rcases checkValidArguments_cases b l1 (removeBlanks ds) ht with
    ⟨c1, c2, c3, rest, he, h⟩ | ⟨_, h⟩
  · rw [h, he]
    have hr : ∀ c ∈ rest, c.simple = true := fun c hc =>
      hs c (mem_removeBlanks (by rw [he]; simp [hc])).1
    simp only [CST.contL, CST.new, argLoop_cont ht rest hr, CST.cont, LKind.content, List.nil_append]
  · rw [h]
    simp [CST.contL, contL_append, htl, CST.cont, LKind.content]

/-- Among simplified items, those that are not separators do not make `aux` panic provided the
brackets do not. -/
theorem bracketKids_astable (b l1) (ds : List CST) (hs : ∀ d ∈ ds, d.simple = true)
    (ha : ∀ d ∈ ds, d.notInAst = false → d.astable = true) {tl} (ht : IsTail tl) :
    CST.astableL (bracketKids (.leaf (.bopen b) l1 :: ds ++ tl)) = true := by
  have htl : ∀ d ∈ tl, d.notInAst = true := by
    rcases ht with rfl | ⟨b, l', rfl⟩ <;> simp [CST.notInAst]
  rw [astableL_iff]
  intro c hc
  simp only [bracketKids, removeElements, List.mem_filter, Bool.not_eq_true'] at hc
  obtain ⟨hc, hn⟩ := hc
  rw [removeBlanks_bracket b l1 ds ht] at hc
  rcases checkValidArguments_cases b l1 (removeBlanks ds) ht with
    ⟨c1, c2, c3, rest, he, h⟩ | ⟨_, h⟩
  · rw [h] at hc
    have hmem : ∀ c, c ∈ c1 :: c2 :: c3 :: rest → c ∈ ds ∧ c.isBlank = false := fun c hc =>
      mem_removeBlanks (by rw [he]; exact hc)
    simp only [List.mem_cons] at hc
    rcases hc with rfl | rfl | rfl | rfl | hc
    · simp [CST.notInAst] at hn
    · exact ha _ (hmem _ (by simp)).1 hn
    · exact ha _ (hmem _ (by simp)).1 hn
    · exact ha _ (hmem _ (by simp)).1 hn
    · rcases argLoop_mem ht rest (fun c hc => hs c (hmem c (by simp [hc])).1) _ _ _ _ c hc with
        hc | ⟨ys, l', rfl, _, hy⟩
      · simp [htl c hc] at hn
      · simp only [CST.astable, IKind.toAst, Option.isSome_some, Bool.true_and, astableL_iff]
        intro y hyy
        rcases hy y hyy with hy | ⟨hy1, hy2⟩
        · simp at hy
        · obtain ⟨hy3, hy4⟩ := hmem y (by simp [hy1])
          refine ha y hy3 ?_
          have := hs y hy3
          rcases y with ⟨k, l⟩ | ⟨k, cs, l⟩
          · cases k <;> simp_all [CST.simple, LKind.inExpr, CST.isArgItem, CST.isBlank, CST.notInAst]
          · rfl
  · rw [h] at hc
    simp only [List.cons_append, List.mem_cons, List.mem_append] at hc
    rcases hc with rfl | hc | hc
    · simp [CST.notInAst] at hn
    · exact ha _ (mem_removeBlanks hc).1 hn
    · simp [htl c hc] at hn

mutual

theorem XI.astable : ∀ {c d es}, XI c d es → d.notInAst = false → d.astable = true
  | _, _, _, @XI.leaf k l h => by
    intro hn
    cases k <;> simp [LKind.inExpr] at h <;> simp_all [CST.notInAst, CST.astable, LKind.inAst]
  | _, _, _, .escaped _ => by simp [CST.astable, LKind.inAst]
  | _, _, _, .stray => by simp [CST.astable, LKind.inAst]
  | _, _, _, @XI.closed b cs l l1 l2 ds es h => by
    intro _
    simp only [CST.astable, IKind.toAst, Option.isSome_some, Bool.true_and]
    exact bracketKids_astable b l1 ds h.simple h.astable (.inr ⟨b, l2, rfl⟩)
  | _, _, _, @XI.unclosed b cs l l1 ds es h => by
    intro _
    simp only [CST.astable, IKind.toAst, Option.isSome_some, Bool.true_and]
    simpa using bracketKids_astable b l1 ds h.simple h.astable (.inl rfl)

theorem XL.astable : ∀ {cs ds es}, XL cs ds es → ∀ d ∈ ds, d.notInAst = false → d.astable = true
  | _, _, _, .nil => by simp
  | _, _, _, .cons h hs => by
    have := hs.astable
    simpa using ⟨h.astable, this⟩

theorem XB.astable : ∀ {cs ds es}, XB cs ds es → ∀ d ∈ ds, d.notInAst = false → d.astable = true
  | _, _, _, .nil => by simp
  | _, _, _, .expr _ h hs => by
    intro d hd
    rcases List.mem_append.mp hd with hd | hd
    · exact h.astable d hd
    · exact hs.astable d hd
  | _, _, _, .newline hs => by
    have := hs.astable
    simpa [CST.notInAst] using this

end

end Brack
