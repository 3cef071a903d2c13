import Verif.Proof.Gen

/-
Helper lemmas on code generation: the main induction.
-/

namespace Brack

variable {W : Wasm}

theorem display_not_err : ∀ (r : Res Str), (∀ m, r ≠ .err m) → (∃ s, r = .ok s) ∨ r = .panic := by
  intro r h
  rcases r with s | m | _
  · exact .inl ⟨s, rfl⟩
  · exact absurd rfl (h m)
  · exact .inr rfl

theorem bailWith_gens {ps0 ps : Plugins W} (a : AST) (order good) :
    Gens ps0 ps order (bailWith a ps).1 (bailWith a ps).2 good := by
  rw [bailWith, PM.bind_run, PM.lift_run]
  rcases a.display 0 with _ | _ | _
  · exact Gens.err _ _ _ _ _
  · exact Gens.err _ _ _ _ _
  · exact Gens.panic _ _ _ _

theorem Gens.mono {ps0 ps ps' : Plugins W} {order} {res : Res α} {g g'} (h : Gens ps0 ps order res ps' g)
    (hg : ∀ c r, g c r → g' c r) : Gens ps0 ps order res ps' g' := by
  obtain ⟨calls, h1, h2, h3, h4⟩ := h
  exact ⟨calls, h1, h2, h3, fun r hr => ⟨hg _ _ (h4 r hr).1, (h4 r hr).2⟩⟩

theorem filter_single (p : Tag → Bool) (t : Tag) : [t].filter p = if p t then [t] else [] := by
  simp [List.filter_cons]

theorem Same.handles {ps0 ps : Plugins W} (h : Same ps0 ps) (t : Tag) : ps.handles t = ps0.handles t := by
  rcases t <;> simp [Plugins.handles, h.document, h.stmt, h.expr, h.text]

mutual

theorem genChild_gens (ck : Bool) : ∀ (inDoc : Bool) (a : AST) (ps0 ps : Plugins W), Same ps0 ps →
    Gens ps0 ps (a.postorder.filter ps0.handles) (genChild ck inDoc a ps).1 (genChild ck inDoc a ps).2
      (Produces ps0 a)
  | inDoc, .leaf k i v l, ps0, ps, hs => by
    rcases k
    case text =>
      simp only [genChild, AST.postorder, filter_single]
      rcases v with _ | v
      · exact Gens.err _ _ _ _ _
      · rw [textGenerate]
        simp only [textHook_run]
        have := hookBy_gens (ps0 := ps0) (ps := ps) ps.textHook .text (chars! "text") .inline v (by simp)
        rw [hs.text] at this ⊢
        exact this.mono (fun c r h => .text h)
    all_goals
      simp only [genChild]
      exact bailWith_gens _ _ _
  | inDoc, .node .document i cs l, ps0, ps, hs => by
    simp only [genChild]
    exact bailWith_gens _ _ _
  | inDoc, .node .stmt i cs l, ps0, ps, hs => by
    have ih := genChildren_gens ck false cs ps0
    simp only [genChild, AST.postorder, List.filter_append, filter_single]
    rcases inDoc
    · simp only [Bool.false_eq_true, if_false]
      exact bailWith_gens _ _ _
    · simp only [if_true]
      refine Gens.bind hs (ih ps hs) ?_
      intro rs ps1 c1 hs1 hp
      simp only [stmtHook_run]
      have := hookBy_gens (ps0 := ps0) (ps := ps1) ps1.stmtHook .stmt (chars! "stmt") .block rs.flatten (by simp)
      rw [hs1.stmt] at this ⊢
      exact this.mono (fun c r h => .stmt hp h)
  | inDoc, .node .expr i cs l, ps0, ps, hs => by
    have ih := genChildren_gens ck false cs ps0
    simp only [genChild, AST.postorder, List.filter_append, filter_single]
    refine Gens.bind hs (ih ps hs) ?_
    intro rs ps1 c1 hs1 hp
    simp only [exprHook_run]
    have := hookBy_gens (ps0 := ps0) (ps := ps1) ps1.exprHook .expr (chars! "expr") .inline rs.flatten (by simp)
    rw [hs1.expr] at this ⊢
    exact this.mono (fun c r h => .expr hp h)
  | inDoc, .node (.bracket .angle) i cs l, ps0, ps, hs => by
    simp only [genChild]
    exact Gens.err _ _ _ _ _
  | inDoc, .node (.bracket .square) i cs l, ps0, ps, hs => by
    rcases cs with _ | ⟨m, _ | ⟨j, args⟩⟩
    · exact Gens.err _ _ _ _ _
    · exact Gens.err _ _ _ _ _
    · have ih := genChildren_gens ck false args ps0
      simp only [genChild, AST.postorder, List.filter_append, filter_single, Plugins.handles, if_true]
      refine Gens.bind hs (ih ps hs) ?_
      intro rs ps1 c1 hs1 hp
      refine (commandGenerate_gens hs1 ck .square m j rs).mono ?_
      rintro c r ⟨i1, i2, l1, l2, mn, cn, ts, vs, rfl, rfl, h1, h2, h3, rfl⟩
      exact .command hp rfl h1 h2 h3
  | inDoc, .node (.bracket .curly) i cs l, ps0, ps, hs => by
    rcases cs with _ | ⟨m, _ | ⟨j, args⟩⟩
    · exact Gens.err _ _ _ _ _
    · exact Gens.err _ _ _ _ _
    · have ih := genChildren_gens ck false args ps0
      simp only [genChild, AST.postorder, List.filter_append, filter_single, Plugins.handles, if_true]
      refine Gens.bind hs (ih ps hs) ?_
      intro rs ps1 c1 hs1 hp
      refine (commandGenerate_gens hs1 ck .curly m j rs).mono ?_
      rintro c r ⟨i1, i2, l1, l2, mn, cn, ts, vs, rfl, rfl, h1, h2, h3, rfl⟩
      exact .command hp rfl h1 h2 h3

theorem genChildren_gens (ck : Bool) : ∀ (inDoc : Bool) (cs : List AST) (ps0 ps : Plugins W), Same ps0 ps →
    Gens ps0 ps ((AST.postorderL cs).filter ps0.handles) (genChildren ck inDoc cs ps).1
      (genChildren ck inDoc cs ps).2 (ProducesAll ps0 cs)
  | inDoc, [], ps0, ps, hs => by
    simp only [genChildren]
    exact Gens.pure _ _ _ .nil
  | inDoc, c :: cs, ps0, ps, hs => by
    have h1 := genChild_gens ck inDoc c ps0 ps hs
    have h2 := genChildren_gens ck inDoc cs ps0
    simp only [genChildren, AST.postorderL, List.filter_append]
    refine Gens.bind hs h1 ?_
    intro r ps1 c1 hs1 hp
    have := Gens.bind (f := fun rs => (pure (r :: rs) : PM W _)) (o2 := []) (g := fun c2 rs => ProducesAll ps0 (c :: cs) (c1 ++ c2) rs)
      hs1 (h2 ps1 hs1) (by
        intro rs ps2 c2 hs2 hps
        refine Gens.pure _ _ _ ?_
        rw [List.append_nil]
        exact .cons hp hps)
    rw [List.append_nil] at this
    exact this

end

theorem generate_gens (ck : Bool) (a : AST) (ps : Plugins W) :
    Gens ps ps (a.postorder.filter ps.handles) (generate ck a ps).1 (generate ck a ps).2 (Produces ps a) := by
  have hbail : ∀ a, (generate ck a ps) = (.err "Document must be a document", ps) →
      Gens ps ps (a.postorder.filter ps.handles) (generate ck a ps).1 (generate ck a ps).2 (Produces ps a) := by
    intro a h
    rw [h]
    exact Gens.err _ _ _ _ _
  rcases a with ⟨k, i, v, l⟩ | ⟨k, i, cs, l⟩
  · exact hbail _ rfl
  · rcases k
    case document =>
      have ih := genChildren_gens ck true cs ps ps (.refl ps)
      simp only [generate, AST.postorder, List.filter_append, filter_single]
      refine Gens.bind (.refl ps) ih ?_
      intro rs ps1 c1 hs1 hp
      simp only [documentHook_run]
      have := hookBy_gens (ps0 := ps) (ps := ps1) ps1.documentHook .document (chars! "document") .block rs.flatten (by simp)
      rw [hs1.document] at this ⊢
      exact this.mono (fun c r h => .document hp h)
    all_goals exact hbail _ rfl

end Brack
