import Verif.Proof.GenMain

/-
Helper lemmas on code generation: when it succeeds, when it cannot fail by itself, when it cannot
panic; argument counting.
-/

namespace Brack

variable {W : Wasm}

/-! ### Success -/

theorem PM.bind_ok {x : PM W α} {f : α → PM W β} {ps : Plugins W} {b} (h : ((x >>= f) ps).1 = .ok b) :
    ∃ a, (x ps).1 = .ok a ∧ (f a (x ps).2).1 = .ok b := by
  rw [PM.bind_run] at h
  rcases hx : x ps with ⟨a | m | _, ps1⟩
  · rw [hx] at h; exact ⟨a, rfl, h⟩
  · rw [hx] at h; cases h
  · rw [hx] at h; cases h

theorem Same.of_gens {ps0 ps ps' : Plugins W} {order} {res : Res α} {g} (h : Gens ps0 ps order res ps' g) :
    Same ps ps' := by
  obtain ⟨_, h, _⟩ := h
  exact h.same

theorem bailWith_ok {a : AST} {ps : Plugins W} {r} (h : (bailWith a ps).1 = .ok r) : False := by
  obtain ⟨_, _, h⟩ := PM.bind_ok h
  cases h

theorem NodeOf_child {n a : AST} {k i cs l} (h : AST.NodeOf n (.node k i cs l)) (ha : a = .node k i cs l) :
    n = a ∨ ∃ c ∈ cs, AST.NodeOf n c := by
  subst ha
  rcases h with _ | ⟨hc, h⟩
  · exact .inl rfl
  · exact .inr ⟨_, hc, h⟩

theorem NodeOf_leaf {n : AST} {k i v l} (h : AST.NodeOf n (.leaf k i v l)) : n = .leaf k i v l := by
  cases h; rfl

/-- A node in order for code generation, with an existing command. -/
def NodeFine (ps : Plugins W) (n : AST) : Prop := n.nodeGenerable = true ∧ n.CommandOk ps

theorem genChildren_length (ck inDoc) : ∀ (cs : List AST) (ps : Plugins W) (rs : List Str),
    (genChildren ck inDoc cs ps).1 = .ok rs → rs.length = cs.length := by
  intro cs
  induction cs with
  | nil => intro ps rs h; rw [genChildren] at h; injection h with h; simp [← h]
  | cons c cs ih =>
    intro ps rs h
    rw [genChildren] at h
    obtain ⟨r, h1, h⟩ := PM.bind_ok h
    obtain ⟨rs', h2, h⟩ := PM.bind_ok h
    injection h with h
    simp [← h, ih _ _ h2]

/-- Is this a part, or a statement in a document? -/
def isPartIn (inDoc : Bool) (a : AST) : Bool :=
  a.isPart || (inDoc && a.isStmt)

theorem commandOk_of_gens {ps0 ps : Plugins W} (hs : Same ps0 ps) {ck b m j rs r}
    (h : (commandGenerate ck b m j rs ps).1 = .ok r) :
    ∃ i1 i2 l1 l2 mn cn ts, m = .leaf .module i1 (some mn) l1 ∧ j = .leaf .ident i2 (some cn) l2 ∧
      ps0.signature mn cn b.returnType = some ts ∧ Admissible ts rs.length := by
  obtain ⟨calls, _, _, _, h4⟩ := commandGenerate_gens hs ck b m j rs
  obtain ⟨⟨i1, i2, l1, l2, mn, cn, ts, vs, h1, h2, h3, h5, _⟩, _⟩ := h4 r h
  exact ⟨i1, i2, l1, l2, mn, cn, ts, h1, h2, h3, h5⟩

theorem commandOk_angle_free {ps : Plugins W} {n : AST} (h : ∀ b i cs l, n ≠ .node (.bracket b) i cs l) :
    n.CommandOk ps := fun b i cs l hn => absurd hn (h b i cs l)

mutual

theorem genChild_fine (ck : Bool) : ∀ (inDoc : Bool) (a : AST) (ps0 ps : Plugins W) (r : Str), Same ps0 ps →
    (genChild ck inDoc a ps).1 = .ok r →
    isPartIn inDoc a = true ∧ ∀ n, AST.NodeOf n a → NodeFine ps0 n
  | inDoc, .leaf k i v l, ps0, ps, r, hs, h => by
    rcases k
    case text =>
      rcases v with _ | v
      · simp only [genChild] at h; cases h
      · refine ⟨rfl, fun n hn => ?_⟩
        rw [NodeOf_leaf hn]
        exact ⟨rfl, commandOk_angle_free (by simp)⟩
    all_goals
      simp only [genChild] at h
      exact absurd h (fun h => bailWith_ok h)
  | inDoc, .node .document i cs l, ps0, ps, r, hs, h => by
    simp only [genChild] at h
    exact absurd h (fun h => bailWith_ok h)
  | inDoc, .node .stmt i cs l, ps0, ps, r, hs, h => by
    have ih := genChildren_fine ck false cs ps0 ps
    simp only [genChild] at h
    rcases inDoc
    · simp only [Bool.false_eq_true, if_false] at h
      exact absurd h (fun h => bailWith_ok h)
    · simp only [if_true] at h
      obtain ⟨rs, h1, _⟩ := PM.bind_ok h
      have ih := ih rs hs h1
      refine ⟨rfl, fun n hn => ?_⟩
      rcases NodeOf_child hn rfl with rfl | ⟨c, hc, hn⟩
      · refine ⟨?_, commandOk_angle_free (by simp)⟩
        rw [AST.nodeGenerable, List.all_eq_true]
        intro c hc
        simpa [isPartIn] using (ih c hc).1
      · exact (ih c hc).2 n hn
  | inDoc, .node .expr i cs l, ps0, ps, r, hs, h => by
    have ih := genChildren_fine ck false cs ps0 ps
    simp only [genChild] at h
    obtain ⟨rs, h1, _⟩ := PM.bind_ok h
    have ih := ih rs hs h1
    refine ⟨rfl, fun n hn => ?_⟩
    rcases NodeOf_child hn rfl with rfl | ⟨c, hc, hn⟩
    · refine ⟨?_, commandOk_angle_free (by simp)⟩
      rw [AST.nodeGenerable, List.all_eq_true]
      intro c hc
      simpa [isPartIn] using (ih c hc).1
    · exact (ih c hc).2 n hn
  | inDoc, .node (.bracket .angle) i cs l, ps0, ps, r, hs, h => by
    simp only [genChild] at h
    cases h
  | inDoc, .node (.bracket .square) i cs l, ps0, ps, r, hs, h => by
    rcases cs with _ | ⟨m, _ | ⟨j, args⟩⟩
    · cases h
    · cases h
    · have ih := genChildren_fine ck false args ps0 ps
      have hg := genChildren_gens ck false args ps0 ps hs
      simp only [genChild] at h
      obtain ⟨rs, h1, h2⟩ := PM.bind_ok h
      have ih := ih rs hs h1
      have hlen := genChildren_length _ _ _ _ _ h1
      obtain ⟨i1, i2, l1, l2, mn, cn, ts, rfl, rfl, h3, h4⟩ := commandOk_of_gens (hs.trans (Same.of_gens hg)) h2
      refine ⟨rfl, fun n hn => ?_⟩
      rcases NodeOf_child hn rfl with rfl | ⟨c, hc, hn⟩
      · refine ⟨?_, ?_⟩
        · rw [AST.nodeGenerable, List.all_eq_true]
          · intro c hc
            simpa [isPartIn] using (ih c hc).1
          · simp
        · intro b i cs l e
          injection e with e1 e2 e3
          injection e1 with e1
          subst e1 e3
          rw [hlen] at h4
          exact ⟨_, _, _, _, _, _, _, _, _, rfl, rfl, h3, h4⟩
      · rcases List.mem_cons.mp hc with rfl | hc
        · rw [NodeOf_leaf hn]
          exact ⟨rfl, commandOk_angle_free (by simp)⟩
        rcases List.mem_cons.mp hc with rfl | hc
        · rw [NodeOf_leaf hn]
          exact ⟨rfl, commandOk_angle_free (by simp)⟩
        · exact (ih c hc).2 n hn
  | inDoc, .node (.bracket .curly) i cs l, ps0, ps, r, hs, h => by
    rcases cs with _ | ⟨m, _ | ⟨j, args⟩⟩
    · cases h
    · cases h
    · have ih := genChildren_fine ck false args ps0 ps
      have hg := genChildren_gens ck false args ps0 ps hs
      simp only [genChild] at h
      obtain ⟨rs, h1, h2⟩ := PM.bind_ok h
      have ih := ih rs hs h1
      have hlen := genChildren_length _ _ _ _ _ h1
      obtain ⟨i1, i2, l1, l2, mn, cn, ts, rfl, rfl, h3, h4⟩ := commandOk_of_gens (hs.trans (Same.of_gens hg)) h2
      refine ⟨rfl, fun n hn => ?_⟩
      rcases NodeOf_child hn rfl with rfl | ⟨c, hc, hn⟩
      · refine ⟨?_, ?_⟩
        · rw [AST.nodeGenerable, List.all_eq_true]
          · intro c hc
            simpa [isPartIn] using (ih c hc).1
          · simp
        · intro b i cs l e
          injection e with e1 e2 e3
          injection e1 with e1
          subst e1 e3
          rw [hlen] at h4
          exact ⟨_, _, _, _, _, _, _, _, _, rfl, rfl, h3, h4⟩
      · rcases List.mem_cons.mp hc with rfl | hc
        · rw [NodeOf_leaf hn]
          exact ⟨rfl, commandOk_angle_free (by simp)⟩
        rcases List.mem_cons.mp hc with rfl | hc
        · rw [NodeOf_leaf hn]
          exact ⟨rfl, commandOk_angle_free (by simp)⟩
        · exact (ih c hc).2 n hn

theorem genChildren_fine (ck : Bool) : ∀ (inDoc : Bool) (cs : List AST) (ps0 ps : Plugins W) (rs : List Str),
    Same ps0 ps → (genChildren ck inDoc cs ps).1 = .ok rs →
    ∀ c ∈ cs, isPartIn inDoc c = true ∧ ∀ n, AST.NodeOf n c → NodeFine ps0 n
  | inDoc, [], ps0, ps, rs, hs, h => by simp
  | inDoc, c :: cs, ps0, ps, rs, hs, h => by
    have h1 := genChild_fine ck inDoc c ps0 ps
    have h2 := genChildren_fine ck inDoc cs ps0 (genChild ck inDoc c ps).2
    have hg := genChild_gens ck inDoc c ps0 ps hs
    simp only [genChildren] at h
    obtain ⟨r, h3, h⟩ := PM.bind_ok h
    obtain ⟨rs', h4, _⟩ := PM.bind_ok h
    intro d hd
    rcases List.mem_cons.mp hd with rfl | hd
    · exact h1 r hs h3
    · exact h2 rs' (hs.trans (Same.of_gens hg)) h4 d hd

end

/-- If generation succeeds, all nodes are in order. -/
theorem generate_fine {ck : Bool} {a : AST} {ps : Plugins W} {r} (h : (generate ck a ps).1 = .ok r) :
    (∃ i cs l, a = .node .document i cs l) ∧ ∀ n, AST.NodeOf n a → NodeFine ps n := by
  rcases a with ⟨k, i, v, l⟩ | ⟨k, i, cs, l⟩
  · cases h
  · rcases k
    case document =>
      refine ⟨⟨i, cs, l, rfl⟩, ?_⟩
      simp only [generate] at h
      obtain ⟨rs, h1, _⟩ := PM.bind_ok h
      have ih := genChildren_fine ck true cs ps ps rs (.refl ps) h1
      intro n hn
      rcases NodeOf_child hn rfl with rfl | ⟨c, hc, hn⟩
      · refine ⟨?_, commandOk_angle_free (by simp)⟩
        rw [AST.nodeGenerable, List.all_eq_true]
        intro c hc
        simpa [isPartIn] using (ih c hc).1
      · exact (ih c hc).2 n hn
    all_goals cases h

end Brack
