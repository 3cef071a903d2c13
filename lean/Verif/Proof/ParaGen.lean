import Verif.Proof.Macros
import Verif.Proof.GenMore
import Verif.Proof.Plain

/-
Helper lemmas: code generation depends on the shape of the AST only, and goes through the statements
one after the other.
-/

namespace Brack

variable {W : Wasm}

mutual

theorem display_shape : (a b : AST) → a.shape = b.shape → ∀ n, a.display n = b.display n
  | .leaf k i v l, .leaf k' i' v' l', h, n => by
    simp only [AST.shape, Shape.leaf.injEq] at h
    obtain ⟨rfl, rfl⟩ := h
    cases k <;> simp only [AST.display]
  | .leaf _ _ _ _, .node _ _ _ _, h, _ => by simp [AST.shape] at h
  | .node _ _ _ _, .leaf _ _ _ _, h, _ => by simp [AST.shape] at h
  | .node k i cs l, .node k' i' cs' l', h, n => by
    simp only [AST.shape, Shape.node.injEq] at h
    obtain ⟨rfl, h⟩ := h
    simp only [AST.display, displayL_shape cs cs' h]

theorem displayL_shape : (as bs : List AST) → AST.shapeL as = AST.shapeL bs → ∀ n, AST.displayL n as = AST.displayL n bs
  | [], [], _, _ => rfl
  | [], _ :: _, h, _ => by simp [AST.shapeL] at h
  | _ :: _, [], h, _ => by simp [AST.shapeL] at h
  | a :: as, b :: bs, h, n => by
    simp only [AST.shapeL, List.cons.injEq] at h
    simp only [AST.displayL, display_shape a b h.1, displayL_shape as bs h.2]

end

theorem bailWith_shape {a b : AST} (h : a.shape = b.shape) : bailWith (W := W) a = bailWith b := by
  unfold bailWith
  rw [display_shape a b h]

theorem nameOf_shape {a b : AST} (h : a.shape = b.shape) (k : ALKind) : nameOf (W := W) k a = nameOf k b := by
  rcases a with ⟨k1, i, v, l⟩ | ⟨k1, i, cs, l⟩ <;> rcases b with ⟨k2, i', v', l'⟩ | ⟨k2, i', cs', l'⟩ <;>
    simp [AST.shape] at h
  · obtain ⟨rfl, rfl⟩ := h
    rfl
  · rfl

mutual

theorem genChild_shape (ck : Bool) : (a b : AST) → a.shape = b.shape → ∀ d, genChild (W := W) ck d a = genChild ck d b
  | .leaf k i v l, .leaf k' i' v' l', h, d => by
    have hb := bailWith_shape (W := W) h
    simp only [AST.shape, Shape.leaf.injEq] at h
    obtain ⟨rfl, rfl⟩ := h
    cases k <;> simp only [genChild, hb]
  | .leaf _ _ _ _, .node _ _ _ _, h, _ => by simp [AST.shape] at h
  | .node _ _ _ _, .leaf _ _ _ _, h, _ => by simp [AST.shape] at h
  | .node k i cs l, .node k' i' cs' l', h, d => by
    have hb := bailWith_shape (W := W) h
    simp only [AST.shape, Shape.node.injEq] at h
    obtain ⟨rfl, h⟩ := h
    have ih := genChildren_shape ck cs cs' h
    rcases k with _ | _ | _ | b
    · simp only [genChild, hb]
    · simp only [genChild, hb, ih]
    · simp only [genChild, ih]
    · rcases cs with _ | ⟨m, _ | ⟨j, cs⟩⟩ <;> rcases cs' with _ | ⟨m', _ | ⟨j', cs'⟩⟩ <;>
        simp [AST.shapeL] at h
      · cases b <;> simp only [genChild]
      · cases b <;> simp only [genChild]
      · have ih := genChildren_shape ck cs cs' h.2.2
        cases b <;> simp only [genChild, ih, commandGenerate, nameOf_shape h.1, nameOf_shape h.2.1]

theorem genChildren_shape (ck : Bool) : (as bs : List AST) → AST.shapeL as = AST.shapeL bs →
    ∀ d, genChildren (W := W) ck d as = genChildren ck d bs
  | [], [], _, _ => rfl
  | [], _ :: _, h, _ => by simp [AST.shapeL] at h
  | _ :: _, [], h, _ => by simp [AST.shapeL] at h
  | a :: as, b :: bs, h, d => by
    simp only [AST.shapeL, List.cons.injEq] at h
    simp only [genChildren, genChild_shape ck a b h.1, genChildren_shape ck as bs h.2]

end

theorem generate_shape (ck : Bool) {a b : AST} (h : a.shape = b.shape) : generate (W := W) ck a = generate ck b := by
  rcases a with ⟨k1, i, v, l⟩ | ⟨k1, i, cs, l⟩ <;> rcases b with ⟨k2, i', v', l'⟩ | ⟨k2, i', cs', l'⟩ <;>
    simp [AST.shape] at h
  · rfl
  · obtain ⟨rfl, h⟩ := h
    cases k1
    · simp only [generate, genChildren_shape ck cs cs' h]
    all_goals rfl

/-! ### expansion of what can be generated -/

theorem nameOf_expand (o : AST) {k : ALKind} (hk : k = .module ∨ k = .ident) {a : AST} {ps : Plugins W} {s : Str}
    (h : (nameOf k a ps).1 = .ok s) :
    (∀ i es l, a ≠ .node (.bracket .angle) i es l) ∧ ∀ qs : Plugins W, expandOther o a qs = (.ok a, qs) := by
  rcases a with ⟨k', i, v, l⟩ | ⟨k', i, cs, l⟩
  · refine ⟨by simp, fun qs => ?_⟩
    simp only [nameOf] at h
    split at h
    · next he =>
      subst he
      rcases hk with rfl | rfl <;> rw [expandOther] <;> rfl
    · cases h
  · simp only [nameOf, PM.bail_run] at h; cases h

mutual

theorem genChild_expand (ck : Bool) (o : AST) : ∀ (d : Bool) (a : AST) (ps : Plugins W) (r : Str),
    (genChild ck d a ps).1 = .ok r → (∀ i es l, a ≠ .node (.bracket .angle) i es l) ∧ ∀ qs : Plugins W, expandOther o a qs = (.ok a, qs)
  | _, .leaf k i v l, ps, r, h => by
    refine ⟨by simp, fun qs => ?_⟩
    rcases k
    case text => rw [expandOther]; rfl
    all_goals
      simp only [genChild] at h
      exact (bailWith_never h).elim
  | d, .node .document i cs l, ps, r, h => by
    simp only [genChild] at h
    exact (bailWith_never h).elim
  | d, .node .stmt i cs l, ps, r, h => by
    rcases d
    · simp only [genChild, Bool.false_eq_true, if_false] at h
      exact (bailWith_never h).elim
    · simp only [genChild, if_true] at h
      obtain ⟨rs, h1, _⟩ := PM.bind_fst_ok h
      refine ⟨by simp, fun qs => expandOther_node o (fun c hc => ?_)⟩
      have := genChildren_expand ck o false cs ps rs h1 c hc
      exact ⟨this.1, this.2 qs⟩
  | d, .node .expr i cs l, ps, r, h => by
    simp only [genChild] at h
    obtain ⟨rs, h1, _⟩ := PM.bind_fst_ok h
    refine ⟨by simp, fun qs => expandOther_node o (fun c hc => ?_)⟩
    have := genChildren_expand ck o false cs ps rs h1 c hc
    exact ⟨this.1, this.2 qs⟩
  | d, .node (.bracket .angle) i cs l, ps, r, h => by simp only [genChild, PM.bail_run] at h; cases h
  | d, .node (.bracket .square) i [] l, ps, r, h | d, .node (.bracket .square) i [_] l, ps, r, h
  | d, .node (.bracket .curly) i [] l, ps, r, h | d, .node (.bracket .curly) i [_] l, ps, r, h => by
    simp only [genChild, PM.bail_run] at h; cases h
  | d, .node (.bracket .square) i (m :: j :: cs) l, ps, r, h => by
    simp only [genChild] at h
    obtain ⟨rs, h1, h2⟩ := PM.bind_fst_ok h
    unfold commandGenerate at h2
    obtain ⟨x, h3, h4⟩ := PM.bind_fst_ok h2
    obtain ⟨y, h5, _⟩ := PM.bind_fst_ok h4
    refine ⟨by simp, fun qs => expandOther_node o (fun c hc => ?_)⟩
    rcases List.mem_cons.mp hc with rfl | hc
    · exact ⟨(nameOf_expand o (.inl rfl) h3).1, (nameOf_expand o (.inl rfl) h3).2 qs⟩
    · rcases List.mem_cons.mp hc with rfl | hc
      · exact ⟨(nameOf_expand o (.inr rfl) h5).1, (nameOf_expand o (.inr rfl) h5).2 qs⟩
      · have := genChildren_expand ck o false cs ps rs h1 c hc
        exact ⟨this.1, this.2 qs⟩
  | d, .node (.bracket .curly) i (m :: j :: cs) l, ps, r, h => by
    simp only [genChild] at h
    obtain ⟨rs, h1, h2⟩ := PM.bind_fst_ok h
    unfold commandGenerate at h2
    obtain ⟨x, h3, h4⟩ := PM.bind_fst_ok h2
    obtain ⟨y, h5, _⟩ := PM.bind_fst_ok h4
    refine ⟨by simp, fun qs => expandOther_node o (fun c hc => ?_)⟩
    rcases List.mem_cons.mp hc with rfl | hc
    · exact ⟨(nameOf_expand o (.inl rfl) h3).1, (nameOf_expand o (.inl rfl) h3).2 qs⟩
    · rcases List.mem_cons.mp hc with rfl | hc
      · exact ⟨(nameOf_expand o (.inr rfl) h5).1, (nameOf_expand o (.inr rfl) h5).2 qs⟩
      · have := genChildren_expand ck o false cs ps rs h1 c hc
        exact ⟨this.1, this.2 qs⟩

theorem genChildren_expand (ck : Bool) (o : AST) : ∀ (d : Bool) (cs : List AST) (ps : Plugins W) (rs : List Str),
    (genChildren ck d cs ps).1 = .ok rs → ∀ c ∈ cs,
      (∀ i es l, c ≠ .node (.bracket .angle) i es l) ∧ ∀ qs : Plugins W, expandOther o c qs = (.ok c, qs)
  | _, [], _, _, _, _, hc => by cases hc
  | d, c :: cs, ps, rs, h, c', hc => by
    simp only [genChildren] at h
    obtain ⟨x, h1, h2⟩ := PM.bind_fst_ok h
    obtain ⟨xs, h3, _⟩ := PM.bind_fst_ok h2
    rcases List.mem_cons.mp hc with hc | hc
    · rw [hc]; exact genChild_expand ck o d c ps x h1
    · exact genChildren_expand ck o d cs _ xs h3 c' hc

end

theorem generate_expand {ck : Bool} {a : AST} {ps : Plugins W} {r : Str} (h : (generate ck a ps).1 = .ok r)
    (qs : Plugins W) : expander a qs = (.ok a, qs) := by
  unfold expander
  rcases a with ⟨k, i, v, l⟩ | ⟨k, i, cs, l⟩
  · simp only [generate, PM.bail_run] at h; cases h
  · rcases k with _ | _ | _ | b
    · simp only [generate] at h
      obtain ⟨rs, h1, _⟩ := PM.bind_fst_ok h
      refine expandOther_node _ (fun c hc => ?_)
      have := genChildren_expand ck (.node .document i cs l) true cs ps rs h1 c hc
      exact ⟨this.1, this.2 qs⟩
    all_goals
      simp only [generate, PM.bail_run] at h
      cases h

theorem compileText_of_generate {S : Segmenter} {ids : Nat → Str} {ck : Bool} {text gen : Str} {ts c a es}
    {ps ps' : Plugins W} (ht : tokenizeStr S text = .ok ts) (hp : parse ts = .ok c)
    (hx : transform ids c = .ok (a, es)) (hg : generate ck a ps = (.ok gen, ps')) :
    compileText S ids ck text ps = (.ok gen, ps') := by
  rw [compileText_front ht hp hx, PM.bind_run, generate_expand (by rw [hg])]
  exact hg

/-! ### one statement after the other -/

theorem genChildren_append (ck d : Bool) (as bs : List AST) (ps : Plugins W) :
    genChildren ck d (as ++ bs) ps =
      (do let xs ← genChildren ck d as
          let ys ← genChildren ck d bs
          pure (xs ++ ys) : PM W (List Str)) ps := by
  induction as generalizing ps with
  | nil =>
    simp only [List.nil_append, genChildren, PM.bind_run]
    have e : (pure [] : PM W (List Str)) ps = (.ok [], ps) := rfl
    rw [e]
    simp only []
    rcases genChildren ck d bs ps with ⟨x | m | _, ps1⟩ <;> rfl
  | cons a as ih =>
    simp only [List.cons_append, genChildren, PM.bind_run]
    rcases genChild ck d a ps with ⟨x | m | _, ps1⟩ <;> simp only []
    rw [ih]
    simp only [PM.bind_run]
    rcases genChildren ck d as ps1 with ⟨y | m | _, ps2⟩ <;> simp only []
    have e : (pure (x :: y) : PM W (List Str)) ps2 = (.ok (x :: y), ps2) := rfl
    rw [e]
    simp only []
    rcases genChildren ck d bs ps2 with ⟨z | m | _, ps3⟩ <;> rfl

/-- The statements of a document without document hook. -/
theorem generate_statements (ck : Bool) {i cs l} {ps : Plugins W} (h : ps.documentHook = none) (r : Str)
    (ps' : Plugins W) : generate ck (.node .document i cs l) ps = (.ok r, ps') ↔
      ∃ rs, genChildren ck true cs ps = (.ok rs, ps') ∧ r = rs.flatten := by
  simp only [generate, PM.bind_run]
  have hs : ∀ x, genChildren ck true cs ps = x → x.2.documentHook = none := by
    rintro x rfl
    have := Same.of_gens (genChildren_gens ck true cs ps ps (Same.refl ps))
    rw [this.document]
    exact h
  rcases hx : genChildren ck true cs ps with ⟨x | m | _, ps1⟩ <;> simp only []
  · have h1 : ps1.documentHook = none := hs _ hx
    simp only [Plugins.callDocumentHook, h1, orElseText]
    constructor
    · intro h; cases h; exact ⟨_, rfl, rfl⟩
    · rintro ⟨rs, h1, rfl⟩; cases h1; rfl
  · constructor
    · intro h; cases h
    · rintro ⟨rs, h1, rfl⟩; cases h1
  · constructor
    · intro h; cases h
    · rintro ⟨rs, h1, rfl⟩; cases h1

end Brack
