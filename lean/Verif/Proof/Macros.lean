import Verif.Proof.Expand
import Verif.Model.Pipeline

/-
Helper lemmas on macro calls in documents that compile.
-/

namespace Brack

variable {W : Wasm}

theorem PM.bind_fst_ok {α β : Type} {x : PM W α} {f : α → PM W β} {ps : Plugins W} {b : β}
    (h : ((x >>= f) ps).1 = .ok b) : ∃ a, (x ps).1 = .ok a ∧ (f a (x ps).2).1 = .ok b := by
  rw [PM.bind_run] at h
  rcases hx : x ps with ⟨a | m | _, ps'⟩ <;> rw [hx] at h
  · exact ⟨a, rfl, h⟩
  · cases h
  · cases h

theorem nameOf_leaf {k : ALKind} {a : AST} {ps : Plugins W} {s : Str} (h : (nameOf k a ps).1 = .ok s) : a.macros = [] := by
  rcases a with ⟨k', i, v, l⟩ | ⟨k', i, cs, l⟩
  · simp only [AST.macros]
  · simp only [nameOf, PM.bail_run] at h
    cases h

theorem bailWith_never {a : AST} {ps : Plugins W} {s : Str} (h : (bailWith a ps).1 = .ok s) : False := by
  unfold bailWith at h
  obtain ⟨_, _, h⟩ := PM.bind_fst_ok h
  cases h

mutual

theorem genChild_macros (ck : Bool) : ∀ (d : Bool) (a : AST) (ps : Plugins W) (r : Str),
    (genChild ck d a ps).1 = .ok r → a.macros = []
  | _, .leaf k i v l, _, _, _ => by simp only [AST.macros]
  | d, .node .document i cs l, ps, r, h => by
    simp only [genChild] at h
    exact (bailWith_never h).elim
  | d, .node .stmt i cs l, ps, r, h => by
    rcases d
    · simp only [genChild, Bool.false_eq_true, if_false] at h
      exact (bailWith_never h).elim
    · simp only [genChild, if_true] at h
      obtain ⟨rs, h1, _⟩ := PM.bind_fst_ok h
      have := genChildren_macros ck false cs ps rs h1
      simpa only [AST.macros] using this
  | d, .node .expr i cs l, ps, r, h => by
    simp only [genChild] at h
    obtain ⟨rs, h1, _⟩ := PM.bind_fst_ok h
    have := genChildren_macros ck false cs ps rs h1
    simpa only [AST.macros] using this
  | d, .node (.bracket .angle) i cs l, ps, r, h => by simp only [genChild, PM.bail_run] at h; cases h
  | d, .node (.bracket .square) i [] l, ps, r, h | d, .node (.bracket .square) i [_] l, ps, r, h
  | d, .node (.bracket .curly) i [] l, ps, r, h | d, .node (.bracket .curly) i [_] l, ps, r, h => by
    simp only [genChild, PM.bail_run] at h; cases h
  | d, .node (.bracket .square) i (m :: j :: cs) l, ps, r, h => by
    simp only [genChild] at h
    obtain ⟨rs, h1, h2⟩ := PM.bind_fst_ok h
    have h0 := genChildren_macros ck false cs ps rs h1
    unfold commandGenerate at h2
    obtain ⟨x, h3, h4⟩ := PM.bind_fst_ok h2
    obtain ⟨y, h5, _⟩ := PM.bind_fst_ok h4
    simp only [AST.macros, AST.macrosL, nameOf_leaf h3, nameOf_leaf h5, h0, List.nil_append]
  | d, .node (.bracket .curly) i (m :: j :: cs) l, ps, r, h => by
    simp only [genChild] at h
    obtain ⟨rs, h1, h2⟩ := PM.bind_fst_ok h
    have h0 := genChildren_macros ck false cs ps rs h1
    unfold commandGenerate at h2
    obtain ⟨x, h3, h4⟩ := PM.bind_fst_ok h2
    obtain ⟨y, h5, _⟩ := PM.bind_fst_ok h4
    simp only [AST.macros, AST.macrosL, nameOf_leaf h3, nameOf_leaf h5, h0, List.nil_append]

theorem genChildren_macros (ck : Bool) : ∀ (d : Bool) (cs : List AST) (ps : Plugins W) (rs : List Str),
    (genChildren ck d cs ps).1 = .ok rs → AST.macrosL cs = []
  | _, [], _, _, _ => by simp only [AST.macrosL]
  | d, c :: cs, ps, rs, h => by
    simp only [genChildren] at h
    obtain ⟨x, h1, h2⟩ := PM.bind_fst_ok h
    obtain ⟨xs, h3, _⟩ := PM.bind_fst_ok h2
    simp only [AST.macrosL, genChild_macros ck d c ps x h1, genChildren_macros ck d cs _ xs h3, List.nil_append]

end

theorem generate_macros {ck : Bool} {a : AST} {ps : Plugins W} {r : Str} (h : (generate ck a ps).1 = .ok r) :
    a.macros = [] := by
  rcases a with ⟨k, i, v, l⟩ | ⟨k, i, cs, l⟩
  · simp only [AST.macros]
  · rcases k with _ | _ | _ | b
    · simp only [generate] at h
      obtain ⟨rs, h1, _⟩ := PM.bind_fst_ok h
      have := genChildren_macros ck true cs ps rs h1
      simpa only [AST.macros] using this
    all_goals
      simp only [generate, PM.bail_run] at h
      cases h

mutual

theorem expandOther_still (o : AST) : ∀ (a : AST) (ps : Plugins W), a.macros = [] → (expandOther o a ps).2 = ps
  | .leaf k i v l, ps, _ => by rcases k <;> rfl
  | .node k i cs l, ps, h => by
    have hcs : AST.macrosL cs = [] := by
      rcases k with _ | _ | _ | _ | _ | _ <;> simp only [AST.macros] at h <;> first | exact h | cases h
    have := expandChildren_still o cs ps hcs
    rw [expandOther, PM.bind_run]
    rcases hx : expandChildren o cs ps with ⟨x | m | _, ps'⟩ <;> rw [hx] at this <;> exact this

theorem expandChildren_still (o : AST) : ∀ (cs : List AST) (ps : Plugins W), AST.macrosL cs = [] →
    (expandChildren o cs ps).2 = ps
  | [], ps, _ => rfl
  | c :: cs, ps, h => by
    simp only [AST.macrosL, List.append_eq_nil_iff] at h
    have h1 := expandOther_still o c ps h.1
    have h2 := expandChildren_still o cs
    have hc : (expandChild o c ps).2 = ps := by
      rcases c with ⟨k, i, v, l⟩ | ⟨k, i, ds, l⟩
      · exact h1
      · rcases k with _ | _ | _ | _ | _ | _ <;> first | exact h1 | (simp [AST.macros] at h)
    rw [expandChildren_cons, PM.bind_run]
    rcases hx : expandChild o c ps with ⟨x | m | _, ps'⟩ <;> rw [hx] at hc
    · simp only [PM.bind_run]
      have hs := h2 ps' h.2
      simp only at hc
      rcases hy : expandChildren o cs ps' with ⟨y | m | _, ps2⟩ <;> rw [hy] at hs
      · exact hs.trans hc
      · exact hs.trans hc
      · exact hs.trans hc
    · exact hc
    · exact hc

end

/-- A document that compiles has no macro call; expansion does nothing. -/
theorem compileText_ok {S : Segmenter} {ids : Nat → Str} {checks : Bool} {text gen : Str} {ps ps' : Plugins W}
    (h : compileText S ids checks text ps = (.ok gen, ps')) :
    ∃ ts c a es, tokenizeStr S text = .ok ts ∧ parse ts = .ok c ∧ transform ids c = .ok (a, es) ∧ a.macros = [] ∧
      generate checks a ps = (.ok gen, ps') := by
  unfold compileText at h
  rcases h1 : tokenizeStr S text with ts | m | _ <;> rw [h1] at h <;> try (cases h; done)
  rcases h2 : parse ts with c | m | _ <;> simp only [PM.bind_run, PM.lift_run, h2] at h <;> try (cases h; done)
  rcases h3 : transform ids c with ⟨a, es⟩ | m | _ <;> simp only [h3] at h <;> try (cases h; done)
  rcases h4 : expander a ps with ⟨b | m | _, ps1⟩ <;> simp only [h4] at h <;> try (cases h; done)
  have hb : b = a := expandOther_result a a ps b (by rw [show expandOther a a ps = _ from h4])
  subst hb
  have hm := generate_macros (by rw [h])
  have hs := expandOther_still b b ps hm
  rw [show expandOther b b ps = _ from h4] at hs
  simp only at hs
  subst hs
  exact ⟨ts, c, b, es, rfl, h2, h3, hm, h⟩

end Brack
