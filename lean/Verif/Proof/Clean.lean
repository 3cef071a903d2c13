import Verif.Proof.Decided
import Verif.Proof.Sized
import Verif.Proof.GenDone
import Verif.Proof.GenMore
import Verif.Proof.Paragraphs
import Verif.Proof.WrittenGen
import Verif.Proof.TransFinal

/-
Documents without errors: nothing but commands can keep them from being compiled.
-/

namespace Brack

variable {W : Wasm}

/-- A tree without macros. -/
theorem generable_of_follows {a n : AST} (hn : AST.NodeOf n a) (hf : a.Follows)
    (hm : ∀ i cs l, ¬ AST.NodeOf (.node (.bracket .angle) i cs l) a) (hl : ∀ k i v l, a = .leaf k i v l → a.nodeGenerable = true) :
    n.nodeGenerable = true := by
  have hroot : ∀ {a : AST}, a.Follows → (∀ i cs l, ¬ AST.NodeOf (.node (.bracket .angle) i cs l) a) →
      (∀ k i v l, a = .leaf k i v l → a.nodeGenerable = true) → a.nodeGenerable = true ∧
      ∀ k i cs l c, a = .node k i cs l → c ∈ cs → ∀ k' i' v' l', c = .leaf k' i' v' l' → c.nodeGenerable = true := by
    intro a hf hm hl
    have hr := hf a .self
    rcases a with ⟨k, i, v, l⟩ | ⟨k, i, cs, l⟩
    · exact ⟨hl _ _ _ _ rfl, by intro _ _ _ _ _ h; cases h⟩
    have hang : ∀ c ∈ cs, ∀ i es l, c ≠ .node (.bracket .angle) i es l := by
      intro c hc i' es' l' h
      subst h
      exact hm _ _ _ (.child hc .self)
    rcases k with _ | _ | _ | b
    · rw [AST.followsRule, List.all_eq_true] at hr
      refine ⟨?_, ?_⟩
      · rw [AST.nodeGenerable, List.all_eq_true]
        intro c hc
        have := hr c hc
        rcases c with ⟨k, _, _, _⟩ | ⟨k, _, _, _⟩
        · cases this
        · rcases k <;> first | rfl | cases this
      · rintro _ _ _ _ c h hc k' i' v' l' rfl
        injection h with _ _ h _
        subst h
        cases hr _ hc
    · rw [AST.followsRule, List.all_eq_true] at hr
      refine ⟨?_, ?_⟩
      · rw [AST.nodeGenerable, List.all_eq_true]
        intro c hc
        have := hr c hc
        rcases c with ⟨k, _, _, _⟩ | ⟨k, _, _ | ⟨_, _⟩, _⟩
        · cases this
        · rcases k <;> cases this
        · rcases k <;> first | rfl | cases this
      · rintro _ _ _ _ c h hc k' i' v' l' rfl
        injection h with _ _ h _
        subst h
        cases hr _ hc
    · rw [AST.followsRule, Bool.and_eq_true, List.all_eq_true] at hr
      replace hr := hr.2
      refine ⟨?_, ?_⟩
      · rw [AST.nodeGenerable, List.all_eq_true]
        intro c hc
        have := hr c hc
        have h' := hang c hc
        rcases c with ⟨k, i', v, l'⟩ | ⟨k, i', cs', l'⟩
        · rcases k <;> rcases v with _ | v <;> first | rfl | cases this
        · rcases k with _ | _ | _ | b
          · cases this
          · cases this
          · cases this
          · rcases b <;> first | rfl | exact absurd rfl (h' _ _ _)
      · rintro _ _ _ _ c h hc k' i' v' l' rfl
        injection h with _ _ h _
        subst h
        have := hr _ hc
        rcases k' <;> rcases v' with _ | v' <;> first | rfl | cases this
    · rcases cs with _ | ⟨m, _ | ⟨j, args⟩⟩
      · cases hr
      · cases hr
      rw [AST.followsRule, AST.isCommand, Bool.and_eq_true, Bool.and_eq_true, List.all_eq_true] at hr
      obtain ⟨⟨h1, h2⟩, h3⟩ := hr
      have hm1 : ∃ i1 v1 l1, m = .leaf .module i1 (some v1) l1 := by
        have h' := hang m (by simp)
        rcases m with ⟨k, i', v, l'⟩ | ⟨k, i', cs', l'⟩
        · rcases k <;> rcases v with _ | v <;> first | exact ⟨_, _, _, rfl⟩ | cases h1
        · rcases k with _ | _ | _ | b'
          · cases h1
          · cases h1
          · cases h1
          · rcases b' <;> first | exact absurd rfl (h' _ _ _) | cases h1
      have hj1 : ∃ i1 v1 l1, j = .leaf .ident i1 (some v1) l1 := by
        have h' := hang j (by simp)
        rcases j with ⟨k, i', v, l'⟩ | ⟨k, i', cs', l'⟩
        · rcases k <;> rcases v with _ | v <;> first | exact ⟨_, _, _, rfl⟩ | cases h2
        · rcases k with _ | _ | _ | b'
          · cases h2
          · cases h2
          · cases h2
          · rcases b' <;> first | exact absurd rfl (h' _ _ _) | cases h2
      obtain ⟨i1, v1, l1, rfl⟩ := hm1
      obtain ⟨i2, v2, l2, rfl⟩ := hj1
      have hargs : args.all AST.isPart = true := by
        rw [List.all_eq_true]
        intro c hc
        have := h3 c hc
        rcases c with ⟨k, _, _, _⟩ | ⟨k, _, _ | ⟨_, _⟩, _⟩
        · cases this
        · rcases k <;> cases this
        · rcases k <;> first | rfl | cases this
      refine ⟨?_, ?_⟩
      · rcases b
        · exact absurd .self (hm _ _ _)
        · rw [AST.nodeGenerable]
          · exact hargs
          · simp
        · rw [AST.nodeGenerable]
          · exact hargs
          · simp
      · rintro _ _ _ _ c h hc k' i' v' l' rfl
        injection h with _ _ h _
        subst h
        rcases List.mem_cons.mp hc with hc | hc
        · rw [hc]; rfl
        rcases List.mem_cons.mp hc with hc | hc
        · rw [hc]; rfl
        cases h3 _ hc
  induction hn with
  | self => exact (hroot hf hm hl).1
  | child hc _ ih =>
    refine ih (fun x hx => hf x (.child hc hx)) (fun i cs l h => hm i cs l (.child hc h)) fun k i v l h => ?_
    exact (hroot hf hm hl).2 _ _ _ _ _ rfl hc k i v l h

mutual
theorem calm_of_generable : ∀ a : AST, (∀ n, AST.NodeOf n a → n.nodeGenerable = true) → a.shape.calm = true
  | .leaf k i v l, h => by
    have := h _ .self
    rcases k <;> rcases v with _ | v <;> first | rfl | cases this
  | .node k i cs l, h => by
    rw [AST.shape, Shape.calm, Bool.and_eq_true]
    refine ⟨?_, calmL_of_generable cs fun c hc n hn => h n (.child hc hn)⟩
    have := h _ .self
    rcases k with _ | _ | _ | b
    · rfl
    · rfl
    · rfl
    · rcases b <;> first | rfl | cases this

theorem calmL_of_generable : ∀ cs : List AST, (∀ c ∈ cs, ∀ n, AST.NodeOf n c → n.nodeGenerable = true) →
    Shape.calmL (AST.shapeL cs) = true
  | [], _ => rfl
  | c :: cs, h => by
    rw [AST.shapeL, Shape.calmL, Bool.and_eq_true]
    exact ⟨calm_of_generable c (h c (by simp)), calmL_of_generable cs fun c hc => h c (by simp [hc])⟩
end

theorem length_sizeL : ∀ ds : List AST, ds.length ≤ AST.sizeL ds
  | [] => by simp
  | d :: ds => by
    have := length_sizeL ds
    have h1 : 1 ≤ d.size := by rcases d with _ | _ <;> simp [AST.size]
    rw [AST.sizeL, List.length_cons]
    omega

theorem size_mem {c : AST} : ∀ {cs : List AST}, c ∈ cs → c.size ≤ AST.sizeL cs
  | d :: ds, h => by
    rw [AST.sizeL]
    rcases List.mem_cons.mp h with rfl | h
    · omega
    · have := size_mem h
      omega

theorem children_size {a : AST} {k i cs l} (h : AST.NodeOf (.node k i cs l) a) : cs.length < a.size := by
  induction h with
  | self =>
    have := length_sizeL cs
    rw [AST.size]
    omega
  | child hc _ ih =>
    have := size_mem hc
    rw [AST.size]
    omega

/-- The tree of a document is a document. -/
theorem reads_document {S : Segmenter} {ids : Nat → Str} {text : Str} {a : AST} {es : List TErr}
    (h : Reads S ids text a es) : ∃ i cs l, a = .node .document i cs l := by
  obtain ⟨ts, c, _, h2, h3⟩ := h
  obtain ⟨cs, ds, l, m, hT⟩ := transform_trans h2 h3
  have := hT.spec.shape
  rw [CST.sshape] at this
  obtain ⟨i, cs, l, h, _⟩ := shape_document this
  exact ⟨i, cs, l, h⟩

/-- If the tree of a document is in order, then only a plugin can keep it from being compiled. -/
theorem compileText_done {S : Segmenter} {ids : Nat → Str} {text : Str} {a : AST} {es : List TErr} {checks : Bool}
    {ps : Plugins W} (h : Reads S ids text a es) (hg : ∀ n, AST.NodeOf n a → n.nodeGenerable = true ∧ n.CommandOk ps)
    (hh : ps.HooksExist) (hs : ps.AllStandard) (hl : 4 * text.length + 5 ≤ usizeMax) :
    Done ps (compileText S ids checks text ps).1 (compileText S ids checks text ps).2 := by
  obtain ⟨i, cs, l, ha⟩ := reads_document h
  obtain ⟨ts, c, h1, h2, h3⟩ := h
  have hc := calm_of_generable a fun n hn => (hg n hn).1
  rw [compileText_front h1 h2 h3, PM.bind_run, expander, expandOther_calm a ps a hc]
  refine generate_done checks ha hh hs ⟨hg, fun k i cs l hn => ?_⟩
  have k1 := children_size hn
  have k2 := tokens_length S text ts h1
  have k3 := (transform_measure h2 h3).2
  omega

end Brack
