import Verif.Spec.Walk
import Verif.Proof.Expand

/-
The nodes met by asking for children.
-/

namespace Brack

theorem mem_contentsL {c : AST} {x : Content} (hx : x ∈ c.contents) : ∀ cs : List AST, c ∈ cs → x ∈ AST.contentsL cs
  | [], hm => by cases hm
  | d :: cs, hm => by
    rw [AST.contentsL, List.mem_append]
    rcases List.mem_cons.mp hm with rfl | hm
    · exact .inl hx
    · exact .inr (mem_contentsL hx cs hm)

theorem met_contents {root : AST} {n : AST} (h : root.Met n) : ∀ x ∈ n.contents, x ∈ root.contents := by
  induction h with
  | root => exact fun x hx => hx
  | @child n c cs _ hc hm ih =>
    intro x hx
    refine ih x ?_
    rcases n with _ | ⟨k, i, ds, l⟩
    · cases hc
    · injection hc with hc
      subst hc
      rw [AST.contents]
      exact mem_contentsL hx _ hm

mutual

theorem contents_met (root : AST) : ∀ (a : AST) (x : Content), root.Met a → x ∈ a.contents →
    ∃ i, root.Met (.leaf x.kind i x.value x.loc)
  | .leaf k i v l, x, hm, hx => by
    simp only [AST.contents, List.mem_singleton] at hx
    subst hx
    exact ⟨i, hm⟩
  | .node k i cs l, x, hm, hx => contentsL_met root cs x (fun _ hc => .child hm rfl hc) hx

theorem contentsL_met (root : AST) : ∀ (cs : List AST) (x : Content), (∀ c ∈ cs, root.Met c) → x ∈ AST.contentsL cs →
    ∃ i, root.Met (.leaf x.kind i x.value x.loc)
  | [], _, _, hx => by cases hx
  | c :: cs, x, hm, hx => by
    rw [AST.contentsL, List.mem_append] at hx
    rcases hx with hx | hx
    · exact contents_met root c x (hm c (by simp)) hx
    · exact contentsL_met root cs x (fun d hd => hm d (by simp [hd])) hx

end

theorem Met.trans {a b c : AST} (h1 : a.Met b) (h2 : b.Met c) : a.Met c := by
  induction h2 with
  | root => exact h1
  | child _ hc hm ih => exact .child ih hc hm

theorem nodeOf_trans {a b c : AST} (h1 : AST.NodeOf a b) (h2 : AST.NodeOf b c) : AST.NodeOf a c := by
  induction h2 with
  | self => exact h1
  | child hm _ ih => exact .child hm ih

theorem met_iff (a n : AST) : a.Met n ↔ AST.NodeOf n a := by
  constructor
  · intro h
    induction h with
    | root => exact .self
    | @child n c cs _ hc hm ih =>
      rcases n with _ | ⟨k, i, ds, l⟩
      · cases hc
      · injection hc with hc
        subst hc
        exact nodeOf_trans (.child hm .self) ih
  · intro h
    induction h with
    | self => exact .root
    | @child k i cs l c hm _ ih => exact Met.trans (.child .root rfl hm) ih

end Brack
