import Verif.Proof.Walk
import Verif.Props.Transform
import Verif.Proof.Cases

/-
Properties of the methods of trees (C138).
-/

namespace Brack

/-! ### C138 -/

/-- C138: asking for children leads to all nodes of a tree. -/
theorem C138_met (a n : AST) : a.Met n ↔ AST.NodeOf n a := met_iff a n

/-- C138: each node met in the tree of a document has children to ask for, or a word to ask for, or is reported: it stands for a
backslash that escapes nothing, with its range. -/
theorem C138_nodes (ids : Nat → Str) (ts : List Token) (c : CST) (a : AST) (es : List TErr) (hp : parse ts = .ok c)
    (hx : transform ids c = .ok (a, es)) (n : AST) (hn : a.Met n) :
    n.IsInner ∨ n.IsWord ∨ n.IsBroken ∧ ⟨.invalidBackslash, n.loc⟩ ∈ es := by
  rcases n with ⟨k, i, v, l⟩ | ⟨k, i, cs, l⟩
  · have hm := met_contents hn ⟨k, v, l⟩ (by simp [AST.contents])
    have hs := C21_backslash ts c ids a es hp hx
    obtain ⟨_, _, _, _, hT⟩ := transform_trans hp hx
    rw [hT.contents] at hm
    obtain ⟨e, he, h'⟩ := List.mem_filterMap.mp hm
    have word : ∀ k w, k = ALKind.module ∨ k = ALKind.ident ∨ k = ALKind.text → (AST.leaf k i (some w) l).IsWord := by
      rintro k w (rfl | rfl | rfl) <;> exact ⟨⟨w, rfl⟩, rfl⟩
    rcases e with ⟨st, k', l'⟩ | _ | ⟨st, t⟩ | _ | _ | _ <;> try (simp [Event.content?] at h'; done)
    · rcases k' <;> simp [Event.content?] at h' <;> obtain ⟨rfl, rfl, rfl⟩ := h' <;> exact .inr (.inl (word _ _ (by simp)))
    · simp [Event.content?] at h'
      obtain ⟨rfl, rfl, rfl⟩ := h'
      exact .inr (.inl (word _ _ (by simp)))
    · simp [Event.content?] at h'
      obtain ⟨rfl, rfl, rfl⟩ := h'
      have : t.loc ∈ es.filterMap TErr.invalidBackslash? := by
        rw [hs]; exact List.mem_filterMap.mpr ⟨_, he, rfl⟩
      obtain ⟨x, hx1, hx2⟩ := List.mem_filterMap.mp this
      rcases x with ⟨xk, xl⟩
      cases xk <;> simp [TErr.invalidBackslash?] at hx2
      subst hx2
      exact .inr (.inr ⟨⟨rfl, rfl⟩, hx1⟩)
  · exact .inl ⟨⟨cs, rfl⟩, rfl⟩

/-- C138: and for each backslash that is reported, there is such a node. -/
theorem C138_broken (ids : Nat → Str) (ts : List Token) (c : CST) (a : AST) (es : List TErr) (hp : parse ts = .ok c)
    (hx : transform ids c = .ok (a, es)) (l : Loc) (h : ⟨.invalidBackslash, l⟩ ∈ es) :
    ∃ n, a.Met n ∧ n.IsBroken ∧ n.loc = l := by
  have hs := C21_backslash ts c ids a es hp hx
  obtain ⟨_, _, _, _, hT⟩ := transform_trans hp hx
  have : l ∈ es.filterMap TErr.invalidBackslash? := List.mem_filterMap.mpr ⟨_, h, rfl⟩
  rw [hs] at this
  obtain ⟨e, he, h'⟩ := List.mem_filterMap.mp this
  rcases e with _ | _ | ⟨st, t⟩ | _ | _ | _ <;> simp [Event.stray?] at h'
  obtain ⟨i, hm⟩ := contents_met a a ⟨.invalid, none, t.loc⟩ .root (by
    rw [hT.contents]; exact List.mem_filterMap.mpr ⟨_, he, rfl⟩)
  exact ⟨_, hm, ⟨rfl, rfl⟩, h'⟩

/-- C138: in the tree of a document without errors, each node has children or a word to ask for. -/
theorem C138_clean (ids : Nat → Str) (ts : List Token) (c : CST) (a : AST) (hp : parse ts = .ok c)
    (hx : transform ids c = .ok (a, [])) (n : AST) (hn : a.Met n) : n.IsInner ∨ n.IsWord := by
  rcases C138_nodes ids ts c a [] hp hx n hn with h | h | ⟨_, h⟩
  · exact .inl h
  · exact .inr h
  · cases h

/-- Documents with and without nodes that are broken. -/
example (S : Segmenter) : (∃ ts c a es, tokenizeStr S (chars! "a\\b [c.d \\, e]") = .ok ts ∧ parse ts = .ok c ∧
      transform someIds c = .ok (a, es) ∧ es.length = 1) ∧
    ∃ ts c a es, tokenizeStr S (chars! "a [c.d \\, e]") = .ok ts ∧ parse ts = .ok c ∧
      transform someIds c = .ok (a, es) ∧ es = [] ∧ a.nodes.length = 10 :=
  ⟨front_case S (chars! "a\\b [c.d \\, e]") (by decide +kernel) (fun _ _ _ es => es.length = 1) (by decide +kernel),
    front_case S (chars! "a [c.d \\, e]") (by decide +kernel) (fun _ _ a es => es = [] ∧ a.nodes.length = 10)
      (by decide +kernel)⟩

end Brack
