import Verif.Model.Parser
import Verif.Model.Transform
import Verif.Spec.Ast
import Verif.Proof.TokReach

/-
Helpers for concrete cases.
-/

namespace Brack

mutual

/-- Equality of shapes is decidable. -/
def Shape.decEq : (a b : Shape) → Decidable (a = b)
  | .leaf k v, .leaf k' v' =>
    if h : k = k' ∧ v = v' then .isTrue (by rw [h.1, h.2])
    else .isFalse (by intro e; cases e; exact h ⟨rfl, rfl⟩)
  | .node k cs, .node k' cs' =>
    match Shape.decEqL cs cs' with
    | .isTrue h =>
      if hk : k = k' then .isTrue (by rw [h, hk]) else .isFalse (by intro e; cases e; exact hk rfl)
    | .isFalse h => .isFalse (by intro e; cases e; exact h rfl)
  | .leaf _ _, .node _ _ => .isFalse (by intro e; cases e)
  | .node _ _, .leaf _ _ => .isFalse (by intro e; cases e)

/-- Equality of lists of shapes is decidable. -/
def Shape.decEqL : (as bs : List Shape) → Decidable (as = bs)
  | [], [] => .isTrue rfl
  | a :: as, b :: bs =>
    match Shape.decEq a b, Shape.decEqL as bs with
    | .isTrue h, .isTrue h' => .isTrue (by rw [h, h'])
    | .isFalse h, _ => .isFalse (by intro e; cases e; exact h rfl)
    | _, .isFalse h => .isFalse (by intro e; cases e; exact h rfl)
  | [], _ :: _ => .isFalse (by intro e; cases e)
  | _ :: _, [] => .isFalse (by intro e; cases e)

end

instance : DecidableEq Shape := Shape.decEq

/-- Some identifiers, for concrete cases. -/
def someIds (n : Nat) : Str := List.replicate n 'x'

theorem someIds_inj : ∀ i j, someIds i = someIds j → i = j := by
  intro i j h
  have := congrArg List.length h
  simpa [someIds] using this

/-- The parsed tree of an ASCII text, or none. -/
def caseParse (text : Str) : Option (List Token × CST) :=
  match parse (run (text.map (fun c => [c])) M.init) with
  | .ok c => some (run (text.map (fun c => [c])) M.init, c)
  | _ => none

/-- The front end on an ASCII text. -/
def caseFront (ids : Nat → Str) (text : Str) : Option (List Token × CST × AST × List TErr) :=
  match caseParse text with
  | some (ts, c) =>
    match transform ids c with
    | .ok (a, es) => some (ts, c, a, es)
    | _ => none
  | none => none

theorem caseParse_spec (S : Segmenter) {text ts c} (h : ∀ c ∈ text, c.toNat < 128 ∧ c ≠ '\r')
    (hc : caseParse text = some (ts, c)) : tokenizeStr S text = .ok ts ∧ parse ts = .ok c := by
  rw [caseParse] at hc
  split at hc
  · next hp =>
    simp only [Option.some.injEq, Prod.mk.injEq] at hc
    obtain ⟨rfl, rfl⟩ := hc
    exact ⟨tokenize_ascii S text h, hp⟩
  · cases hc

theorem caseFront_spec (S : Segmenter) {ids text ts c a es}
    (h : ∀ c ∈ text, c.toNat < 128 ∧ c ≠ '\r')
    (hc : caseFront ids text = some (ts, c, a, es)) :
    tokenizeStr S text = .ok ts ∧ parse ts = .ok c ∧ transform ids c = .ok (a, es) := by
  rw [caseFront] at hc
  split at hc
  · next hp =>
    obtain ⟨h1, h2⟩ := caseParse_spec S h hp
    split at hc
    · next ht =>
      simp only [Option.some.injEq, Prod.mk.injEq] at hc
      obtain ⟨rfl, rfl, rfl, rfl⟩ := hc
      exact ⟨h1, h2, ht⟩
    · cases hc
  · cases hc

/-- A concrete text, its tokens, tree, AST and errors satisfy `P`. -/
theorem front_case (S : Segmenter) (text : Str) (h : ∀ c ∈ text, c.toNat < 128 ∧ c ≠ '\r')
    (P : List Token → CST → AST → List TErr → Prop) [∀ ts c a es, Decidable (P ts c a es)]
    (hc : ((caseFront someIds text).any fun (ts, c, a, es) => decide (P ts c a es)) = true) :
    ∃ ts c a es, tokenizeStr S text = .ok ts ∧ parse ts = .ok c ∧
      transform someIds c = .ok (a, es) ∧ P ts c a es := by
  rw [Option.any_eq_true] at hc
  obtain ⟨⟨ts, c, a, es⟩, h1, h2⟩ := hc
  obtain ⟨h3, h4, h5⟩ := caseFront_spec S h h1
  exact ⟨ts, c, a, es, h3, h4, h5, of_decide_eq_true h2⟩

/-- A concrete text, its tokens and tree satisfy `P`. -/
theorem parse_case (S : Segmenter) (text : Str) (h : ∀ c ∈ text, c.toNat < 128 ∧ c ≠ '\r')
    (P : List Token → CST → Prop) [∀ ts c, Decidable (P ts c)]
    (hc : ((caseParse text).any fun (ts, c) => decide (P ts c)) = true) :
    ∃ ts c, tokenizeStr S text = .ok ts ∧ parse ts = .ok c ∧ P ts c := by
  rw [Option.any_eq_true] at hc
  obtain ⟨⟨ts, c⟩, h1, h2⟩ := hc
  obtain ⟨h3, h4⟩ := caseParse_spec S h h1
  exact ⟨ts, c, h3, h4, of_decide_eq_true h2⟩

/-- A concrete text makes `transform` panic. -/
theorem panic_case (S : Segmenter) (text : Str) (h : ∀ c ∈ text, c.toNat < 128 ∧ c ≠ '\r')
    (hc : ((caseParse text).any fun (_, c) =>
      match transform someIds c with | .panic => true | _ => false) = true) :
    ∃ ts c, tokenizeStr S text = .ok ts ∧ parse ts = .ok c ∧ transform someIds c = .panic := by
  rw [Option.any_eq_true] at hc
  obtain ⟨⟨ts, c⟩, h1, h2⟩ := hc
  obtain ⟨h3, h4⟩ := caseParse_spec S h h1
  refine ⟨ts, c, h3, h4, ?_⟩
  rcases ht : transform someIds c with r | m | _
  · simp [ht] at h2
  · simp [ht] at h2
  · rfl

end Brack
