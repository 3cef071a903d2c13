import Verif.Proof.Sized
import Verif.Props.Parts
import Verif.Props.Wire

/-
Properties of the depth and the size of trees (C100), and what follows for macros (C65).
-/

namespace Brack

/-! ### C100 -/

/-- C100: the trees are as deep as the brackets are nested, and no deeper: with at most `n` commands open at once, no
more than `2 * n + 5` nodes (for the abstract tree `2 * n + 4`) stand on any way down, whatever the length of the
document. -/
theorem C100_depth (ts : List Token) (c : CST) (ids : Nat → Str) (a : AST) (es : List TErr) (hp : parse ts = .ok c)
    (hx : transform ids c = .ok (a, es)) :
    c.height ≤ 2 * openMost ts + 5 ∧ a.height ≤ 2 * openMost ts + 4 ∧ openMost ts ≤ a.height := by
  refine ⟨(parse_measure hp).1, (transform_measure hp hx).1, ?_⟩
  rw [openMost_le, ← C97_parts ts c ids a es hp hx]
  exact fun x hxx => by simpa using parts_height a [] x hxx

/-- C100: the trees have at most four nodes for each character of the document, and five more. -/
theorem C100_size (S : Segmenter) (text : Str) (ts : List Token) (c : CST) (ids : Nat → Str) (a : AST) (es : List TErr)
    (ht : tokenizeStr S text = .ok ts) (hp : parse ts = .ok c) (hx : transform ids c = .ok (a, es)) :
    ts.length ≤ text.length + 1 ∧ c.size ≤ 4 * text.length + 5 ∧ a.size ≤ 4 * text.length + 5 := by
  have h1 := tokens_length S text ts ht
  have h2 := (parse_measure hp).2
  have h3 := (transform_measure hp hx).2
  omega

/-- C65: a macro that returns the document it is given gets through if at most 19 commands are open at once, in every
document that fits into memory. -/
theorem C65_nesting (H : Host) (hH : H.Echoes) (s : H.State) (f : Str) (S : Segmenter) (text : Str) (ts : List Token)
    (c : CST) (ids : Nat → Str) (a : AST) (es : List TErr) (id : Str) (ht : tokenizeStr S text = .ok ts)
    (hp : parse ts = .ok c) (hx : transform ids c = .ok (a, es)) (hl : text.length < 2 ^ 64) (hn : openMost ts ≤ 19) :
    (H.wasm.callMacro s f a id).1 = .ok a := by
  refine (C65_identity_iff H hH s f a id (transform_sized hp hx (tokens_sized S text ts ht hl))).1 ?_
  have := (transform_measure hp hx).1
  omega

/-- A document where at most two commands are open at once, and which is as deep as that allows. -/
example : ∃ ts c a es, tokenizeStr UTable.sampleSeg (chars! "a [p.g {p.h \\], y}, z]\n\n[p.f] {p.h [p.f]\n") = .ok ts ∧ parse ts = .ok c ∧
    transform someIds c = .ok (a, es) ∧ openMost ts = 2 ∧ c.height = 9 ∧ a.height = 8 ∧ c.size = 52 ∧ a.size = 30 :=
  front_case _ _ (by decide) _ (by decide +kernel)

/-- With 19 commands inside of each other. -/
example : ∃ ts c a es, tokenizeStr UTable.sampleSeg (nestedCommands 19) = .ok ts ∧ parse ts = .ok c ∧
    transform someIds c = .ok (a, es) ∧ openMost ts = 19 ∧ (nestedCommands 19).length < 2 ^ 64 :=
  front_case _ _ (by decide +kernel) (fun ts _ _ _ => openMost ts = 19 ∧ (nestedCommands 19).length < 2 ^ 64) (by decide +kernel)

end Brack
