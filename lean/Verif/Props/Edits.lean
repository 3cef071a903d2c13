import Verif.Proof.Edits
import Verif.Props.Tokenizer

/-
Edits do not influence the tokens before them (C74).
-/

namespace Brack

/-! ### C74 -/

/-- C74: two texts that begin with the same user-perceived characters have the same first tokens, with the same
ranges: a token of the one that ends before the last of these characters, and all tokens before it, are the
first tokens of the other. -/
theorem C74_same_start (S : Segmenter) (text text' : Str) (p a b : List Str) (h1 : S.graphemes text = p ++ a)
    (h2 : S.graphemes text' = p ++ b) (u : List Token) (t : Token) (v : List Token)
    (ht : tokenizeStr S text = .ok (u ++ t :: v)) (hl : (spell (u ++ [t])).length < p.flatten.length) :
    ∃ v', tokenizeStr S text' = .ok (u ++ t :: v') := by
  rw [tokenizeStr_eq, h1] at ht
  injection ht with ht
  obtain ⟨v', hv⟩ := run_common a b p M.init u t v (poolOK_init _) (poolOK_init _) ht (by
    simpa [M.init] using hl)
  exact ⟨v', by rw [tokenizeStr_eq, h2, hv]⟩

/-- C74: by the rules of Unicode, whatever is written behind a text, the tokens that end before its last two
user-perceived characters stay as they are. -/
theorem C74_edits (T : UTable) (x y z : Str) (u : List Token) (t : Token) (v : List Token)
    (ht : tokenizeStr T.segmenter (x ++ y) = .ok (u ++ t :: v))
    (hl : (spell (u ++ [t])).length < (T.clusters x).dropLast.flatten.length) :
    ∃ v', tokenizeStr T.segmenter (x ++ z) = .ok (u ++ t :: v') := by
  obtain ⟨a, ha⟩ := T.clusters_prefix x y
  obtain ⟨b, hb⟩ := T.clusters_prefix x z
  exact C74_same_start T.segmenter (x ++ y) (x ++ z) _ a b ha hb u t v ht hl

/-- C74: in ASCII texts these are all tokens that end before the last character. -/
theorem C74_ascii (S : Segmenter) (x y z : Str) (hy : ∀ c ∈ x ++ y, c.toNat < 128 ∧ c ≠ '\r')
    (hz : ∀ c ∈ x ++ z, c.toNat < 128 ∧ c ≠ '\r') (u : List Token) (t : Token) (v : List Token)
    (ht : tokenizeStr S (x ++ y) = .ok (u ++ t :: v)) (hl : (spell (u ++ [t])).length < x.length) :
    ∃ v', tokenizeStr S (x ++ z) = .ok (u ++ t :: v') := by
  refine C74_same_start S (x ++ y) (x ++ z) (x.map (fun c => [c])) (y.map (fun c => [c])) (z.map (fun c => [c]))
    (by rw [S.ascii _ hy, List.map_append]) (by rw [S.ascii _ hz, List.map_append]) u t v ht ?_
  have : ∀ x : Str, (x.map (fun c => [c])).flatten = x := by
    intro x
    induction x with
    | nil => rfl
    | cons c x ih => simp [ih]
  rw [this]
  exact hl

/-- The tokens of `a[p.f b` that are kept whatever follows: the text, the bracket, the module, the dot, the name and
the blank, but not `b`. -/
example (S : Segmenter) : ∃ u t v, tokenizeStr S (chars! "a[p.f b" ++ chars! "c]") = .ok (u ++ t :: v) ∧
    t.kind = .whiteSpace ∧ u.length = 5 ∧ (spell (u ++ [t])).length < (chars! "a[p.f b").length := by
  refine ⟨(run ((chars! "a[p.f bc]").map (fun c => [c])) M.init).take 5, ⟨.whiteSpace, ⟨⟨0, 5⟩, ⟨0, 6⟩⟩⟩,
    (run ((chars! "a[p.f bc]").map (fun c => [c])) M.init).drop 6, ?_, rfl, by decide, by decide⟩
  rw [tokenize_ascii _ _ (by decide)]
  exact congrArg Res.ok (by decide)

/-- The bound is exact: the token `f` ends with the last character and is not kept, here it becomes a longer one. -/
example (S : Segmenter) : ∃ v v', tokenizeStr S (chars! "[p.f" ++ chars! "]") = .ok (v ++ v') ∧ v.length = 4 ∧
    (v.map (·.kind))[3]? = some (.ident ['f']) ∧
    ∃ w, tokenizeStr S (chars! "[p.f" ++ chars! "g]") = .ok w ∧ (w.map (·.kind))[3]? = some (.ident ['f', 'g']) := by
  refine ⟨(run ((chars! "[p.f]").map (fun c => [c])) M.init).take 4, (run ((chars! "[p.f]").map (fun c => [c])) M.init).drop 4,
    ?_, by decide, by decide, run ((chars! "[p.fg]").map (fun c => [c])) M.init, ?_, by decide⟩
  · rw [tokenize_ascii _ _ (by decide), List.take_append_drop]
    rfl
  · rw [tokenize_ascii _ _ (by decide)]
    rfl

end Brack
