import Verif.Proof.Sized
import Verif.Spec.ReadBack

/-
Reading the JSON form of tokens and concrete syntax trees.
-/

namespace Brack

open Serde

theorem plain_found : ∀ a ∈ tokenNames, textToken a.2 = none ∧ plainToken a.2 = some a.1 := by decide

theorem read_token {v : Json} {t : Token} (h : v.ShowsToken t) (hd : v.Distinct) (hf : t.loc.Sized) {n : Nat}
    (hn : v.depth ≤ n) : toToken n v = some t := by
  have htext : ∀ (tag s : Str) (mk : Str → TokKind) (w : Json) (l : Loc), textToken tag = some mk →
      v.Tagged tag (.arr [.str s, w]) → w.ShowsLoc l → l.Sized → toToken n v = some ⟨mk s, l⟩ := by
    intro tag s mk w l hm hv hl hs
    have hw := hd.of_tagged hv
    have d1 := hv.depth
    simp only [Json.depth, Json.depthArr] at d1
    obtain ⟨n, rfl⟩ : ∃ m, n = m + 2 := ⟨n - 2, by omega⟩
    rw [Json.Tagged] at hv
    subst hv
    rw [toToken, variant]
    simp only [hm, toStr]
    have hwd : w.Distinct := by
      cases hw with
      | arr h => exact h _ (by simp)
    rw [read_loc hwd hl hs (by omega)]
    rfl
  cases h with
  | plain hk hv hl =>
    have hw := hd.of_tagged hv
    have d1 := hv.depth
    obtain ⟨n, rfl⟩ : ∃ m, n = m + 1 := ⟨n - 1, by omega⟩
    obtain ⟨k1, k2⟩ := plain_found _ hk
    rw [Json.Tagged] at hv
    subst hv
    rw [toToken, variant]
    simp only
    rw [k1]
    simp only
    rw [k2]
    simp only
    rw [read_loc hw hl hf (by omega)]
    rfl
  | text hv hl => exact htext _ _ .text _ _ rfl hv hl hf
  | module hv hl => exact htext _ _ .module _ _ rfl hv hl hf
  | ident hv hl => exact htext _ _ .ident _ _ rfl hv hl hf

/-- A value that shows tokens is read as these tokens. -/
theorem read_tokens {v : Json} {ts : List Token} (h : v.ShowsTokens ts) (hd : v.Distinct) (hf : ∀ t ∈ ts, t.loc.Sized)
    {n : Nat} (hn : v.depth ≤ n) : toTokens n v = some ts := by
  obtain ⟨vs, rfl, h⟩ := h
  rw [Json.depth] at hn
  obtain ⟨n, rfl⟩ : ∃ m, n = m + 1 := ⟨n - 1, by omega⟩
  rw [toTokens]
  have hvs : ∀ u ∈ vs, u.Distinct := by
    cases hd with
    | arr h => exact h
  have hn' : Json.depthArr vs ≤ n := by omega
  clear hd hn
  induction h with
  | nil => rfl
  | cons h ht ih =>
    rw [Json.depthArr] at hn'
    rw [List.mapM_cons, read_token h (hvs _ (by simp)) (hf _ (by simp)) (by omega),
      ih (fun t ht => hf t (by simp [ht])) (fun u hu => hvs u (by simp [hu])) (by omega)]
    rfl

theorem distinct_token (t : Token) : (ofToken t).Distinct := by
  refine .obj (by simp) ?_
  intro f hf
  rw [List.mem_singleton] at hf
  subst hf
  simp only [tokenFields]
  split
  all_goals first
    | exact distinct_loc _
    | (refine .arr fun u hu => ?_
       simp only [List.mem_cons, List.not_mem_nil, or_false] at hu
       rcases hu with rfl | rfl
       · exact .str _
       · exact distinct_loc _)

theorem depth_token (t : Token) : (ofToken t).depth ≤ 4 := by
  simp only [ofToken, Json.depth, Json.depthObj, tokenFields]
  split <;> simp [Json.depth, Json.depthArr, depth_loc]

theorem distinct_tokens (ts : List Token) : (ofTokens ts).Distinct := by
  refine .arr fun u hu => ?_
  obtain ⟨t, _, rfl⟩ := List.mem_map.mp hu
  exact distinct_token t

theorem depth_tokens (ts : List Token) : (ofTokens ts).depth ≤ 5 := by
  rw [ofTokens, Json.depth]
  have : Json.depthArr (ts.map ofToken) ≤ 4 := by
    induction ts with
    | nil => simp [Json.depthArr]
    | cons t ts ih =>
      rw [List.map_cons, Json.depthArr]
      have := depth_token t
      omega
  omega

theorem cst_leaf_found (k : CLKind) : cstTags.find (cstTags.leaf k) = some (.inl k) := by
  cases k with
  | bopen b => cases b <;> decide
  | bclose b => cases b <;> decide
  | _ => decide

theorem cst_inner_found (k : IKind) : cstTags.find (cstTags.inner k) = some (.inr k) := by
  cases k with
  | bracket b => cases b <;> decide
  | _ => decide

theorem ast_leaf_found (k : ALKind) : astTags.find (astTags.leaf k) = some (.inl k) := by cases k <;> decide

theorem toLoc_ofLoc {n : Nat} {l : Loc} (hs : l.Sized) : toLoc n (ofLoc l) = if 2 ≤ n then some l else none := by
  split
  · next h => exact read_loc (distinct_loc l) (shows_loc l) hs (by rw [depth_loc]; exact h)
  · next h =>
    rcases hl : toLoc n (ofLoc l) with _ | m
    · rfl
    · exact absurd (toLoc_deep hl) h

mutual
/-- The form of a tree is read exactly if the tree is not too high. -/
theorem read_cst (ids : List Nat → Str) : ∀ (c : CST) (path : List Nat) (n : Nat), c.Sized →
    toTree cstTags n (ofTree cstTags (c.tree ids path)) =
      if 3 * c.height + 1 ≤ n then some (c.tree ids path) else none
  | .leaf k l, path, n, hs => by
    cases hs with
    | leaf hl =>
    rw [CST.height, CST.tree, ofTree]
    rcases n with _ | _ | _ | n
    · rfl
    · rfl
    · rfl
    · rw [toTree, variant]
      simp only
      rw [cst_leaf_found]
      simp only
      have hf : structFields [chars! "id", chars! "value", chars! "location"]
          (.obj [(chars! "id", .str (ids path)), (chars! "value", ofOption k.parts.2), (chars! "location", ofLoc l)]) =
          some [some (.str (ids path)), some (ofOption k.parts.2), some (ofLoc l)] := rfl
      rw [hf]
      simp only [toStr, Option.getD_some]
      have ho : toOption (ofOption k.parts.2) = some k.parts.2 := by cases k.parts.2 <;> rfl
      rw [ho, toLoc_ofLoc hl]
      by_cases h : 2 ≤ n + 1
      · rw [if_pos h, if_pos (by omega)]; rfl
      · rw [if_neg h, if_neg (by omega)]; rfl
  | .node k cs l, path, n, hs => by
    cases hs with
    | node hl hc =>
    rw [CST.height, CST.tree, ofTree]
    rcases n with _ | _ | _ | n
    · rfl
    · rfl
    · rfl
    · rw [toTree, variant]
      simp only
      rw [cst_inner_found]
      simp only
      have hf : structFields [chars! "id", chars! "children", chars! "location"]
          (.obj [(chars! "id", .str (ids path)), (chars! "children", .arr (ofTrees cstTags (CST.treeL ids path 0 cs))), (chars! "location", ofLoc l)]) =
          some [some (.str (ids path)), some (.arr (ofTrees cstTags (CST.treeL ids path 0 cs))), some (ofLoc l)] := rfl
      rw [hf]
      simp only [toStr]
      rw [toLoc_ofLoc hl, read_csts ids cs path 0 n hc]
      by_cases h1 : CST.heightL cs = 0 ∨ 3 * CST.heightL cs + 1 ≤ n
      · rw [if_pos h1]
        by_cases h : 2 ≤ n + 1
        · rw [if_pos h, if_pos (by omega)]; rfl
        · rw [if_neg h, if_neg (by omega)]; rfl
      · rw [if_neg h1, if_neg (show ¬ 3 * (CST.heightL cs + 1) + 1 ≤ n + 1 + 1 + 1 by omega)]; rfl
theorem read_csts (ids : List Nat → Str) : ∀ (cs : List CST) (path : List Nat) (i n : Nat), (∀ c ∈ cs, c.Sized) →
    (ofTrees cstTags (CST.treeL ids path i cs)).mapM (toTree cstTags n) =
      if CST.heightL cs = 0 ∨ 3 * CST.heightL cs + 1 ≤ n then some (CST.treeL ids path i cs) else none
  | [], path, i, n, _ => by
    rw [CST.heightL, CST.treeL, ofTrees, if_pos (.inl rfl)]
    rfl
  | c :: cs, path, i, n, hs => by
    rw [CST.heightL, CST.treeL, ofTrees, List.mapM_cons, read_cst ids c _ n (hs c (by simp)),
      read_csts ids cs path (i + 1) n (fun c hc => hs c (by simp [hc]))]
    have hpos : 1 ≤ c.height := by cases c <;> rw [CST.height] <;> omega
    by_cases h1 : 3 * c.height + 1 ≤ n
    · rw [if_pos h1]
      by_cases h2 : CST.heightL cs = 0 ∨ 3 * CST.heightL cs + 1 ≤ n
      · rw [if_pos h2, if_pos (by omega)]; rfl
      · rw [if_neg h2, if_neg (by omega)]; rfl
    · rw [if_neg h1, if_neg (show ¬ (max c.height (CST.heightL cs) = 0 ∨ 3 * max c.height (CST.heightL cs) + 1 ≤ n) by omega)]; rfl
end

theorem loc_sized {l : Loc} (h : Pos.Sized l.start ∧ Pos.Sized l.stop) : l.Sized := ⟨h.1.1, h.1.2, h.2.1, h.2.2⟩

mutual
theorem CST.within_sized : ∀ c : CST, c.within Pos.Sized → c.Sized
  | .leaf _ _, h => .leaf (loc_sized h)
  | .node _ cs _, h => .node (loc_sized h.1) (CST.withinL_sized cs h.2)
theorem CST.withinL_sized : ∀ cs : List CST, CST.withinL Pos.Sized cs → ∀ c ∈ cs, c.Sized
  | [], _ => by simp
  | c :: cs, h => by
    rw [List.forall_mem_cons]
    exact ⟨CST.within_sized c h.1, CST.withinL_sized cs h.2⟩
end

theorem parse_sized {ts : List Token} {c : CST} (hp : parse ts = .ok c) (ht : TWithin Pos.Sized ts) : c.Sized := by
  obtain ⟨rest, hP⟩ := parse_ok hp
  exact CST.within_sized c (hP.within ⟨by decide, by decide⟩ ht)

end Brack
