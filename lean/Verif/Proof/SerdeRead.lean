import Verif.Proof.Serde

/-
Reading the JSON form of trees, values and metadata.
-/

namespace Brack

open Serde

theorem Json.get_some {v x : Json} {key : Str} (h : v.get key = some x) : ∃ fs, v = .obj fs ∧ Json.field key fs = some x := by
  cases v with
  | obj fs => exact ⟨fs, rfl, h⟩
  | _ => cases h

theorem Json.field_mem {key : Str} {x : Json} {fs : List (Str × Json)} (h : Json.field key fs = some x) : (key, x) ∈ fs := by
  induction fs with
  | nil => cases h
  | cons f fs ih =>
    obtain ⟨k, y⟩ := f
    rw [Json.field] at h
    split at h
    · next hk => injection h with h; subst h hk; simp
    · exact List.mem_cons_of_mem _ (ih h)

theorem Json.field_none {key : Str} {fs : List (Str × Json)} (h : Json.field key fs = none) : ∀ f ∈ fs, f.1 ≠ key := by
  induction fs with
  | nil => simp
  | cons f fs ih =>
    obtain ⟨k, y⟩ := f
    rw [Json.field] at h
    split at h
    · cases h
    · next hk =>
      intro f hf
      rcases List.mem_cons.mp hf with rfl | hf
      · exact hk
      · exact ih h f hf

theorem fieldOnce_eq {fs : List (Str × Json)} (hn : (fs.map (·.1)).Nodup) (key : Str) :
    fieldOnce fs key = some (Json.field key fs) := by
  induction fs with
  | nil => rfl
  | cons f fs ih =>
    obtain ⟨k, y⟩ := f
    rw [List.map_cons, List.nodup_cons] at hn
    have hi := ih hn.2
    rw [fieldOnce] at hi ⊢
    rw [Json.field]
    by_cases hk : k = key
    · subst hk
      have : fs.filter (fun f => f.1 = k) = [] := by
        rw [List.filter_eq_nil_iff]
        intro f hf hfk
        exact hn.1 (List.mem_map.mpr ⟨f, hf, by simpa using hfk⟩)
      simp [this]
    · rw [List.filter_cons_of_neg (by simpa using hk), if_neg hk]
      exact hi

theorem Json.depth_field {fs : List (Str × Json)} {key : Str} {x : Json} (h : Json.field key fs = some x) :
    x.depth ≤ Json.depthObj fs := by
  induction fs with
  | nil => cases h
  | cons f fs ih =>
    obtain ⟨k, y⟩ := f
    rw [Json.field] at h
    rw [Json.depthObj]
    split at h
    · injection h with h; subst h; omega
    · have := ih h; omega

theorem Json.depth_get {v x : Json} {key : Str} (h : v.get key = some x) : x.depth + 1 ≤ v.depth := by
  obtain ⟨fs, rfl, h⟩ := Json.get_some h
  rw [Json.depth]
  have := Json.depth_field h
  omega

theorem Json.Distinct.of_get {v x : Json} {key : Str} (hv : v.Distinct) (h : v.get key = some x) : x.Distinct := by
  obtain ⟨fs, rfl, h⟩ := Json.get_some h
  cases hv with
  | obj _ h' => exact h' _ (Json.field_mem h)

theorem Json.Distinct.of_tagged {v w : Json} {tag : Str} (hv : v.Distinct) (h : v.Tagged tag w) : w.Distinct := by
  rw [Json.Tagged] at h
  subst h
  cases hv with
  | obj _ h' => exact h' _ (List.mem_singleton.mpr rfl)

theorem Json.Tagged.depth {v w : Json} {tag : Str} (h : v.Tagged tag w) : v.depth = w.depth + 1 := by
  rw [Json.Tagged] at h
  subst h
  simp [Json.depth, Json.depthObj]

theorem structFields_get {v : Json} (hv : v.Distinct) {x : Json} {key : Str} (h : v.get key = some x) (keys : List Str) :
    structFields keys v = some (keys.map v.get) := by
  obtain ⟨fs, rfl, h⟩ := Json.get_some h
  cases hv with
  | obj hn _ =>
    rw [structFields]
    induction keys with
    | nil => rfl
    | cons k ks ih =>
      rw [List.mapM_cons, fieldOnce_eq hn, ih]
      rfl

theorem toNat_nat {n : Nat} (h : n < 2 ^ 64) : toNat (.int n) = some n := by
  rw [toNat, if_pos ⟨by omega, by omega⟩]
  simp

theorem read_pos {v : Json} {p : Pos} (hv : v.Distinct) (h : v.ShowsPos p) (h1 : p.line < 2 ^ 64) (h2 : p.character < 2 ^ 64)
    {n : Nat} (hn : v.depth ≤ n) : toPos n v = some p := by
  obtain ⟨ha, hb⟩ := h
  have := Json.depth_get ha
  obtain ⟨n, rfl⟩ : ∃ m, n = m + 1 := ⟨n - 1, by omega⟩
  rw [toPos, structFields_get hv ha]
  simp only [List.map_cons, List.map_nil, ha, hb]
  rw [toNat_nat h1, toNat_nat h2]
  rfl

theorem read_loc {v : Json} {l : Loc} (hv : v.Distinct) (h : v.ShowsLoc l) (hf : l.Sized)
    {n : Nat} (hn : v.depth ≤ n) : toLoc n v = some l := by
  obtain ⟨a, b, ha, ha', hb, hb'⟩ := h
  have d1 := Json.depth_get ha
  have d2 := Json.depth_get hb
  obtain ⟨n, rfl⟩ : ∃ m, n = m + 1 := ⟨n - 1, by omega⟩
  rw [toLoc, structFields_get hv ha]
  simp only [List.map_cons, List.map_nil, ha, hb]
  rw [read_pos (hv.of_get ha) ha' hf.1 hf.2.1 (by omega), read_pos (hv.of_get hb) hb' hf.2.2.1 hf.2.2.2 (by omega)]
  rfl

theorem Json.ShowsLoc.depth {v : Json} {l : Loc} (h : v.ShowsLoc l) : 2 ≤ v.depth := by
  obtain ⟨a, b, ha, ha', _, _⟩ := h
  have d1 := Json.depth_get ha
  have d2 := Json.depth_get ha'.1
  omega

theorem toOption_shows {v : Option Json} {o : Option Str} (h : Json.ShowsOption v o) : toOption (v.getD .null) = some o := by
  rcases h with ⟨rfl, rfl⟩ | ⟨rfl, rfl⟩ | ⟨s, rfl, rfl⟩ <;> rfl

theorem find_leaf : ∀ a ∈ astLeafNames, astTags.find a.2 = some (.inl a.1) := by decide
theorem find_node : ∀ a ∈ astNodeNames, astTags.find a.2 = some (.inr a.1) := by decide

mutual
theorem read_ast : ∀ {v : Json} {a : AST}, v.ShowsAST a → v.Distinct → a.Sized → ∀ n, v.depth ≤ n →
    toTree astTags n v = some a.tree
  | _, _, .leaf (v := v) (w := w) (x := x) hk hv hi ho hx hl, hd, hf, n, hn => by
    have hw := hd.of_tagged hv
    have d1 := hv.depth
    have d2 := Json.depth_get hx
    have d3 := hl.depth
    obtain ⟨n, rfl⟩ : ∃ m, n = m + 3 := ⟨n - 3, by omega⟩
    cases hf with
    | leaf hf =>
      rw [Json.Tagged] at hv
      subst hv
      rw [toTree, variant]
      simp only
      rw [find_leaf _ hk]
      simp only
      rw [structFields_get hw hi]
      simp only [List.map_cons, List.map_nil, hi, hx, toStr, toOption_shows ho]
      rw [read_loc (hw.of_get hx) hl hf (by omega)]
      rfl
  | _, _, .node (v := v) (w := w) (x := x) (vs := vs) hk hv hi hs hc hx hl, hd, hf, n, hn => by
    have hw := hd.of_tagged hv
    have d1 := hv.depth
    have d2 := Json.depth_get hx
    have d3 := hl.depth
    have d4 := Json.depth_get hs
    rw [Json.depth] at d4
    obtain ⟨n, rfl⟩ : ∃ m, n = m + 3 := ⟨n - 3, by omega⟩
    have hvs : ∀ u ∈ vs, u.Distinct := by
      have := hw.of_get hs
      cases this with
      | arr h => exact h
    cases hf with
    | node hf hfc =>
      rw [Json.Tagged] at hv
      subst hv
      rw [toTree, variant]
      simp only
      rw [find_node _ hk]
      simp only
      rw [structFields_get hw hi]
      simp only [List.map_cons, List.map_nil, hi, hx, hs, toStr]
      rw [read_loc (hw.of_get hx) hl hf (by omega), read_asts hc hvs hfc n (by omega)]
      rfl
theorem read_asts : ∀ {vs : List Json} {as : List AST}, Json.ShowsASTs vs as → (∀ v ∈ vs, v.Distinct) →
    (∀ a ∈ as, a.Sized) → ∀ n, Json.depthArr vs ≤ n → vs.mapM (toTree astTags n) = some (AST.treeL as)
  | _, _, .nil, _, _, _, _ => rfl
  | _, _, .cons h ht, hd, hf, n, hn => by
    rw [Json.depthArr] at hn
    rw [List.mapM_cons, read_ast h (hd _ (by simp)) (hf _ (by simp)) n (by omega),
      read_asts ht (fun u hu => hd u (by simp [hu])) (fun u hu => hf u (by simp [hu])) n (by omega)]
    rfl
end

mutual
theorem ast_tree : ∀ a : AST, a.tree.ast = a
  | .leaf .. => by rw [AST.tree, SNode.ast]
  | .node k i cs l => by rw [AST.tree, SNode.ast, ast_treeL cs]
theorem ast_treeL : ∀ as : List AST, SNode.astL (AST.treeL as) = as
  | [] => by rw [AST.treeL, SNode.astL]
  | a :: as => by rw [AST.treeL, SNode.astL, ast_tree a, ast_treeL as]
end

/-- A value that shows a tree is read as this tree, if it is not nested too deeply. -/
theorem toAST_shows {v : Json} {a : AST} (h : v.ShowsAST a) (hd : v.Distinct) (hf : a.Sized) (hn : v.depth ≤ 127) :
    toAST v = some a := by
  rw [toAST, read_ast h hd hf maxNesting hn, Option.map_some, ast_tree]

/-! ### Integers only, distinct fields, depth -/

theorem distinct_loc (l : Loc) : (ofLoc l).Distinct := by
  have hp : ∀ p, (ofPos p).Distinct := by
    intro p
    refine .obj ?_ ?_
    · simp only [List.map_cons, List.map_nil]; decide
    · intro f hf
      simp only [List.mem_cons, List.not_mem_nil, or_false] at hf
      rcases hf with rfl | rfl <;> exact .int _
  refine .obj ?_ ?_
  · simp only [List.map_cons, List.map_nil]; decide
  · intro f hf
    simp only [List.mem_cons, List.not_mem_nil, or_false] at hf
    rcases hf with rfl | rfl <;> exact hp _

theorem integral_loc (l : Loc) : (ofLoc l).Integral := by
  have hp : ∀ p, (ofPos p).Integral := by
    intro p
    refine .obj ?_
    intro f hf
    simp only [List.mem_cons, List.not_mem_nil, or_false] at hf
    rcases hf with rfl | rfl <;> exact .int _
  refine .obj ?_
  intro f hf
  simp only [List.mem_cons, List.not_mem_nil, or_false] at hf
  rcases hf with rfl | rfl <;> exact hp _

theorem depth_loc (l : Loc) : (ofLoc l).depth = 2 := by
  simp [ofLoc, ofPos, ofNat, Json.depth, Json.depthObj]

theorem distinct_option (o : Option Str) : (ofOption o).Distinct := by
  cases o
  · exact .null
  · exact .str _

theorem integral_option (o : Option Str) : (ofOption o).Integral := by
  cases o
  · exact .null
  · exact .str _

theorem depth_option (o : Option Str) : (ofOption o).depth = 0 := by
  cases o <;> rw [ofOption, Json.depth] <;> intros <;> simp_all

section
variable {L N : Type} (T : Tags L N)

theorem distinct_tag {tag : Str} {v : Json} (h : v.Distinct) : Json.Distinct (.obj [(tag, v)]) := by
  refine .obj (by simp) ?_
  intro f hf
  rw [List.mem_singleton] at hf
  subst hf
  exact h

theorem integral_tag {tag : Str} {v : Json} (h : v.Integral) : Json.Integral (.obj [(tag, v)]) := by
  refine .obj ?_
  intro f hf
  rw [List.mem_singleton] at hf
  subst hf
  exact h

mutual
theorem distinct_tree : ∀ t : SNode L N, (ofTree T t).Distinct
  | .leaf k i v l => by
    rw [ofTree]
    refine distinct_tag (.obj ?_ ?_)
    · simp only [List.map_cons, List.map_nil]; decide
    · intro f hf
      simp only [List.mem_cons, List.not_mem_nil, or_false] at hf
      rcases hf with rfl | rfl | rfl
      · exact .str _
      · exact distinct_option v
      · exact distinct_loc l
  | .inner k i cs l => by
    rw [ofTree]
    refine distinct_tag (.obj ?_ ?_)
    · simp only [List.map_cons, List.map_nil]; decide
    · intro f hf
      simp only [List.mem_cons, List.not_mem_nil, or_false] at hf
      rcases hf with rfl | rfl | rfl
      · exact .str _
      · exact .arr (distinct_trees cs)
      · exact distinct_loc l
theorem distinct_trees : ∀ ts : List (SNode L N), ∀ v ∈ ofTrees T ts, v.Distinct
  | [], v, hv => by rw [ofTrees] at hv; cases hv
  | t :: ts, v, hv => by
    rw [ofTrees, List.mem_cons] at hv
    rcases hv with rfl | hv
    · exact distinct_tree t
    · exact distinct_trees ts v hv
end

mutual
theorem integral_tree : ∀ t : SNode L N, (ofTree T t).Integral
  | .leaf k i v l => by
    rw [ofTree]
    refine integral_tag (.obj ?_)
    intro f hf
    simp only [List.mem_cons, List.not_mem_nil, or_false] at hf
    rcases hf with rfl | rfl | rfl
    · exact .str _
    · exact integral_option v
    · exact integral_loc l
  | .inner k i cs l => by
    rw [ofTree]
    refine integral_tag (.obj ?_)
    intro f hf
    simp only [List.mem_cons, List.not_mem_nil, or_false] at hf
    rcases hf with rfl | rfl | rfl
    · exact .str _
    · exact .arr (integral_trees cs)
    · exact integral_loc l
theorem integral_trees : ∀ ts : List (SNode L N), ∀ v ∈ ofTrees T ts, v.Integral
  | [], v, hv => by rw [ofTrees] at hv; cases hv
  | t :: ts, v, hv => by
    rw [ofTrees, List.mem_cons] at hv
    rcases hv with rfl | hv
    · exact integral_tree t
    · exact integral_trees ts v hv
end

end

mutual
theorem depth_ast : ∀ a : AST, (ofTree astTags a.tree).depth = 3 * a.height + 1
  | .leaf k i v l => by
    rw [AST.tree, ofTree, AST.height]
    simp only [Json.depth, Json.depthObj, depth_loc, depth_option]
    omega
  | .node k i cs l => by
    rw [AST.tree, ofTree, AST.height]
    simp only [Json.depth, Json.depthObj, depth_loc]
    have := depth_asts cs
    rcases this with ⟨h1, h2⟩ | h1 <;> omega
theorem depth_asts : ∀ as : List AST, (Json.depthArr (ofTrees astTags (AST.treeL as)) = 0 ∧ AST.heightL as = 0) ∨
    Json.depthArr (ofTrees astTags (AST.treeL as)) = 3 * AST.heightL as + 1
  | [] => by left; rw [AST.treeL, ofTrees]; exact ⟨rfl, by rw [AST.heightL]⟩
  | a :: as => by
    right
    rw [AST.treeL, ofTrees, Json.depthArr, AST.heightL, depth_ast a]
    rcases depth_asts as with ⟨h1, h2⟩ | h1 <;> omega
end

/-! ### Too deep -/

theorem toLoc_deep {n : Nat} {l m : Loc} (h : toLoc n (ofLoc l) = some m) : 2 ≤ n := by
  rcases n with _ | _ | n
  · cases h
  · rw [toLoc, structFields_get (distinct_loc l) (key := chars! "start") rfl] at h
    have e : ∀ k, k ∈ [chars! "start", chars! "end"] → ∃ x, (ofLoc l).get k = some x := by
      intro k hk
      simp only [List.mem_cons, List.not_mem_nil, or_false] at hk
      rcases hk with rfl | rfl
      · exact ⟨_, rfl⟩
      · exact ⟨_, rfl⟩
    obtain ⟨x, hx⟩ := e (chars! "start") (by simp)
    obtain ⟨y, hy⟩ := e (chars! "end") (by simp)
    simp only [List.map_cons, List.map_nil, hx, hy, toPos] at h
    cases h
  · omega

mutual
theorem deep_ast : ∀ (a : AST) (n : Nat) (t : SNode ALKind AKind), toTree astTags n (ofTree astTags a.tree) = some t →
    3 * a.height + 1 ≤ n
  | .leaf k i v l, n, t, h => by
    rw [AST.height]
    rw [AST.tree, ofTree] at h
    rcases n with _ | _ | _ | n
    · cases h
    · cases h
    · cases h
    · rw [toTree, variant] at h
      simp only at h
      have hk : astTags.find (astTags.leaf k) = some (.inl k) := find_leaf (k, astLeaf k) (by cases k <;> decide)
      rw [hk] at h
      simp only at h
      have hs : structFields [chars! "id", chars! "value", chars! "location"]
          (.obj [(chars! "id", .str i), (chars! "value", ofOption v), (chars! "location", ofLoc l)]) =
          some [some (.str i), some (ofOption v), some (ofLoc l)] := rfl
      rw [hs] at h
      simp only [toStr, Option.getD_some] at h
      have ho : toOption (ofOption v) = some v := by cases v <;> rfl
      rw [ho] at h
      rcases hl : toLoc (n + 1) (ofLoc l) with _ | m
      · rw [hl] at h; cases h
      · have := toLoc_deep hl
        omega
  | .node k i cs l, n, t, h => by
    rw [AST.height]
    rw [AST.tree, ofTree] at h
    rcases n with _ | _ | _ | n
    · cases h
    · cases h
    · cases h
    · rw [toTree, variant] at h
      simp only at h
      have hk : astTags.find (astTags.inner k) = some (.inr k) := find_node (k, astInner k) (by
        cases k with
        | bracket b => cases b <;> decide
        | _ => decide)
      rw [hk] at h
      simp only at h
      have hs : structFields [chars! "id", chars! "children", chars! "location"]
          (.obj [(chars! "id", .str i), (chars! "children", .arr (ofTrees astTags (AST.treeL cs))), (chars! "location", ofLoc l)]) =
          some [some (.str i), some (.arr (ofTrees astTags (AST.treeL cs))), some (ofLoc l)] := rfl
      rw [hs] at h
      simp only [toStr] at h
      rcases hc : (ofTrees astTags (AST.treeL cs)).mapM (toTree astTags n) with _ | ts
      · rw [hc] at h; cases h
      · rw [hc] at h
        rcases hl : toLoc (n + 1) (ofLoc l) with _ | m
        · rw [hl] at h; cases h
        · have := toLoc_deep hl
          rcases deep_asts cs n ts hc with h0 | h0 <;> omega
theorem deep_asts : ∀ (as : List AST) (n : Nat) (ts : List (SNode ALKind AKind)),
    (ofTrees astTags (AST.treeL as)).mapM (toTree astTags n) = some ts → AST.heightL as = 0 ∨ 3 * AST.heightL as + 1 ≤ n
  | [], _, _, _ => by left; rw [AST.heightL]
  | a :: as, n, ts, h => by
    right
    rw [AST.treeL, ofTrees, List.mapM_cons] at h
    rcases h1 : toTree astTags n (ofTree astTags a.tree) with _ | t
    · rw [h1] at h; cases h
    · rw [h1] at h
      rcases h2 : (ofTrees astTags (AST.treeL as)).mapM (toTree astTags n) with _ | us
      · rw [h2] at h; cases h
      · have d1 := deep_ast a n t h1
        rw [AST.heightL]
        rcases deep_asts as n us h2 with h0 | h0 <;> omega
end

/-- The form of a tree is read exactly if the tree is not too high. -/
theorem toAST_ofAST (a : AST) (hf : a.Sized) : toAST (ofAST a) = if a.height ≤ 42 then some a else none := by
  split
  · next h =>
    refine toAST_shows (shows_ast a) (distinct_tree _ _) hf ?_
    rw [ofAST, depth_ast]
    omega
  · next h =>
    rw [toAST]
    rcases ht : toTree astTags maxNesting (ofAST a) with _ | t
    · rfl
    · have := deep_ast a _ t ht
      have hm : maxNesting = 127 := rfl
      omega

/-! ### Values -/

theorem shows_value (v : Value) : (ofValue v).ShowsValue v := by
  rcases v with s | ss | _ | s
  · exact .text rfl
  · exact .array rfl
  · exact .none rfl
  · exact .some rfl

theorem Json.ShowsValue.unique {v : Json} {a b : Value} (h : v.ShowsValue a) (h' : v.ShowsValue b) : a = b := by
  cases h with
  | text hv =>
    cases h' with
    | text hv' => have := (hv.unique hv').2; injection this with this; rw [this]
    | array hv' => exact absurd (hv.unique hv').1 (by decide)
    | some hv' => exact absurd (hv.unique hv').1 (by decide)
    | none hv' => exact absurd (hv.unique hv').1 (by decide)
  | array hv =>
    cases h' with
    | text hv' => exact absurd (hv.unique hv').1 (by decide)
    | array hv' =>
      have := (hv.unique hv').2
      injection this with this
      rw [List.map_inj_right (fun _ _ h => by injection h) |>.mp this]
    | some hv' => exact absurd (hv.unique hv').1 (by decide)
    | none hv' => exact absurd (hv.unique hv').1 (by decide)
  | some hv =>
    cases h' with
    | text hv' => exact absurd (hv.unique hv').1 (by decide)
    | array hv' => exact absurd (hv.unique hv').1 (by decide)
    | some hv' => have := (hv.unique hv').2; injection this with this; rw [this]
    | none hv' => exact absurd (hv.unique hv').2 (by simp)
  | none hv =>
    cases h' with
    | text hv' => exact absurd (hv.unique hv').1 (by decide)
    | array hv' => exact absurd (hv.unique hv').1 (by decide)
    | some hv' => exact absurd (hv.unique hv').2 (by simp)
    | none hv' => rfl

theorem integral_value (v : Value) : (ofValue v).Integral := by
  rcases v with s | ss | o
  · exact integral_tag (.str s)
  · refine integral_tag (.arr ?_)
    intro u hu
    obtain ⟨s, _, rfl⟩ := List.mem_map.mp hu
    exact .str s
  · exact integral_tag (integral_option o)

theorem integral_token (t : Token) : (ofToken t).Integral := by
  refine integral_tag ?_
  have h2 : ∀ s, Json.Integral (.arr [.str s, ofLoc t.loc]) := by
    intro s
    refine .arr ?_
    intro u hu
    simp only [List.mem_cons, List.not_mem_nil, or_false] at hu
    rcases hu with rfl | rfl
    · exact .str s
    · exact integral_loc _
  obtain ⟨k, l⟩ := t
  cases k
  case text s => exact h2 s
  case module s => exact h2 s
  case ident s => exact h2 s
  all_goals exact integral_loc l

theorem integral_tokens (ts : List Token) : (ofTokens ts).Integral := by
  refine .arr ?_
  intro u hu
  obtain ⟨t, _, rfl⟩ := List.mem_map.mp hu
  exact integral_token t

/-! ### Bytes -/

theorem carries_bytes {v : Json} (h : v.Integral) : Carries (Serde.bytes v) v :=
  ⟨_, rfl, JsonText.isJson_print v h⟩

theorem Carries.value {bs : Bytes} {v : Json} (h : Carries bs v) : Serde.value bs = some v := by
  obtain ⟨t, rfl, h2⟩ := h
  rw [Serde.value, fromUtf8_utf8, Option.bind_some, (JsonText.parse_iff t v).mpr h2]

theorem carries_value {bs : Bytes} {v : Json} (h : Serde.value bs = some v) : Carries bs v := by
  rw [Serde.value] at h
  rcases h1 : fromUtf8 bs with _ | t
  · rw [h1] at h; cases h
  · rw [h1] at h; exact ⟨t, fromUtf8_some h1, (JsonText.parse_iff t v).mp h⟩

/-! ### Metadata -/

theorem read_type {v : Json} {t : PType} (h : v.ShowsType t) : ∀ n, v.depth ≤ n → toType n v = some t := by
  induction h with
  | inline => intro n _; rw [toType]; rfl
  | block => intro n _; rw [toType]; rfl
  | ast => intro n _; rw [toType]; rfl
  | option hv _ ih =>
    intro n hn
    have := hv.depth
    obtain ⟨n, rfl⟩ : ∃ m, n = m + 1 := ⟨n - 1, by omega⟩
    rw [Json.Tagged] at hv
    subst hv
    rw [toType, if_pos rfl, ih n (by omega)]
    rfl
  | array hv _ ih =>
    intro n hn
    have := hv.depth
    obtain ⟨n, rfl⟩ : ∃ m, n = m + 1 := ⟨n - 1, by omega⟩
    rw [Json.Tagged] at hv
    subst hv
    rw [toType, if_neg (by decide), if_pos rfl, ih n (by omega)]
    rfl
  | inlineCmd hv =>
    intro n hn
    have := hv.depth
    obtain ⟨n, rfl⟩ : ∃ m, n = m + 1 := ⟨n - 1, by omega⟩
    rw [Json.Tagged] at hv
    subst hv
    rw [toType, if_neg (by decide), if_neg (by decide), if_pos rfl]
    rfl
  | blockCmd hv =>
    intro n hn
    have := hv.depth
    obtain ⟨n, rfl⟩ : ∃ m, n = m + 1 := ⟨n - 1, by omega⟩
    rw [Json.Tagged] at hv
    subst hv
    rw [toType, if_neg (by decide), if_neg (by decide), if_neg (by decide), if_pos rfl]
    rfl

theorem read_arguments {vs : List Json} {ps : List (Str × PType)} (h : Json.Each Json.ShowsArgument vs ps) :
    ∀ n, Json.depthArr vs ≤ n → vs.mapM (toArgument n) = some ps := by
  induction h with
  | nil => intros; rfl
  | cons h _ ih =>
    intro n hn
    obtain ⟨t, rfl, ht⟩ := h
    simp only [Json.depthArr, Json.depth] at hn
    obtain ⟨n, rfl⟩ : ∃ m, n = m + 1 := ⟨n - 1, by omega⟩
    rw [List.mapM_cons, ih (n + 1) (by omega), toArgument, read_type ht n (by omega)]
    rfl

theorem read_metadata {v : Json} {m : Metadata} (h : v.ShowsMetadata m) (hd : v.Distinct) {n : Nat} (hn : v.depth ≤ n) :
    toMetadata n v = some m := by
  obtain ⟨h1, h2, ⟨vs, h3, h4⟩, t, h5, h6⟩ := h
  have d3 := Json.depth_get h3
  have d5 := Json.depth_get h5
  simp only [Json.depth] at d3
  obtain ⟨n, rfl⟩ : ∃ m, n = m + 2 := ⟨n - 2, by omega⟩
  rw [toMetadata, structFields_get hd h1]
  simp only [List.map_cons, List.map_nil, h1, h2, h3, h5, toStr]
  rw [read_arguments h4 n (by omega), read_type h6 (n + 1) (by omega)]
  rfl

theorem read_metadatas {vs : List Json} {ms : List Metadata} (h : Json.Each Json.ShowsMetadata vs ms) (hd : ∀ v ∈ vs, v.Distinct) :
    ∀ n, Json.depthArr vs ≤ n → vs.mapM (toMetadata n) = some ms := by
  induction h with
  | nil => intros; rfl
  | cons h _ ih =>
    intro n hn
    rw [Json.depthArr] at hn
    rw [List.mapM_cons, read_metadata h (hd _ (by simp)) (by omega), ih (fun u hu => hd u (by simp [hu])) n (by omega)]
    rfl

end Brack
