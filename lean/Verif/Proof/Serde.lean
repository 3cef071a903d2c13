import Verif.Spec.Serde
import Verif.Proof.JsonText
import Verif.Proof.Utf8

/-
The JSON form of tokens, trees, values and metadata is what it should be, shows nothing else, and is read back.
-/

namespace Brack

open Serde

/-! ### Positions and ranges -/

theorem shows_pos (p : Pos) : (ofPos p).ShowsPos p := ⟨rfl, rfl⟩

theorem shows_loc (l : Loc) : (ofLoc l).ShowsLoc l := ⟨_, _, rfl, shows_pos _, rfl, shows_pos _⟩

theorem shows_option (o : Option Str) : Json.ShowsOption (some (ofOption o)) o := by
  cases o with
  | none => exact .inr (.inl ⟨rfl, rfl⟩)
  | some s => exact .inr (.inr ⟨s, rfl, rfl⟩)

theorem Json.ShowsPos.unique {v : Json} {p q : Pos} (h : v.ShowsPos p) (h' : v.ShowsPos q) : p = q := by
  obtain ⟨h1, h2⟩ := h
  obtain ⟨h3, h4⟩ := h'
  rw [h1] at h3
  rw [h2] at h4
  injection h3 with h3
  injection h3 with h3
  injection h4 with h4
  injection h4 with h4
  cases p; cases q
  simp only at h3 h4
  congr <;> omega

theorem Json.ShowsLoc.unique {v : Json} {l m : Loc} (h : v.ShowsLoc l) (h' : v.ShowsLoc m) : l = m := by
  obtain ⟨a, b, h1, h2, h3, h4⟩ := h
  obtain ⟨c, d, h5, h6, h7, h8⟩ := h'
  rw [h1] at h5
  rw [h3] at h7
  injection h5 with h5
  injection h7 with h7
  subst h5 h7
  cases l; cases m
  congr
  · exact h2.unique h6
  · exact h4.unique h8

theorem Json.ShowsOption.unique {v : Option Json} {o p : Option Str} (h : ShowsOption v o) (h' : ShowsOption v p) :
    o = p := by
  rcases h with ⟨h1, h2⟩ | ⟨h1, h2⟩ | ⟨s, h1, h2⟩ <;> rcases h' with ⟨h3, h4⟩ | ⟨h3, h4⟩ | ⟨t, h3, h4⟩ <;>
    simp_all

theorem Json.Tagged.unique {v w x : Json} {s t : Str} (h : v.Tagged s w) (h' : v.Tagged t x) : s = t ∧ w = x := by
  rw [Json.Tagged] at h h'
  rw [h] at h'
  simpa using h'

theorem Json.Each.unique {α β : Type} {R : α → β → Prop} (hR : ∀ a b c, R a b → R a c → b = c) {as : List α} {bs cs : List β}
    (h : Json.Each R as bs) (h' : Json.Each R as cs) : bs = cs := by
  induction h generalizing cs with
  | nil => cases h'; rfl
  | cons h _ ih => cases h' with | cons h' ht' => rw [hR _ _ _ h h', ih ht']

theorem Json.Each.map {α β : Type} {R : α → β → Prop} {f : β → α} (h : ∀ b, R (f b) b) (bs : List β) :
    Json.Each R (bs.map f) bs := by
  induction bs with
  | nil => exact .nil
  | cons b bs ih => exact .cons (h b) ih

/-! ### Tokens -/

theorem shows_token (t : Token) : (ofToken t).ShowsToken t := by
  obtain ⟨k, l⟩ := t
  have hp : ∀ k, (k, tokenTag k) ∈ tokenNames → tokenFields ⟨k, l⟩ = ofLoc l → (ofToken ⟨k, l⟩).ShowsToken ⟨k, l⟩ :=
    fun k hk hf => .plain hk (by rw [Json.Tagged, ofToken, hf]) (shows_loc l)
  cases k with
  | text s => exact .text rfl (shows_loc l)
  | module s => exact .module rfl (shows_loc l)
  | ident s => exact .ident rfl (shows_loc l)
  | bopen b => cases b <;> exact hp _ (by decide) rfl
  | bclose b => cases b <;> exact hp _ (by decide) rfl
  | _ => exact hp _ (by decide) rfl

theorem tokenNames_unique : ∀ a ∈ tokenNames, ∀ b ∈ tokenNames, a.2 = b.2 → a.1 = b.1 := by decide

theorem tokenNames_plain : ∀ a ∈ tokenNames, a.2 ≠ chars! "Text" ∧ a.2 ≠ chars! "Module" ∧ a.2 ≠ chars! "Ident" := by
  decide

theorem Json.ShowsToken.unique {v : Json} {t u : Token} (h : v.ShowsToken t) (h' : v.ShowsToken u) : t = u := by
  cases h with
  | plain hk hv hl =>
    cases h' with
    | plain hk' hv' hl' =>
      obtain ⟨h1, rfl⟩ := hv.unique hv'
      have := tokenNames_unique _ hk _ hk' h1
      simp only at this
      rw [this, hl.unique hl']
    | text hv' _ => exact absurd (hv.unique hv').1 (tokenNames_plain _ hk).1
    | module hv' _ => exact absurd (hv.unique hv').1 (tokenNames_plain _ hk).2.1
    | ident hv' _ => exact absurd (hv.unique hv').1 (tokenNames_plain _ hk).2.2
  | text hv hl =>
    cases h' with
    | plain hk hv' _ => exact absurd (hv.unique hv').1.symm (tokenNames_plain _ hk).1
    | text hv' hl' =>
      have := (hv.unique hv').2
      simp only [Json.arr.injEq, List.cons.injEq, Json.str.injEq, and_true] at this
      obtain ⟨rfl, rfl⟩ := this
      rw [hl.unique hl']
    | module hv' _ => exact absurd (hv.unique hv').1 (by decide)
    | ident hv' _ => exact absurd (hv.unique hv').1 (by decide)
  | module hv hl =>
    cases h' with
    | plain hk hv' _ => exact absurd (hv.unique hv').1.symm (tokenNames_plain _ hk).2.1
    | module hv' hl' =>
      have := (hv.unique hv').2
      simp only [Json.arr.injEq, List.cons.injEq, Json.str.injEq, and_true] at this
      obtain ⟨rfl, rfl⟩ := this
      rw [hl.unique hl']
    | text hv' _ => exact absurd (hv.unique hv').1 (by decide)
    | ident hv' _ => exact absurd (hv.unique hv').1 (by decide)
  | ident hv hl =>
    cases h' with
    | plain hk hv' _ => exact absurd (hv.unique hv').1.symm (tokenNames_plain _ hk).2.2
    | ident hv' hl' =>
      have := (hv.unique hv').2
      simp only [Json.arr.injEq, List.cons.injEq, Json.str.injEq, and_true] at this
      obtain ⟨rfl, rfl⟩ := this
      rw [hl.unique hl']
    | module hv' _ => exact absurd (hv.unique hv').1 (by decide)
    | text hv' _ => exact absurd (hv.unique hv').1 (by decide)

theorem shows_tokens (ts : List Token) : (ofTokens ts).ShowsTokens ts := ⟨_, rfl, .map shows_token ts⟩

theorem Json.ShowsTokens.unique {v : Json} {ts us : List Token} (h : v.ShowsTokens ts) (h' : v.ShowsTokens us) : ts = us := by
  obtain ⟨vs, rfl, h⟩ := h
  obtain ⟨vs', hv, h'⟩ := h'
  injection hv with hv
  subst hv
  exact h.unique (fun _ _ _ h h' => h.unique h') h'

/-! ### Abstract syntax trees -/

mutual
theorem shows_ast : ∀ a : AST, (ofTree astTags a.tree).ShowsAST a
  | .leaf k i v l => by
    rw [AST.tree, ofTree]
    exact .leaf (name := astLeaf k) (by cases k <;> decide) rfl rfl (shows_option v) rfl (shows_loc l)
  | .node k i cs l => by
    rw [AST.tree, ofTree]
    refine .node (name := astInner k) ?_ rfl rfl rfl (shows_asts cs) rfl (shows_loc l)
    cases k with
    | bracket b => cases b <;> decide
    | _ => decide
theorem shows_asts : ∀ as : List AST, Json.ShowsASTs (ofTrees astTags (AST.treeL as)) as
  | [] => by rw [AST.treeL, ofTrees]; exact .nil
  | a :: as => by rw [AST.treeL, ofTrees]; exact .cons (shows_ast a) (shows_asts as)
end

theorem astLeafNames_unique : ∀ a ∈ astLeafNames, ∀ b ∈ astLeafNames, a.2 = b.2 → a.1 = b.1 := by decide
theorem astNodeNames_unique : ∀ a ∈ astNodeNames, ∀ b ∈ astNodeNames, a.2 = b.2 → a.1 = b.1 := by decide
theorem astNames_disjoint : ∀ a ∈ astLeafNames, ∀ b ∈ astNodeNames, a.2 ≠ b.2 := by decide

mutual
theorem Json.ShowsAST.unique : ∀ {v : Json} {a b : AST}, v.ShowsAST a → v.ShowsAST b → a = b
  | _, _, _, .leaf hk hv hi ho hx hl, .leaf hk' hv' hi' ho' hx' hl' => by
    obtain ⟨h1, rfl⟩ := hv.unique hv'
    have := astLeafNames_unique _ hk _ hk' h1
    simp only at this
    rw [hi] at hi'
    rw [hx] at hx'
    injection hi' with hi'
    injection hi' with hi'
    injection hx' with hx'
    subst hi' hx' this
    rw [ho.unique ho', hl.unique hl']
  | _, _, _, .leaf hk hv _ _ _ _, .node hk' hv' _ _ _ _ _ => absurd (hv.unique hv').1 (astNames_disjoint _ hk _ hk')
  | _, _, _, .node hk hv _ _ _ _ _, .leaf hk' hv' _ _ _ _ => absurd (hv.unique hv').1.symm (astNames_disjoint _ hk' _ hk)
  | _, _, _, .node hk hv hi hs hc hx hl, .node hk' hv' hi' hs' hc' hx' hl' => by
    obtain ⟨h1, rfl⟩ := hv.unique hv'
    have := astNodeNames_unique _ hk _ hk' h1
    simp only at this
    rw [hi] at hi'
    rw [hx] at hx'
    rw [hs] at hs'
    injection hi' with hi'
    injection hi' with hi'
    injection hs' with hs'
    injection hs' with hs'
    injection hx' with hx'
    subst hi' hx' this hs'
    rw [Json.ShowsASTs.unique hc hc', hl.unique hl']
theorem Json.ShowsASTs.unique : ∀ {vs : List Json} {as bs : List AST}, ShowsASTs vs as → ShowsASTs vs bs → as = bs
  | _, _, _, .nil, .nil => rfl
  | _, _, _, .cons h ht, .cons h' ht' => by rw [Json.ShowsAST.unique h h', Json.ShowsASTs.unique ht ht']
end

/-! ### Concrete syntax trees -/

theorem named_parts (k : LKind) : k.Named (cstLeaf k.parts.1) k.parts.2 := by
  cases k with
  | bopen b => cases b <;> exact .plain (by decide)
  | bclose b => cases b <;> exact .plain (by decide)
  | module s => exact .module s
  | ident s => exact .ident s
  | text s => exact .text s
  | _ => exact .plain (by decide)

mutual
theorem shows_cst (ids : List Nat → Str) : ∀ (c : CST) (path : List Nat), (ofTree cstTags (c.tree ids path)).ShowsCST c
  | .leaf k l, path => by
    rw [CST.tree, ofTree]
    exact .leaf (named_parts k) rfl rfl (shows_option _) rfl (shows_loc l)
  | .node k cs l, path => by
    rw [CST.tree, ofTree]
    refine .node (name := cstInner k) ?_ rfl rfl rfl (shows_csts ids cs path 0) rfl (shows_loc l)
    cases k with
    | bracket b => cases b <;> decide
    | _ => decide
theorem shows_csts (ids : List Nat → Str) : ∀ (cs : List CST) (path : List Nat) (n : Nat),
    Json.ShowsCSTs (ofTrees cstTags (CST.treeL ids path n cs)) cs
  | [], _, _ => by rw [CST.treeL, ofTrees]; exact .nil
  | c :: cs, path, n => by
    rw [CST.treeL, ofTrees]
    exact .cons (shows_cst ids c _) (shows_csts ids cs path (n + 1))
end

theorem cstLeafNames_unique : ∀ a ∈ cstLeafNames, ∀ b ∈ cstLeafNames, a.2 = b.2 → a.1 = b.1 := by decide
theorem cstNodeNames_unique : ∀ a ∈ cstNodeNames, ∀ b ∈ cstNodeNames, a.2 = b.2 → a.1 = b.1 := by decide
theorem cstNames_disjoint : ∀ a ∈ cstLeafNames, ∀ b ∈ cstNodeNames, a.2 ≠ b.2 := by decide
theorem cstLeafNames_plain : ∀ a ∈ cstLeafNames, a.2 ≠ chars! "Text" ∧ a.2 ≠ chars! "Module" ∧ a.2 ≠ chars! "Ident" := by
  decide
theorem cstNodeNames_plain : ∀ a ∈ cstNodeNames, a.2 ≠ chars! "Text" ∧ a.2 ≠ chars! "Module" ∧ a.2 ≠ chars! "Ident" := by
  decide

theorem LKind.Named.unique {k k' : LKind} {n : Str} {v : Option Str} (h : k.Named n v) (h' : k'.Named n v) : k = k' := by
  cases h with
  | plain h =>
    cases h' with
    | plain h' => exact cstLeafNames_unique _ h _ h' rfl
  | module s =>
    cases h' with
    | module => rfl
  | ident s =>
    cases h' with
    | ident => rfl
  | text s =>
    cases h' with
    | text => rfl

theorem LKind.Named.not_node {k : LKind} {j : IKind} {n : Str} {v : Option Str} (h : k.Named n v) :
    (j, n) ∉ cstNodeNames := by
  intro hj
  cases h with
  | plain h => exact cstNames_disjoint _ h _ hj rfl
  | module s => exact (cstNodeNames_plain _ hj).2.1 rfl
  | ident s => exact (cstNodeNames_plain _ hj).2.2 rfl
  | text s => exact (cstNodeNames_plain _ hj).1 rfl

mutual
theorem Json.ShowsCST.unique : ∀ {v : Json} {a b : CST}, v.ShowsCST a → v.ShowsCST b → a = b
  | _, _, _, .leaf hk hv hi ho hx hl, .leaf hk' hv' hi' ho' hx' hl' => by
    obtain ⟨rfl, rfl⟩ := hv.unique hv'
    have := ho.unique ho'
    subst this
    rw [hx] at hx'
    injection hx' with hx'
    subst hx'
    rw [hk.unique hk', hl.unique hl']
  | _, _, _, .leaf hk hv _ _ _ _, .node hk' hv' _ _ _ _ _ => by
    obtain ⟨rfl, _⟩ := hv.unique hv'
    exact absurd hk' hk.not_node
  | _, _, _, .node hk hv _ _ _ _ _, .leaf hk' hv' _ _ _ _ => by
    obtain ⟨rfl, _⟩ := hv.unique hv'
    exact absurd hk hk'.not_node
  | _, _, _, .node hk hv hi hs hc hx hl, .node hk' hv' hi' hs' hc' hx' hl' => by
    obtain ⟨h1, rfl⟩ := hv.unique hv'
    have := cstNodeNames_unique _ hk _ hk' h1
    simp only at this
    rw [hx] at hx'
    rw [hs] at hs'
    injection hs' with hs'
    injection hs' with hs'
    injection hx' with hx'
    subst hx' this hs'
    rw [Json.ShowsCSTs.unique hc hc', hl.unique hl']
theorem Json.ShowsCSTs.unique : ∀ {vs : List Json} {as bs : List CST}, ShowsCSTs vs as → ShowsCSTs vs bs → as = bs
  | _, _, _, .nil, .nil => rfl
  | _, _, _, .cons h ht, .cons h' ht' => by rw [Json.ShowsCST.unique h h', Json.ShowsCSTs.unique ht ht']
end

end Brack
