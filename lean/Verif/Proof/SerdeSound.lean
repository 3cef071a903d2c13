import Verif.Proof.SerdeRead

/-
What is read from JSON values is written there.
-/

namespace Brack

open Serde

theorem mapM_nth {α β : Type} {f : α → Option β} : ∀ {xs : List α} {ys : List β}, xs.mapM f = some ys →
    ∀ (i : Nat) (x : α), xs[i]? = some x → ∃ y, ys[i]? = some y ∧ f x = some y
  | [], ys, h, i, x, hx => by simp at hx
  | a :: as, ys, h, i, x, hx => by
    rw [List.mapM_cons] at h
    rcases hf : f a with _ | b
    · rw [hf] at h; cases h
    rcases hm : as.mapM f with _ | bs
    · rw [hf, hm] at h; cases h
    rw [hf, hm] at h
    cases h
    rcases i with _ | i
    · simp only [List.getElem?_cons_zero, Option.some.injEq] at hx
      subst hx
      exact ⟨b, rfl, hf⟩
    · simp only [List.getElem?_cons_succ] at hx ⊢
      exact mapM_nth hm i x hx

theorem mapM_each {α β : Type} {f : α → Option β} {R : α → β → Prop} (hR : ∀ a b, f a = some b → R a b) :
    ∀ {xs : List α} {ys : List β}, xs.mapM f = some ys → Json.Each R xs ys
  | [], ys, h => by cases h; exact .nil
  | a :: as, ys, h => by
    rw [List.mapM_cons] at h
    rcases hf : f a with _ | b
    · rw [hf] at h; cases h
    rcases hm : as.mapM f with _ | bs
    · rw [hf, hm] at h; cases h
    rw [hf, hm] at h
    cases h
    exact .cons (hR a b hf) (mapM_each hR hm)

theorem fieldOnce_some {fs : List (Str × Json)} {key : Str} {x : Option Json} (h : fieldOnce fs key = some x) :
    x = Json.field key fs := by
  rw [fieldOnce] at h
  have key' : ∀ fs : List (Str × Json), Json.field key fs = (fs.filter (fun f => f.1 = key)).head?.map (·.2) := by
    intro fs
    induction fs with
    | nil => rfl
    | cons f fs ih =>
      obtain ⟨k, y⟩ := f
      rw [Json.field]
      by_cases hk : k = key
      · rw [if_pos hk, List.filter_cons_of_pos (by simpa using hk)]; rfl
      · rw [if_neg hk, List.filter_cons_of_neg (by simpa using hk), ih]
  rw [key']
  split at h
  · next he => cases h; rw [he]; rfl
  · next he => cases h; rw [he]; rfl
  · cases h

theorem part_of {keys : List Str} {v : Json} {xs : List (Option Json)} (h : structFields keys v = some xs) (i : Nat)
    (key : Str) (hk : keys[i]? = some key) : ∃ x, xs[i]? = some x ∧ v.Part keys key x := by
  cases v with
  | obj fs =>
    rw [structFields] at h
    obtain ⟨y, hy, hf⟩ := mapM_nth h i key hk
    refine ⟨y, hy, ?_⟩
    rw [fieldOnce_some hf]
    exact .field rfl
  | arr vs =>
    rw [structFields] at h
    split at h
    · next hl =>
      cases h
      have hi := (List.getElem?_eq_some_iff.mp hk).1
      refine ⟨vs[i]?, ?_, .element rfl hl hk⟩
      rw [List.getElem?_map, List.getElem?_eq_getElem (by omega)]
      rfl
    · cases h
  | _ => cases h

theorem part_at {keys : List Str} {v : Json} {xs : List (Option Json)} (h : structFields keys v = some xs) (i : Nat)
    {key : Str} {x : Option Json} (hk : keys[i]? = some key) (hx : xs[i]? = some x) : v.Part keys key x := by
  obtain ⟨y, hy, hp⟩ := part_of h i key hk
  rw [hx] at hy
  cases hy
  exact hp

theorem toNat_some {v : Json} {n : Nat} (h : toNat v = some n) : v = .int n := by
  cases v with
  | int m =>
    rw [toNat] at h
    split at h
    · next hm =>
      cases h
      rw [Int.toNat_of_nonneg hm.1]
    · cases h
  | _ => cases h

theorem toStr_some {v : Json} {s : Str} (h : toStr v = some s) : v = .str s := by
  cases v with
  | str t => cases h; rfl
  | _ => cases h

theorem toOption_some {v : Option Json} {o : Option Str} (h : toOption (v.getD .null) = some o) : Json.ShowsOption v o := by
  rcases v with _ | v
  · cases h; exact .inl ⟨rfl, rfl⟩
  · cases v with
    | null => cases h; exact .inr (.inl ⟨rfl, rfl⟩)
    | str s => cases h; exact .inr (.inr ⟨s, rfl, rfl⟩)
    | _ => cases h

theorem sound_pos {n : Nat} {v : Json} {p : Pos} (h : toPos n v = some p) : v.ReadsPos p := by
  rcases n with _ | n
  · cases h
  rw [toPos] at h
  split at h
  · next l c hs =>
    rcases hl : toNat l with _ | a
    · rw [hl] at h; cases h
    rcases hc : toNat c with _ | b
    · rw [hl, hc] at h; cases h
    rw [hl, hc] at h
    cases h
    have := toNat_some hl
    have := toNat_some hc
    subst l c
    exact ⟨part_at hs 0 rfl rfl, part_at hs 1 rfl rfl⟩
  · cases h

theorem sound_loc {n : Nat} {v : Json} {l : Loc} (h : toLoc n v = some l) : v.ReadsLoc l := by
  rcases n with _ | n
  · cases h
  rw [toLoc] at h
  split at h
  · next a b hs =>
    rcases ha : toPos n a with _ | p
    · rw [ha] at h; cases h
    rcases hb : toPos n b with _ | q
    · rw [ha, hb] at h; cases h
    rw [ha, hb] at h
    cases h
    exact ⟨a, b, part_at hs 0 rfl rfl, sound_pos ha, part_at hs 1 rfl rfl, sound_pos hb⟩
  · cases h

theorem find_sound' (s : Str) (x : ALKind ⊕ AKind) : astTags.find s = some x →
    match x with
    | .inl k => (k, s) ∈ astLeafNames
    | .inr k => (k, s) ∈ astNodeNames := by
  intro h
  simp only [astTags] at h
  by_cases h0 : s = chars! "Document"
  · rw [if_pos h0, Option.some.injEq] at h
    subst h h0
    decide
  rw [if_neg h0] at h
  clear h0
  by_cases h0 : s = chars! "Stmt"
  · rw [if_pos h0, Option.some.injEq] at h
    subst h h0
    decide
  rw [if_neg h0] at h
  clear h0
  by_cases h0 : s = chars! "Expr"
  · rw [if_pos h0, Option.some.injEq] at h
    subst h h0
    decide
  rw [if_neg h0] at h
  clear h0
  by_cases h0 : s = chars! "Angle"
  · rw [if_pos h0, Option.some.injEq] at h
    subst h h0
    decide
  rw [if_neg h0] at h
  clear h0
  by_cases h0 : s = chars! "Square"
  · rw [if_pos h0, Option.some.injEq] at h
    subst h h0
    decide
  rw [if_neg h0] at h
  clear h0
  by_cases h0 : s = chars! "Curly"
  · rw [if_pos h0, Option.some.injEq] at h
    subst h h0
    decide
  rw [if_neg h0] at h
  clear h0
  by_cases h0 : s = chars! "Ident"
  · rw [if_pos h0, Option.some.injEq] at h
    subst h h0
    decide
  rw [if_neg h0] at h
  clear h0
  by_cases h0 : s = chars! "Module"
  · rw [if_pos h0, Option.some.injEq] at h
    subst h h0
    decide
  rw [if_neg h0] at h
  clear h0
  by_cases h0 : s = chars! "Text"
  · rw [if_pos h0, Option.some.injEq] at h
    subst h h0
    decide
  rw [if_neg h0] at h
  clear h0
  by_cases h0 : s = chars! "Invalid"
  · rw [if_pos h0, Option.some.injEq] at h
    subst h h0
    decide
  rw [if_neg h0] at h
  clear h0
  by_cases h0 : s = chars! "Ignored"
  · rw [if_pos h0, Option.some.injEq] at h
    subst h h0
    decide
  rw [if_neg h0] at h
  clear h0
  cases h

theorem find_sound (s : Str) :
    (∀ k, astTags.find s = some (.inl k) → (k, s) ∈ astLeafNames) ∧
    (∀ k, astTags.find s = some (.inr k) → (k, s) ∈ astNodeNames) :=
  ⟨fun _ h => find_sound' s _ h, fun _ h => find_sound' s _ h⟩

theorem astL_each {f : Json → Option (SNode ALKind AKind)} (hf : ∀ v t, f v = some t → v.ReadsAST t.ast) :
    ∀ {vs : List Json} {ts : List (SNode ALKind AKind)}, vs.mapM f = some ts → Json.ReadsASTs vs (SNode.astL ts)
  | [], ts, h => by cases h; exact .nil
  | v :: vs, ts, h => by
    rw [List.mapM_cons] at h
    rcases hv : f v with _ | t
    · rw [hv] at h; cases h
    rcases hm : vs.mapM f with _ | us
    · rw [hv, hm] at h; cases h
    rw [hv, hm] at h
    cases h
    rw [SNode.astL]
    exact .cons (hf v t hv) (astL_each hf hm)

theorem sound_tree : ∀ (n : Nat) (v : Json) (t : SNode ALKind AKind), toTree astTags n v = some t → v.ReadsAST t.ast := by
  intro n
  induction n using Nat.strongRecOn with
  | ind n ih =>
    intro v t h
    match n with
    | 0 => cases h
    | 1 => cases h
    | 2 => cases h
    | n + 3 =>
      rw [toTree] at h
      split at h
      · cases h
      next tag w hv =>
      have hv : v.Tagged tag w := by
        unfold variant at hv
        split at hv
        · cases hv; rfl
        · cases hv
      split at h
      · cases h
      · next k hk =>
        split at h
        · next i value l hs =>
          rcases h1 : toStr i with _ | a
          · rw [h1] at h; cases h
          rcases h2 : toOption (value.getD .null) with _ | b
          · rw [h1, h2] at h; cases h
          rcases h3 : toLoc (n + 1) l with _ | c
          · rw [h1, h2, h3] at h; cases h
          rw [h1, h2, h3] at h
          cases h
          have := toStr_some h1
          subst i
          rw [SNode.ast]
          exact .leaf ((find_sound tag).1 k hk) hv (part_at hs 0 rfl rfl) (part_at hs 1 rfl rfl) (toOption_some h2)
            (part_at hs 2 rfl rfl) (sound_loc h3)
        · cases h
      · next k hk =>
        split at h
        · next i cs l hs =>
          rcases h1 : toStr i with _ | a
          · rw [h1] at h; cases h
          rcases h2 : cs.mapM (toTree astTags n) with _ | b
          · rw [h1, h2] at h; cases h
          rcases h3 : toLoc (n + 1) l with _ | c
          · rw [h1, h2, h3] at h; cases h
          rw [h1, h2, h3] at h
          cases h
          have := toStr_some h1
          subst i
          rw [SNode.ast]
          exact .node ((find_sound tag).2 k hk) hv (part_at hs 0 rfl rfl) (part_at hs 1 rfl rfl)
            (astL_each (fun v t h => ih n (by omega) v t h) h2) (part_at hs 2 rfl rfl) (sound_loc h3)
        · cases h

/-- A tree that is read is written in the value. -/
theorem sound_ast {v : Json} {a : AST} (h : toAST v = some a) : v.ReadsAST a := by
  rw [toAST] at h
  rcases ht : toTree astTags maxNesting v with _ | t
  · rw [ht] at h; cases h
  · rw [ht] at h
    cases h
    exact sound_tree _ _ _ ht

theorem sound_type : ∀ (n : Nat) (v : Json) (t : PType), toType n v = some t → v.ReadsType t := by
  have unit : ∀ {s t}, unitType s = some t → Json.ShowsType (.str s) t ∧ ∀ v : Json, v.Tagged s .null → v.ReadsType t := by
    intro s t h
    rw [unitType] at h
    split at h
    · next hs => subst hs; cases h; exact ⟨.inline, fun v hv => .inline hv⟩
    split at h
    · next hs => subst hs; cases h; exact ⟨.block, fun v hv => .block hv⟩
    split at h
    · next hs => subst hs; cases h; exact ⟨.ast, fun v hv => .ast hv⟩
    · cases h
  intro n
  induction n with
  | zero =>
    intro v t h
    cases v with
    | str s => exact .shown (unit (by simpa [toType] using h)).1
    | _ => simp [toType] at h
  | succ n ih =>
    intro v t h
    cases v with
    | str s => exact .shown (unit (by simpa [toType] using h)).1
    | obj fs =>
      rcases fs with _ | ⟨⟨tag, w⟩, _ | ⟨f, fs⟩⟩
      · simp [toType] at h
      · rw [toType] at h
        split at h
        · next hs =>
          subst hs
          rcases hw : toType n w with _ | u
          · rw [hw] at h; cases h
          · rw [hw] at h; cases h; exact .option rfl (ih w u hw)
        split at h
        · next hs =>
          subst hs
          rcases hw : toType n w with _ | u
          · rw [hw] at h; cases h
          · rw [hw] at h; cases h; exact .array rfl (ih w u hw)
        split at h
        · next hs =>
          subst hs
          rcases hw : toStr w with _ | u
          · rw [hw] at h; cases h
          · rw [hw] at h; cases h
            have := toStr_some hw
            subst w
            exact .shown (.inlineCmd rfl)
        split at h
        · next hs =>
          subst hs
          rcases hw : toStr w with _ | u
          · rw [hw] at h; cases h
          · rw [hw] at h; cases h
            have := toStr_some hw
            subst w
            exact .shown (.blockCmd rfl)
        · cases w with
          | null => exact (unit h).2 _ rfl
          | _ => cases h
      · simp [toType] at h
    | _ => simp [toType] at h

theorem sound_metadata {n : Nat} {v : Json} {m : Metadata} (h : toMetadata n v = some m) : v.ReadsMetadata m := by
  match n with
  | 0 => cases h
  | 1 => cases h
  | n + 2 =>
    rw [toMetadata] at h
    split at h
    · next a b cs d hs =>
      rcases h1 : toStr a with _ | x
      · rw [h1] at h; cases h
      rcases h2 : toStr b with _ | y
      · rw [h1, h2] at h; cases h
      rcases h3 : cs.mapM (toArgument n) with _ | z
      · rw [h1, h2, h3] at h; cases h
      rcases h4 : toType (n + 1) d with _ | t
      · rw [h1, h2, h3, h4] at h; cases h
      rw [h1, h2, h3, h4] at h
      cases h
      have := toStr_some h1
      have := toStr_some h2
      subst a b
      refine ⟨part_at hs 0 rfl rfl, part_at hs 1 rfl rfl, ⟨cs, part_at hs 2 rfl rfl, mapM_each ?_ h3⟩,
        ⟨d, part_at hs 3 rfl rfl, sound_type _ _ _ h4⟩⟩
      intro u p hu
      rcases n with _ | n
      · cases hu
      · unfold toArgument at hu
        split at hu
        · next n' s t hn =>
          cases hn
          rcases h5 : toStr s with _ | x
          · rw [h5] at hu; cases hu
          rcases h6 : toType n t with _ | y
          · rw [h5, h6] at hu; cases hu
          rw [h5, h6] at hu
          cases hu
          have := toStr_some h5
          subst s
          exact ⟨t, rfl, sound_type _ _ _ h6⟩
        · cases hu
    · cases h

theorem sound_metadatas {n : Nat} {v : Json} {ms : List Metadata} (h : toMetadatas n v = some ms) :
    ∃ vs, v = .arr vs ∧ Json.Each Json.ReadsMetadata vs ms := by
  rcases n with _ | n
  · cases h
  · cases v with
    | arr vs =>
      have h : vs.mapM (toMetadata n) = some ms := h
      exact ⟨vs, rfl, mapM_each (R := Json.ReadsMetadata) (fun _ _ h => sound_metadata h) h⟩
    | _ => cases h

end Brack
