import Verif.Spec.WalkCst
import Verif.Proof.Plain

/-
The nodes of a concrete tree met by asking for children.
-/

namespace Brack

/-- Not a node that can be asked nothing. -/
def AskNode (n : CST) : Prop := (∀ l, n ≠ .leaf .invalid l) ∧
  ∀ ch l' l, n = .node .backSlash [.leaf (.text [ch]) l'] l → ∃ k, escapes.lookup ch = some k

theorem mem_lookup {c : Char} {k : TokKind} (h : (c, k) ∈ escapes) : ∃ j, escapes.lookup c = some j := by
  simp only [escapes, List.mem_cons, Prod.mk.injEq, List.not_mem_nil, or_false] at h
  rcases h with ⟨rfl, _⟩ | ⟨rfl, _⟩ | ⟨rfl, _⟩ | ⟨rfl, _⟩ | ⟨rfl, _⟩ | ⟨rfl, _⟩ | ⟨rfl, _⟩ | ⟨rfl, _⟩ | ⟨rfl, _⟩ <;>
    exact ⟨_, rfl⟩

mutual

theorem GItem.askable : ∀ {c}, GItem c → ∀ {n}, CST.NodeOf n c → AskNode n
  | _, .leaf hk, _, .self => ⟨(by intro l h; cases h; cases hk), (by intro _ _ _ h; cases h)⟩
  | _, .escaped hm, _, .self => ⟨(by intro l h; cases h), (by intro _ _ _ h; cases h; exact mem_lookup hm)⟩
  | _, .escaped _, _, .child hc hn => by
    simp only [List.mem_singleton] at hc
    subst hc
    cases hn
    exact ⟨(by intro _ h; cases h), (by intro _ _ _ h; cases h)⟩
  | _, .backslash, _, .self => by exact ⟨(by intro _ h; cases h), (by intro _ _ _ h; cases h)⟩
  | _, .closed _, _, .self => by exact ⟨(by intro _ h; cases h), (by intro _ _ _ h; cases h)⟩
  | _, .closed hb, _, .child hc hn => by
    simp only [List.cons_append, List.mem_cons, List.mem_append, List.not_mem_nil, or_false] at hc
    rcases hc with rfl | hc | rfl
    · cases hn; exact ⟨(by intro _ h; cases h), (by intro _ _ _ h; cases h)⟩
    · exact hb.askable hc hn
    · cases hn; exact ⟨(by intro _ h; cases h), (by intro _ _ _ h; cases h)⟩
  | _, .unclosed _, _, .self => by exact ⟨(by intro _ h; cases h), (by intro _ _ _ h; cases h)⟩
  | _, .unclosed hb, _, .child hc hn => by
    simp only [List.mem_cons] at hc
    rcases hc with rfl | hc
    · cases hn; exact ⟨(by intro _ h; cases h), (by intro _ _ _ h; cases h)⟩
    · exact hb.askable hc hn

theorem GBody.askable : ∀ {cs}, GBody cs → ∀ {c}, c ∈ cs → ∀ {n}, CST.NodeOf n c → AskNode n
  | _, .nil, _, hc, _, _ => by simp at hc
  | _, .expr _ hg hb, _, hc, _, hn => by
    rcases List.mem_cons.mp hc with rfl | hc
    · cases hn with
      | self => exact ⟨(by intro _ h; cases h), (by intro _ _ _ h; cases h)⟩
      | child hc hn => exact (hg _ hc).askable hn
    · exact hb.askable hc hn
  | _, .newline hb, _, hc, _, hn => by
    rcases List.mem_cons.mp hc with rfl | hc
    · cases hn; exact ⟨(by intro _ h; cases h), (by intro _ _ _ h; cases h)⟩
    · exact hb.askable hc hn

end

theorem GLine.askable {c} (h : GLine c) {n} (hn : CST.NodeOf n c) : AskNode n := by
  cases h with
  | close => cases hn; exact ⟨(by intro _ h; cases h), (by intro _ _ _ h; cases h)⟩
  | expr _ hg =>
    cases hn with
    | self => exact ⟨(by intro _ h; cases h), (by intro _ _ _ h; cases h)⟩
    | child hc hn => exact (hg _ hc).askable hn

theorem GLines.askable {cs} (h : GLines cs) {c} (hc : c ∈ cs) {n} (hn : CST.NodeOf n c) : AskNode n := by
  induction h with
  | one h => simp only [List.mem_singleton] at hc; subst hc; exact h.askable hn
  | more h _ ih =>
    simp only [List.mem_cons] at hc
    rcases hc with rfl | rfl | hc
    · exact h.askable hn
    · cases hn; exact ⟨(by intro _ h; cases h), (by intro _ _ _ h; cases h)⟩
    · exact ih hc

theorem GStmt.askable {s} (h : GStmt s) {n} (hn : CST.NodeOf n s) : AskNode n := by
  cases h with
  | mk hl =>
    cases hn with
    | self => exact ⟨(by intro _ h; cases h), (by intro _ _ _ h; cases h)⟩
    | child hc hn => exact hl.askable hc hn

theorem GNewlines.askable {cs} (h : GNewlines cs) {c} (hc : c ∈ cs) {n} (hn : CST.NodeOf n c) : AskNode n := by
  obtain ⟨l, rfl⟩ := h c hc
  cases hn; exact ⟨(by intro _ h; cases h), (by intro _ _ _ h; cases h)⟩

theorem GChildren.askable {cs} (h : GChildren cs) {c} (hc : c ∈ cs) {n} (hn : CST.NodeOf n c) : AskNode n := by
  induction h with
  | more hs hnl _ ih =>
    simp only [List.cons_append, List.mem_cons, List.mem_append] at hc
    rcases hc with rfl | rfl | rfl | hc | hc
    · exact hs.askable hn
    · cases hn; exact ⟨(by intro _ h; cases h), (by intro _ _ _ h; cases h)⟩
    · cases hn; exact ⟨(by intro _ h; cases h), (by intro _ _ _ h; cases h)⟩
    · exact hnl.askable hc hn
    · exact ih hc
  | last hs hnl =>
    simp only [List.cons_append, List.mem_cons, List.mem_append, List.not_mem_nil, or_false] at hc
    rcases hc with rfl | hc | rfl
    · exact hs.askable hn
    · exact hnl.askable hc hn
    · cases hn; exact ⟨(by intro _ h; cases h), (by intro _ _ _ h; cases h)⟩
  | empty hnl =>
    simp only [List.mem_append, List.mem_cons, List.not_mem_nil, or_false] at hc
    rcases hc with hc | rfl
    · exact hnl.askable hc hn
    · cases hn; exact ⟨(by intro _ h; cases h), (by intro _ _ _ h; cases h)⟩

theorem GDocument.askable {c} (h : GDocument c) {n} (hn : CST.NodeOf n c) : AskNode n := by
  cases h with
  | mk hl =>
    cases hn with
    | self => exact ⟨(by intro _ h; cases h), (by intro _ _ _ h; cases h)⟩
    | child hc hn => exact hl.askable hc hn

theorem CST.Met.trans {a b c : CST} (h1 : a.Met b) (h2 : b.Met c) : a.Met c := by
  induction h2 with
  | root => exact h1
  | child _ hc hm ih => exact .child ih hc hm

theorem CST.NodeOf.trans' {a b c : CST} (h1 : CST.NodeOf a b) (h2 : CST.NodeOf b c) : CST.NodeOf a c := by
  induction h2 with
  | self => exact h1
  | child hm _ ih => exact .child hm ih

theorem cstMet_iff (a n : CST) : a.Met n ↔ CST.NodeOf n a := by
  constructor
  · intro h
    induction h with
    | root => exact .self
    | @child n c cs _ hc hm ih =>
      rcases n with _ | ⟨k, ds, l⟩
      · cases hc
      · injection hc with hc
        subst hc
        exact CST.NodeOf.trans' (.child hm .self) ih
  · intro h
    induction h with
    | self => exact .root
    | @child k cs l c hm _ ih => exact CST.Met.trans (.child .root rfl hm) ih

theorem escapes_wordless {c : Char} {k : TokKind} (h : (c, k) ∈ escapes) : k.word? = none := by
  simp only [escapes, List.mem_cons, Prod.mk.injEq, List.not_mem_nil, or_false] at h
  rcases h with ⟨_, rfl⟩ | ⟨_, rfl⟩ | ⟨_, rfl⟩ | ⟨_, rfl⟩ | ⟨_, rfl⟩ | ⟨_, rfl⟩ | ⟨_, rfl⟩ | ⟨_, rfl⟩ | ⟨_, rfl⟩ <;> rfl

theorem lookup_mem {c : Char} {k : TokKind} : ∀ {es : List (Char × TokKind)}, es.lookup c = some k → (c, k) ∈ es
  | [], h => by cases h
  | (d, j) :: es, h => by
    rw [List.lookup_cons] at h
    by_cases hd : c = d
    · subst hd; simp at h; subst h; simp
    · rw [show (c == d) = false by simpa using hd] at h
      exact List.mem_cons_of_mem _ (lookup_mem h)

mutual

/-- The words among the tokens of a tree are words of its leaves. -/
theorem tokens_leaf : ∀ (c : CST) (t : Token), t ∈ c.tokens → ∀ w, t.kind.word? = some w →
    ∃ k, CST.NodeOf (.leaf k t.loc) c ∧ k.storedValue = some w ∧ k.tokKind = t.kind
  | .leaf k l, t, h, w, hw => by
    rw [CST.tokens, List.mem_singleton] at h
    subst h
    refine ⟨k, .self, ?_, rfl⟩
    cases k <;> simp_all [LKind.tokKind, TokKind.word?, LKind.storedValue]
  | .node k cs l, t, h, w, hw => by
    have go : t ∈ CST.tokensL cs → ∃ k', CST.NodeOf (.leaf k' t.loc) (.node k cs l) ∧ k'.storedValue = some w ∧
        k'.tokKind = t.kind := by
      intro h
      obtain ⟨d, hd, k', h1, h2⟩ := tokensL_leaf cs t h w hw
      exact ⟨k', .child hd h1, h2⟩
    unfold CST.tokens at h
    split at h
    · rename_i heq; cases heq
    · simp only [List.mem_singleton] at h
      subst h; cases hw
    · rcases List.mem_cons.mp h with rfl | h
      · cases hw
      · obtain ⟨j, hj, rfl⟩ := List.mem_map.mp h
        rw [escapes_wordless (lookup_mem (by simpa using hj))] at hw
        cases hw
    · rename_i heq
      injection heq with h1 h2 h3
      subst h2
      exact go h

theorem tokensL_leaf : ∀ (cs : List CST) (t : Token), t ∈ CST.tokensL cs → ∀ w, t.kind.word? = some w →
    ∃ d ∈ cs, ∃ k, CST.NodeOf (.leaf k t.loc) d ∧ k.storedValue = some w ∧ k.tokKind = t.kind
  | [], _, h, _, _ => by cases h
  | c :: cs, t, h, w, hw => by
    rw [CST.tokensL, List.mem_append] at h
    rcases h with h | h
    · exact ⟨c, by simp, tokens_leaf c t h w hw⟩
    · obtain ⟨d, hd, h⟩ := tokensL_leaf cs t h w hw
      exact ⟨d, by simp [hd], h⟩

end

/-- The words of the leaves of a tree are among its tokens, or stand for escaped characters. -/
theorem leaf_tokens {n c : CST} (h : CST.NodeOf n c) : (∀ m, CST.NodeOf m c → AskNode m) → ∀ k l w, n = .leaf k l → k.storedValue = some w →
    (∃ t ∈ c.tokens, t.loc = l ∧ t.kind.word? = some w) ∨ ∃ ch j, w = [ch] ∧ (ch, j) ∈ escapes ∧ ⟨j, l⟩ ∈ c.tokens := by
  induction h with
  | self =>
    rintro - k l w rfl hw
    refine .inl ⟨⟨k.tokKind, l⟩, by rw [CST.tokens]; simp, rfl, ?_⟩
    cases k <;> simp_all [LKind.tokKind, TokKind.word?, LKind.storedValue]
  | @child k cs l c hc hn ih =>
    rintro ha k' l' w rfl hw
    have go : (∀ t ∈ c.tokens, t ∈ CST.tokensL cs) := fun t ht => mem_tokensL hc ht
    unfold CST.tokens
    split
    · rename_i heq; cases heq
    · rename_i heq; injection heq with _ h2 _; subst h2; cases hc
    · rename_i heq; injection heq with hk h2 _; subst h2
      simp only [List.mem_singleton] at hc
      subst hc
      cases hn
      injection hw with hw
      subst hw
      subst hk
      obtain ⟨j, hj⟩ := (ha _ .self).2 _ _ _ rfl
      exact .inr ⟨_, j, rfl, lookup_mem hj, by rw [hj]; simp⟩
    · rename_i heq; injection heq with _ h2 _; subst h2
      rcases ih (fun m hm => ha m (.child hc hm)) _ _ w rfl hw with ⟨t, ht, h⟩ | ⟨ch, j, h1, h2, h3⟩
      · exact .inl ⟨t, go t ht, h⟩
      · exact .inr ⟨ch, j, h1, h2, go _ h3⟩

mutual

/-- The values of the leaves of a tree. -/
def CST.values : CST → List (Str × Loc)
  | .leaf k l => k.storedValue.toList.map (·, l)
  | .node _ cs _ => CST.valuesL cs

/-- The same for a list of trees. -/
def CST.valuesL : List CST → List (Str × Loc)
  | [] => []
  | c :: cs => c.values ++ CST.valuesL cs

end

mutual

theorem CST.Walked.values : ∀ {c vs}, CST.Walked c vs → vs = c.values
  | .leaf k l, _, .value h => by
    cases k <;> simp_all [CST.askValue, CST.values, LKind.storedValue, CST.loc]
  | .leaf k l, _, .nothing h => by
    have : k.storedValue = none := by cases k <;> simp_all [CST.askValue]
    rw [CST.values, this]; rfl
  | .node _ _ _, _, .children h hs => by
    cases h
    rw [CST.values]
    exact hs.values

theorem CST.WalkedAll.values : ∀ {cs vs}, CST.WalkedAll cs vs → vs = CST.valuesL cs
  | _, _, .nil => by rw [CST.valuesL]
  | _, _, .cons h hs => by rw [CST.valuesL, ← h.values, ← hs.values]

end

mutual

theorem walked_values : ∀ (c : CST), (∀ m, CST.NodeOf m c → AskNode m) → CST.Walked c c.values
  | .leaf k l, ha => by
    have h : (CST.leaf k l).askValue = .ok k.storedValue := by
      cases k <;> first | rfl | exact absurd rfl ((ha _ .self).1 l)
    rw [CST.values]
    cases hk : k.storedValue with
    | none => exact .nothing (hk ▸ h)
    | some w => exact .value (n := .leaf k l) (hk ▸ h)
  | .node k cs l, ha => by
    rw [CST.values]
    exact .children rfl (walkedAll_values cs (fun c hc m hm => ha m (.child hc hm)))

theorem walkedAll_values : ∀ (cs : List CST), (∀ c ∈ cs, ∀ m, CST.NodeOf m c → AskNode m) → CST.WalkedAll cs (CST.valuesL cs)
  | [], _ => by rw [CST.valuesL]; exact .nil
  | c :: cs, ha => by
    rw [CST.valuesL]
    exact .cons (walked_values c (ha c (by simp))) (walkedAll_values cs (fun d hd => ha d (by simp [hd])))

end

/-- Among the tokens are some, among them all words, that say the values. -/
def Spoken (ts : List Token) (vs : List (Str × Loc)) : Prop :=
  ∃ us, us.Sublist ts ∧ Json.Each Token.Says us vs ∧ us.filterMap Token.word? = ts.filterMap Token.word?

theorem each_append {α β : Type} {R : α → β → Prop} {as as' : List α} {bs bs' : List β} (h : Json.Each R as bs)
    (h' : Json.Each R as' bs') : Json.Each R (as ++ as') (bs ++ bs') := by
  induction h with
  | nil => exact h'
  | cons h _ ih => exact .cons h ih

theorem Spoken.append {ts ts' vs vs'} (h : Spoken ts vs) (h' : Spoken ts' vs') : Spoken (ts ++ ts') (vs ++ vs') := by
  obtain ⟨us, h1, h2, h3⟩ := h
  obtain ⟨us', h1', h2', h3'⟩ := h'
  exact ⟨us ++ us', h1.append h1', each_append h2 h2', by rw [List.filterMap_append, List.filterMap_append, h3, h3']⟩

theorem word_kind (t : Token) : t.word? = t.kind.word? := by
  rcases t with ⟨k, l⟩
  cases k <;> rfl

mutual

theorem spoken_values : ∀ (c : CST), (∀ m, CST.NodeOf m c → AskNode m) → Spoken c.tokens c.values
  | .leaf k l, _ => by
    rw [CST.tokens, CST.values]
    have hw : Token.word? ⟨k.tokKind, l⟩ = k.storedValue := by cases k <;> rfl
    cases hk : k.storedValue with
    | none => exact ⟨[], by simp, .nil, by simp [hw, hk]⟩
    | some w => exact ⟨_, .refl _, .cons ⟨rfl, .inl (hw.trans hk)⟩ .nil, rfl⟩
  | .node k cs l, ha => by
    have go := spokenL_values cs (fun c hc m hm => ha m (.child hc hm))
    unfold CST.tokens
    split
    · rename_i heq; cases heq
    · rename_i heq; injection heq with _ h2 _; subst h2
      simp only [CST.values, CST.valuesL]
      exact ⟨[], by simp, .nil, rfl⟩
    · rename_i ch l' _ heq; injection heq with hk h2 _; subst h2
      subst hk
      obtain ⟨j, hj⟩ := (ha _ .self).2 _ _ _ rfl
      have hj' := lookup_mem hj
      have hw : Token.word? ⟨j, l'⟩ = none := by rw [word_kind]; exact escapes_wordless hj'
      rw [CST.values, CST.valuesL, CST.valuesL, CST.values, hj]
      refine ⟨[⟨j, l'⟩], by simp, .cons ⟨rfl, .inr ⟨ch, rfl, hj'⟩⟩ .nil, ?_⟩
      simp [hw, word_kind, TokKind.word?]
    · rename_i heq; injection heq with _ h2 _; subst h2
      rw [CST.values]
      exact go

theorem spokenL_values : ∀ (cs : List CST), (∀ c ∈ cs, ∀ m, CST.NodeOf m c → AskNode m) → Spoken (CST.tokensL cs) (CST.valuesL cs)
  | [], _ => by rw [CST.valuesL, CST.tokensL]; exact ⟨[], .refl _, .nil, rfl⟩
  | c :: cs, ha => by
    rw [CST.valuesL, CST.tokensL]
    exact (spoken_values c (ha c (by simp))).append (spokenL_values cs (fun d hd => ha d (by simp [hd])))

end

end Brack
