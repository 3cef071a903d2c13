import Verif.Proof.ParserTotal

/-
Helper lemmas: trees keep their tokens and follow the grammar.
-/

namespace Brack

theorem tokensL_append (cs ds : List CST) :
    CST.tokensL (cs ++ ds) = CST.tokensL cs ++ CST.tokensL ds := by
  induction cs with
  | nil => simp [CST.tokensL]
  | cons c cs ih => simp [CST.tokensL, ih]

theorem exprLeaf_tok {k l} (h : exprLeaf k = some l) : l.tokKind = k ∧ l.inExpr = true := by
  cases k <;> simp [exprLeaf] at h <;> subst h <;> simp [LKind.tokKind, LKind.inExpr]

theorem escapable_tok {k v} (h : escapable k = some v) :
    ∃ c, v = [c] ∧ (c, k) ∈ escapes ∧ escapes.lookup c = some k := by
  cases k <;> simp [escapable] at h
  case bopen b => cases b <;> simp at h <;> subst h <;> exact ⟨_, rfl, by decide, by decide⟩
  case bclose b => cases b <;> simp at h <;> subst h <;> exact ⟨_, rfl, by decide, by decide⟩
  all_goals subst h; exact ⟨_, rfl, by decide, by decide⟩

theorem tok_eta {t : Token} {k} (h : t.kind = k) : (⟨k, t.loc⟩ : Token) = t := by
  subst h; rfl

theorem bracketNode_tokens (b : Bracket) (t u : Token) (cs : List CST) (ht : t.kind = .bopen b) :
    (bracketNode b t cs u).tokens =
      t :: CST.tokensL cs ++ if u.kind = .bclose b then [u] else [] := by
  unfold bracketNode
  by_cases hu : u.kind = .bclose b
  · simp [hu, CST.tokens, CST.tokensL, tokensL_append, LKind.tokKind, tok_eta ht, tok_eta hu]
  · simp [hu, CST.tokens, CST.tokensL, LKind.tokKind, tok_eta ht]

theorem exprNode_tokens (c cs) : (exprNode c cs).tokens = CST.tokensL (c :: cs) := by
  simp [exprNode, CST.tokens]

mutual

theorem EI.tokens : ∀ {ts cs r}, EI ts cs r → ts = CST.tokensL cs ++ r
  | _, _, _, .stop _ => by simp [CST.tokensL]
  | _, _, _, .leaf hk h => by
    obtain ⟨hk, _⟩ := exprLeaf_tok hk
    simp [CST.tokensL, CST.tokens, hk, ← h.tokens]
  | _, _, _, .esc ht hv h => by
    obtain ⟨c, rfl, _, hl⟩ := escapable_tok hv
    simp [CST.tokensL, CST.tokens, hl, ← h.tokens, tok_eta ht]
  | _, _, _, .escN ht hv h => by
    simp [CST.tokensL, CST.tokens, ← h.tokens, tok_eta ht]
  | _, _, _, .bclosed ht hb hu h => by
    rw [CST.tokensL, bracketNode_tokens _ _ _ _ ht, if_pos hu, hb.tokens, h.tokens]
    simp
  | _, _, _, .bunclosed ht hb hu h => by
    rw [CST.tokensL, bracketNode_tokens _ _ _ _ ht, if_neg hu, hb.tokens, h.tokens]
    simp

theorem BI.tokens : ∀ {ts cs r}, BI ts cs r → ts = CST.tokensL cs ++ r
  | _, _, _, .stop _ _ => by simp [CST.tokensL]
  | _, _, _, .expr he hb => by
    rw [CST.tokensL, exprNode_tokens, he.tokens, hb.tokens]
    simp
  | _, _, _, .newline ht h => by
    simp [CST.tokensL, CST.tokens, LKind.tokKind, tok_eta ht, ← h.tokens]

end

mutual

theorem EI.grammar : ∀ {ts cs r}, EI ts cs r → ∀ c ∈ cs, GItem c
  | _, _, _, .stop _ => by simp
  | _, _, _, .leaf hk h => by
    have := h.grammar
    simpa using ⟨.leaf (exprLeaf_tok hk).2, this⟩
  | _, _, _, .esc ht hv h => by
    have := h.grammar
    obtain ⟨c, rfl, hm, _⟩ := escapable_tok hv
    simpa using ⟨.escaped hm, this⟩
  | _, _, _, .escN ht hv h => by
    have := h.grammar
    simpa using ⟨.backslash, this⟩
  | _, _, _, .bclosed ht hb hu h => by
    have := h.grammar
    rw [List.forall_mem_cons]
    refine ⟨?_, this⟩
    unfold bracketNode
    rw [if_pos hu]
    exact .closed hb.grammar
  | _, _, _, .bunclosed ht hb hu h => by
    have := h.grammar
    rw [List.forall_mem_cons]
    refine ⟨?_, this⟩
    unfold bracketNode
    rw [if_neg hu, List.append_nil]
    exact .unclosed hb.grammar

theorem BI.grammar : ∀ {ts cs r}, BI ts cs r → GBody cs
  | _, _, _, .stop _ _ => .nil
  | _, _, _, .expr he hb => .expr (by simp) he.grammar hb.grammar
  | _, _, _, .newline _ h => .newline h.grammar

end

theorem LI.tokens {ts c r} (h : LI ts c r) : ts = c.tokens ++ r := by
  cases h with
  | expr h => rw [exprNode_tokens]; exact h.tokens
  | close ht => simp [CST.tokens, LKind.tokKind, tok_eta ht]

theorem LI.grammar {ts c r} (h : LI ts c r) : GLine c := by
  cases h with
  | expr h => exact .expr (by simp) h.grammar
  | close ht => exact .close

theorem SI.tokens : ∀ {ts cs r}, SI ts cs r → ts = CST.tokensL cs ++ r
  | _, _, _, .stop _ => by simp [CST.tokensL]
  | _, _, _, .more ht hl h => by
    rw [hl.tokens, h.tokens]
    simp [CST.tokensL, CST.tokens, LKind.tokKind, tok_eta ht]

theorem SI.grammar : ∀ {ts cs r}, SI ts cs r → ∀ {c}, GLine c → GLines (c :: cs)
  | _, _, _, .stop _ => fun hc => .one hc
  | _, _, _, .more _ hl h => fun hc => .more hc (h.grammar hl.grammar)

theorem stmtNode_eq (cs : List CST) :
    ∃ l, cs.foldl CST.add (CST.new .stmt) = .node .stmt cs l := foldl_add_new _ _

theorem TI.tokens {ts c r} (h : TI ts c r) : ts = c.tokens ++ r := by
  cases h with
  | mk h1 h2 =>
    obtain ⟨l, hl⟩ := foldl_add_new .stmt (_ :: _)
    rw [hl, h1.tokens, h2.tokens]
    simp [CST.tokens, CST.tokensL]

theorem TI.grammar {ts c r} (h : TI ts c r) : GStmt c := by
  cases h with
  | mk h1 h2 =>
    obtain ⟨l, hl⟩ := foldl_add_new .stmt (_ :: _)
    rw [hl]
    exact .mk (h2.grammar h1.grammar)

theorem NI.tokens : ∀ {ts cs r}, NI ts cs r → ts = CST.tokensL cs ++ r
  | _, _, _, .stop _ => by simp [CST.tokensL]
  | _, _, _, .more ht h => by
    simp [CST.tokensL, CST.tokens, LKind.tokKind, tok_eta ht, ← h.tokens]

theorem NI.grammar : ∀ {ts cs r}, NI ts cs r → GNewlines cs
  | _, _, _, .stop _ => by simp [GNewlines]
  | _, _, _, .more ht h => by
    have := h.grammar
    simpa [GNewlines] using this

theorem DI.tokens : ∀ {ts cs r}, DI ts cs r → ts = CST.tokensL cs ++ r
  | _, _, _, .noStmt _ => by simp [CST.tokensL]
  | _, _, _, .lastStmt _ _ => by simp [CST.tokensL]
  | _, _, _, .more hs ht hn h => by
    rw [hs.tokens, hn.tokens, h.tokens]
    simp [CST.tokensL, CST.tokens, LKind.tokKind, tok_eta ht, tokensL_append]

theorem OI.tokens {ts cs r} (h : OI ts cs r) : ts = CST.tokensL cs ++ r := by
  cases h with
  | none => simp [CST.tokensL]
  | some h => simpa [CST.tokensL] using h.tokens

theorem PI.tokens {ts c rest} (h : PI ts c rest) : ts = c.tokens ++ rest := by
  cases h with
  | mk hD hO hN ht =>
    obtain ⟨l, hl⟩ := foldl_add_new .document (_ ++ _)
    rw [hl, hD.tokens, hO.tokens, hN.tokens]
    simp [CST.tokens, CST.tokensL, tokensL_append, LKind.tokKind, tok_eta ht]

/-! ### the document grammar -/

theorem NI.head : ∀ {ts cs r}, NI ts cs r → ∀ t ∈ r.head?, t.kind ≠ .newLine
  | _, _, _, .stop h => h
  | _, _, _, .more _ h => h.head

theorem TI.noLine {ts c r} (h : TI ts c r) :
    ∀ t ts1, r = t :: ts1 → t.kind = .newLine → NoLine ts1 := by
  cases h with
  | mk h1 h2 =>
    clear h1
    induction h2 with
    | stop h => exact h
    | more _ _ _ ih => exact ih

theorem LI.not_noLine {ts c r} (h : LI ts c r) (he : HasEof ts) : ¬ NoLine ts := by
  intro hn
  have hn := hn he
  cases h with
  | close ht => simpa [ht] using hn _ rfl
  | expr h =>
    cases h with
    | leaf hk _ => have := hn _ rfl; rcases this with h | h | h <;> rw [h] at hk <;> simp [exprLeaf] at hk
    | esc ht _ _ => simpa [ht] using hn _ rfl
    | escN ht _ _ => simpa [ht] using hn _ rfl
    | bclosed ht _ _ _ => simpa [ht] using hn _ rfl
    | bunclosed ht _ _ _ => simpa [ht] using hn _ rfl

theorem TI.not_noLine {ts c r} (h : TI ts c r) (he : HasEof ts) : ¬ NoLine ts := by
  cases h with
  | mk h1 h2 => exact h1.not_noLine he

/-- The loop of `parse` followed by `stmt? newline* EOF` follows the grammar. -/
theorem DI.grammar : ∀ {ts cs r}, DI ts cs r → HasEof ts → ∀ {cs2 r2 ns t rest}, OI r cs2 r2 →
    NI r2 ns (t :: rest) → ∀ l, GChildren (cs ++ cs2 ++ ns ++ [.leaf .eof l]) := by
  intro ts cs r h
  induction h with
  | noStmt hn =>
    intro he cs2 r2 ns t rest hO hN l
    cases hO with
    | none => simpa using .empty hN.grammar
    | some hT => simpa using .last hT.grammar hN.grammar
  | lastStmt hT _ =>
    intro he cs2 r2 ns t rest hO hN l
    cases hO with
    | none => simpa using .empty hN.grammar
    | some hT => simpa using .last hT.grammar hN.grammar
  | @more ts s t r ns r1 cs r2 hs ht hN hD ih =>
    intro he cs2 r2' ns' t' rest hO hN' l
    have he' : HasEof r := (hs.hasEof.mp he).tail (by simp [ht])
    have he1 : HasEof r1 := hN.hasEof.mp he'
    cases hN with
    | @more t2 _ _ _ ht2 hN2 =>
      have := ih he1 hO hN' l
      have h := GChildren.more (l1 := t.loc) (l2 := t2.loc) hs.grammar hN2.grammar this
      simpa using h
    | stop hst =>
      -- a single newline: nothing can follow but EOF
      have hno := hs.noLine t r rfl ht
      have hcs : cs = [] ∧ cs2 = [] ∧ ns' = [] := by
        have h2 : cs = [] ∧ r2 = r := by
          cases hD with
          | noStmt => simp
          | lastStmt => simp
          | more hT _ _ _ => exact absurd hno (hT.not_noLine he')
        obtain ⟨rfl, rfl⟩ := h2
        have h3 : cs2 = [] ∧ r2' = r2 := by
          cases hO with
          | none => simp
          | some hT => exact absurd hno (hT.not_noLine he')
        obtain ⟨rfl, rfl⟩ := h3
        refine ⟨rfl, rfl, ?_⟩
        cases hN' with
        | stop => rfl
        | more h _ => exact absurd h (hst _ rfl)
      obtain ⟨rfl, rfl, rfl⟩ := hcs
      simpa using GChildren.last (nls := [.leaf .newline t.loc]) (l := l) hs.grammar (by simp [GNewlines])

theorem PI.hasEof {ts c rest} (h : PI ts c rest) : HasEof ts := by
  cases h with
  | mk hD hO hN ht => 
    rw [hD.hasEof, hO.hasEof, hN.hasEof]
    exact ⟨_, List.mem_cons_self, ht⟩

theorem PI.grammar {ts c rest} (h : PI ts c rest) : GDocument c := by
  have he := h.hasEof
  cases h with
  | mk hD hO hN ht =>
    obtain ⟨l, hl⟩ := foldl_add_new .document (_ ++ _)
    rw [hl]
    exact .mk (hD.grammar he hO hN _)

/-! ### successful parses need EOF -/

theorem exprItems_suffix {n ts cs r} (h : exprItems n ts = .ok (cs, r)) : r <:+ ts :=
  (((items_sound n).1 ts).2 _ _ h).isSuffix

theorem pNewline_suffix {ts c r} (h : pNewline ts = .ok (c, r)) : r <:+ ts := by
  rcases ts with _ | ⟨t, ts⟩
  · obtain ⟨m, hm⟩ := pNewline_nil; rw [hm] at h; cases h
  · by_cases ht : t.kind = .newLine
    · rw [pNewline_yes ht] at h; cases h; exact List.suffix_cons _ _
    · obtain ⟨m, hm⟩ := pNewline_no (ts := ts) ht; rw [hm] at h; cases h

theorem pExprOrClose_suffix {ts c r} (h : pExprOrClose ts = .ok (c, r)) : r <:+ ts := by
  simp only [pExprOrClose, pExpr, exprOf_eq] at h
  rcases hx : pExprItems ts with ⟨_ | ⟨c, cs⟩, r'⟩ | m | _
  · rw [hx] at h
    rcases ts with _ | ⟨⟨k, l⟩, ts⟩
    · simp [Res.orElse, pBracketClose, leafParser] at h
    · cases k <;> simp [Res.orElse, pBracketClose, leafParser] at h
      rw [← h.2]; exact List.suffix_cons _ _
  · rw [hx] at h
    simp only [Res.orElse] at h
    cases h
    exact exprItems_suffix hx
  · exact absurd hx (((items_sound _).1 ts).1 m)
  · rw [hx] at h; simp [Res.orElse] at h

theorem stmtItems_suffix (n : Nat) : ∀ {ts cs r}, stmtItems n ts = .ok (cs, r) → r <:+ ts := by
  induction n with
  | zero => intro ts cs r h; simp [stmtItems] at h
  | succ n ih =>
    intro ts cs r h
    simp only [stmtItems] at h
    rcases h1 : pNewline ts with ⟨c1, r1⟩ | m | _ <;> rw [h1] at h <;> simp only [] at h
    · rcases h2 : pExprOrClose r1 with ⟨c2, r2⟩ | m | _ <;> rw [h2] at h <;> simp only [] at h
      · rcases h3 : stmtItems n r2 with ⟨cs', r'⟩ | m | _ <;> rw [h3] at h <;> simp only [] at h
        · cases h
          exact (ih h3).trans ((pExprOrClose_suffix h2).trans (pNewline_suffix h1))
        · cases h
        · cases h
      · cases h; exact List.suffix_rfl
      · cases h
    · cases h; exact List.suffix_rfl
    · cases h; exact List.suffix_rfl

theorem pStmt_suffix {ts c r} (h : pStmt ts = .ok (c, r)) : r <:+ ts := by
  unfold pStmt at h
  rcases h2 : pExprOrClose ts with ⟨c2, r2⟩ | m | _ <;> rw [h2] at h <;> simp only [] at h
  · rcases h3 : stmtItems (r2.length + 1) r2 with ⟨cs', r'⟩ | m | _ <;> rw [h3] at h <;>
      simp only [] at h
    · cases h
      exact (stmtItems_suffix _ h3).trans (pExprOrClose_suffix h2)
    · cases h
    · cases h
  · cases h
  · cases h

theorem docItems_suffix (n : Nat) : ∀ {ts cs r}, docItems n ts = .ok (cs, r) → r <:+ ts := by
  induction n with
  | zero => intro ts cs r h; simp [docItems] at h
  | succ n ih =>
    intro ts cs r h
    simp only [docItems] at h
    rcases h1 : pStmt ts with ⟨c1, r1⟩ | m | _ <;> rw [h1] at h <;> simp only [] at h
    · rcases h2 : pNewline r1 with ⟨c2, r2⟩ | m | _ <;> rw [h2] at h <;> simp only [] at h
      · rcases h3 : docItems n (newlines r2).2 with ⟨cs', r'⟩ | m | _ <;> rw [h3] at h <;>
          simp only [] at h
        · cases h
          exact (ih h3).trans ((newlines_spec r2).isSuffix.trans
            ((pNewline_suffix h2).trans (pStmt_suffix h1)))
        · cases h
        · cases h
      · cases h; exact List.suffix_rfl
      · cases h; exact List.suffix_rfl
    · cases h; exact List.suffix_rfl
    · cases h

theorem parse_hasEof {ts c} (h : parse ts = .ok c) : HasEof ts := by
  unfold parse at h
  rcases h1 : docItems (ts.length + 1) ts with ⟨c1, r1⟩ | m | _ <;> rw [h1] at h <;>
    simp only [] at h
  · have hO : ∀ cs2 r2, optStmt r1 = .ok (cs2, r2) → r2 <:+ r1 := by
      intro cs2 r2 h
      unfold optStmt at h
      rcases h2 : pStmt r1 with ⟨c, r⟩ | m | _ <;> rw [h2] at h <;> cases h
      · exact pStmt_suffix h2
      · exact List.suffix_rfl
    rcases h2 : optStmt r1 with ⟨cs2, r2⟩ | m | _ <;> rw [h2] at h <;> simp only [] at h
    · rcases h3 : (newlines r2).2 with _ | ⟨t, rest⟩
      · rw [h3] at h; obtain ⟨m, hm⟩ := pEof_nil; rw [hm] at h; cases h
      · rw [h3] at h
        by_cases ht : t.kind = .eof
        · have hsuf : (t :: rest) <:+ ts := by
            rw [← h3]
            exact (newlines_spec r2).isSuffix.trans ((hO _ _ h2).trans (docItems_suffix _ h1))
          exact ⟨t, hsuf.subset List.mem_cons_self, ht⟩
        · obtain ⟨m, hm⟩ := pEof_no (ts := rest) ht; rw [hm] at h; cases h
    · cases h
    · cases h
  · cases h
  · cases h

/-- Every successful parse is described by `PI`. -/
theorem parse_ok {ts c} (h : parse ts = .ok c) : ∃ rest, PI ts c rest := by
  rcases parse_spec (.inl (parse_hasEof h)) with ⟨c', rest, h1, h2⟩ | ⟨m, _, _, _, _, _, _, h1, _⟩
  · rw [h] at h1; cases h1; exact ⟨rest, h2⟩
  · rw [h] at h1; cases h1

end Brack
