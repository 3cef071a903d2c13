import Verif.Proof.WordsTok
import Verif.Spec.Identifiers
import Verif.Proof.Relational

/-
Tokens that differ in their texts only have trees that differ in their texts only.
-/

namespace Brack

/-- The same kind of leaf, with the same name if it is a name; texts may differ. -/
def LKind.Like (k k' : LKind) : Prop := k = k' ∨ ∃ s s', k = .text s ∧ k' = .text s'

mutual

/-- The same tree but for texts and positions. -/
def CST.Like : CST → CST → Prop
  | .leaf k _, .leaf k' _ => k.Like k'
  | .node k cs _, .node k' cs' _ => k = k' ∧ CST.LikeL cs cs'
  | _, _ => False

/-- The same trees but for texts and positions. -/
def CST.LikeL : List CST → List CST → Prop
  | [], [] => True
  | c :: cs, d :: ds => c.Like d ∧ CST.LikeL cs ds
  | _, _ => False

end

theorem CST.LikeL.append : ∀ {a a' b b' : List CST}, CST.LikeL a a' → CST.LikeL b b' → CST.LikeL (a ++ b) (a' ++ b')
  | [], [], _, _, _, h => h
  | _ :: _, _ :: _, _, _, h, h' => by
    simp only [CST.LikeL, List.cons_append] at h ⊢
    exact ⟨h.1, h.2.append h'⟩
  | [], _ :: _, _, _, h, _ => by simp [CST.LikeL] at h
  | _ :: _, [], _, _, h, _ => by simp [CST.LikeL] at h

theorem CST.LikeL.single {c c' : CST} (h : c.Like c') : CST.LikeL [c] [c'] := by
  simp only [CST.LikeL, and_true]
  exact h

theorem CST.LikeL.nil : CST.LikeL [] [] := by simp only [CST.LikeL]

theorem CST.LikeL.cons {c c' : CST} {cs cs' : List CST} (h : c.Like c') (h' : CST.LikeL cs cs') :
    CST.LikeL (c :: cs) (c' :: cs') := by
  simp only [CST.LikeL]
  exact ⟨h, h'⟩

/-- Both lists are empty or both begin with trees alike. -/
theorem CST.LikeL.cases {cs cs' : List CST} (h : CST.LikeL cs cs') : (cs = [] ∧ cs' = []) ∨
    ∃ c c' ds ds', cs = c :: ds ∧ cs' = c' :: ds' ∧ c.Like c' ∧ CST.LikeL ds ds' := by
  rcases cs with _ | ⟨c, ds⟩ <;> rcases cs' with _ | ⟨c', ds'⟩ <;> simp only [CST.LikeL] at h
  · exact .inl ⟨rfl, rfl⟩
  · exact .inr ⟨c, c', ds, ds', rfl, rfl, h.1, h.2⟩

theorem CST.Like.leaf {k k' : LKind} (h : k.Like k') (l l' : Loc) : (CST.leaf k l).Like (.leaf k' l') := by
  simp only [CST.Like]
  exact h

theorem CST.Like.node {k : IKind} {cs cs' : List CST} (h : CST.LikeL cs cs') (l l' : Loc) :
    (CST.node k cs l).Like (.node k cs' l') := by
  simp only [CST.Like]
  exact ⟨trivial, h⟩

theorem LKind.Like.refl (k : LKind) : k.Like k := .inl rfl

/-- Two trees alike are leaves alike or nodes of the same kind. -/
theorem CST.Like.cases {c c' : CST} (h : c.Like c') : (∃ k k' l l', c = .leaf k l ∧ c' = .leaf k' l' ∧ k.Like k') ∨
    ∃ k cs cs' l l', c = .node k cs l ∧ c' = .node k cs' l' ∧ CST.LikeL cs cs' := by
  rcases c with ⟨k, l⟩ | ⟨k, cs, l⟩ <;> rcases c' with ⟨k', l'⟩ | ⟨k', cs', l'⟩ <;> simp only [CST.Like] at h
  · exact .inl ⟨k, k', l, l', rfl, rfl, h⟩
  · obtain ⟨rfl, h⟩ := h
    exact .inr ⟨k, cs, cs', l, l', rfl, rfl, h⟩

theorem CST.Like.add {c c' d d' : CST} (h : c.Like c') (hd : d.Like d') : (c.add d).Like (c'.add d') := by
  rcases h.cases with ⟨k, k', l, l', rfl, rfl, hk⟩ | ⟨k, cs, cs', l, l', rfl, rfl, hk⟩
  · exact .leaf hk _ _
  · exact .node (hk.append (.single hd)) _ _

theorem CST.Like.setLoc {c c' : CST} (h : c.Like c') (l l' : Loc) : (c.setLoc l).Like (c'.setLoc l') := by
  rcases h.cases with ⟨k, k', _, _, rfl, rfl, hk⟩ | ⟨k, cs, cs', _, _, rfl, rfl, hk⟩
  · exact .leaf hk _ _
  · exact .node hk _ _

theorem CST.Like.foldl : ∀ {ds ds' : List CST} {c c' : CST}, c.Like c' → CST.LikeL ds ds' →
    (ds.foldl CST.add c).Like (ds'.foldl CST.add c')
  | [], [], _, _, h, _ => h
  | _ :: _, _ :: _, _, _, h, h' => by
    simp only [CST.LikeL] at h'
    simp only [List.foldl_cons]
    exact CST.Like.foldl (h.add h'.1) h'.2
  | [], _ :: _, _, _, _, h => by simp [CST.LikeL] at h
  | _ :: _, [], _, _, _, h => by simp [CST.LikeL] at h

theorem CST.Like.new (k : IKind) : (CST.new k).Like (CST.new k) := .node .nil _ _

/-! ### Parsing -/

/-- A tree and the rest of the tokens. -/
def OneLike (x y : CST × List Token) : Prop := x.1.Like y.1 ∧ TokensLike x.2 y.2

/-- Trees and the rest of the tokens. -/
def ManyLike (x y : List CST × List Token) : Prop := CST.LikeL x.1 y.1 ∧ TokensLike x.2 y.2

/-- A parser that does not look at texts. -/
def Heedless (Q : α → β → Prop) (p : List Token → Res α) (q : List Token → Res β) : Prop :=
  ∀ ts us, TokensLike ts us → Res.Same Q (p ts) (q us)

theorem TokensLike.cases {ts us : List Token} (h : TokensLike ts us) : (ts = [] ∧ us = []) ∨
    ∃ t u ts' us', ts = t :: ts' ∧ us = u :: us' ∧ t.kind.Like u.kind ∧ TokensLike ts' us' := by
  rcases ts with _ | ⟨t, ts⟩ <;> rcases us with _ | ⟨u, us⟩
  · exact .inl ⟨rfl, rfl⟩
  · exact h.elim
  · exact h.elim
  · exact .inr ⟨t, u, ts, us, rfl, rfl, h.1, h.2⟩

theorem Res.Same.orElse {Q : α → β → Prop} {x : Res α} {y : Res β} {f : Unit → Res α} {g : Unit → Res β}
    (h : Res.Same Q x y) (hf : Res.Same Q (f ()) (g ())) : Res.Same Q (x.orElse f) (y.orElse g) := by
  rcases x with a | m | _ <;> rcases y with b | m' | _ <;> first | exact h.elim | exact h | exact hf

theorem leafParser_like {f : TokKind → Option LKind} (msg : String)
    (hf : ∀ k k' : TokKind, k.Like k' → (f k = none ∧ f k' = none) ∨ ∃ l l', f k = some l ∧ f k' = some l' ∧ l.Like l') :
    Heedless OneLike (leafParser f msg) (leafParser f msg) := by
  intro ts us h
  rcases h.cases with ⟨rfl, rfl⟩ | ⟨t, u, ts, us, rfl, rfl, h1, h2⟩
  · exact rfl
  · unfold leafParser
    rcases hf _ _ h1 with ⟨h3, h4⟩ | ⟨l, l', h3, h4, h5⟩
    · simp only [h3, h4]
      exact rfl
    · simp only [h3, h4]
      exact ⟨.leaf h5 _ _, h2⟩

/-- A parser of a leaf that is no text. -/
theorem leafParser_same {f : TokKind → Option LKind} (msg : String) (hf : ∀ s, f (.text s) = none) :
    Heedless OneLike (leafParser f msg) (leafParser f msg) := leafParser_like msg fun k k' h => by
  rcases h with rfl | ⟨s, s', rfl, rfl⟩
  · rcases f k with _ | l
    · exact .inl ⟨rfl, rfl⟩
    · exact .inr ⟨l, l, rfl, rfl, .refl _⟩
  · exact .inl ⟨hf s, hf s'⟩

theorem pText_like : Heedless OneLike pText pText := leafParser_like _ fun k k' h => by
  rcases h with rfl | ⟨s, s', rfl, rfl⟩
  · cases k <;> first | exact .inl ⟨rfl, rfl⟩ | exact .inr ⟨_, _, rfl, rfl, .refl _⟩
  · exact .inr ⟨_, _, rfl, rfl, .inr ⟨s, s', rfl, rfl⟩⟩

theorem pNewline_like : Heedless OneLike pNewline pNewline := leafParser_same _ fun _ => rfl

theorem pEof_like : Heedless OneLike pEof pEof := leafParser_same _ fun _ => rfl

theorem pEscaped_other {t : Token} {ts : List Token} (h : t.kind ≠ .backSlash) :
    pEscaped (t :: ts) = .err "Expected backslash, found another token" := by
  unfold pEscaped
  generalize hk : t.kind = k at *
  cases k <;> simp only [hk] <;> exact absurd rfl h

theorem pEscaped_like : Heedless OneLike pEscaped pEscaped := by
  intro ts us h
  rcases h.cases with ⟨rfl, rfl⟩ | ⟨t, u, ts, us, rfl, rfl, h1, h2⟩
  · exact rfl
  · unfold pEscaped
    by_cases hb : t.kind = .backSlash
    · have hb' : u.kind = .backSlash := by
        rcases h1 with h1 | ⟨s, s', h1, _⟩
        · rw [← h1]; exact hb
        · rw [hb] at h1; cases h1
      simp only [hb, hb']
      rcases h2.cases with ⟨rfl, rfl⟩ | ⟨v, w, ts, us, rfl, rfl, h3, h4⟩
      · exact trivial
      · simp only
        rcases h3 with h3 | ⟨s, s', h3, h3'⟩
        · rw [← h3]
          rcases escapable v.kind with _ | e
          · exact ⟨.node .nil _ _, ⟨.inl h3, h4⟩⟩
          · exact ⟨.node (.single (.leaf (.refl _) _ _)) _ _, h4⟩
        · rw [h3, h3']
          exact ⟨.node .nil _ _, ⟨.inr ⟨s, s', h3, h3'⟩, h4⟩⟩
    · have hb' : u.kind ≠ .backSlash := by
        rcases h1 with h1 | ⟨s, s', _, h1⟩
        · rw [← h1]; exact hb
        · rw [h1]; simp
      show Res.Same OneLike (pEscaped (t :: ts)) (pEscaped (u :: us))
      rw [pEscaped_other hb, pEscaped_other hb']
      exact rfl

theorem bracketOf_like (b : Bracket) {body body' : List Token → Res (List CST × List Token)} (hb : Heedless ManyLike body body') :
    Heedless OneLike (bracketOf b body) (bracketOf b body') := by
  intro ts us h
  rcases h.cases with ⟨rfl, rfl⟩ | ⟨t, u, ts, us, rfl, rfl, h1, h2⟩
  · exact rfl
  · have hiff : ∀ {t u : Token}, t.kind.Like u.kind → ∀ k : TokKind, (∀ s, k ≠ .text s) → (t.kind = k ↔ u.kind = k) := by
      intro t u h k hk
      rcases h with h | ⟨s, s', h, h'⟩
      · rw [h]
      · rw [h, h']
        exact ⟨fun e => absurd e.symm (hk s), fun e => absurd e.symm (hk s')⟩
    unfold bracketOf
    simp only
    by_cases ho : t.kind = .bopen b
    · rw [if_pos ho, if_pos ((hiff h1 _ (by simp)).mp ho)]
      have h3 := hb ts us h2
      generalize body ts = o at *
      generalize body' us = o' at *
      rcases o with ⟨cs, r⟩ | m | _ <;> rcases o' with ⟨cs', r'⟩ | m' | _ <;> first | exact h3.elim | exact h3 | skip
      simp only
      obtain ⟨h4, h5⟩ := h3
      rcases h5.cases with ⟨h6, h7⟩ | ⟨v, w, r1, r1', h6, h7, h8, h9⟩
      · simp only at h6 h7
        subst h6 h7
        exact rfl
      · simp only at h6 h7
        subst h6 h7
        simp only
        have hres := CST.Like.foldl (CST.Like.new (.bracket b)) (CST.LikeL.cons (.leaf (.refl (.bopen b)) t.loc u.loc) h4)
        by_cases hc : v.kind = .bclose b
        · rw [if_pos hc, if_pos ((hiff h8 _ (by simp)).mp hc)]
          exact ⟨(hres.add (.leaf (.refl _) _ _)).setLoc _ _, h9⟩
        · rw [if_neg hc, if_neg (fun e => hc ((hiff h8 _ (by simp)).mpr e))]
          exact ⟨hres.setLoc _ _, ⟨h8, h9⟩⟩
    · rw [if_neg ho, if_neg (fun e => ho ((hiff h1 _ (by simp)).mpr e))]
      exact rfl

theorem pBracket_like {body body' : List Token → Res (List CST × List Token)} (hb : Heedless ManyLike body body') :
    Heedless OneLike (pBracket body) (pBracket body') := fun ts us h =>
  (bracketOf_like .angle hb ts us h).orElse <| (bracketOf_like .curly hb ts us h).orElse <|
    (bracketOf_like .square hb ts us h).orElse rfl

theorem exprItem_like {body body' : List Token → Res (List CST × List Token)} (hb : Heedless ManyLike body body') :
    Heedless OneLike (exprItem body) (exprItem body') := fun ts us h =>
  (pEscaped_like ts us h).orElse <| (leafParser_same _ (fun _ => rfl) ts us h).orElse <|
  (leafParser_same _ (fun _ => rfl) ts us h).orElse <| (pBracket_like hb ts us h).orElse <|
  (leafParser_same _ (fun _ => rfl) ts us h).orElse <| (leafParser_same _ (fun _ => rfl) ts us h).orElse <|
  (leafParser_same _ (fun _ => rfl) ts us h).orElse <| pText_like ts us h

theorem exprOf_like {items items' : List Token → Res (List CST × List Token)} (hi : Heedless ManyLike items items') :
    Heedless OneLike (exprOf items) (exprOf items') := by
  intro ts us h
  have h1 := hi ts us h
  unfold exprOf
  generalize items ts = o at *
  generalize items' us = o' at *
  rcases o with ⟨cs, r⟩ | m | _ <;> rcases o' with ⟨cs', r'⟩ | m' | _ <;> first | exact h1.elim | exact h1 | skip
  obtain ⟨h2, h3⟩ := h1
  rcases cs with _ | ⟨c, cs⟩ <;> rcases cs' with _ | ⟨c', cs'⟩ <;> simp only
  · exact rfl
  · simp [CST.LikeL] at h2
  · simp [CST.LikeL] at h2
  · exact ⟨(CST.Like.foldl (.new .expr) h2).setLoc _ _, h3⟩

theorem items_like (n : Nat) : Heedless ManyLike (exprItems n) (exprItems n) ∧ Heedless ManyLike (bodyItems n) (bodyItems n) := by
  induction n with
  | zero => exact ⟨fun _ _ _ => trivial, fun _ _ _ => trivial⟩
  | succ n ih =>
    constructor
    · intro ts us h
      rw [exprItems, exprItems]
      have h1 := exprItem_like ih.2 ts us h
      generalize exprItem (bodyItems n) ts = o at *
      generalize exprItem (bodyItems n) us = o' at *
      rcases o with ⟨c, r⟩ | m | _ <;> rcases o' with ⟨c', r'⟩ | m' | _ <;> first | exact h1.elim | skip
      · obtain ⟨h2, h3⟩ := h1
        have h4 := ih.1 r r' h3
        simp only
        generalize exprItems n r = o at *
        generalize exprItems n r' = o' at *
        rcases o with ⟨cs, r⟩ | m | _ <;> rcases o' with ⟨cs', r'⟩ | m' | _ <;> first | exact h4.elim | exact h4 | skip
        exact ⟨.cons h2 h4.1, h4.2⟩
      · exact ⟨.nil, h⟩
      · exact trivial
    · intro ts us h
      rw [bodyItems, bodyItems]
      have h1 := (exprOf_like ih.1 ts us h).orElse (f := fun _ => pNewline ts) (g := fun _ => pNewline us)
        (pNewline_like ts us h)
      generalize (exprOf (exprItems n) ts).orElse _ = o at *
      generalize (exprOf (exprItems n) us).orElse _ = o' at *
      rcases o with ⟨c, r⟩ | m | _ <;> rcases o' with ⟨c', r'⟩ | m' | _ <;> first | exact h1.elim | skip
      · obtain ⟨h2, h3⟩ := h1
        have h4 := ih.2 r r' h3
        simp only
        generalize bodyItems n r = o at *
        generalize bodyItems n r' = o' at *
        rcases o with ⟨cs, r⟩ | m | _ <;> rcases o' with ⟨cs', r'⟩ | m' | _ <;> first | exact h4.elim | exact h4 | skip
        exact ⟨.cons h2 h4.1, h4.2⟩
      · exact ⟨.nil, h⟩
      · exact trivial

theorem pExprOrClose_like : Heedless OneLike pExprOrClose pExprOrClose := fun ts us h =>
  (exprOf_like (items := pExprItems) (items' := pExprItems) (fun ts us h => by
    unfold pExprItems
    rw [h.length]
    exact (items_like _).1 ts us h) ts us h).orElse <|
  (leafParser_same _ (fun _ => rfl) ts us h).orElse rfl

theorem stmtItems_like : ∀ n : Nat, Heedless ManyLike (stmtItems n) (stmtItems n)
  | 0 => fun _ _ _ => trivial
  | n + 1 => by
    intro ts us h
    rw [stmtItems, stmtItems]
    have h1 := pNewline_like ts us h
    generalize pNewline ts = o at *
    generalize pNewline us = o' at *
    rcases o with ⟨c, r⟩ | m | _ <;> rcases o' with ⟨c', r'⟩ | m' | _ <;> first | exact h1.elim | exact ⟨.nil, h⟩ | skip
    obtain ⟨h2, h3⟩ := h1
    have h4 := pExprOrClose_like r r' h3
    simp only
    generalize pExprOrClose r = o at *
    generalize pExprOrClose r' = o' at *
    rcases o with ⟨d, r1⟩ | m | _ <;> rcases o' with ⟨d', r1'⟩ | m' | _ <;> first | exact h4.elim | skip
    · obtain ⟨h5, h6⟩ := h4
      have h7 := stmtItems_like n r1 r1' h6
      simp only
      generalize stmtItems n r1 = o at *
      generalize stmtItems n r1' = o' at *
      rcases o with ⟨cs, r⟩ | m | _ <;> rcases o' with ⟨cs', r'⟩ | m' | _ <;> first | exact h7.elim | exact h7 | skip
      exact ⟨.cons h2 (.cons h5 h7.1), h7.2⟩
    · exact ⟨.nil, h⟩
    · exact trivial

theorem pStmt_like : Heedless OneLike pStmt pStmt := by
  intro ts us h
  unfold pStmt
  have h1 := pExprOrClose_like ts us h
  generalize pExprOrClose ts = o at *
  generalize pExprOrClose us = o' at *
  rcases o with ⟨c, r⟩ | m | _ <;> rcases o' with ⟨c', r'⟩ | m' | _ <;> first | exact h1.elim | exact h1 | skip
  obtain ⟨h2, h3⟩ := h1
  have h4 := stmtItems_like (r.length + 1) r r' h3
  simp only
  simp only at h3
  rw [← h3.length]
  generalize stmtItems _ r = o at *
  generalize stmtItems _ r' = o' at *
  rcases o with ⟨cs, r1⟩ | m | _ <;> rcases o' with ⟨cs', r1'⟩ | m' | _ <;> first | exact h4.elim | exact h4 | skip
  exact ⟨.foldl (.new .stmt) (.cons h2 h4.1), h4.2⟩

theorem newlines_like : ∀ ts us : List Token, TokensLike ts us → ManyLike (newlines ts) (newlines us)
  | [], [], _ => ⟨.nil, trivial⟩
  | t :: ts, u :: us, h => by
    rw [newlines, newlines]
    have h1 := pNewline_like _ _ h
    generalize pNewline (t :: ts) = o at *
    generalize pNewline (u :: us) = o' at *
    rcases o with ⟨c, r⟩ | m | _ <;> rcases o' with ⟨c', r'⟩ | m' | _ <;> first | exact h1.elim | exact ⟨.nil, h⟩ | skip
    have h2 := newlines_like ts us h.2
    exact ⟨.cons h1.1 h2.1, h2.2⟩
  | [], _ :: _, h => h.elim
  | _ :: _, [], h => h.elim

theorem docItems_like : ∀ n : Nat, Heedless ManyLike (docItems n) (docItems n)
  | 0 => fun _ _ _ => trivial
  | n + 1 => by
    intro ts us h
    rw [docItems, docItems]
    have h1 := pStmt_like ts us h
    generalize pStmt ts = o at *
    generalize pStmt us = o' at *
    rcases o with ⟨c, r⟩ | m | _ <;> rcases o' with ⟨c', r'⟩ | m' | _ <;> first | exact h1.elim | exact ⟨.nil, h⟩ | exact trivial | skip
    obtain ⟨h2, h3⟩ := h1
    have h4 := pNewline_like r r' h3
    simp only
    generalize pNewline r = o at *
    generalize pNewline r' = o' at *
    rcases o with ⟨d, r1⟩ | m | _ <;> rcases o' with ⟨d', r1'⟩ | m' | _ <;> first | exact h4.elim | exact ⟨.nil, h⟩ | skip
    obtain ⟨h5, h6⟩ := h4
    have h7 := newlines_like r1 r1' h6
    have h8 := docItems_like n _ _ h7.2
    simp only
    generalize docItems n (newlines r1).2 = o at *
    generalize docItems n (newlines r1').2 = o' at *
    rcases o with ⟨cs, r⟩ | m | _ <;> rcases o' with ⟨cs', r'⟩ | m' | _ <;> first | exact h8.elim | exact h8 | skip
    exact ⟨.cons h2 (.cons h5 (h7.1.append h8.1)), h8.2⟩

theorem optStmt_like : Heedless ManyLike optStmt optStmt := by
  intro ts us h
  unfold optStmt
  have h1 := pStmt_like ts us h
  generalize pStmt ts = o at *
  generalize pStmt us = o' at *
  rcases o with ⟨c, r⟩ | m | _ <;> rcases o' with ⟨c', r'⟩ | m' | _ <;> first | exact h1.elim | exact ⟨.nil, h⟩ | exact trivial | skip
  exact ⟨.single h1.1, h1.2⟩

theorem parse_like : Heedless CST.Like parse parse := by
  intro ts us h
  unfold parse
  rw [h.length]
  have h1 := docItems_like (us.length + 1) ts us h
  generalize docItems _ ts = o at *
  generalize docItems _ us = o' at *
  rcases o with ⟨cs, r⟩ | m | _ <;> rcases o' with ⟨cs', r'⟩ | m' | _ <;> first | exact h1.elim | exact h1 | skip
  obtain ⟨h2, h3⟩ := h1
  have h4 := optStmt_like r r' h3
  simp only
  generalize optStmt r = o at *
  generalize optStmt r' = o' at *
  rcases o with ⟨ds, r1⟩ | m | _ <;> rcases o' with ⟨ds', r1'⟩ | m' | _ <;> first | exact h4.elim | exact h4 | skip
  obtain ⟨h5, h6⟩ := h4
  have h7 := newlines_like r1 r1' h6
  have h8 := pEof_like _ _ h7.2
  simp only
  generalize pEof (newlines r1).2 = o at *
  generalize pEof (newlines r1').2 = o' at *
  rcases o with ⟨e, r2⟩ | m | _ <;> rcases o' with ⟨e', r2'⟩ | m' | _ <;> first | exact h8.elim | exact h8 | skip
  exact CST.Like.foldl (.new .document) (((h2.append h5).append h7.1).append (.single h8.1))

/-! ### Transforming -/

/-- The same kinds of errors. -/
def ErrsLike (es es' : List TErr) : Prop := es.map TErr.kind = es'.map TErr.kind

theorem ErrsLike.append {a a' b b' : List TErr} (h : ErrsLike a a') (h' : ErrsLike b b') : ErrsLike (a ++ b) (a' ++ b') := by
  unfold ErrsLike at *
  rw [List.map_append, List.map_append, h, h']

theorem ErrsLike.one (k : TErrKind) (l l' : Loc) : ErrsLike [⟨k, l⟩] [⟨k, l'⟩] := rfl

/-- A question about trees that does not ask for texts. -/
def Textless (f : CST → Bool) : Prop := ∀ c c' : CST, c.Like c' → f c = f c'

/-- Questions about the kind of a tree. -/
theorem textless {f : CST → Bool} (h1 : ∀ k l l', f (.leaf k l) = f (.leaf k l'))
    (h2 : ∀ s s' l l', f (.leaf (.text s) l) = f (.leaf (.text s') l'))
    (h3 : ∀ k cs cs' l l', f (.node k cs l) = f (.node k cs' l')) : Textless f := by
  intro c c' h
  rcases h.cases with ⟨k, k', l, l', rfl, rfl, hk⟩ | ⟨k, cs, cs', l, l', rfl, rfl, hk⟩
  · rcases hk with rfl | ⟨s, s', rfl, rfl⟩
    · exact h1 _ _ _
    · exact h2 _ _ _ _
  · exact h3 _ _ _ _ _

theorem isModuleOrAngle_textless : Textless CST.isModuleOrAngle :=
  textless (fun k _ _ => by cases k <;> rfl) (fun _ _ _ _ => rfl) (fun k _ _ _ _ => by
    rcases k with _ | _ | _ | (_ | _ | _) | _ <;> rfl)

theorem isDot_textless : Textless CST.isDot :=
  textless (fun k _ _ => by cases k <;> rfl) (fun _ _ _ _ => rfl) (fun k _ _ _ _ => rfl)

theorem isIdentOrAngle_textless : Textless CST.isIdentOrAngle :=
  textless (fun k _ _ => by cases k <;> rfl) (fun _ _ _ _ => rfl) (fun k _ _ _ _ => by
    rcases k with _ | _ | _ | (_ | _ | _) | _ <;> rfl)

theorem notInAst_textless : Textless CST.notInAst :=
  textless (fun k _ _ => by cases k <;> rfl) (fun _ _ _ _ => rfl) (fun k _ _ _ _ => rfl)

theorem isBlank_textless : Textless CST.isBlank :=
  textless (fun k _ _ => by cases k <;> rfl) (fun _ _ _ _ => rfl) (fun k _ _ _ _ => rfl)

theorem CST.LikeL.filter {f : CST → Bool} (hf : Textless f) : ∀ {cs cs' : List CST}, CST.LikeL cs cs' →
    CST.LikeL (cs.filter f) (cs'.filter f)
  | [], [], _ => .nil
  | c :: cs, c' :: cs', h => by
    simp only [CST.LikeL] at h
    rw [List.filter_cons, List.filter_cons, hf c c' h.1]
    have ih := CST.LikeL.filter hf h.2
    by_cases hc : f c' = true
    · rw [if_pos hc, if_pos hc]
      exact .cons h.1 ih
    · rw [if_neg hc, if_neg hc]
      exact ih
  | [], _ :: _, h => by simp [CST.LikeL] at h
  | _ :: _, [], h => by simp [CST.LikeL] at h

theorem CST.LikeL.get : ∀ {cs cs' : List CST}, CST.LikeL cs cs' → ∀ i : Nat,
    (cs[i]? = none ∧ cs'[i]? = none) ∨ ∃ c c', cs[i]? = some c ∧ cs'[i]? = some c' ∧ c.Like c'
  | [], [], _, _ => .inl ⟨rfl, rfl⟩
  | c :: cs, c' :: cs', h, 0 => by
    simp only [CST.LikeL] at h
    exact .inr ⟨c, c', rfl, rfl, h.1⟩
  | c :: cs, c' :: cs', h, i + 1 => by
    simp only [CST.LikeL] at h
    exact h.2.get i
  | [], _ :: _, h, _ => by simp [CST.LikeL] at h
  | _ :: _, [], h, _ => by simp [CST.LikeL] at h

theorem CST.LikeL.length : ∀ {cs cs' : List CST}, CST.LikeL cs cs' → cs.length = cs'.length
  | [], [], _ => rfl
  | c :: cs, c' :: cs', h => by
    simp only [CST.LikeL] at h
    simp [h.2.length]
  | [], _ :: _, h => by simp [CST.LikeL] at h
  | _ :: _, [], h => by simp [CST.LikeL] at h

theorem CST.LikeL.drop {cs cs' : List CST} (h : CST.LikeL cs cs') : ∀ n, CST.LikeL (cs.drop n) (cs'.drop n)
  | 0 => h
  | n + 1 => by
    rcases h.cases with ⟨rfl, rfl⟩ | ⟨c, c', ds, ds', rfl, rfl, _, h2⟩
    · exact .nil
    · exact h2.drop n

theorem checkAt_like (i : Nat) {good : CST → Bool} (hg : Textless good) (kind : TErrKind) {cs cs' : List CST}
    (h : CST.LikeL cs cs') : ErrsLike (checkAt i good kind cs) (checkAt i good kind cs') := by
  unfold checkAt
  rcases h.get i with ⟨h1, h2⟩ | ⟨c, c', h1, h2, h3⟩
  · rw [h1, h2]
    exact rfl
  · rw [h1, h2]
    simp only
    rw [hg c c' h3]
    by_cases hc : good c' = true
    · rw [if_pos hc, if_pos hc]
      exact rfl
    · rw [if_neg hc, if_neg hc]
      exact rfl

theorem checkEnds_like (b : Bracket) {cs cs' : List CST} (h : CST.LikeL cs cs') :
    Res.Same ErrsLike (checkEnds b cs) (checkEnds b cs') := by
  unfold checkEnds
  rw [List.head?_eq_getElem?, List.head?_eq_getElem?, List.getLast?_eq_getElem?, List.getLast?_eq_getElem?, h.length]
  rcases h.get 0 with ⟨h1, h2⟩ | ⟨c, c', h1, h2, h3⟩
  · rw [h1, h2]
    exact trivial
  · rw [h1, h2]
    rcases h.get (cs'.length - 1) with ⟨h4, h5⟩ | ⟨d, d', h4, h5, h6⟩
    · rw [h4, h5]
      rcases c with ⟨_ | _ | _ | _ | _ | _ | _ | _ | _ | _ | _, _⟩ | _ <;>
        rcases c' with ⟨_ | _ | _ | _ | _ | _ | _ | _ | _ | _ | _, _⟩ | _ <;> exact trivial
    · rw [h4, h5]
      rcases h3.cases with ⟨k, k', l, l', rfl, rfl, hk⟩ | ⟨k, _, _, l, l', rfl, rfl, hk⟩
      · rcases hk with rfl | ⟨s, s', rfl, rfl⟩
        · rcases h6.cases with ⟨j, j', l1, l1', rfl, rfl, hj⟩ | ⟨j, _, _, l1, l1', rfl, rfl, hj⟩
          · rcases hj with rfl | ⟨s, s', rfl, rfl⟩
            · rcases k with b1 | _ | _ | _ | _ | _ | _ | _ | _ | _ | _ <;>
                rcases j with _ | b2 | _ | _ | _ | _ | _ | _ | _ | _ | _ <;> simp only <;> first
                | exact trivial
                | (by_cases h7 : b1 = b <;> simp [h7, Res.Same, ErrsLike]; done)
                | (by_cases h7 : b1 = b <;> by_cases h8 : b2 = b <;> simp [h7, h8, Res.Same, ErrsLike])
            · rcases k with b1 | _ | _ | _ | _ | _ | _ | _ | _ | _ | _ <;> simp only <;> first
                | exact trivial
                | (by_cases h7 : b1 = b <;> simp [h7, Res.Same, ErrsLike])
          · rcases k with b1 | _ | _ | _ | _ | _ | _ | _ | _ | _ | _ <;> simp only <;> first
              | exact trivial
              | (by_cases h7 : b1 = b <;> simp [h7, Res.Same, ErrsLike])
        · exact trivial
      · exact trivial

theorem CST.Like.children {c c' : CST} (h : c.Like c') : CST.LikeL c.children c'.children := by
  rcases h.cases with ⟨k, k', l, l', rfl, rfl, hk⟩ | ⟨k, cs, cs', l, l', rfl, rfl, hk⟩
  · exact .nil
  · exact hk

theorem argLoop_like : ∀ {cs cs' : List CST}, CST.LikeL cs cs' → ∀ {p p' e e' : CST} (comma : Bool), e.Like e' →
    CST.LikeL (argLoop p e comma cs).1 (argLoop p' e' comma cs').1 ∧
      ErrsLike (argLoop p e comma cs).2 (argLoop p' e' comma cs').2
  | [], [], _, p, p', e, e', comma, he => by
    rw [argLoop, argLoop]
    have : e.children.isEmpty = e'.children.isEmpty := by
      rcases he.children.cases with ⟨h1, h2⟩ | ⟨_, _, _, _, h1, h2, _⟩ <;> rw [h1, h2] <;> rfl
    rw [this]
    by_cases hc : e'.children.isEmpty = true
    · simp only [if_pos hc]
      exact ⟨.nil, rfl⟩
    · simp only [if_neg hc]
      exact ⟨.single he, rfl⟩
  | c :: cs, c' :: cs', h, p, p', e, e', comma, he => by
    simp only [CST.LikeL] at h
    obtain ⟨h1, h2⟩ := h
    have hem : e.children.isEmpty = e'.children.isEmpty := by
      rcases he.children.cases with ⟨h1, h2⟩ | ⟨_, _, _, _, h1, h2, _⟩ <;> rw [h1, h2] <;> rfl
    have hother : CST.LikeL (argLoop c (e.add c) false cs).1 (argLoop c' (e'.add c') false cs').1 ∧
      ErrsLike (argLoop c (e.add c) false cs).2 (argLoop c' (e'.add c') false cs').2 := argLoop_like h2 false (he.add h1)
    rcases h1.cases with ⟨k, k', l, l', rfl, rfl, hk⟩ | ⟨k, ds, ds', l, l', rfl, rfl, hk⟩
    · rcases hk with rfl | ⟨s, s', rfl, rfl⟩
      · rcases k with b | b | s | s | s | _ | _ | _ | _ | _ | _
        case comma =>
          rw [argLoop.eq_def, argLoop.eq_def p']
          simp only
          rw [hem]
          by_cases hc : e'.children.isEmpty = true
          · rw [if_pos hc, if_pos hc]
            have ih := argLoop_like h2 (p := .leaf .comma l) (p' := .leaf .comma l') comma he
            exact ⟨ih.1, by unfold ErrsLike at *; simpa using ih.2⟩
          · rw [if_neg hc, if_neg hc]
            have ih := argLoop_like h2 (p := .leaf .comma l) (p' := .leaf .comma l') true (CST.Like.new .expr)
            exact ⟨.cons he ih.1, ih.2⟩
        case bclose =>
          rw [argLoop.eq_def, argLoop.eq_def p']
          simp only
          rw [hem]
          by_cases hc : (!e'.children.isEmpty) = true
          · rw [if_pos hc, if_pos hc]
            exact ⟨.cons he (.single h1), rfl⟩
          · rw [if_neg hc, if_neg hc]
            by_cases hm : comma = true
            · rw [if_pos hm, if_pos hm]
              exact ⟨.single h1, rfl⟩
            · rw [if_neg hm, if_neg hm]
              exact ⟨.single h1, rfl⟩
        case dot =>
          rw [argLoop.eq_def, argLoop.eq_def p']
          simp only
          have ih := argLoop_like h2 (p := .leaf .dot l) (p' := .leaf .dot l') comma he
          exact ⟨ih.1, by unfold ErrsLike at *; simpa using ih.2⟩
        all_goals
          rw [argLoop.eq_def, argLoop.eq_def p']
          exact hother
      · rw [argLoop.eq_def, argLoop.eq_def p']
        exact hother
    · rw [argLoop.eq_def, argLoop.eq_def p']
      exact hother
  | [], _ :: _, h, _, _, _, _, _, _ => by simp [CST.LikeL] at h
  | _ :: _, [], h, _, _, _, _, _, _ => by simp [CST.LikeL] at h

theorem checkValidArguments_like {cs cs' : List CST} (h : CST.LikeL cs cs') :
    CST.LikeL (checkValidArguments cs).1 (checkValidArguments cs').1 ∧
      ErrsLike (checkValidArguments cs).2 (checkValidArguments cs').2 := by
  rcases cs with _ | ⟨c0, _ | ⟨c1, _ | ⟨c2, _ | ⟨c3, r⟩⟩⟩⟩ <;>
    rcases cs' with _ | ⟨d0, _ | ⟨d1, _ | ⟨d2, _ | ⟨d3, r'⟩⟩⟩⟩ <;> simp only [CST.LikeL, and_false] at h <;>
    first | exact h.elim | skip
  · exact ⟨.nil, rfl⟩
  · exact ⟨.single h.1, rfl⟩
  · exact ⟨.cons h.1 (.single h.2.1), rfl⟩
  · exact ⟨.cons h.1 (.cons h.2.1 (.single h.2.2.1)), rfl⟩
  · have ih := argLoop_like h.2.2.2.2 (p := c3) (p' := d3) false (CST.Like.new .expr)
    exact ⟨.cons h.1 (.cons h.2.1 (.cons h.2.2.1 (.cons h.2.2.2.1 ih.1))), ih.2⟩

theorem checkUnexpectedDot_like {cs cs' : List CST} (h : CST.LikeL cs cs') :
    ErrsLike (checkUnexpectedDot cs) (checkUnexpectedDot cs') := by
  unfold checkUnexpectedDot ErrsLike
  have h1 := ((h.drop 3).filter isDot_textless).length
  rw [List.map_map, List.map_map]
  generalize List.filter CST.isDot (cs.drop 3) = a at *
  generalize List.filter CST.isDot (cs'.drop 3) = b at *
  have : ∀ x : List CST, x.map (TErr.kind ∘ fun c => ⟨.unexpectedDot, c.loc⟩) = List.replicate x.length .unexpectedDot := by
    intro x
    induction x with
    | nil => rfl
    | cons c x ih => simp only [List.map_cons, ih, List.length_cons, List.replicate_succ, Function.comp]
  rw [this, this, h1]

/-- A tree and errors. -/
def TreeLike (x y : CST × List TErr) : Prop := x.1.Like y.1 ∧ ErrsLike x.2 y.2

theorem finishBracket_like (b : Bracket) (l l' : Loc) {cs cs' : List CST} (h : CST.LikeL cs cs') {es es' : List TErr}
    (he : ErrsLike es es') : Res.Same TreeLike (finishBracket b l cs es) (finishBracket b l' cs' es') := by
  unfold finishBracket
  have h1 := checkEnds_like b h
  generalize checkEnds b cs = o at *
  generalize checkEnds b cs' = o' at *
  rcases o with fs | m | _ <;> rcases o' with fs' | m' | _ <;> first | exact h1.elim | exact h1 | skip
  have h2 := checkValidArguments_like (h.filter (f := fun c => !c.isBlank) fun c c' hc => by
    simp only; rw [isBlank_textless c c' hc])
  exact ⟨.node (h2.1.filter (f := fun c => !c.notInAst) fun c c' hc => by simp only; rw [notInAst_textless c c' hc]) _ _,
    (((((he.append h1).append (checkAt_like _ isModuleOrAngle_textless _ h)).append
      (checkAt_like _ isDot_textless _ h)).append (checkAt_like _ isIdentOrAngle_textless _ h)).append
      (checkUnexpectedDot_like h)).append h2.2⟩

theorem spliceExpr_like : ∀ {cs cs' : List CST}, CST.LikeL cs cs' → CST.LikeL (cs.flatMap spliceExpr) (cs'.flatMap spliceExpr)
  | [], [], _ => .nil
  | c :: cs, c' :: cs', h => by
    simp only [CST.LikeL] at h
    rw [List.flatMap_cons, List.flatMap_cons]
    refine CST.LikeL.append ?_ (spliceExpr_like h.2)
    have h1 := h.1
    rcases h1.cases with ⟨k, k', l, l', rfl, rfl, hk⟩ | ⟨k, ds, ds', l, l', rfl, rfl, hk⟩
    · exact .single h1
    · rcases k with _ | _ | _ | _ | _ <;> first | exact hk | exact .single h1
  | [], _ :: _, h => by simp [CST.LikeL] at h
  | _ :: _, [], h => by simp [CST.LikeL] at h

theorem finishNode_like (k : IKind) (l l' : Loc) {cs cs' : List CST} (h : CST.LikeL cs cs') {es es' : List TErr}
    (he : ErrsLike es es') : Res.Same TreeLike (finishNode k l cs es) (finishNode k l' cs' es') := by
  have hf := h.filter (f := fun c => !c.notInAst) fun c c' hc => by simp only; rw [notInAst_textless c c' hc]
  rcases k with _ | _ | _ | b | _
  · exact ⟨.node hf _ _, he⟩
  · exact ⟨.node hf _ _, he⟩
  · exact ⟨.node h _ _, he⟩
  · exact finishBracket_like b l l' (spliceExpr_like h) he
  · exact trivial

mutual

theorem simplify_like : ∀ c c' : CST, c.Like c' → Res.Same TreeLike (simplify c) (simplify c')
  | .leaf k l, .leaf k' l', h => by
    rw [simplify, simplify]
    exact ⟨h, rfl⟩
  | .node k cs l, .node k' cs' l', h => by
    simp only [CST.Like] at h
    obtain ⟨rfl, h⟩ := h
    have ih := simplifyL_like cs cs' h
    by_cases hk : k = .backSlash
    · subst hk
      rcases h.cases with ⟨rfl, rfl⟩ | ⟨c, c', ds, ds', rfl, rfl, h1, _⟩
      · rw [simplify, simplify]
        exact ⟨.leaf (.refl _) _ _, rfl⟩
      · rw [simplify, simplify]
        exact ⟨h1, rfl⟩
    · have hs : ∀ cs l, simplify (.node k cs l) = (match simplifyL cs with
          | .ok (ds, es) => finishNode k l ds es
          | .err m => .err m
          | .panic => .panic) := by
        intro cs l
        rw [simplify.eq_def]
        cases k <;> first | rfl | exact absurd rfl hk
      rw [hs, hs]
      generalize simplifyL cs = o at *
      generalize simplifyL cs' = o' at *
      rcases o with ⟨ds, es⟩ | m | _ <;> rcases o' with ⟨ds', es'⟩ | m' | _ <;> first | exact ih.elim | exact ih | skip
      exact finishNode_like k l l' ih.1 ih.2
  | .leaf _ _, .node _ _ _, h => by simp [CST.Like] at h
  | .node _ _ _, .leaf _ _, h => by simp [CST.Like] at h

theorem simplifyL_like : ∀ cs cs' : List CST, CST.LikeL cs cs' →
    Res.Same (fun (x y : List CST × List TErr) => CST.LikeL x.1 y.1 ∧ ErrsLike x.2 y.2) (simplifyL cs) (simplifyL cs')
  | [], [], _ => by
    rw [simplifyL]
    exact ⟨.nil, rfl⟩
  | c :: cs, c' :: cs', h => by
    simp only [CST.LikeL] at h
    have h1 := simplify_like c c' h.1
    have h2 := simplifyL_like cs cs' h.2
    rw [simplifyL, simplifyL]
    generalize simplify c = o at *
    generalize simplify c' = o' at *
    rcases o with ⟨d, es⟩ | m | _ <;> rcases o' with ⟨d', es'⟩ | m' | _ <;> first | exact h1.elim | exact h1 | skip
    generalize simplifyL cs = z at *
    generalize simplifyL cs' = z' at *
    rcases z with ⟨ds, fs⟩ | m | _ <;> rcases z' with ⟨ds', fs'⟩ | m' | _ <;> first | exact h2.elim | exact h2 | skip
    exact ⟨.cons h1.1 h2.1, h1.2.append h2.2⟩
  | [], _ :: _, h => by simp [CST.LikeL] at h
  | _ :: _, [], h => by simp [CST.LikeL] at h

end

mutual

/-- The same tree but for texts, identifiers and positions. -/
def AST.Like : AST → AST → Prop
  | .leaf k _ v _, .leaf k' _ v' _ => k = k' ∧ ((v = v') ∨ (k = .text ∧ ∃ s s', v = some s ∧ v' = some s'))
  | .node k _ cs _, .node k' _ cs' _ => k = k' ∧ AST.LikeL cs cs'
  | _, _ => False

/-- The same trees but for texts, identifiers and positions. -/
def AST.LikeL : List AST → List AST → Prop
  | [], [] => True
  | c :: cs, d :: ds => c.Like d ∧ AST.LikeL cs ds
  | _, _ => False

end

mutual

theorem aux_like (ids ids' : Nat → Str) (n n' : Nat) : ∀ c c' : CST, c.Like c' →
    Res.Same (fun (x y : AST × Nat) => x.1.Like y.1) (aux ids n c) (aux ids' n' c')
  | .leaf k l, .leaf k' l', h => by
    simp only [CST.Like] at h
    rcases h with rfl | ⟨s, s', rfl, rfl⟩
    · cases k <;> rw [aux.eq_def, aux.eq_def ids'] <;> simp [Res.Same, AST.Like]
    · rw [aux.eq_def, aux.eq_def ids']
      simp [Res.Same, AST.Like]
  | .node k cs l, .node k' cs' l', h => by
    simp only [CST.Like] at h
    obtain ⟨rfl, h⟩ := h
    have ih := auxL_like ids ids' n n' cs cs' h
    rw [aux, aux]
    rcases k.toAst with _ | k'
    · exact trivial
    · simp only
      generalize auxL ids n cs = o at *
      generalize auxL ids' n' cs' = o' at *
      rcases o with ⟨as, m⟩ | m | _ <;> rcases o' with ⟨as', m'⟩ | m' | _ <;> first | exact ih.elim | exact ih | skip
      simp only [Res.Same, AST.Like] at ih ⊢
      exact ⟨trivial, ih⟩
  | .leaf _ _, .node _ _ _, h => by simp [CST.Like] at h
  | .node _ _ _, .leaf _ _, h => by simp [CST.Like] at h

theorem auxL_like (ids ids' : Nat → Str) (n n' : Nat) : ∀ cs cs' : List CST, CST.LikeL cs cs' →
    Res.Same (fun (x y : List AST × Nat) => AST.LikeL x.1 y.1) (auxL ids n cs) (auxL ids' n' cs')
  | [], [], _ => by
    rw [auxL, auxL]
    simp [Res.Same, AST.LikeL]
  | c :: cs, c' :: cs', h => by
    simp only [CST.LikeL] at h
    have h1 := aux_like ids ids' n n' c c' h.1
    rw [auxL, auxL]
    generalize aux ids n c = o at *
    generalize aux ids' n' c' = o' at *
    rcases o with ⟨a, m⟩ | m | _ <;> rcases o' with ⟨a', m'⟩ | m' | _ <;> first | exact h1.elim | exact h1 | skip
    have h2 := auxL_like ids ids' m m' cs cs' h.2
    simp only
    generalize auxL ids m cs = z at *
    generalize auxL ids' m' cs' = z' at *
    rcases z with ⟨as, k⟩ | m | _ <;> rcases z' with ⟨as', k'⟩ | m' | _ <;> first | exact h2.elim | exact h2 | skip
    simp only [Res.Same, AST.LikeL] at h1 h2 ⊢
    exact ⟨h1, h2⟩
  | [], _ :: _, h => by simp [CST.LikeL] at h
  | _ :: _, [], h => by simp [CST.LikeL] at h

end

theorem transform_like (ids ids' : Nat → Str) {c c' : CST} (h : c.Like c') :
    Res.Same (fun (x y : AST × List TErr) => x.1.Like y.1 ∧ ErrsLike x.2 y.2) (transform ids c) (transform ids' c') := by
  unfold transform
  have h1 := simplify_like c c' h
  generalize simplify c = o at *
  generalize simplify c' = o' at *
  rcases o with ⟨d, es⟩ | m | _ <;> rcases o' with ⟨d', es'⟩ | m' | _ <;> first | exact h1.elim | exact h1 | skip
  have h2 := aux_like ids ids' 0 0 d d' h1.1
  simp only
  generalize aux ids 0 d = z at *
  generalize aux ids' 0 d' = z' at *
  rcases z with ⟨a, k⟩ | m | _ <;> rcases z' with ⟨a', k'⟩ | m' | _ <;> first | exact h2.elim | exact h2 | skip
  exact ⟨h2, h1.2⟩

mutual

theorem AST.Like.shape : ∀ {a a' : AST}, a.Like a' → a.shape.wordless = a'.shape.wordless
  | .leaf k _ v _, .leaf k' _ v' _, h => by
    simp only [AST.Like] at h
    obtain ⟨rfl, rfl | ⟨rfl, s, s', rfl, rfl⟩⟩ := h
    · rfl
    · simp only [AST.shape, Shape.wordless]
  | .node k _ cs _, .node k' _ cs' _, h => by
    simp only [AST.Like] at h
    obtain ⟨rfl, h⟩ := h
    simp only [AST.shape, Shape.wordless, h.shapeL]
  | .leaf _ _ _ _, .node _ _ _ _, h => by simp [AST.Like] at h
  | .node _ _ _ _, .leaf _ _ _ _, h => by simp [AST.Like] at h

theorem AST.LikeL.shapeL : ∀ {cs cs' : List AST}, AST.LikeL cs cs' →
    Shape.wordlessL (AST.shapeL cs) = Shape.wordlessL (AST.shapeL cs')
  | [], [], _ => rfl
  | c :: cs, c' :: cs', h => by
    simp only [AST.LikeL] at h
    simp only [AST.shapeL, Shape.wordlessL, h.1.shape, h.2.shapeL]
  | [], _ :: _, h => by simp [AST.LikeL] at h
  | _ :: _, [], h => by simp [AST.LikeL] at h

end

end Brack
