import Verif.Proof.ParserBig
import Verif.Spec.Grammar

/-
Helper lemmas: the fuel is enough, the parser does not panic, big-step description of statements and
documents.
-/

namespace Brack

/-- The last token is a backslash. -/
def EndsBS (ts : List Token) : Prop := ∃ p t, ts = p ++ [t] ∧ t.kind = .backSlash

def Safe (ts : List Token) : Prop := HasEof ts ∨ ¬ EndsBS ts

theorem EndsBS.of_suffix {r ts : List Token} (h : r <:+ ts) (hr : EndsBS r) : EndsBS ts := by
  obtain ⟨p, rfl⟩ := h
  obtain ⟨q, t, rfl, ht⟩ := hr
  exact ⟨p ++ q, t, by simp, ht⟩

mutual

theorem EI.isSuffix : ∀ {ts cs r}, EI ts cs r → r <:+ ts
  | _, _, _, .stop _ => List.suffix_rfl
  | _, _, _, .leaf _ h => h.isSuffix.trans (List.suffix_cons _ _)
  | _, _, _, .esc _ _ h => h.isSuffix.trans ((List.suffix_cons _ _).trans (List.suffix_cons _ _))
  | _, _, _, .escN _ _ h => h.isSuffix.trans (List.suffix_cons _ _)
  | _, _, _, .bclosed _ hb _ h =>
    h.isSuffix.trans ((List.suffix_cons _ _).trans (hb.isSuffix.trans (List.suffix_cons _ _)))
  | _, _, _, .bunclosed _ hb _ h => h.isSuffix.trans (hb.isSuffix.trans (List.suffix_cons _ _))

theorem BI.isSuffix : ∀ {ts cs r}, BI ts cs r → r <:+ ts
  | _, _, _, .stop _ _ => List.suffix_rfl
  | _, _, _, .expr he hb => hb.isSuffix.trans he.isSuffix
  | _, _, _, .newline _ h => h.isSuffix.trans (List.suffix_cons _ _)

end

theorem Safe.tail {t : Token} {ts} (h : Safe (t :: ts)) (ht : t.kind ≠ .eof) : Safe ts := by
  rcases h with h | h
  · exact .inl (h.tail ht)
  · exact .inr fun h' => h (h'.of_suffix (List.suffix_cons _ _))

theorem Safe.ei {ts cs r} (h : EI ts cs r) (hs : Safe ts) : Safe r := by
  rcases hs with hs | hs
  · exact .inl (h.suffix.1.mp hs)
  · exact .inr fun h' => hs (h'.of_suffix h.isSuffix)

theorem Safe.bi {ts cs r} (h : BI ts cs r) (hs : Safe ts) : Safe r := by
  rcases hs with hs | hs
  · exact .inl (h.suffix.1.mp hs)
  · exact .inr fun h' => hs (h'.of_suffix h.isSuffix)

/-- With enough fuel neither loop panics, unless the very last token is a backslash and there is no
EOF. -/
theorem items_total (n : Nat) :
    (∀ ts, 2 * ts.length + 1 ≤ n → Safe ts → exprItems n ts ≠ .panic) ∧
    (∀ ts, 2 * ts.length + 2 ≤ n → Safe ts → bodyItems n ts ≠ .panic) := by
  induction n with
  | zero => exact ⟨fun _ h => by omega, fun _ h => by omega⟩
  | succ n ih =>
    obtain ⟨ihE, ihB⟩ := ih
    obtain ⟨soE, soB⟩ := items_sound n
    have next : ∀ (c : CST) ts', exprItems n ts' ≠ .panic → (match exprItems n ts' with
        | .ok (cs, r) => Res.ok (c :: cs, r)
        | .err m => .err m
        | .panic => .panic : Res (List CST × List Token)) ≠ .panic := by
      intro c ts' h
      rcases hx : exprItems n ts' with ⟨cs, r⟩ | m | _ <;> simp_all
    have nextB : ∀ (c : CST) ts', bodyItems n ts' ≠ .panic → (match bodyItems n ts' with
        | .ok (cs, r) => Res.ok (c :: cs, r)
        | .err m => .err m
        | .panic => .panic : Res (List CST × List Token)) ≠ .panic := by
      intro c ts' h
      rcases hx : bodyItems n ts' with ⟨cs, r⟩ | m | _ <;> simp_all
    constructor
    · intro ts hn hs
      simp only [exprItems]
      rcases ts with _ | ⟨t, ts⟩
      · obtain ⟨m, hm⟩ := exprItem_nil (bodyItems n)
        rw [hm]; simp
      · simp only [List.length_cons] at hn
        rcases kind_cases t.kind with ⟨l, hl⟩ | hb | ⟨b, hb⟩ | hst
        · rw [exprItem_leaf _ hl]
          exact next _ _ (ihE _ (by omega) (hs.tail (exprLeaf_ne_eof hl)))
        · rcases ts with _ | ⟨u, us⟩
          · exfalso
            rcases hs with ⟨v, hv, hk⟩ | hs
            · simp only [List.mem_singleton] at hv
              subst hv; simp [hb] at hk
            · exact hs ⟨[], t, rfl, hb⟩
          · have hs' := hs.tail (by simp [hb])
            simp only [List.length_cons] at hn
            rcases hv : escapable u.kind with _ | v
            · rw [exprItem_escN _ hb hv]
              exact next _ _ (ihE _ (by simp; omega) hs')
            · rw [exprItem_esc _ hb hv]
              exact next _ _ (ihE _ (by omega) (hs'.tail (escapable_ne_eof hv)))
        · rw [exprItem_open _ hb, bracketOf_eq _ _ hb]
          have hs' := hs.tail (by simp [hb])
          have hnp := ihB ts (by omega) hs'
          rcases hx : bodyItems n ts with ⟨cs, _ | ⟨u, us⟩⟩ | m | _
          · simp
          · have hBI := (soB ts).2 _ _ hx
            have hlen := hBI.suffix.2
            simp only [List.length_cons] at hlen
            have hs'' := Safe.bi hBI hs'
            simp only []
            refine next _ _ ?_
            by_cases hu : u.kind = .bclose b
            · rw [if_pos hu]
              exact ihE _ (by omega) (hs''.tail (by simp [hu]))
            · rw [if_neg hu]
              exact ihE _ (by simp; omega) hs''
          · simp
          · exact absurd hx hnp
        · obtain ⟨m, hm⟩ := exprItem_stop (bodyItems n) (ts := ts) hst
          rw [hm]; simp
    · intro ts hn hs
      simp only [bodyItems, exprOf_eq]
      have hnp := ihE ts (by omega) hs
      rcases hx : exprItems n ts with ⟨_ | ⟨c, cs⟩, r⟩ | m | _
      · simp only [Res.orElse]
        rcases ts with _ | ⟨t, ts⟩
        · obtain ⟨m, hm⟩ := pNewline_nil
          rw [hm]; simp
        · by_cases ht : t.kind = .newLine
          · rw [pNewline_yes ht]
            simp only [List.length_cons] at hn
            exact nextB _ _ (ihB _ (by omega) (hs.tail (by simp [ht])))
          · obtain ⟨m, hm⟩ := pNewline_no (ts := ts) ht
            rw [hm]; simp
      · have hEI := (soE ts).2 _ _ hx
        have hlen := hEI.suffix.2.2 (by simp)
        simp only [Res.orElse]
        exact nextB _ _ (ihB _ (by omega) (Safe.ei hEI hs))
      · exact absurd hx ((soE ts).1 m)
      · exact absurd hx hnp

/-- The loop of `expr::parse` always stops normally on safe lists. -/
theorem pExprItems_ok {ts} (hs : Safe ts) : ∃ cs r, pExprItems ts = .ok (cs, r) ∧ EI ts cs r := by
  have h1 := (items_total (2 * ts.length + 1)).1 ts (Nat.le_refl _) hs
  have h2 := (items_sound (2 * ts.length + 1)).1 ts
  unfold pExprItems
  rcases hx : exprItems (2 * ts.length + 1) ts with ⟨cs, r⟩ | m | _
  · exact ⟨cs, r, rfl, h2.2 _ _ hx⟩
  · exact absurd hx (h2.1 m)
  · exact absurd hx h1

/-- A line outside brackets: an expression or a closing bracket. -/
inductive LI : List Token → CST → List Token → Prop
  | expr {ts c cs r} : EI ts (c :: cs) r → LI ts (exprNode c cs) r
  | close {t ts b} : t.kind = .bclose b → LI (t :: ts) (.leaf (.bclose b) t.loc) ts

/-- Nothing a line can start with (for lists with EOF). -/
def NoLine (ts : List Token) : Prop :=
  HasEof ts → ∀ t ∈ ts.head?, t.kind = .newLine ∨ t.kind = .eof ∨ t.kind = .empty

theorem LI.isSuffix {ts c r} (h : LI ts c r) : r <:+ ts := by
  cases h with
  | expr h => exact h.isSuffix
  | close => exact List.suffix_cons _ _

theorem LI.hasEof {ts c r} (h : LI ts c r) : HasEof ts ↔ HasEof r := by
  cases h with
  | expr h => exact h.suffix.1
  | close ht => exact ⟨fun h => h.tail (by simp [ht]), .cons⟩

theorem LI.length {ts c r} (h : LI ts c r) : r.length < ts.length := by
  cases h with
  | expr h => exact h.suffix.2.2 (by simp)
  | close => simp

theorem Safe.li {ts c r} (h : LI ts c r) (hs : Safe ts) : Safe r := by
  rcases hs with hs | hs
  · exact .inl (h.hasEof.mp hs)
  · exact .inr fun h' => hs (h'.of_suffix h.isSuffix)

theorem pExprOrClose_spec {ts} (hs : Safe ts) :
    (∃ c r, pExprOrClose ts = .ok (c, r) ∧ LI ts c r) ∨
    (∃ m, pExprOrClose ts = .err m ∧ NoLine ts) := by
  obtain ⟨cs, r, h1, h2⟩ := pExprItems_ok hs
  simp only [pExprOrClose, pExpr, exprOf_eq, h1]
  rcases cs with _ | ⟨c, cs⟩
  · have hst : StopAt ts := by cases h2; assumption
    simp only [Res.orElse]
    rcases ts with _ | ⟨t, ts⟩
    · refine .inr ⟨_, rfl, fun h => absurd h not_hasEof_nil⟩
    · obtain ⟨k, l⟩ := t
      cases k
      case bclose b => exact .inl ⟨_, _, rfl, .close rfl⟩
      all_goals
        refine .inr ⟨_, rfl, fun he => ?_⟩
        have := hst _ rfl
        simp_all [itemStop]
  · exact .inl ⟨_, _, rfl, .expr h2⟩

/-- The rest of a statement. -/
inductive SI : List Token → List CST → List Token → Prop
  | stop {ts} : (∀ t ts1, ts = t :: ts1 → t.kind = .newLine → NoLine ts1) → SI ts [] ts
  | more {t ts c r cs r'} : t.kind = .newLine → LI ts c r → SI r cs r' →
      SI (t :: ts) (.leaf .newline t.loc :: c :: cs) r'

theorem SI.isSuffix : ∀ {ts cs r}, SI ts cs r → r <:+ ts
  | _, _, _, .stop _ => List.suffix_rfl
  | _, _, _, .more _ hl h => h.isSuffix.trans (hl.isSuffix.trans (List.suffix_cons _ _))

theorem SI.hasEof : ∀ {ts cs r}, SI ts cs r → (HasEof ts ↔ HasEof r)
  | _, _, _, .stop _ => Iff.rfl
  | _, _, _, .more ht hl h =>
    (⟨fun h => h.tail (by simp [ht]), .cons⟩ : _ ↔ _).trans (hl.hasEof.trans h.hasEof)

theorem stmtItems_spec (n : Nat) : ∀ ts, ts.length < n → Safe ts →
    ∃ cs r, stmtItems n ts = .ok (cs, r) ∧ SI ts cs r := by
  induction n with
  | zero => intro ts h; omega
  | succ n ih =>
    intro ts hn hs
    simp only [stmtItems]
    rcases ts with _ | ⟨t, ts⟩
    · obtain ⟨m, hm⟩ := pNewline_nil
      rw [hm]
      exact ⟨_, _, rfl, .stop (by simp)⟩
    · by_cases ht : t.kind = .newLine
      · rw [pNewline_yes ht]
        have hs' := hs.tail (by simp [ht])
        simp only []
        rcases pExprOrClose_spec hs' with ⟨c, r, h1, h2⟩ | ⟨m, h1, h2⟩
        · rw [h1]
          have hlen := h2.length
          simp only [List.length_cons] at hn
          obtain ⟨cs, r', h3, h4⟩ := ih r (by omega) (Safe.li h2 hs')
          simp only [h3]
          exact ⟨_, _, rfl, .more ht h2 h4⟩
        · rw [h1]
          refine ⟨_, _, rfl, .stop ?_⟩
          intro t' ts1 he _
          cases he
          exact h2
      · obtain ⟨m, hm⟩ := pNewline_no (ts := ts) ht
        rw [hm]
        refine ⟨_, _, rfl, .stop ?_⟩
        intro t' ts1 he ht'
        cases he
        exact absurd ht' ht

/-- A statement. -/
inductive TI : List Token → CST → List Token → Prop
  | mk {ts c r cs r'} : LI ts c r → SI r cs r' →
      TI ts ((c :: cs).foldl CST.add (CST.new .stmt)) r'

theorem TI.isSuffix {ts c r} (h : TI ts c r) : r <:+ ts := by
  cases h with
  | mk h1 h2 => exact h2.isSuffix.trans h1.isSuffix

theorem TI.hasEof {ts c r} (h : TI ts c r) : HasEof ts ↔ HasEof r := by
  cases h with
  | mk h1 h2 => exact h1.hasEof.trans h2.hasEof

theorem TI.length {ts c r} (h : TI ts c r) : r.length < ts.length := by
  cases h with
  | mk h1 h2 => exact Nat.lt_of_le_of_lt h2.isSuffix.length_le h1.length

theorem Safe.ti {ts c r} (h : TI ts c r) (hs : Safe ts) : Safe r := by
  rcases hs with hs | hs
  · exact .inl (h.hasEof.mp hs)
  · exact .inr fun h' => hs (h'.of_suffix h.isSuffix)

theorem pStmt_spec {ts} (hs : Safe ts) :
    (∃ c r, pStmt ts = .ok (c, r) ∧ TI ts c r) ∨ (∃ m, pStmt ts = .err m ∧ NoLine ts) := by
  unfold pStmt
  rcases pExprOrClose_spec hs with ⟨c, r, h1, h2⟩ | ⟨m, h1, h2⟩
  · obtain ⟨cs, r', h3, h4⟩ := stmtItems_spec (r.length + 1) r (by omega) (Safe.li h2 hs)
    simp only [h1, h3]
    exact .inl ⟨_, _, rfl, .mk h2 h4⟩
  · simp only [h1]
    exact .inr ⟨_, rfl, h2⟩

/-- `newline*`. -/
inductive NI : List Token → List CST → List Token → Prop
  | stop {ts} : (∀ t ∈ ts.head?, t.kind ≠ .newLine) → NI ts [] ts
  | more {t ts cs r} : t.kind = .newLine → NI ts cs r → NI (t :: ts) (.leaf .newline t.loc :: cs) r

theorem NI.isSuffix : ∀ {ts cs r}, NI ts cs r → r <:+ ts
  | _, _, _, .stop _ => List.suffix_rfl
  | _, _, _, .more _ h => h.isSuffix.trans (List.suffix_cons _ _)

theorem NI.hasEof : ∀ {ts cs r}, NI ts cs r → (HasEof ts ↔ HasEof r)
  | _, _, _, .stop _ => Iff.rfl
  | _, _, _, .more ht h => (⟨fun h => h.tail (by simp [ht]), .cons⟩ : _ ↔ _).trans h.hasEof

theorem newlines_spec : ∀ ts, NI ts (newlines ts).1 (newlines ts).2
  | [] => .stop (by simp)
  | t :: ts => by
    by_cases ht : t.kind = .newLine
    · simp only [newlines, pNewline_yes ht]
      exact .more ht (newlines_spec ts)
    · obtain ⟨m, hm⟩ := pNewline_no (ts := ts) ht
      simp only [newlines, hm]
      exact .stop (by simp [ht])

/-- The main loop of `parse`. The second index is the end of the loop: either no statement can
start there, or the statement starting there is not followed by a newline. -/
inductive DI : List Token → List CST → List Token → Prop
  | noStmt {ts} : NoLine ts → DI ts [] ts
  | lastStmt {ts s r} : TI ts s r → (∀ t ∈ r.head?, t.kind ≠ .newLine) → DI ts [] ts
  | more {ts s t r ns r1 cs r2} : TI ts s (t :: r) → t.kind = .newLine → NI r ns r1 →
      DI r1 cs r2 → DI ts (s :: .leaf .newline t.loc :: ns ++ cs) r2

theorem DI.isSuffix : ∀ {ts cs r}, DI ts cs r → r <:+ ts
  | _, _, _, .noStmt _ => List.suffix_rfl
  | _, _, _, .lastStmt _ _ => List.suffix_rfl
  | _, _, _, .more hs _ hn h =>
    h.isSuffix.trans (hn.isSuffix.trans ((List.suffix_cons _ _).trans hs.isSuffix))

theorem DI.hasEof : ∀ {ts cs r}, DI ts cs r → (HasEof ts ↔ HasEof r)
  | _, _, _, .noStmt _ => Iff.rfl
  | _, _, _, .lastStmt _ _ => Iff.rfl
  | _, _, _, .more hs ht hn h =>
    hs.hasEof.trans ((⟨fun h => h.tail (by simp [ht]), .cons⟩ : _ ↔ _).trans
      (hn.hasEof.trans h.hasEof))

theorem Safe.of_suffix {ts r : List Token} (h : r <:+ ts) (he : HasEof ts ↔ HasEof r)
    (hs : Safe ts) : Safe r := by
  rcases hs with hs | hs
  · exact .inl (he.mp hs)
  · exact .inr fun h' => hs (h'.of_suffix h)

theorem docItems_spec (n : Nat) : ∀ ts, ts.length < n → Safe ts →
    ∃ cs r, docItems n ts = .ok (cs, r) ∧ DI ts cs r := by
  induction n with
  | zero => intro ts h; omega
  | succ n ih =>
    intro ts hn hs
    simp only [docItems]
    rcases pStmt_spec hs with ⟨c, r, h1, h2⟩ | ⟨m, h1, h2⟩
    · rw [h1]
      simp only []
      have hs' := Safe.ti h2 hs
      rcases r with _ | ⟨t, r⟩
      · obtain ⟨m, hm⟩ := pNewline_nil
        rw [hm]
        exact ⟨_, _, rfl, .lastStmt h2 (by simp)⟩
      · by_cases ht : t.kind = .newLine
        · rw [pNewline_yes ht]
          have hN := newlines_spec r
          have hlen := h2.length
          have hlen2 := hN.isSuffix.length_le
          simp only [List.length_cons] at hlen
          obtain ⟨cs, r', h3, h4⟩ := ih (newlines r).2 (by omega)
            (Safe.of_suffix hN.isSuffix hN.hasEof (hs'.tail (by simp [ht])))
          simp only [h3]
          exact ⟨_, _, rfl, .more h2 ht hN h4⟩
        · obtain ⟨m, hm⟩ := pNewline_no (ts := r) ht
          rw [hm]
          exact ⟨_, _, rfl, .lastStmt h2 (by simp [ht])⟩
    · rw [h1]
      exact ⟨_, _, rfl, .noStmt h2⟩

/-- `stmt?`. -/
inductive OI : List Token → List CST → List Token → Prop
  | none {ts} : NoLine ts → OI ts [] ts
  | some {ts c r} : TI ts c r → OI ts [c] r

theorem OI.isSuffix {ts cs r} (h : OI ts cs r) : r <:+ ts := by
  cases h with
  | none => exact List.suffix_rfl
  | some h => exact h.isSuffix

theorem OI.hasEof {ts cs r} (h : OI ts cs r) : HasEof ts ↔ HasEof r := by
  cases h with
  | none => rfl
  | some h => exact h.hasEof

/-- A whole document up to EOF. -/
inductive PI : List Token → CST → List Token → Prop
  | mk {ts cs r cs2 r2 ns t rest} : DI ts cs r → OI r cs2 r2 → NI r2 ns (t :: rest) →
      t.kind = .eof →
      PI ts ((cs ++ cs2 ++ ns ++ [CST.leaf .eof t.loc]).foldl CST.add (CST.new .document)) rest

theorem pEof_nil : ∃ m, pEof [] = .err m := ⟨_, rfl⟩

theorem pEof_yes {t : Token} {ts} (h : t.kind = .eof) :
    pEof (t :: ts) = .ok (.leaf .eof t.loc, ts) := by
  simp [pEof, leafParser, h]

theorem pEof_no {t : Token} {ts} (h : t.kind ≠ .eof) : ∃ m, pEof (t :: ts) = .err m := by
  obtain ⟨k, l⟩ := t
  cases k <;> simp at h <;> exact ⟨_, rfl⟩

/-- The parser on safe lists: either a document, or the loops stop before a token that is not
EOF. -/
theorem parse_spec {ts} (hs : Safe ts) :
    (∃ c rest, parse ts = .ok c ∧ PI ts c rest) ∨
    (∃ m cs r cs2 r2 ns r3, parse ts = .err m ∧ DI ts cs r ∧ OI r cs2 r2 ∧ NI r2 ns r3 ∧
      ∀ t ∈ r3.head?, t.kind ≠ .eof) := by
  obtain ⟨cs, r, h1, hD⟩ := docItems_spec (ts.length + 1) ts (by omega) hs
  have hs1 := Safe.of_suffix hD.isSuffix hD.hasEof hs
  have hO : ∃ cs2 r2, optStmt r = .ok (cs2, r2) ∧ OI r cs2 r2 := by
    unfold optStmt
    rcases pStmt_spec hs1 with ⟨c, r', h2, h3⟩ | ⟨m, h2, h3⟩
    · exact ⟨_, _, by rw [h2], .some h3⟩
    · exact ⟨_, _, by rw [h2], .none h3⟩
  obtain ⟨cs2, r2, h4, hO⟩ := hO
  have hN := newlines_spec r2
  unfold parse
  simp only [h1, h4]
  rcases hr : (newlines r2).2 with _ | ⟨t, rest⟩
  · rw [hr] at hN
    obtain ⟨m, hm⟩ := pEof_nil
    rw [hm]
    exact .inr ⟨_, _, _, _, _, _, _, rfl, hD, hO, hN, by simp⟩
  · rw [hr] at hN
    by_cases ht : t.kind = .eof
    · rw [pEof_yes ht]
      exact .inl ⟨_, _, rfl, .mk hD hO hN ht⟩
    · obtain ⟨m, hm⟩ := pEof_no (ts := rest) ht
      rw [hm]
      exact .inr ⟨_, _, _, _, _, _, _, rfl, hD, hO, hN, by simp [ht]⟩

end Brack
