import Verif.Proof.TransArgs
import Verif.Proof.TransTrace
import Verif.Spec.Errors
import Verif.Proof.Merge

/-
Helper lemmas: which errors `simplify` reports, where, and what content it keeps.
-/

namespace Brack

theorem evs_expr (st cs l) : (CST.node .expr cs l).evs st = CST.evsL st cs := by simp [CST.evs]
theorem evs_stmt (st cs l) : (CST.node .stmt cs l).evs st = CST.evsL st cs := by simp [CST.evs]
theorem evs_document (st cs l) : (CST.node .document cs l).evs st = CST.evsL st cs := by
  simp [CST.evs]
theorem tokens_expr (cs l) : (CST.node .expr cs l).tokens = CST.tokensL cs := by simp [CST.tokens]
theorem tokens_stmt (cs l) : (CST.node .stmt cs l).tokens = CST.tokensL cs := by simp [CST.tokens]
theorem tokens_document (cs l) : (CST.node .document cs l).tokens = CST.tokensL cs := by
  simp [CST.tokens]

/-! ### errors found in the content of a bracket -/

/-- Kinds of errors found in the content of a bracket. -/
def TErrKind.isContent : TErrKind → Bool
  | .moduleNotFound | .dotNotFound | .identifierNotFound | .unexpectedDot | .unexpectedComma => true
  | _ => false

/-- The error is of one of those kinds and at the range of an element. -/
def ContentErr (csts : List CST) (e : TErr) : Prop :=
  e.kind.isContent = true ∧ ∃ d ∈ csts, e.loc = d.loc

theorem checkAt_err {i good kind csts e} (hk : kind.isContent = true)
    (h : e ∈ checkAt i good kind csts) : ContentErr csts e := by
  unfold checkAt at h
  rcases hc : csts[i]? with _ | c
  · simp [hc] at h
  · rw [hc] at h
    simp only [] at h
    split at h
    · simp at h
    · simp only [List.mem_singleton] at h
      subst h
      exact ⟨hk, c, List.mem_of_getElem? hc, rfl⟩

theorem argLoop_err {e : TErr} : ∀ (cs : List CST) prev expr comma,
    e ∈ (argLoop prev expr comma cs).2 → ContentErr (prev :: cs) e := by
  intro cs
  induction cs with
  | nil => intro prev expr comma h; simp [argLoop] at h
  | cons c cs ih =>
    intro prev expr comma h
    have lift : ContentErr (c :: cs) e → ContentErr (prev :: c :: cs) e := by
      rintro ⟨h1, d, hd, h2⟩; exact ⟨h1, d, List.mem_cons_of_mem _ hd, h2⟩
    have hdef : (∃ e' co, e ∈ (argLoop c e' co cs).2) → ContentErr (prev :: c :: cs) e := by
      rintro ⟨e', co, h⟩; exact lift (ih _ _ _ h)
    rcases c with ⟨k, l⟩ | ⟨k, ds, l⟩
    · cases k
      case comma =>
        rw [argLoop] at h
        split at h
        · rcases List.mem_cons.mp h with rfl | h
          · exact ⟨rfl, .leaf .comma l, by simp, rfl⟩
          · exact hdef ⟨_, _, h⟩
        · exact hdef ⟨_, _, h⟩
      case dot =>
        rw [argLoop] at h
        rcases List.mem_cons.mp h with rfl | h
        · exact ⟨rfl, .leaf .dot l, by simp, rfl⟩
        · exact hdef ⟨_, _, h⟩
      case bclose =>
        rw [argLoop] at h
        split at h
        · simp at h
        · split at h
          · simp only [List.mem_singleton] at h
            subst h
            exact ⟨rfl, prev, by simp, rfl⟩
          · simp at h
      all_goals exact hdef ⟨_, _, by simpa [argLoop] using h⟩
    · exact hdef ⟨_, _, by simpa [argLoop] using h⟩

theorem bracketErrs_err {csts : List CST} {e : TErr} (h : e ∈ bracketErrs csts) :
    ContentErr csts e := by
  simp only [bracketErrs, List.mem_append] at h
  rcases h with (((h | h) | h) | h) | h
  · exact checkAt_err rfl h
  · exact checkAt_err rfl h
  · exact checkAt_err rfl h
  · simp only [checkUnexpectedDot, List.mem_map, List.mem_filter] at h
    obtain ⟨c, ⟨hc, _⟩, rfl⟩ := h
    exact ⟨rfl, c, List.mem_of_mem_drop hc, rfl⟩
  · unfold checkValidArguments at h
    have hsub : ∀ d, d ∈ removeBlanks csts → d ∈ csts := fun d hd => (mem_removeBlanks hd).1
    generalize removeBlanks csts = es at h hsub
    rcases es with _ | ⟨c0, _ | ⟨c1, _ | ⟨c2, _ | ⟨c3, rest⟩⟩⟩⟩
    · simp at h
    · simp at h
    · simp at h
    · simp at h
    · obtain ⟨h1, d, hd, h2⟩ := argLoop_err _ _ _ _ h
      exact ⟨h1, d, hsub d (List.mem_cons_of_mem _ (List.mem_cons_of_mem _
        (List.mem_cons_of_mem _ hd))), h2⟩

/-! ### content -/

mutual

theorem XI.content : ∀ {c d es}, XI c d es → ∀ st,
    (c.evs st).filterMap Event.content? = d.cont
  | _, _, _, @XI.leaf k l h, st => by
    cases k <;> simp [LKind.inExpr] at h <;>
      simp [CST.evs, leafEvs, LKind.tokKind, Event.content?, CST.cont, LKind.content]
  | _, _, _, @XI.escaped c k l l' h, st => by
    have : ∃ k', escapes.lookup c = some k' := by
      simp only [escapes, List.mem_cons, Prod.mk.injEq, List.not_mem_nil, or_false] at h
      rcases h with ⟨rfl, _⟩ | ⟨rfl, _⟩ | ⟨rfl, _⟩ | ⟨rfl, _⟩ | ⟨rfl, _⟩ | ⟨rfl, _⟩ | ⟨rfl, _⟩ |
        ⟨rfl, _⟩ | ⟨rfl, _⟩ <;> exact ⟨_, rfl⟩
    obtain ⟨k', hk'⟩ := this
    simp [CST.evs, escEvs, hk', Event.content?, CST.cont, LKind.content]
  | _, _, _, .stray, st => by
    simp [CST.evs, escEvs, Event.content?, CST.cont, LKind.content]
  | _, _, _, @XI.closed b cs l l1 l2 ds es h, st => by
    have hk := bracketKids_cont b l1 ds h.simple (.inr ⟨b, l2, rfl⟩)
    rw [CST.cont, hk, ← h.content (openTok b (.leaf (.bopen b) l1 :: cs ++ [.leaf (.bclose b) l2]) :: st)]
    simp only [List.cons_append] at *
    rw [CST.evs]
    simp [CST.isClosed, List.getLast?_cons, List.getLast?_append, CST.evsL, evsL_append, CST.evs,
      leafEvs, Event.content?, List.filterMap_append]
  | _, _, _, @XI.unclosed b cs l l1 ds es h, st => by
    have hk := bracketKids_cont b l1 ds h.simple (.inl rfl)
    rw [List.append_nil] at hk
    rw [CST.cont, hk, ← h.content (openTok b (.leaf (.bopen b) l1 :: cs) :: st)]
    rw [CST.evs, List.filterMap_append]
    split <;> simp [CST.evsL, CST.evs, leafEvs, Event.content?]

theorem XL.content : ∀ {cs ds es}, XL cs ds es → ∀ st,
    (CST.evsL st cs).filterMap Event.content? = CST.contL ds
  | _, _, _, .nil, st => by simp [CST.evsL, CST.contL]
  | _, _, _, .cons h hs, st => by
    simp [CST.evsL, CST.contL, List.filterMap_append, h.content st, hs.content st]

theorem XB.content : ∀ {cs ds es}, XB cs ds es → ∀ st,
    (CST.evsL st cs).filterMap Event.content? = CST.contL ds
  | _, _, _, .nil, st => by simp [CST.evsL, CST.contL]
  | _, _, _, .expr _ h hs, st => by
    simp [CST.evsL, CST.evs, contL_append, List.filterMap_append, h.content st, hs.content st]
  | _, _, _, .newline hs, st => by
    rw [CST.evsL, List.filterMap_append, hs.content st]
    simp [CST.evs, CST.contL, leafEvs, LKind.tokKind, Event.content?, CST.cont, LKind.content]

end

theorem XLine.content {c ds es} (h : XLine c ds es) :
    (c.evs []).filterMap Event.content? = CST.contL ds := by
  cases h with
  | close => simp [CST.evs, leafEvs, Event.content?, CST.contL]
  | newline => simp [CST.evs, leafEvs, Event.content?, CST.contL, LKind.tokKind]
  | expr _ h => simp [CST.evs, CST.contL, h.content, CST.cont]

theorem XLines.content {cs ds es} (h : XLines cs ds es) :
    (CST.evsL [] cs).filterMap Event.content? = CST.contL ds := by
  induction h with
  | nil => simp [CST.evsL, CST.contL]
  | cons h _ ih => simp [CST.evsL, contL_append, List.filterMap_append, h.content, ih]

theorem XChild.content {c ds es} (h : XChild c ds es) :
    (c.evs []).filterMap Event.content? = CST.contL ds := by
  cases h with
  | newline => simp [CST.evs, leafEvs, Event.content?, CST.contL, LKind.tokKind]
  | eof => simp [CST.evs, leafEvs, CST.contL]
  | stmt h => simp [CST.evs, CST.contL, h.content, CST.cont]

theorem XDoc.content {cs ds es} (h : XDoc cs ds es) :
    (CST.evsL [] cs).filterMap Event.content? = CST.contL ds := by
  induction h with
  | nil => simp [CST.evsL, CST.contL]
  | cons h _ ih => simp [CST.evsL, contL_append, List.filterMap_append, h.content, ih]

/-! ### separators outside brackets -/

theorem isClosed_body {b l cs l1} (h : GBody cs) :
    CST.isClosed (.node (.bracket b) (.leaf (.bopen b) l1 :: cs) l) = false := by
  rcases List.eq_nil_or_concat cs with rfl | ⟨ds, d, rfl⟩
  · simp [CST.isClosed]
  · have := h.last
    rw [List.concat_eq_append] at this ⊢
    simp only [List.getLast?_append, List.getLast?_singleton, Option.some_or, ne_eq,
      Option.some.injEq] at this
    simp only [CST.isClosed, List.getLast?_cons, List.getLast?_append,
      Option.some_or, Option.getD_some]
    rcases d with ⟨k, l⟩ | ⟨k, cs, l⟩
    · cases k <;> simp
      rename_i b'
      exact absurd rfl (this b' l)
    · simp

mutual

theorem XI.grammar : ∀ {c d es}, XI c d es → GItem c
  | _, _, _, .leaf h => .leaf h
  | _, _, _, .escaped h => .escaped h
  | _, _, _, .stray => .backslash
  | _, _, _, .closed h => .closed h.grammar
  | _, _, _, .unclosed h => .unclosed h.grammar

theorem XL.grammar : ∀ {cs ds es}, XL cs ds es → ∀ c ∈ cs, GItem c
  | _, _, _, .nil => by simp
  | _, _, _, .cons h hs => by
    have := hs.grammar
    simpa using ⟨h.grammar, this⟩

theorem XB.grammar : ∀ {cs ds es}, XB cs ds es → GBody cs
  | _, _, _, .nil => .nil
  | _, _, _, .expr hne h hs => .expr hne h.grammar hs.grammar
  | _, _, _, .newline hs => .newline hs.grammar

end

/-- The opening bracket as a token. -/
abbrev otok (b : Bracket) (l : Loc) : Token := ⟨.bopen b, l⟩

theorem evs_closed (st b cs l l1 l2) :
    (CST.node (.bracket b) (.leaf (.bopen b) l1 :: cs ++ [.leaf (.bclose b) l2]) l).evs st =
      CST.evsL (otok b l1 :: st) cs ++ [.closed (otok b l1) ⟨.bclose b, l2⟩] := by
  rw [CST.evs]
  simp [CST.isClosed, List.getLast?_cons, List.getLast?_append, CST.evsL, evsL_append, CST.evs,
    leafEvs, openTok]

theorem evs_unclosed (st b) {cs} (l l1) (h : GBody cs) :
    (CST.node (.bracket b) (.leaf (.bopen b) l1 :: cs) l).evs st =
      CST.evsL (otok b l1 :: st) cs ++ [.unclosed (otok b l1)] := by
  rw [CST.evs, isClosed_body h]
  simp [CST.evsL, CST.evs, leafEvs, openTok]

mutual

theorem GItem.inner_sep : ∀ {c}, GItem c → ∀ o st,
    (c.evs (o :: st)).any Event.looseSeparator = false
  | _, @GItem.leaf k l h, o, st => by
    cases k <;> simp [LKind.inExpr] at h <;> simp [CST.evs, leafEvs, Event.looseSeparator]
  | _, .escaped _, o, st => by
    simp [CST.evs, escEvs, Event.looseSeparator]
  | _, .backslash, o, st => by simp [CST.evs, escEvs, Event.looseSeparator]
  | _, .closed h, o, st => by
    rw [evs_closed, List.any_append, h.inner_sep]
    simp [Event.looseSeparator]
  | _, .unclosed h, o, st => by
    rw [evs_unclosed _ _ _ _ h, List.any_append, h.inner_sep]
    simp [Event.looseSeparator]

theorem GBody.inner_sep : ∀ {cs}, GBody cs → ∀ o st,
    (CST.evsL (o :: st) cs).any Event.looseSeparator = false
  | _, .nil, o, st => by simp [CST.evsL]
  | _, @GBody.expr cs ds l hne h hb, o, st => by
    have h' : ∀ c ∈ cs, (c.evs (o :: st)).any Event.looseSeparator = false :=
      fun c hc => (h c hc).inner_sep o st
    have h2 : (CST.evsL (o :: st) cs).any Event.looseSeparator = false := by
      clear h hne
      induction cs with
      | nil => simp [CST.evsL]
      | cons c cs ih =>
        rw [CST.evsL, List.any_append, h' c (by simp), ih (fun c hc => h' c (by simp [hc]))]
        rfl
    rw [CST.evsL, evs_expr, List.any_append, h2, hb.inner_sep]
    rfl
  | _, .newline h, o, st => by
    rw [CST.evsL, List.any_append, h.inner_sep]
    simp [CST.evs, leafEvs, Event.looseSeparator]

end

theorem XI.loose {c d es} (h : XI c d es) : (c.evs []).any Event.looseSeparator = d.notInAst := by
  cases h with
  | @leaf k l h =>
    cases k <;> simp [LKind.inExpr] at h <;>
      simp [CST.evs, leafEvs, Event.looseSeparator, CST.notInAst, LKind.tokKind]
  | escaped => simp [CST.evs, escEvs, Event.looseSeparator, CST.notInAst]
  | stray => simp [CST.evs, escEvs, Event.looseSeparator, CST.notInAst]
  | closed h =>
    rw [evs_closed, List.any_append, h.grammar.inner_sep]
    simp [Event.looseSeparator, CST.notInAst]
  | unclosed h =>
    rw [evs_unclosed _ _ _ _ h.grammar, List.any_append, h.grammar.inner_sep]
    simp [Event.looseSeparator, CST.notInAst]

theorem astable_notInAst {d : CST} (h : d.notInAst = true) : d.astable = false := by
  rcases d with ⟨k, l⟩ | ⟨k, cs, l⟩
  · cases k <;> simp [CST.notInAst] at h <;> simp [CST.astable, LKind.inAst]
  · simp [CST.notInAst] at h

theorem XL.loose : ∀ {cs ds es}, XL cs ds es →
    CST.astableL ds = !(CST.evsL [] cs).any Event.looseSeparator
  | _, _, _, .nil => by simp [CST.evsL, CST.astableL]
  | _, _, _, .cons (d := d) h hs => by
    rw [CST.evsL, List.any_append, h.loose, CST.astableL, hs.loose]
    rcases hd : d.notInAst
    · simp [h.astable hd]
    · simp [astable_notInAst hd]

theorem XLine.loose {c ds es} (h : XLine c ds es) :
    CST.astableL ds = !(c.evs []).any Event.looseSeparator := by
  cases h with
  | close => simp [CST.evs, leafEvs, Event.looseSeparator, CST.astableL]
  | newline => simp [CST.evs, leafEvs, Event.looseSeparator, CST.astableL, LKind.tokKind]
  | expr _ h => rw [evs_expr, ← h.loose]; simp [CST.astableL, CST.astable, IKind.toAst]

theorem astableL_append (cs ds : List CST) :
    CST.astableL (cs ++ ds) = (CST.astableL cs && CST.astableL ds) := by
  induction cs with
  | nil => simp [CST.astableL]
  | cons c cs ih => simp [CST.astableL, ih, Bool.and_assoc]

theorem XLines.loose {cs ds es} (h : XLines cs ds es) :
    CST.astableL ds = !(CST.evsL [] cs).any Event.looseSeparator := by
  induction h with
  | nil => simp [CST.evsL, CST.astableL]
  | cons h _ ih => rw [CST.evsL, List.any_append, astableL_append, h.loose, ih, Bool.not_or]

theorem XChild.loose {c ds es} (h : XChild c ds es) :
    CST.astableL ds = !(c.evs []).any Event.looseSeparator := by
  cases h with
  | newline => simp [CST.evs, leafEvs, Event.looseSeparator, CST.astableL, LKind.tokKind]
  | eof => simp [CST.evs, leafEvs, CST.astableL]
  | stmt h => rw [evs_stmt, ← h.loose]; simp [CST.astableL, CST.astable, IKind.toAst]

theorem XDoc.loose {cs ds es} (h : XDoc cs ds es) :
    CST.astableL ds = !(CST.evsL [] cs).any Event.looseSeparator := by
  induction h with
  | nil => simp [CST.evsL, CST.astableL]
  | cons h _ ih => rw [CST.evsL, List.any_append, astableL_append, h.loose, ih, Bool.not_or]

/-! ### reported errors -/

theorem bracketErrs_filter {α} (g : TErr → Option α) (hg : ∀ e : TErr, e.kind.isContent = true →
    g e = none) (csts : List CST) : (bracketErrs csts).filterMap g = [] := by
  rw [List.filterMap_eq_nil_iff]
  intro e he
  exact hg e (bracketErrs_err he).1

theorem content_not_stray (e : TErr) (h : e.kind.isContent = true) : e.invalidBackslash? = none := by
  obtain ⟨k, l⟩ := e
  cases k <;> simp [TErrKind.isContent] at h <;> rfl

theorem content_not_unclosed (e : TErr) (h : e.kind.isContent = true) : e.notClosed? = none := by
  obtain ⟨k, l⟩ := e
  cases k <;> simp [TErrKind.isContent] at h <;> rfl

mutual

theorem XI.strays : ∀ {c d es}, XI c d es → ∀ st,
    es.filterMap TErr.invalidBackslash? = (c.evs st).filterMap Event.stray?
  | _, _, _, @XI.leaf k l h, st => by
    cases k <;> simp [LKind.inExpr] at h <;> simp [CST.evs, leafEvs, Event.stray?]
  | _, _, _, @XI.escaped c k l l' h, st => by
    simp [CST.evs, escEvs, Event.stray?]
  | _, _, _, .stray, st => by
    simp [CST.evs, escEvs, Event.stray?, TErr.invalidBackslash?]
  | _, _, _, @XI.closed b cs l l1 l2 ds es h, st => by
    rw [evs_closed, List.filterMap_append, List.filterMap_append, h.strays (otok b l1 :: st),
      bracketErrs_filter _ content_not_stray]
    simp [Event.stray?]
  | _, _, _, @XI.unclosed b cs l l1 ds es h, st => by
    rw [evs_unclosed _ _ _ _ h.grammar, List.filterMap_append, List.filterMap_append,
      List.filterMap_append, h.strays (otok b l1 :: st), bracketErrs_filter _ content_not_stray]
    simp only [List.append_nil]
    rfl

theorem XL.strays : ∀ {cs ds es}, XL cs ds es → ∀ st,
    es.filterMap TErr.invalidBackslash? = (CST.evsL st cs).filterMap Event.stray?
  | _, _, _, .nil, st => by simp [CST.evsL]
  | _, _, _, .cons h hs, st => by
    rw [CST.evsL, List.filterMap_append, List.filterMap_append, h.strays st, hs.strays st]

theorem XB.strays : ∀ {cs ds es}, XB cs ds es → ∀ st,
    es.filterMap TErr.invalidBackslash? = (CST.evsL st cs).filterMap Event.stray?
  | _, _, _, .nil, st => by simp [CST.evsL]
  | _, _, _, .expr _ h hs, st => by
    rw [CST.evsL, evs_expr, List.filterMap_append, List.filterMap_append, h.strays st, hs.strays st]
  | _, _, _, .newline hs, st => by
    rw [CST.evsL, List.filterMap_append, hs.strays st]
    simp [CST.evs, leafEvs, LKind.tokKind, Event.stray?]

end

/-- Lifting statements about the errors from expressions to documents. -/
theorem XDoc.lift {α} (f : Event → Option α) (g : TErr → Option α) (P : CST → Prop)
    (hP : ∀ k cs l, k = .stmt ∨ k = .expr → P (.node k cs l) → ∀ c ∈ cs, P c)
    (hf : ∀ t, f (.plain [] t) = none) (hf' : ∀ t, f (.unopened t) = none)
    (hX : ∀ {cs ds es}, XL cs ds es → (∀ c ∈ cs, P c) →
      es.filterMap g = (CST.evsL [] cs).filterMap f)
    {cs ds es} (h : XDoc cs ds es) (hc : ∀ c ∈ cs, P c) :
    es.filterMap g = (CST.evsL [] cs).filterMap f := by
  have hline : ∀ {c ds es}, XLine c ds es → P c → es.filterMap g = (c.evs []).filterMap f := by
    intro c ds es h hp
    cases h with
    | close => simp [CST.evs, leafEvs, hf']
    | newline => simp [CST.evs, leafEvs, hf]
    | expr _ h => rw [evs_expr]; exact hX h (hP _ _ _ (.inr rfl) hp)
  have hlines : ∀ {cs ds es}, XLines cs ds es → (∀ c ∈ cs, P c) →
      es.filterMap g = (CST.evsL [] cs).filterMap f := by
    intro cs ds es h
    induction h with
    | nil => simp [CST.evsL]
    | cons h _ ih =>
      intro hc
      rw [CST.evsL, List.filterMap_append, List.filterMap_append, hline h (hc _ (by simp)),
        ih (fun c h => hc c (by simp [h]))]
  have hchild : ∀ {c ds es}, XChild c ds es → P c → es.filterMap g = (c.evs []).filterMap f := by
    intro c ds es h hp
    cases h with
    | newline => simp [CST.evs, leafEvs, hf]
    | eof => simp [CST.evs, leafEvs]
    | stmt h => rw [evs_stmt]; exact hlines h (hP _ _ _ (.inl rfl) hp)
  induction h with
  | nil => simp [CST.evsL]
  | cons h _ ih =>
    rw [CST.evsL, List.filterMap_append, List.filterMap_append, hchild h (hc _ (by simp)),
      ih (fun c h => hc c (by simp [h]))]

/-! ### ranges of errors -/

/-- Tokens in document order. -/
structure Ordered (ts : List Token) : Prop where
  sorted : ts.Pairwise (fun a b => a.loc.start.le b.loc.start)
  proper : ∀ t ∈ ts, t.loc.start.le t.loc.stop

theorem Ordered.append {ts us : List Token} (h : Ordered (ts ++ us)) : Ordered ts ∧ Ordered us := by
  have := List.pairwise_append.mp h.sorted
  exact ⟨⟨this.1, fun t ht => h.proper t (by simp [ht])⟩,
    ⟨this.2.1, fun t ht => h.proper t (by simp [ht])⟩⟩

/-- Bracket nodes start where their first token starts. -/
def BracketStarts (c : CST) : Prop :=
  ∀ b cs l, CST.NodeOf (.node (.bracket b) cs l) c →
    ∃ t ∈ (CST.node (.bracket b) cs l).tokens.head?, l.start = t.loc.start

theorem BracketStarts.child {k cs l} (h : BracketStarts (.node k cs l)) : ∀ c ∈ cs, BracketStarts c :=
  fun _ hc b ds l' hn => h b ds l' (.child hc hn)

theorem bracket_tokens (b cs l) :
    (CST.node (.bracket b) cs l).tokens = CST.tokensL cs := by
  simp [CST.tokens]

theorem tokensL_mem {c : CST} {cs : List CST} (h : c ∈ cs) {t} (ht : t ∈ c.tokens) :
    t ∈ CST.tokensL cs := by
  induction cs with
  | nil => simp at h
  | cons d cs ih =>
    rw [CST.tokensL]
    rcases List.mem_cons.mp h with rfl | h
    · simp [ht]
    · simp [ih h]

/-- The simplified item starts at one of its tokens. -/
theorem XI.start {c d es} (h : XI c d es) (hb : BracketStarts c) :
    ∃ x ∈ c.tokens, d.loc.start = x.loc.start := by
  cases h with
  | leaf h => exact ⟨_, by rw [CST.tokens]; exact List.mem_cons_self, rfl⟩
  | @escaped c k l l' h =>
    have : ∃ k', escapes.lookup c = some k' := by
      simp only [escapes, List.mem_cons, Prod.mk.injEq, List.not_mem_nil, or_false] at h
      rcases h with ⟨rfl, _⟩ | ⟨rfl, _⟩ | ⟨rfl, _⟩ | ⟨rfl, _⟩ | ⟨rfl, _⟩ | ⟨rfl, _⟩ | ⟨rfl, _⟩ |
        ⟨rfl, _⟩ | ⟨rfl, _⟩ <;> exact ⟨_, rfl⟩
    obtain ⟨k', hk'⟩ := this
    exact ⟨⟨k', l'⟩, by simp [CST.tokens, hk'], rfl⟩
  | stray => exact ⟨_, by rw [CST.tokens]; exact List.mem_cons_self, rfl⟩
  | closed h =>
    obtain ⟨t, ht, e⟩ := hb _ _ _ .self
    exact ⟨t, List.mem_of_mem_head? ht, e⟩
  | unclosed h =>
    obtain ⟨t, ht, e⟩ := hb _ _ _ .self
    exact ⟨t, List.mem_of_mem_head? ht, e⟩

theorem XL.start : ∀ {cs ds es}, XL cs ds es → (∀ c ∈ cs, BracketStarts c) →
    ∀ d ∈ ds, ∃ x ∈ CST.tokensL cs, d.loc.start = x.loc.start
  | _, _, _, .nil, _ => by simp
  | _, _, _, .cons h hs, hb => by
    intro d hd
    rw [CST.tokensL]
    rcases List.mem_cons.mp hd with rfl | hd
    · obtain ⟨x, hx, e⟩ := h.start (hb _ (by simp)); exact ⟨x, by simp [hx], e⟩
    · obtain ⟨x, hx, e⟩ := hs.start (fun c hc => hb c (by simp [hc])) d hd
      exact ⟨x, by simp [hx], e⟩

theorem XB.start : ∀ {cs ds es}, XB cs ds es → (∀ c ∈ cs, BracketStarts c) →
    ∀ d ∈ ds, ∃ x ∈ CST.tokensL cs, d.loc.start = x.loc.start
  | _, _, _, .nil, _ => by simp
  | _, _, _, .expr _ h hs, hb => by
    intro d hd
    rw [CST.tokensL, tokens_expr]
    rcases List.mem_append.mp hd with hd | hd
    · obtain ⟨x, hx, e⟩ := h.start (hb _ List.mem_cons_self).child d hd; exact ⟨x, by simp [hx], e⟩
    · obtain ⟨x, hx, e⟩ := hs.start (fun c hc => hb c (by simp [hc])) d hd
      exact ⟨x, by simp [hx], e⟩
  | _, _, _, .newline hs, hb => by
    intro d hd
    rw [CST.tokensL]
    rcases List.mem_cons.mp hd with rfl | hd
    · exact ⟨_, by rw [CST.tokens]; simp; exact .inl rfl, rfl⟩
    · obtain ⟨x, hx, e⟩ := hs.start (fun c hc => hb c (by simp [hc])) d hd
      exact ⟨x, by simp [hx], e⟩

/-- The not-closed error starts at the opening bracket. -/
theorem notClosed_start {b l1 cs ds es} (h : XB cs ds es) (hb : ∀ c ∈ cs, BracketStarts c)
    (ho : Ordered (otok b l1 :: CST.tokensL cs)) :
    l1.start.le ((CST.leaf (.bopen b) l1 :: ds).getLast (by simp)).loc.start := by
  rcases List.eq_nil_or_concat ds with rfl | ⟨ds', d, rfl⟩
  · exact Pos.le_refl _
  · rw [List.concat_eq_append] at h
    obtain ⟨x, hx, e⟩ := h.start hb d (by simp)
    have : ((CST.leaf (.bopen b) l1 :: ds'.concat d).getLast (by simp)) = d := by
      simp [List.getLast_cons]
    rw [this, e]
    exact List.rel_of_pairwise_cons ho.sorted hx

theorem tokens_open (b l1 cs l) : (CST.node (.bracket b) (.leaf (.bopen b) l1 :: cs) l).tokens =
    otok b l1 :: CST.tokensL cs := by
  simp [CST.tokens, CST.tokensL, LKind.tokKind]

mutual

theorem XI.unclosedErrs : ∀ {c d es}, XI c d es → BracketStarts c → Ordered c.tokens → ∀ st,
    es.filterMap TErr.notClosed? = (c.evs st).filterMap Event.unclosed?
  | _, _, _, @XI.leaf k l h, _, _, st => by
    cases k <;> simp [LKind.inExpr] at h <;> simp [CST.evs, leafEvs, Event.unclosed?]
  | _, _, _, @XI.escaped c k l l' h, _, _, st => by
    simp [CST.evs, escEvs, Event.unclosed?]
  | _, _, _, .stray, _, _, st => by
    simp only [CST.evs, escEvs]
    rfl
  | _, _, _, @XI.closed b cs l l1 l2 ds es h, hb, ho, st => by
    have ho' : Ordered (CST.tokensL cs) := by
      rw [List.cons_append, tokens_open, tokensL_append] at ho
      exact (Ordered.append (ts := [_]) ho).2.append.1
    rw [evs_closed, List.filterMap_append, List.filterMap_append,
      h.unclosedErrs (fun c hc => hb.child c (by simp [hc])) ho' (otok b l1 :: st),
      bracketErrs_filter _ content_not_unclosed]
    simp [Event.unclosed?]
  | _, _, _, @XI.unclosed b cs l l1 ds es h, hb, ho, st => by
    have hb' : ∀ c ∈ cs, BracketStarts c := fun c hc => hb.child c (by simp [hc])
    rw [tokens_open] at ho
    have ho' : Ordered (CST.tokensL cs) := (Ordered.append (ts := [_]) ho).2
    rw [evs_unclosed _ _ _ _ h.grammar, List.filterMap_append, List.filterMap_append,
      List.filterMap_append, h.unclosedErrs hb' ho' (otok b l1 :: st),
      bracketErrs_filter _ content_not_unclosed]
    simp [Event.unclosed?, notClosedErr, TErr.notClosed?, merge_start_left (notClosed_start h hb' ho)]

theorem XL.unclosedErrs : ∀ {cs ds es}, XL cs ds es → (∀ c ∈ cs, BracketStarts c) →
    Ordered (CST.tokensL cs) → ∀ st,
    es.filterMap TErr.notClosed? = (CST.evsL st cs).filterMap Event.unclosed?
  | _, _, _, .nil, _, _, st => by simp [CST.evsL]
  | _, _, _, .cons h hs, hb, ho, st => by
    rw [CST.tokensL] at ho
    rw [CST.evsL, List.filterMap_append, List.filterMap_append,
      h.unclosedErrs (hb _ (by simp)) ho.append.1 st,
      hs.unclosedErrs (fun c hc => hb c (by simp [hc])) ho.append.2 st]

theorem XB.unclosedErrs : ∀ {cs ds es}, XB cs ds es → (∀ c ∈ cs, BracketStarts c) →
    Ordered (CST.tokensL cs) → ∀ st,
    es.filterMap TErr.notClosed? = (CST.evsL st cs).filterMap Event.unclosed?
  | _, _, _, .nil, _, _, st => by simp [CST.evsL]
  | _, _, _, .expr _ h hs, hb, ho, st => by
    rw [CST.tokensL, tokens_expr] at ho
    rw [CST.evsL, evs_expr, List.filterMap_append, List.filterMap_append,
      h.unclosedErrs (hb _ List.mem_cons_self).child ho.append.1 st,
      hs.unclosedErrs (fun c hc => hb c (by simp [hc])) ho.append.2 st]
  | _, _, _, .newline hs, hb, ho, st => by
    rw [CST.tokensL] at ho
    rw [CST.evsL, List.filterMap_append,
      hs.unclosedErrs (fun c hc => hb c (by simp [hc])) ho.append.2 st]
    simp [CST.evs, leafEvs, LKind.tokKind, Event.unclosed?]

end

end Brack
