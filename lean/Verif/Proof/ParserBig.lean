import Verif.Model.Parser

/-
Helper lemmas: a big-step description of the recursive part of the parser, its soundness for every
amount of fuel, and the fact that the fuel supplied is enough.
-/

namespace Brack

/-- The expression items that are single tokens. -/
def exprLeaf : TokKind → Option LKind
  | .module s => some (.module s)
  | .ident s => some (.ident s)
  | .text s => some (.text s)
  | .dot => some .dot
  | .comma => some .comma
  | .whiteSpace => some .whitespace
  | _ => none

/-- Tokens that no expression item starts with. -/
def itemStop : TokKind → Bool
  | .newLine | .bclose _ | .eof | .empty => true
  | _ => false

def HasEof (ts : List Token) : Prop := ∃ t ∈ ts, t.kind = .eof

theorem HasEof.cons {t : Token} {ts : List Token} (h : HasEof ts) : HasEof (t :: ts) := by
  obtain ⟨u, hu, hk⟩ := h
  exact ⟨u, List.mem_cons_of_mem _ hu, hk⟩

theorem HasEof.tail {t : Token} {ts : List Token} (h : HasEof (t :: ts)) (ht : t.kind ≠ .eof) :
    HasEof ts := by
  obtain ⟨u, hu, hk⟩ := h
  rcases List.mem_cons.mp hu with rfl | hu
  · exact absurd hk ht
  · exact ⟨u, hu, hk⟩

theorem not_hasEof_nil : ¬ HasEof [] := by
  rintro ⟨u, hu, _⟩; simp at hu

/-- Five ways a token can start (or not start) an expression item. -/
theorem kind_cases (k : TokKind) :
    (∃ l, exprLeaf k = some l) ∨ k = .backSlash ∨ (∃ b, k = .bopen b) ∨ itemStop k = true := by
  cases k <;> simp [exprLeaf, itemStop]

theorem exprItem_nil (body) : ∃ m, exprItem body [] = .err m := ⟨_, rfl⟩

theorem exprItem_leaf (body) {t : Token} {ts} {k} (h : exprLeaf t.kind = some k) :
    exprItem body (t :: ts) = .ok (.leaf k t.loc, ts) := by
  obtain ⟨tk, tl⟩ := t
  cases tk <;> simp [exprLeaf] at h <;> subst h <;>
    simp [exprItem, pEscaped, pModule, pIdent, pDot, pComma, pWhitespace, pText, leafParser,
      Res.orElse, pBracket, bracketOf]

theorem exprItem_stop (body) {t : Token} {ts} (h : itemStop t.kind = true) :
    ∃ m, exprItem body (t :: ts) = .err m := by
  obtain ⟨tk, tl⟩ := t
  cases tk <;> simp [itemStop] at h <;>
    exact ⟨_, by simp [exprItem, pEscaped, pModule, pIdent, pDot, pComma, pWhitespace, pText,
      leafParser, Res.orElse, pBracket, bracketOf]; rfl⟩

theorem exprItem_esc_nil (body) {t : Token} (h : t.kind = .backSlash) :
    exprItem body [t] = .panic := by
  simp [exprItem, pEscaped, h, Res.orElse]

theorem exprItem_esc (body) {t u : Token} {us} {v} (h : t.kind = .backSlash)
    (hv : escapable u.kind = some v) :
    exprItem body (t :: u :: us) =
      .ok (.node .backSlash [.leaf (.text v) u.loc] t.loc, us) := by
  simp [exprItem, pEscaped, h, hv, Res.orElse]

theorem exprItem_escN (body) {t u : Token} {us} (h : t.kind = .backSlash)
    (hv : escapable u.kind = none) :
    exprItem body (t :: u :: us) = .ok (.node .backSlash [] t.loc, u :: us) := by
  simp [exprItem, pEscaped, h, hv, Res.orElse]

theorem exprItem_open (body) {t : Token} {ts} {b} (h : t.kind = .bopen b) :
    exprItem body (t :: ts) =
      match bracketOf b body (t :: ts) with
      | .ok x => .ok x
      | .err _ => .err "Expected text token, found another token"
      | .panic => .panic := by
  obtain ⟨tk, tl⟩ := t
  cases h
  have hne : ∀ b', b' ≠ b → bracketOf b' body (⟨.bopen b, tl⟩ :: ts) =
      .err "Expected bracket open token, found another token" := by
    intro b' hb'
    have : ¬ (TokKind.bopen b = .bopen b') := by simpa using fun h => hb' h.symm
    simp [bracketOf, this]
  cases b
  · simp only [exprItem, pEscaped, pModule, pIdent, pDot, pComma, pWhitespace, pText, leafParser,
      pBracket, Res.orElse, hne .curly (by decide), hne .square (by decide)]
    rcases bracketOf .angle body (⟨.bopen .angle, tl⟩ :: ts) <;> rfl
  · simp only [exprItem, pEscaped, pModule, pIdent, pDot, pComma, pWhitespace, pText, leafParser,
      pBracket, Res.orElse, hne .angle (by decide), hne .square (by decide)]
    rcases bracketOf .curly body (⟨.bopen .curly, tl⟩ :: ts) <;> rfl
  · simp only [exprItem, pEscaped, pModule, pIdent, pDot, pComma, pWhitespace, pText, leafParser,
      pBracket, Res.orElse, hne .curly (by decide), hne .angle (by decide)]
    rcases bracketOf .square body (⟨.bopen .square, tl⟩ :: ts) <;> rfl

/-- The node built by the bracket parsers. -/
def bracketNode (b : Bracket) (t : Token) (cs : List CST) (u : Token) : CST :=
  .node (.bracket b)
    (CST.leaf (.bopen b) t.loc :: cs ++ (if u.kind = .bclose b then [.leaf (.bclose b) u.loc] else []))
    ⟨t.loc.start, u.loc.stop⟩

/-- The node built by `expr::parse`. -/
def exprNode (c : CST) (cs : List CST) : CST :=
  .node .expr (c :: cs) ⟨c.loc.start, ((c :: cs).getLast (by simp)).loc.stop⟩

theorem foldl_add_node (k : IKind) (cs ds : List CST) (l : Loc) :
    ∃ l', cs.foldl CST.add (.node k ds l) = .node k (ds ++ cs) l' := by
  induction cs generalizing ds l with
  | nil => exact ⟨l, by simp⟩
  | cons c cs ih =>
    obtain ⟨l', h⟩ := ih (ds ++ [c]) (mergeLocation l c.loc)
    exact ⟨l', by simpa [CST.add] using h⟩

theorem foldl_add_new (k : IKind) (cs : List CST) :
    ∃ l', cs.foldl CST.add (CST.new k) = .node k cs l' := by
  simpa [CST.new] using foldl_add_node k cs [] mockLocation

theorem bracketOf_eq (b : Bracket) (body) {t : Token} {ts} (h : t.kind = .bopen b) :
    bracketOf b body (t :: ts) =
      match body ts with
      | .ok (_, []) => .err "Expected even at worst EOF, found none"
      | .ok (cs, u :: us) => .ok (bracketNode b t cs u, if u.kind = .bclose b then us else u :: us)
      | .err m => .err m
      | .panic => .panic := by
  simp only [bracketOf, if_pos h]
  rcases body ts with ⟨cs, _ | ⟨u, us⟩⟩ | m | _ <;> simp only []
  obtain ⟨l, hl⟩ := foldl_add_new (.bracket b) (CST.leaf (.bopen b) t.loc :: cs)
  rw [hl]
  by_cases hu : u.kind = .bclose b <;> simp [hu, CST.add, CST.setLoc, bracketNode]

theorem exprOf_eq (items : List Token → Res (List CST × List Token)) (ts) :
    exprOf items ts =
      match items ts with
      | .ok ([], _) => .err "Expected escaped, module, ident, bracket, dot, comma, whitespace, or text, found none"
      | .ok (c :: cs, r) => .ok (exprNode c cs, r)
      | .err m => .err m
      | .panic => .panic := by
  unfold exprOf
  rcases items ts with ⟨_ | ⟨c, cs⟩, r⟩ | m | _ <;> simp only []
  obtain ⟨l, hl⟩ := foldl_add_new .expr (c :: cs)
  rw [hl]
  rfl

/-- Where an expression stops. -/
def StopAt (ts : List Token) : Prop :=
  ∀ t ∈ ts.head?, itemStop t.kind = true ∨ ((∃ b, t.kind = .bopen b) ∧ ¬ HasEof ts)

mutual

/-- `EI ts cs r`: starting at `ts` the loop of `expr::parse` collects `cs` and stops at `r`. -/
inductive EI : List Token → List CST → List Token → Prop
  | stop {ts} : StopAt ts → EI ts [] ts
  | leaf {t ts k cs r} : exprLeaf t.kind = some k → EI ts cs r →
      EI (t :: ts) (.leaf k t.loc :: cs) r
  | esc {t u us v cs r} : t.kind = .backSlash → escapable u.kind = some v → EI us cs r →
      EI (t :: u :: us) (.node .backSlash [.leaf (.text v) u.loc] t.loc :: cs) r
  | escN {t u us cs r} : t.kind = .backSlash → escapable u.kind = none → EI (u :: us) cs r →
      EI (t :: u :: us) (.node .backSlash [] t.loc :: cs) r
  | bclosed {t ts b cs u us ds r} : t.kind = .bopen b → BI ts cs (u :: us) → u.kind = .bclose b →
      EI us ds r → EI (t :: ts) (bracketNode b t cs u :: ds) r
  | bunclosed {t ts b cs u us ds r} : t.kind = .bopen b → BI ts cs (u :: us) →
      u.kind ≠ .bclose b → EI (u :: us) ds r → EI (t :: ts) (bracketNode b t cs u :: ds) r

/-- `BI ts cs r`: starting at `ts` the loop of a bracket parser collects `cs` and stops at `r`. -/
inductive BI : List Token → List CST → List Token → Prop
  | stop {ts} : StopAt ts → (∀ t ∈ ts.head?, t.kind ≠ .newLine) → BI ts [] ts
  | expr {ts c cs r ds r'} : EI ts (c :: cs) r → BI r ds r' → BI ts (exprNode c cs :: ds) r'
  | newline {t ts ds r} : t.kind = .newLine → BI ts ds r →
      BI (t :: ts) (.leaf .newline t.loc :: ds) r

end

theorem exprLeaf_ne_eof {k l} (h : exprLeaf k = some l) : k ≠ .eof := by
  rintro rfl; simp [exprLeaf] at h

theorem escapable_ne_eof {k l} (h : escapable k = some l) : k ≠ .eof := by
  rintro rfl; simp [escapable] at h

mutual

theorem EI.suffix : ∀ {ts cs r}, EI ts cs r →
    (HasEof ts ↔ HasEof r) ∧ r.length ≤ ts.length ∧ (cs ≠ [] → r.length < ts.length)
  | _, _, _, .stop _ => by simp
  | _, _, _, .leaf (t := t) (ts := ts) hk h => by
    obtain ⟨h1, h2, _⟩ := h.suffix
    have : HasEof (t :: ts) ↔ HasEof ts := ⟨fun h => h.tail (exprLeaf_ne_eof hk), .cons⟩
    simp only [this, h1, List.length_cons]
    exact ⟨trivial, by omega, fun _ => by omega⟩
  | _, _, _, .esc (t := t) (u := u) (us := us) ht hu h => by
    obtain ⟨h1, h2, _⟩ := h.suffix
    have : HasEof (t :: u :: us) ↔ HasEof us :=
      ⟨fun h => (h.tail (by simp [ht])).tail (escapable_ne_eof hu), fun h => h.cons.cons⟩
    simp only [this, h1, List.length_cons]
    exact ⟨trivial, by omega, fun _ => by omega⟩
  | _, _, _, .escN (t := t) (u := u) (us := us) ht hu h => by
    obtain ⟨h1, h2, _⟩ := h.suffix
    have : HasEof (t :: u :: us) ↔ HasEof (u :: us) :=
      ⟨fun h => (h.tail (by simp [ht])), fun h => h.cons⟩
    simp only [List.length_cons] at h2 ⊢
    simp only [this, h1]
    exact ⟨trivial, by omega, fun _ => by omega⟩
  | _, _, _, .bclosed (t := t) (ts := ts) (u := u) (us := us) ht hb hu h => by
    obtain ⟨h1, h2, _⟩ := h.suffix
    obtain ⟨h3, h4⟩ := hb.suffix
    have e1 : HasEof (t :: ts) ↔ HasEof ts := ⟨fun h => h.tail (by simp [ht]), .cons⟩
    have e2 : HasEof (u :: us) ↔ HasEof us := ⟨fun h => h.tail (by simp [hu]), .cons⟩
    simp only [List.length_cons] at h4 ⊢
    simp only [e1, h3, e2, h1]
    exact ⟨trivial, by omega, fun _ => by omega⟩
  | _, _, _, .bunclosed (t := t) (ts := ts) (u := u) (us := us) ht hb hu h => by
    obtain ⟨h1, h2, _⟩ := h.suffix
    obtain ⟨h3, h4⟩ := hb.suffix
    have e1 : HasEof (t :: ts) ↔ HasEof ts := ⟨fun h => h.tail (by simp [ht]), .cons⟩
    simp only [List.length_cons] at h2 h4 ⊢
    simp only [e1, h3, h1]
    exact ⟨trivial, by omega, fun _ => by omega⟩

theorem BI.suffix : ∀ {ts cs r}, BI ts cs r → (HasEof ts ↔ HasEof r) ∧ r.length ≤ ts.length
  | _, _, _, .stop _ _ => by simp
  | _, _, _, .expr he hb => by
    obtain ⟨h1, h2, _⟩ := he.suffix
    obtain ⟨h3, h4⟩ := hb.suffix
    exact ⟨h1.trans h3, by omega⟩
  | _, _, _, .newline (t := t) (ts := ts) ht h => by
    obtain ⟨h1, h2⟩ := h.suffix
    have e1 : HasEof (t :: ts) ↔ HasEof ts := ⟨fun h => h.tail (by simp [ht]), .cons⟩
    simp only [List.length_cons]
    exact ⟨e1.trans h1, by omega⟩

end

theorem EI.rest_stop : ∀ {ts cs r}, EI ts cs r → StopAt r
  | _, _, _, .stop h => h
  | _, _, _, .leaf _ h => h.rest_stop
  | _, _, _, .esc _ _ h => h.rest_stop
  | _, _, _, .escN _ _ h => h.rest_stop
  | _, _, _, .bclosed _ _ _ h => h.rest_stop
  | _, _, _, .bunclosed _ _ _ h => h.rest_stop

theorem BI.rest_stop : ∀ {ts cs r}, BI ts cs r → StopAt r ∧ (∀ t ∈ r.head?, t.kind ≠ .newLine)
  | _, _, _, .stop h h' => ⟨h, h'⟩
  | _, _, _, .expr _ h => h.rest_stop
  | _, _, _, .newline _ h => h.rest_stop

theorem pNewline_nil : ∃ m, pNewline [] = .err m := ⟨_, rfl⟩

theorem pNewline_yes {t : Token} {ts} (h : t.kind = .newLine) :
    pNewline (t :: ts) = .ok (.leaf .newline t.loc, ts) := by
  simp [pNewline, leafParser, h]

theorem pNewline_no {t : Token} {ts} (h : t.kind ≠ .newLine) :
    ∃ m, pNewline (t :: ts) = .err m := by
  obtain ⟨k, l⟩ := t
  cases k <;> simp at h <;> exact ⟨_, rfl⟩

/-- Neither loop returns an error, and every successful run is described by `EI` / `BI`. -/
theorem items_sound (n : Nat) :
    (∀ ts, (∀ m, exprItems n ts ≠ .err m) ∧ ∀ cs r, exprItems n ts = .ok (cs, r) → EI ts cs r) ∧
    (∀ ts, (∀ m, bodyItems n ts ≠ .err m) ∧ ∀ cs r, bodyItems n ts = .ok (cs, r) → BI ts cs r) := by
  induction n with
  | zero => simp [exprItems, bodyItems]
  | succ n ih =>
    obtain ⟨ihE, ihB⟩ := ih
    -- what follows an item
    have next : ∀ (c : CST) ts', (∀ m, (match exprItems n ts' with
        | .ok (cs, r) => Res.ok (c :: cs, r)
        | .err m => .err m
        | .panic => .panic : Res (List CST × List Token)) ≠ .err m) ∧
        ∀ cs r, (match exprItems n ts' with
        | .ok (cs, r) => Res.ok (c :: cs, r)
        | .err m => .err m
        | .panic => .panic : Res (List CST × List Token)) = .ok (cs, r) →
        ∃ ds, cs = c :: ds ∧ EI ts' ds r := by
      intro c ts'
      obtain ⟨h1, h2⟩ := ihE ts'
      rcases hx : exprItems n ts' with ⟨cs, r⟩ | m | _
      · simp only [ne_eq, reduceCtorEq, not_false_eq_true, implies_true, true_and, Res.ok.injEq,
          Prod.mk.injEq, and_imp]
        rintro cs' r' rfl rfl
        exact ⟨cs, rfl, h2 _ _ hx⟩
      · exact absurd hx (h1 m)
      · simp
    constructor
    · intro ts
      simp only [exprItems]
      rcases ts with _ | ⟨t, ts⟩
      · obtain ⟨m, hm⟩ := exprItem_nil (bodyItems n)
        rw [hm]
        refine ⟨by simp, ?_⟩
        simp only [Res.ok.injEq, Prod.mk.injEq, and_imp]
        rintro cs r rfl rfl
        exact .stop (by simp [StopAt])
      · rcases kind_cases t.kind with ⟨l, hl⟩ | hb | ⟨b, hb⟩ | hs
        · rw [exprItem_leaf _ hl]
          refine ⟨(next _ _).1, fun cs r h => ?_⟩
          obtain ⟨ds, rfl, hd⟩ := (next _ _).2 _ _ h
          exact .leaf hl hd
        · rcases ts with _ | ⟨u, us⟩
          · rw [exprItem_esc_nil _ hb]; simp
          · rcases hv : escapable u.kind with _ | v
            · rw [exprItem_escN _ hb hv]
              refine ⟨(next _ _).1, fun cs r h => ?_⟩
              obtain ⟨ds, rfl, hd⟩ := (next _ _).2 _ _ h
              exact .escN hb hv hd
            · rw [exprItem_esc _ hb hv]
              refine ⟨(next _ _).1, fun cs r h => ?_⟩
              obtain ⟨ds, rfl, hd⟩ := (next _ _).2 _ _ h
              exact .esc hb hv hd
        · rw [exprItem_open _ hb, bracketOf_eq _ _ hb]
          rcases hx : bodyItems n ts with ⟨cs, _ | ⟨u, us⟩⟩ | m | _
          · have hBI := (ihB ts).2 _ _ hx
            refine ⟨by simp, ?_⟩
            simp only [Res.ok.injEq, Prod.mk.injEq, and_imp]
            rintro cs r rfl rfl
            refine .stop ?_
            simp only [StopAt, List.head?_cons, Option.mem_def, Option.some.injEq, forall_eq']
            refine .inr ⟨⟨b, hb⟩, fun h => not_hasEof_nil (hBI.suffix.1.mp (h.tail (by simp [hb])))⟩
          · have hBI := (ihB ts).2 _ _ hx
            simp only []
            refine ⟨(next _ _).1, fun cs r h => ?_⟩
            obtain ⟨ds, rfl, hd⟩ := (next _ _).2 _ _ h
            by_cases hu : u.kind = .bclose b
            · rw [if_pos hu] at hd
              exact .bclosed hb hBI hu hd
            · rw [if_neg hu] at hd
              exact .bunclosed hb hBI hu hd
          · exact absurd hx ((ihB ts).1 m)
          · simp
        · obtain ⟨m, hm⟩ := exprItem_stop (bodyItems n) (ts := ts) hs
          rw [hm]
          refine ⟨by simp, ?_⟩
          simp only [Res.ok.injEq, Prod.mk.injEq, and_imp]
          rintro cs r rfl rfl
          exact .stop (by simp [StopAt, hs])
    · intro ts
      simp only [bodyItems, exprOf_eq]
      have nextB : ∀ (c : CST) ts', (∀ m, (match bodyItems n ts' with
          | .ok (cs, r) => Res.ok (c :: cs, r)
          | .err m => .err m
          | .panic => .panic : Res (List CST × List Token)) ≠ .err m) ∧
          ∀ cs r, (match bodyItems n ts' with
          | .ok (cs, r) => Res.ok (c :: cs, r)
          | .err m => .err m
          | .panic => .panic : Res (List CST × List Token)) = .ok (cs, r) →
          ∃ ds, cs = c :: ds ∧ BI ts' ds r := by
        intro c ts'
        obtain ⟨h1, h2⟩ := ihB ts'
        rcases hx : bodyItems n ts' with ⟨cs, r⟩ | m | _
        · simp only [ne_eq, reduceCtorEq, not_false_eq_true, implies_true, true_and, Res.ok.injEq,
            Prod.mk.injEq, and_imp]
          rintro cs' r' rfl rfl
          exact ⟨cs, rfl, h2 _ _ hx⟩
        · exact absurd hx (h1 m)
        · simp
      rcases hx : exprItems n ts with ⟨_ | ⟨c, cs⟩, r⟩ | m | _
      · have hEI := (ihE ts).2 _ _ hx
        have hst : StopAt ts := by cases hEI; assumption
        simp only [Res.orElse]
        rcases ts with _ | ⟨t, ts⟩
        · obtain ⟨m, hm⟩ := pNewline_nil
          rw [hm]
          refine ⟨by simp, ?_⟩
          simp only [Res.ok.injEq, Prod.mk.injEq, and_imp]
          rintro cs r rfl rfl
          exact .stop hst (by simp)
        · by_cases ht : t.kind = .newLine
          · rw [pNewline_yes ht]
            refine ⟨(nextB _ _).1, fun cs r h => ?_⟩
            obtain ⟨ds, rfl, hd⟩ := (nextB _ _).2 _ _ h
            exact .newline ht hd
          · obtain ⟨m, hm⟩ := pNewline_no (ts := ts) ht
            rw [hm]
            refine ⟨by simp, ?_⟩
            simp only [Res.ok.injEq, Prod.mk.injEq, and_imp]
            rintro cs r rfl rfl
            exact .stop hst (by simp [ht])
      · have hEI := (ihE ts).2 _ _ hx
        simp only [Res.orElse]
        refine ⟨(nextB _ _).1, fun cs r h => ?_⟩
        obtain ⟨ds, rfl, hd⟩ := (nextB _ _).2 _ _ h
        exact .expr hEI hd
      · exact absurd hx ((ihE ts).1 m)
      · simp [Res.orElse]

end Brack
