import Verif.Model.Transform
import Verif.Proof.ParserTree

/-
Helper lemmas: a big-step description of `simplify` on trees that follow the concrete grammar.
-/

namespace Brack

/-- Errors of a bracket found after its children have been simplified, except for the end check. -/
def bracketErrs (csts : List CST) : List TErr :=
  checkModule csts ++ checkDot csts ++ checkIdent csts ++ checkUnexpectedDot csts ++
    (checkValidArguments (removeBlanks csts)).2

/-- Children of a simplified bracket. -/
def bracketKids (csts : List CST) : List CST :=
  removeElements (checkValidArguments (removeBlanks csts)).1

/-- The error of the end check of an unclosed bracket. -/
def notClosedErr (b : Bracket) (l1 : Loc) (ds : List CST) : TErr :=
  ⟨.notClosed b, mergeLocation l1 ((CST.leaf (.bopen b) l1 :: ds).getLast (by simp)).loc⟩

mutual

/-- `XI c d es`: the expression item `c` is simplified to `d` with errors `es`. -/
inductive XI : CST → CST → List TErr → Prop
  | leaf {k l} : k.inExpr = true → XI (.leaf k l) (.leaf k l) []
  | escaped {c k l l'} : (c, k) ∈ escapes →
      XI (.node .backSlash [.leaf (.text [c]) l'] l) (.leaf (.text [c]) l') []
  | stray {l} : XI (.node .backSlash [] l) (.leaf .invalid l) [⟨.invalidBackslash, l⟩]
  | closed {b cs l l1 l2 ds es} : XB cs ds es →
      XI (.node (.bracket b) (.leaf (.bopen b) l1 :: cs ++ [.leaf (.bclose b) l2]) l)
        (.node (.bracket b) (bracketKids (.leaf (.bopen b) l1 :: ds ++ [.leaf (.bclose b) l2])) l)
        (es ++ bracketErrs (.leaf (.bopen b) l1 :: ds ++ [.leaf (.bclose b) l2]))
  | unclosed {b cs l l1 ds es} : XB cs ds es →
      XI (.node (.bracket b) (.leaf (.bopen b) l1 :: cs) l)
        (.node (.bracket b) (bracketKids (.leaf (.bopen b) l1 :: ds)) l)
        (es ++ [notClosedErr b l1 ds] ++ bracketErrs (.leaf (.bopen b) l1 :: ds))

/-- The items of an expression. -/
inductive XL : List CST → List CST → List TErr → Prop
  | nil : XL [] [] []
  | cons {c d es cs ds fs} : XI c d es → XL cs ds fs → XL (c :: cs) (d :: ds) (es ++ fs)

/-- The body of a bracket; the simplified expressions are spliced. -/
inductive XB : List CST → List CST → List TErr → Prop
  | nil : XB [] [] []
  | expr {cs l ds es rest ds' es'} : cs ≠ [] → XL cs ds es → XB rest ds' es' →
      XB (.node .expr cs l :: rest) (ds ++ ds') (es ++ es')
  | newline {l rest ds es} : XB rest ds es →
      XB (.leaf .newline l :: rest) (.leaf .newline l :: ds) es

end

/-- Trees found among the simplified children of a bracket. -/
def CST.simple : CST → Bool
  | .leaf k _ => k.inExpr || k = .newline || k = .invalid
  | .node (.bracket _) _ _ => true
  | _ => false

/-- Simplified expression items. -/
def CST.simpleItem : CST → Bool
  | .leaf k _ => k.inExpr || k = .invalid
  | .node (.bracket _) _ _ => true
  | _ => false

theorem CST.simple_of_item {c : CST} (h : c.simpleItem = true) : c.simple = true := by
  rcases c with ⟨k, l⟩ | ⟨k, cs, l⟩
  · cases k <;> simp_all [simple, simpleItem]
  · cases k <;> simp_all [simple, simpleItem]

theorem XI.simple {c d es} (h : XI c d es) : d.simpleItem = true := by
  cases h with
  | leaf h => simp [CST.simpleItem, h]
  | escaped => simp [CST.simpleItem, LKind.inExpr]
  | stray => simp [CST.simpleItem]
  | closed => simp [CST.simpleItem]
  | unclosed => simp [CST.simpleItem]

theorem XL.simple : ∀ {cs ds es}, XL cs ds es → ∀ d ∈ ds, d.simpleItem = true
  | _, _, _, .nil => by simp
  | _, _, _, .cons h hs => by
    have := hs.simple
    simpa using ⟨h.simple, this⟩

theorem XB.simple : ∀ {cs ds es}, XB cs ds es → ∀ d ∈ ds, d.simple = true
  | _, _, _, .nil => by simp
  | _, _, _, .expr _ h hs => by
    intro d hd
    rcases List.mem_append.mp hd with hd | hd
    · exact CST.simple_of_item (h.simple d hd)
    · exact hs.simple d hd
  | _, _, _, .newline hs => by
    have := hs.simple
    simpa [CST.simple] using this

/-! ### existence -/

mutual

theorem GItem.xi : ∀ {c}, GItem c → ∃ d es, XI c d es
  | _, .leaf h => ⟨_, _, .leaf h⟩
  | _, .escaped h => ⟨_, _, .escaped h⟩
  | _, .backslash => ⟨_, _, .stray⟩
  | _, .closed h => by obtain ⟨ds, es, h⟩ := h.xb; exact ⟨_, _, .closed h⟩
  | _, .unclosed h => by obtain ⟨ds, es, h⟩ := h.xb; exact ⟨_, _, .unclosed h⟩

theorem GBody.xb : ∀ {cs}, GBody cs → ∃ ds es, XB cs ds es
  | _, .nil => ⟨_, _, .nil⟩
  | _, @GBody.expr cs _ _ hne h hb => by
    have hL : ∃ ds es, XL cs ds es := by
      have h' : ∀ c ∈ cs, ∃ d es, XI c d es := fun c hc => (h c hc).xi
      clear h hne
      induction cs with
      | nil => exact ⟨_, _, .nil⟩
      | cons c cs ih =>
        obtain ⟨d, es, h1⟩ := h' c (by simp)
        obtain ⟨ds, fs, h2⟩ := ih (fun c hc => h' c (by simp [hc]))
        exact ⟨_, _, .cons h1 h2⟩
    obtain ⟨ds, es, hL⟩ := hL
    obtain ⟨ds', es', hB⟩ := hb.xb
    exact ⟨_, _, .expr hne hL hB⟩
  | _, .newline h => by obtain ⟨ds, es, h⟩ := h.xb; exact ⟨_, _, .newline h⟩

end

theorem xl_of_items {cs : List CST} (h : ∀ c ∈ cs, GItem c) : ∃ ds es, XL cs ds es := by
  induction cs with
  | nil => exact ⟨_, _, .nil⟩
  | cons c cs ih =>
    obtain ⟨d, es, h1⟩ := (h c (by simp)).xi
    obtain ⟨ds, fs, h2⟩ := ih (fun c hc => h c (by simp [hc]))
    exact ⟨_, _, .cons h1 h2⟩

/-! ### soundness -/

theorem simplifyL_append {cs ds : List CST} {a b es fs} (h1 : simplifyL cs = .ok (a, es))
    (h2 : simplifyL ds = .ok (b, fs)) : simplifyL (cs ++ ds) = .ok (a ++ b, es ++ fs) := by
  induction cs generalizing a es with
  | nil =>
    simp only [simplifyL] at h1
    cases h1
    simpa using h2
  | cons c cs ih =>
    simp only [simplifyL, List.cons_append] at h1 ⊢
    rcases hc : simplify c with ⟨d, e⟩ | m | _ <;> rw [hc] at h1 <;> simp only [] at h1 ⊢
    · rcases hcs : simplifyL cs with ⟨d', e'⟩ | m | _ <;> rw [hcs] at h1 <;> simp only [] at h1
      · cases h1
        rw [ih hcs]
        simp
      · cases h1
      · cases h1
    · cases h1
    · cases h1

theorem splice_item {d : CST} (h : d.simpleItem = true) : spliceExpr d = [d] := by
  rcases d with ⟨k, l⟩ | ⟨k, cs, l⟩
  · rfl
  · cases k <;> simp_all [CST.simpleItem, spliceExpr]

theorem simplify_expr {cs ds es l} (h : simplifyL cs = .ok (ds, es)) :
    simplify (.node .expr cs l) = .ok (.node .expr ds l, es) := by
  simp [simplify, h, finishNode]

theorem simplify_stmt {cs ds es l} (h : simplifyL cs = .ok (ds, es)) :
    simplify (.node .stmt cs l) = .ok (.node .stmt (removeElements ds) l, es) := by
  simp [simplify, h, finishNode]

theorem simplify_document {cs ds es l} (h : simplifyL cs = .ok (ds, es)) :
    simplify (.node .document cs l) = .ok (.node .document (removeElements ds) l, es) := by
  simp [simplify, h, finishNode]

theorem simplify_bracket {b cs ds es l} (h : simplifyL cs = .ok (ds, es)) :
    simplify (.node (.bracket b) cs l) = finishBracket b l (ds.flatMap spliceExpr) es := by
  simp [simplify, h, finishNode]

theorem checkEnds_closed (b l1 ds l2) :
    checkEnds b (.leaf (.bopen b) l1 :: ds ++ [.leaf (.bclose b) l2]) = .ok [] := by
  simp [checkEnds, List.getLast?_cons, List.getLast?_append]

theorem checkEnds_unclosed (b l1) {ds : List CST} (h : ∀ d ∈ ds, d.simple = true) :
    checkEnds b (.leaf (.bopen b) l1 :: ds) = .ok [notClosedErr b l1 ds] := by
  rcases List.eq_nil_or_concat ds with rfl | ⟨cs, d, rfl⟩
  · simp [checkEnds, notClosedErr]
  · rw [List.concat_eq_append] at h ⊢
    have hd := h d (by simp)
    rcases d with ⟨k, l⟩ | ⟨k, cs, l⟩
    · cases k <;> simp [CST.simple, LKind.inExpr] at hd <;>
        simp [checkEnds, List.getLast?_cons, List.getLast?_append, notClosedErr, List.getLast_cons]
    · simp [checkEnds, List.getLast?_cons, List.getLast?_append, notClosedErr, List.getLast_cons]

mutual

theorem XI.simplify : ∀ {c d es}, XI c d es → simplify c = .ok (d, es)
  | _, _, _, .leaf _ => by simp [Brack.simplify]
  | _, _, _, .escaped _ => by simp [Brack.simplify]
  | _, _, _, .stray => by simp [Brack.simplify]
  | _, _, _, @XI.closed b cs l l1 l2 ds es h => by
    obtain ⟨ds0, h1, h2⟩ := h.simplify
    have h3 : simplifyL (.leaf (.bopen b) l1 :: cs ++ [.leaf (.bclose b) l2]) =
        .ok (.leaf (.bopen b) l1 :: ds0 ++ [.leaf (.bclose b) l2], es) := by
      have h0 : ∀ k l, simplifyL [.leaf k l] = .ok ([.leaf k l], []) := by
        intro k l; simp [simplifyL, Brack.simplify]
      simpa using simplifyL_append (h0 _ _) (simplifyL_append h1 (h0 _ _))
    rw [simplify_bracket h3]
    have h4 : (CST.leaf (.bopen b) l1 :: ds0 ++ [CST.leaf (.bclose b) l2]).flatMap spliceExpr =
        CST.leaf (.bopen b) l1 :: ds ++ [CST.leaf (.bclose b) l2] := by
      simp [List.flatMap_append, h2, spliceExpr]
    simp only [finishBracket, h4, checkEnds_closed, bracketErrs, bracketKids, List.append_nil,
      List.append_assoc]
  | _, _, _, @XI.unclosed b cs l l1 ds es h => by
    obtain ⟨ds0, h1, h2⟩ := h.simplify
    have h3 : simplifyL (.leaf (.bopen b) l1 :: cs) = .ok (.leaf (.bopen b) l1 :: ds0, es) := by
      simp [simplifyL, Brack.simplify, h1]
    rw [simplify_bracket h3]
    have h4 : (CST.leaf (.bopen b) l1 :: ds0).flatMap spliceExpr = .leaf (.bopen b) l1 :: ds := by
      simp [h2, spliceExpr]
    simp only [finishBracket, h4, checkEnds_unclosed b l1 h.simple, bracketErrs, bracketKids,
      List.append_assoc]

theorem XL.simplify : ∀ {cs ds es}, XL cs ds es → simplifyL cs = .ok (ds, es)
  | _, _, _, .nil => by simp [simplifyL]
  | _, _, _, .cons h hs => by simp [simplifyL, h.simplify, hs.simplify]

theorem XB.simplify : ∀ {cs ds es}, XB cs ds es →
    ∃ ds0, simplifyL cs = .ok (ds0, es) ∧ ds0.flatMap spliceExpr = ds
  | _, _, _, .nil => ⟨[], by simp [simplifyL], rfl⟩
  | _, _, _, @XB.expr _ l ds _ _ _ _ _ h hs => by
    obtain ⟨ds0, h1, h2⟩ := hs.simplify
    exact ⟨.node .expr ds l :: ds0, by simp [simplifyL, simplify_expr h.simplify, h1], by simp [h2, spliceExpr]⟩
  | _, _, _, .newline (l := l) hs => by
    obtain ⟨ds0, h1, h2⟩ := hs.simplify
    exact ⟨.leaf .newline l :: ds0, by simp [simplifyL, h1, Brack.simplify], by simp [h2, spliceExpr]⟩

end

/-! ### lines, statements, documents -/

/-- A line of a statement. -/
inductive XLine : CST → List CST → List TErr → Prop
  | close {b l} : XLine (.leaf (.bclose b) l) [] []
  | newline {l} : XLine (.leaf .newline l) [] []
  | expr {cs ds es l} : cs ≠ [] → XL cs ds es → XLine (.node .expr cs l) [.node .expr ds l] es

/-- The lines of a statement. -/
inductive XLines : List CST → List CST → List TErr → Prop
  | nil : XLines [] [] []
  | cons {c d es cs ds fs} : XLine c d es → XLines cs ds fs → XLines (c :: cs) (d ++ ds) (es ++ fs)

/-- A child of the document. -/
inductive XChild : CST → List CST → List TErr → Prop
  | stmt {cs ds es l} : XLines cs ds es → XChild (.node .stmt cs l) [.node .stmt ds l] es
  | newline {l} : XChild (.leaf .newline l) [] []
  | eof {l} : XChild (.leaf .eof l) [] []

/-- The children of a document. -/
inductive XDoc : List CST → List CST → List TErr → Prop
  | nil : XDoc [] [] []
  | cons {c d es cs ds fs} : XChild c d es → XDoc cs ds fs → XDoc (c :: cs) (d ++ ds) (es ++ fs)

theorem XLine.simplify {c ds es} (h : XLine c ds es) :
    ∃ d, simplify c = .ok (d, es) ∧ removeElements [d] = ds := by
  cases h with
  | close => exact ⟨_, by simp only [Brack.simplify]; rfl, rfl⟩
  | newline => exact ⟨_, by simp only [Brack.simplify]; rfl, rfl⟩
  | expr hne h => exact ⟨_, simplify_expr h.simplify, rfl⟩

theorem removeElements_cons (d : CST) (ds : List CST) :
    removeElements (d :: ds) = removeElements [d] ++ removeElements ds := by
  simp only [removeElements, ← List.filter_append]; rfl

theorem XLines.simplify : ∀ {cs ds es}, XLines cs ds es →
    ∃ ds0, simplifyL cs = .ok (ds0, es) ∧ removeElements ds0 = ds
  | _, _, _, .nil => ⟨[], by simp [simplifyL], rfl⟩
  | _, _, _, .cons h hs => by
    obtain ⟨ds0, h1, h2⟩ := hs.simplify
    obtain ⟨d, h3, h4⟩ := h.simplify
    exact ⟨d :: ds0, by simp [simplifyL, h1, h3], by rw [removeElements_cons, h2, h4]⟩

theorem XChild.simplify {c ds es} (h : XChild c ds es) :
    ∃ d, simplify c = .ok (d, es) ∧ removeElements [d] = ds := by
  cases h with
  | newline => exact ⟨_, by simp only [Brack.simplify]; rfl, rfl⟩
  | eof => exact ⟨_, by simp only [Brack.simplify]; rfl, rfl⟩
  | stmt h =>
    obtain ⟨ds0, h1, rfl⟩ := h.simplify
    exact ⟨_, simplify_stmt h1, rfl⟩

theorem XDoc.simplify : ∀ {cs ds es}, XDoc cs ds es →
    ∃ ds0, simplifyL cs = .ok (ds0, es) ∧ removeElements ds0 = ds
  | _, _, _, .nil => ⟨[], by simp [simplifyL], rfl⟩
  | _, _, _, .cons h hs => by
    obtain ⟨ds0, h1, h2⟩ := hs.simplify
    obtain ⟨d, h3, h4⟩ := h.simplify
    exact ⟨d :: ds0, by simp [simplifyL, h1, h3], by rw [removeElements_cons, h2, h4]⟩

theorem XDoc.simplify_document {cs ds es l} (h : XDoc cs ds es) :
    Brack.simplify (.node .document cs l) = .ok (.node .document ds l, es) := by
  obtain ⟨ds0, h1, rfl⟩ := h.simplify
  exact Brack.simplify_document h1

theorem XDoc.append {cs ds es cs' ds' es'} (h : XDoc cs ds es) (h' : XDoc cs' ds' es') :
    XDoc (cs ++ cs') (ds ++ ds') (es ++ es') := by
  induction h with
  | nil => simpa using h'
  | cons h1 _ ih => simpa using XDoc.cons h1 ih

theorem GLine.xline {c} (h : GLine c) : ∃ ds es, XLine c ds es := by
  cases h with
  | close => exact ⟨_, _, .close⟩
  | expr hne h => obtain ⟨ds, es, h⟩ := xl_of_items h; exact ⟨_, _, .expr hne h⟩

theorem GLines.xlines {cs} (h : GLines cs) : ∃ ds es, XLines cs ds es := by
  induction h with
  | one h => obtain ⟨ds, es, h⟩ := h.xline; exact ⟨_, _, .cons h .nil⟩
  | more h _ ih =>
    obtain ⟨ds, es, h⟩ := h.xline
    obtain ⟨ds', es', h'⟩ := ih
    exact ⟨_, _, .cons h (.cons .newline h')⟩

theorem GStmt.xchild {c} (h : GStmt c) : ∃ ds es, XChild c ds es := by
  cases h with
  | mk h => obtain ⟨ds, es, h⟩ := h.xlines; exact ⟨_, _, .stmt h⟩

theorem GNewlines.xdoc {cs} (h : GNewlines cs) : XDoc cs [] [] := by
  induction cs with
  | nil => exact .nil
  | cons c cs ih =>
    obtain ⟨l, rfl⟩ := h c (by simp)
    exact .cons (d := []) (es := []) .newline (ih (fun c hc => h c (by simp [hc])))

theorem GChildren.xdoc {cs} (h : GChildren cs) : ∃ ds es, XDoc cs ds es := by
  induction h with
  | more hs hn _ ih =>
    obtain ⟨ds, es, h⟩ := hs.xchild
    obtain ⟨ds', es', h'⟩ := ih
    exact ⟨_, _, .append (.cons h (.cons .newline (.cons .newline hn.xdoc))) h'⟩
  | last hs hn =>
    obtain ⟨ds, es, h⟩ := hs.xchild
    exact ⟨_, _, .append (.cons h hn.xdoc) (.cons .eof .nil)⟩
  | empty hn => exact ⟨_, _, .append hn.xdoc (.cons .eof .nil)⟩

theorem GDocument.xdoc {c} (h : GDocument c) :
    ∃ cs l ds es, c = .node .document cs l ∧ XDoc cs ds es := by
  cases h with
  | mk h => obtain ⟨ds, es, h⟩ := h.xdoc; exact ⟨_, _, _, _, rfl, h⟩

end Brack
