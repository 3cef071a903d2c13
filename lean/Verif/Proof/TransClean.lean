import Verif.Proof.TransErrs

/-
Helper lemmas: what `simplify` produces when it reports no error.
-/

namespace Brack

/-- What a simplified tree contributes to the bracket it stands in. -/
def CST.spieces : CST → List Piece
  | .leaf .whitespace _ | .leaf .newline _ => []
  | .leaf .comma _ => [.comma]
  | .leaf .dot _ => [.dot]
  | c => [.part c.sshape]

def CST.spiecesL (cs : List CST) : List Piece := cs.flatMap CST.spieces

theorem spieces_item {c : CST} (h : c.isArgItem = true) (hb : c.isBlank = false) :
    c.spieces = [.part c.sshape] := by
  rcases c with ⟨k, l⟩ | ⟨k, cs, l⟩
  · cases k <;> simp_all [CST.isArgItem, CST.isBlank, CST.spieces]
  · simp [CST.spieces]

theorem spieces_blank {c : CST} (hb : c.isBlank = true) : c.spieces = [] := by
  rcases c with ⟨k, l⟩ | ⟨k, cs, l⟩
  · cases k <;> simp_all [CST.isBlank, CST.spieces]
  · simp [CST.isBlank] at hb

theorem spiecesL_removeBlanks (cs : List CST) :
    CST.spiecesL (removeBlanks cs) = CST.spiecesL cs := by
  induction cs with
  | nil => rfl
  | cons c cs ih =>
    rw [removeBlanks_cons, CST.spiecesL, List.flatMap_append]
    rcases hb : c.isBlank
    · simp only [removeBlanks, List.filter_cons, hb, List.filter_nil, Bool.not_false, if_true,
        CST.spiecesL, List.flatMap_cons, List.flatMap_nil, List.append_nil] at ih ⊢
      rw [ih]
    · simp only [removeBlanks, List.filter_cons, hb, List.filter_nil, Bool.not_true,
        Bool.false_eq_true, if_false, CST.spiecesL, List.flatMap_cons, List.flatMap_nil,
        List.nil_append, spieces_blank hb] at ih ⊢
      rw [ih]

theorem commaGroups_ne (ps) : commaGroups ps ≠ [] := by
  rcases ps with _ | ⟨p, ps⟩
  · simp [commaGroups]
  · cases p <;> simp [commaGroups] <;> split <;> simp

theorem commaGroups_parts (xs : List Shape) (ps) :
    ∃ g gs, commaGroups ps = g :: gs ∧
      commaGroups (xs.map .part ++ ps) = (xs.map .part ++ g) :: gs := by
  rcases h : commaGroups ps with _ | ⟨g, gs⟩
  · exact absurd h (commaGroups_ne _)
  · refine ⟨g, gs, rfl, ?_⟩
    induction xs with
    | nil => simpa using h
    | cons x xs ih => simp [commaGroups, ih]

theorem partsOf_map (xs : List Shape) (ps) : partsOf (xs.map .part ++ ps) = xs ++ partsOf ps := by
  induction xs with
  | nil => rfl
  | cons x xs ih => simp [partsOf, ih]

/-- The shapes of the arguments: one per group. -/
def groupShapes (ps : List Piece) : List Shape :=
  (commaGroups ps).map (fun g => .node .expr (partsOf g))

/-- Splitting without errors: the groups between the commas. -/
theorem argLoop_clean {b lc} (cs : List CST) (hs : ∀ c ∈ cs, c.simple = true)
    (hb : ∀ c ∈ cs, c.isBlank = false) :
    ∀ prev xs l comma,
      (argLoop prev (.node .expr xs l) comma (cs ++ [.leaf (.bclose b) lc])).2 = [] →
      (xs = [] ∧ cs = [] ∧ comma = false ∧
        (argLoop prev (.node .expr xs l) comma (cs ++ [.leaf (.bclose b) lc])).1 =
          [.leaf (.bclose b) lc]) ∨
      (¬ (xs = [] ∧ cs = []) ∧
      ∃ gs, (argLoop prev (.node .expr xs l) comma (cs ++ [.leaf (.bclose b) lc])).1 =
          gs ++ [.leaf (.bclose b) lc] ∧
        gs.map CST.sshape = groupShapes ((CST.sshapeL xs).map .part ++ CST.spiecesL cs)) := by
  induction cs with
  | nil =>
    intro prev xs l comma h
    rcases xs with _ | ⟨x, xs⟩
    · left
      cases comma
      · simp [argLoop, CST.children]
      · simp [argLoop, CST.children] at h
    · right
      refine ⟨by simp, [.node .expr (x :: xs) l], ?_, ?_⟩
      · rw [List.nil_append, argLoop_tail (.inr ⟨b, lc, rfl⟩)]; simp
      · obtain ⟨g, gs, h1, h2⟩ := commaGroups_parts (CST.sshapeL (x :: xs)) []
        simp only [commaGroups, List.cons.injEq] at h1
        obtain ⟨rfl, rfl⟩ := h1
        simp only [groupShapes, CST.spiecesL, List.flatMap_nil, h2, List.map_cons, List.map_nil]
        rw [partsOf_map]
        simp [CST.sshape, IKind.toAst, partsOf]
  | cons c cs ih =>
    intro prev xs l comma h
    have ih := ih (fun c hc => hs c (by simp [hc])) (fun c hc => hb c (by simp [hc]))
    rcases simple_cases (hs c (by simp)) with ⟨l', rfl⟩ | ⟨l', rfl⟩ | hc
    · rcases xs with _ | ⟨x, xs⟩
      · rw [List.cons_append, argLoop_comma_nil] at h
        simp at h
      · right
        refine ⟨by simp, ?_⟩
        rw [List.cons_append, argLoop_comma_cons] at h ⊢
        simp only [CST.new] at h ⊢
        obtain ⟨g, gs, h1, h2⟩ := commaGroups_parts (CST.sshapeL (x :: xs))
          (CST.spiecesL (.leaf .comma l' :: cs))
        have h3 : commaGroups (CST.spiecesL (.leaf .comma l' :: cs)) =
            [] :: commaGroups (CST.spiecesL cs) := by
          simp [CST.spiecesL, CST.spieces, commaGroups]
        rw [h3] at h1
        simp only [List.cons.injEq] at h1
        obtain ⟨rfl, rfl⟩ := h1
        rcases ih _ _ _ _ h with ⟨_, _, h4, _⟩ | ⟨_, gs, h4, h5⟩
        · simp at h4
        · refine ⟨.node .expr (x :: xs) l :: gs, by rw [h4]; simp, ?_⟩
          rw [groupShapes, h2, List.map_cons, List.map_cons, h5, partsOf_map]
          simp [CST.sshape, IKind.toAst, partsOf, groupShapes, CST.sshapeL]
    · rw [List.cons_append, argLoop_dot] at h
      simp at h
    · rw [List.cons_append, argLoop_item hc] at h ⊢
      right
      refine ⟨by simp, ?_⟩
      have hp := spieces_item hc (hb c (by simp))
      rcases ih _ _ _ _ h with ⟨h4, _⟩ | ⟨_, gs, h4, h5⟩
      · simp at h4
      · refine ⟨gs, h4, ?_⟩
        rw [h5]
        simp [sshapeL_eq, CST.spiecesL, hp]

/-- An item allowed in an argument has non-empty children. -/
theorem bracket_clean {b l1 l2} {ds : List CST} (hs : ∀ d ∈ ds, d.simple = true)
    (h : bracketErrs (.leaf (.bopen b) l1 :: ds ++ [.leaf (.bclose b) l2]) = []) :
    ∃ m ld i rest gs, ds = m :: .leaf .dot ld :: i :: rest ∧ m.isModuleOrAngle = true ∧
      i.isIdentOrAngle = true ∧
      bracketKids (.leaf (.bopen b) l1 :: ds ++ [.leaf (.bclose b) l2]) = m :: i :: gs ∧
      (∀ g ∈ gs, ∃ ys l, g = .node .expr ys l ∧ ys ≠ [] ∧
        ∀ y ∈ ys, y ∈ rest ∧ y.isArgItem = true ∧ y.isBlank = false) ∧
      gs.map CST.sshape = argumentsOf (CST.spiecesL rest) := by
  simp only [bracketErrs, List.append_eq_nil_iff] at h
  obtain ⟨⟨⟨⟨h1, h2⟩, h3⟩, h4⟩, h5⟩ := h
  have good : ∀ {i good kind csts c}, checkAt i good kind csts = [] → csts[i]? = some c →
      good c = true := by
    intro i good kind csts c h hc
    rw [checkAt, hc] at h
    simp only [] at h
    split at h
    · assumption
    · simp at h
  rcases ds with _ | ⟨m, _ | ⟨d, _ | ⟨i, rest⟩⟩⟩
  · have := good h1 rfl
    simp [CST.isModuleOrAngle] at this
  · have := good h2 rfl
    simp [CST.isDot] at this
  · have := good h3 rfl
    simp [CST.isIdentOrAngle] at this
  · have hm : m.isModuleOrAngle = true := good h1 rfl
    have hd : d.isDot = true := good h2 rfl
    have hi : i.isIdentOrAngle = true := good h3 rfl
    have hd' : ∃ ld, d = .leaf .dot ld := by
      rcases d with ⟨k, l⟩ | ⟨k, cs, l⟩
      · cases k <;> simp [CST.isDot] at hd
        exact ⟨_, rfl⟩
      · simp [CST.isDot] at hd
    obtain ⟨ld, rfl⟩ := hd'
    have hmb : m.isBlank = false := by
      rcases m with ⟨k, l⟩ | ⟨k, cs, l⟩
      · cases k <;> simp_all [CST.isModuleOrAngle, CST.isBlank]
      · rfl
    have hib : i.isBlank = false := by
      rcases i with ⟨k, l⟩ | ⟨k, cs, l⟩
      · cases k <;> simp_all [CST.isIdentOrAngle, CST.isBlank]
      · rfl
    have hmn : m.notInAst = false := by
      rcases m with ⟨k, l⟩ | ⟨k, cs, l⟩
      · cases k <;> simp_all [CST.isModuleOrAngle, CST.notInAst]
      · rfl
    have hin : i.notInAst = false := by
      rcases i with ⟨k, l⟩ | ⟨k, cs, l⟩
      · cases k <;> simp_all [CST.isIdentOrAngle, CST.notInAst]
      · rfl
    have hrb : removeBlanks (.leaf (.bopen b) l1 :: (m :: .leaf .dot ld :: i :: rest) ++
        [.leaf (.bclose b) l2]) =
        .leaf (.bopen b) l1 :: m :: .leaf .dot ld :: i :: (removeBlanks rest ++ [.leaf (.bclose b) l2]) := by
      have f1 : (CST.leaf (.bopen b) l1).isBlank = false := rfl
      have f2 : (CST.leaf .dot ld).isBlank = false := rfl
      have f3 : (CST.leaf (.bclose b) l2).isBlank = false := rfl
      simp [removeBlanks, hmb, hib, f1, f2, f3, List.filter_append]
    rw [hrb] at h5
    simp only [checkValidArguments] at h5
    have hsr : ∀ c ∈ removeBlanks rest, c.simple = true := fun c hc =>
      hs c (by simp [(mem_removeBlanks hc).1])
    have hbr : ∀ c ∈ removeBlanks rest, c.isBlank = false := fun c hc => (mem_removeBlanks hc).2
    have hk : bracketKids (.leaf (.bopen b) l1 :: (m :: .leaf .dot ld :: i :: rest) ++
        [.leaf (.bclose b) l2]) = m :: i :: removeElements
          (argLoop i (CST.new .expr) false (removeBlanks rest ++ [.leaf (.bclose b) l2])).1 := by
      rw [bracketKids, hrb]
      have f1 : (CST.leaf (.bopen b) l1).notInAst = true := rfl
      have f2 : (CST.leaf .dot ld).notInAst = true := rfl
      simp [checkValidArguments, removeElements, hmn, hin, f1, f2]
    have hmem := argLoop_mem (.inr ⟨b, l2, rfl⟩) (removeBlanks rest) hsr i [] mockLocation false
    rcases argLoop_clean (b := b) (lc := l2) (removeBlanks rest) hsr hbr i [] mockLocation false h5 with
      ⟨_, hr, _, h6⟩ | ⟨hne, gs, h6, h7⟩
    · refine ⟨m, ld, i, rest, [], rfl, hm, hi, ?_, by simp, ?_⟩
      · rw [hk, CST.new, h6]; simp [removeElements, CST.notInAst]
      · rw [← spiecesL_removeBlanks, hr]; rfl
    · have hg : ∀ g ∈ gs, ∃ ys l, g = .node .expr ys l ∧ ys ≠ [] ∧
          ∀ y ∈ ys, y ∈ rest ∧ y.isArgItem = true ∧ y.isBlank = false := by
        intro g hg
        have : g.sshape ∈ gs.map CST.sshape := List.mem_map_of_mem hg
        rw [h7] at this
        obtain ⟨p, _, hp⟩ := List.mem_map.mp this
        rcases hmem g (by rw [h6]; simp [hg]) with h8 | ⟨ys, l', rfl, h9, h10⟩
        · simp only [List.mem_singleton] at h8
          subst h8
          simp [CST.sshape, LKind.sshape] at hp
        · refine ⟨ys, l', rfl, h9, fun y hy => ?_⟩
          rcases h10 y hy with h | ⟨h, h'⟩
          · simp at h
          · exact ⟨(mem_removeBlanks h).1, h', (mem_removeBlanks h).2⟩
      refine ⟨m, ld, i, rest, gs, rfl, hm, hi, ?_, hg, ?_⟩
      · rw [hk, CST.new, h6]
        have : removeElements gs = gs := by
          rw [removeElements, List.filter_eq_self]
          intro g hgg
          obtain ⟨ys, l, rfl, _⟩ := hg g hgg
          simp [CST.notInAst]
        rw [removeElements, List.filter_append]
        simp only [removeElements] at this
        rw [this]
        simp [CST.notInAst]
      · rw [h7, spiecesL_removeBlanks]
        have : (CST.spiecesL rest).isEmpty = false := by
          rw [← spiecesL_removeBlanks]
          rcases hr : removeBlanks rest with _ | ⟨c, cs⟩
          · exact absurd ⟨rfl, hr⟩ hne
          · have hc := hsr c (by rw [hr]; simp)
            have hcb := hbr c (by rw [hr]; simp)
            have : c.spieces ≠ [] := by
              rcases simple_cases hc with ⟨l', rfl⟩ | ⟨l', rfl⟩ | h
              · simp [CST.spieces]
              · simp [CST.spieces]
              · simp [spieces_item h hcb]
            simp [CST.spiecesL, this]
        simp [argumentsOf, this, groupShapes, CST.sshapeL]

theorem isIdent_part {i : CST} (h : i.isIdentOrAngle = true) : i.spieces = [.part i.sshape] := by
  rcases i with ⟨k, l⟩ | ⟨k, cs, l⟩
  · cases k <;> simp_all [CST.isIdentOrAngle, CST.spieces]
  · rfl

theorem isModule_part {i : CST} (h : i.isModuleOrAngle = true) : i.spieces = [.part i.sshape] := by
  rcases i with ⟨k, l⟩ | ⟨k, cs, l⟩
  · cases k <;> simp_all [CST.isModuleOrAngle, CST.spieces]
  · rfl

theorem piecesL_append (cs ds : List CST) :
    CST.piecesL (cs ++ ds) = CST.piecesL cs ++ CST.piecesL ds := by
  induction cs with
  | nil => simp [CST.piecesL]
  | cons c cs ih => simp [CST.piecesL, ih]

theorem pieces_expr (cs l) : (CST.node .expr cs l).pieces = CST.piecesL cs := by simp [CST.pieces]

mutual

theorem XI.clean : ∀ {c d es}, XI c d es → es = [] → c.pieces = d.spieces
  | _, _, _, @XI.leaf k l h, _ => by
    cases k <;> simp [LKind.inExpr] at h <;> simp [CST.pieces, CST.spieces, CST.sshape, LKind.sshape]
  | _, _, _, @XI.escaped c k l l' h, _ => by
    simp [CST.pieces, CST.piecesL, CST.spieces, CST.sshape, LKind.sshape]
  | _, _, _, .stray, h => by simp at h
  | _, _, _, @XI.closed b cs l l1 l2 ds es h, he => by
    rw [List.append_eq_nil_iff] at he
    have hp := h.clean he.1
    obtain ⟨m, ld, i, rest, gs, hds, hm, hi, hk, hg, ha⟩ := bracket_clean h.simple he.2
    rw [hds] at hp
    rw [hk, CST.pieces, List.cons_append, CST.piecesL, piecesL_append, hp]
    simp only [CST.spiecesL, List.flatMap_cons, isModule_part hm, isIdent_part hi]
    simp [CST.pieces, CST.piecesL, CST.spieces, commandOf, CST.sshape, IKind.toAst, CST.sshapeL,
      sshapeL_eq, ha, CST.spiecesL]
  | _, _, _, @XI.unclosed b cs l l1 ds es h, he => by simp at he

theorem XL.clean : ∀ {cs ds es}, XL cs ds es → es = [] → CST.piecesL cs = CST.spiecesL ds
  | _, _, _, .nil, _ => by simp [CST.piecesL, CST.spiecesL]
  | _, _, _, .cons h hs, he => by
    rw [List.append_eq_nil_iff] at he
    have := hs.clean he.2
    simp only [CST.spiecesL] at this
    simp [CST.piecesL, CST.spiecesL, h.clean he.1, this]

theorem XB.clean : ∀ {cs ds es}, XB cs ds es → es = [] → CST.piecesL cs = CST.spiecesL ds
  | _, _, _, .nil, _ => by simp [CST.piecesL, CST.spiecesL]
  | _, _, _, .expr _ h hs, he => by
    rw [List.append_eq_nil_iff] at he
    rw [CST.piecesL, pieces_expr, h.clean he.1, hs.clean he.2]
    simp [CST.spiecesL]
  | _, _, _, .newline hs, he => by
    rw [CST.piecesL, hs.clean he]
    simp [CST.spiecesL, CST.pieces, CST.spieces]

end

theorem partsOf_spiecesL {ds : List CST} (hs : ∀ d ∈ ds, d.simpleItem = true)
    (ha : CST.astableL ds = true) : partsOf (CST.spiecesL ds) = CST.sshapeL ds := by
  induction ds with
  | nil => rfl
  | cons d ds ih =>
    simp only [CST.astableL, Bool.and_eq_true] at ha
    have := ih (fun d hd => hs d (by simp [hd])) ha.2
    have hd : d.spieces = [.part d.sshape] := by
      have h1 := ha.1
      rcases d with ⟨k, l⟩ | ⟨k, cs, l⟩
      · cases k <;> simp_all [CST.astable, LKind.inAst, CST.spieces]
      · rfl
    simp only [CST.spiecesL] at this
    simp [CST.spiecesL, hd, partsOf, CST.sshapeL, this]

theorem XLines.clean {cs ds es} (h : XLines cs ds es) (he : es = []) (ha : CST.astableL ds = true) :
    cs.flatMap CST.lineShape = CST.sshapeL ds := by
  induction h with
  | nil => rfl
  | cons h _ ih =>
    rw [List.append_eq_nil_iff] at he
    rw [astableL_append, Bool.and_eq_true] at ha
    rw [List.flatMap_cons, ih he.2 ha.2, sshapeL_eq, sshapeL_eq, List.map_append]
    cases h with
    | close => simp [CST.lineShape]
    | newline => simp [CST.lineShape]
    | @expr _ ds _ _ _ h =>
      have h1 : CST.astableL ds = true := by simpa [CST.astableL, CST.astable, IKind.toAst] using ha.1
      simp [CST.lineShape, h.clean he.1, partsOf_spiecesL h.simple h1, CST.sshape, IKind.toAst]

theorem XDoc.clean {cs ds es} (h : XDoc cs ds es) (he : es = []) (ha : CST.astableL ds = true) :
    cs.flatMap CST.stmtShape = CST.sshapeL ds := by
  induction h with
  | nil => rfl
  | cons h _ ih =>
    rw [List.append_eq_nil_iff] at he
    rw [astableL_append, Bool.and_eq_true] at ha
    rw [List.flatMap_cons, ih he.2 ha.2, sshapeL_eq, sshapeL_eq, List.map_append]
    cases h with
    | newline => simp [CST.stmtShape]
    | eof => simp [CST.stmtShape]
    | @stmt _ ds _ _ h =>
      have h1 : CST.astableL ds = true := by simpa [CST.astableL, CST.astable, IKind.toAst] using ha.1
      simp [CST.stmtShape, h.clean he.1 h1, CST.sshape, IKind.toAst]

end Brack
