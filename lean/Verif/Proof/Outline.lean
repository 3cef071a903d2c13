import Verif.Spec.Outline
import Verif.Proof.Reports

/-
Helper lemmas: the abstract tree of a document is the one read off its tokens.
-/

namespace Brack

/-! ### one command -/

/-- The piece that a simplified tree is, with its shape. -/
def CST.shapePart (c : CST) : ShapePart := (c.piece.1, if c.notInAst then none else some c.sshape)

theorem shapePart_filter (ds : List CST) :
    (ds.map CST.shapePart).filterMap (·.2) = (removeElements ds).map CST.sshape := by
  induction ds with
  | nil => rfl
  | cons d ds ih =>
    simp only [List.map_cons, removeElements, List.filter_cons] at ih ⊢
    rcases h : d.notInAst with _ | _
    · simp [CST.shapePart, h, ih]
    · simp [CST.shapePart, h, ih]

theorem shapePart_blank (ds : List CST) :
    (removeBlanks ds).map CST.shapePart = (ds.map CST.shapePart).filter (·.1 ≠ .blank) := by
  induction ds with
  | nil => rfl
  | cons c ds ih =>
    simp only [removeBlanks, List.filter_cons, List.map_cons, piece_blank, CST.shapePart] at ih ⊢
    by_cases h : c.piece.1 = .blank
    · simpa [h] using ih
    · simpa [h, CST.shapePart] using ih

theorem filledExpr_node (xs : List CST) (l : Loc) :
    (if xs.isEmpty then [] else [CST.node .expr xs l]).map CST.sshape = filledExpr (xs.map CST.sshape) := by
  cases xs with
  | nil => rfl
  | cons x xs => simp [filledExpr, CST.sshape, sshapeL_eq, IKind.toAst]

/-- An element of the arguments of a command: no blank, and if it closes a bracket then it is the last one. -/
def ArgsOk : List CST → Prop
  | [] => True
  | c :: cs => c.isBlank = false ∧ (c.piece.1 = .closing → cs = []) ∧
      (∀ b l, c ≠ .leaf (.bopen b) l) ∧ (∀ l, c ≠ .leaf .eof l) ∧ ArgsOk cs

theorem removeElements_node (k xs l) (ds : List CST) :
    removeElements (.node k xs l :: ds) = .node k xs l :: removeElements ds := by
  simp [removeElements, CST.notInAst]

theorem argLoop_shape : ∀ (cs : List CST) (prev : CST) (xs : List CST) (l : Loc) (comma : Bool), ArgsOk cs →
    (removeElements (argLoop prev (.node .expr xs l) comma cs).1).map CST.sshape =
      argumentShapes (xs.map CST.sshape) (cs.map CST.shapePart)
  | [], prev, xs, l, comma, _ => by
    rw [List.map_nil, argumentShapes, ← filledExpr_node xs l]
    cases xs <;> simp [argLoop, CST.children, removeElements, CST.notInAst]
  | c :: cs, prev, xs, l, comma, h => by
    obtain ⟨h1, h2, h3, h3', h4⟩ := h
    have ih := fun prev xs l comma => argLoop_shape cs prev xs l comma h4
    have keep : ∀ l', argumentShapes (xs.map CST.sshape ++ [c.sshape]) (cs.map CST.shapePart) =
        (removeElements (argLoop c (.node .expr (xs ++ [c]) l') false cs).1).map CST.sshape := by
      intro l'; rw [ih]; simp
    rcases c with ⟨k, l'⟩ | ⟨k, ks, l'⟩
    · cases k
      case bopen b => exact absurd rfl (h3 b l')
      case eof => exact absurd rfl (h3' l')
      case whitespace => simp [CST.isBlank] at h1
      case newline => simp [CST.isBlank] at h1
      case bclose b =>
        have := h2 rfl
        subst this
        rw [List.map_cons, List.map_nil]
        simp only [argumentShapes, CST.shapePart, CST.piece, LKind.piece, CST.notInAst, if_true, Option.toList_none,
          List.append_nil]
        rw [← filledExpr_node xs l]
        cases xs
        · cases comma <;> simp [argLoop, CST.children, removeElements, CST.notInAst]
        · simp [argLoop, CST.children, removeElements, CST.notInAst]
      case comma =>
        simp only [List.map_cons, CST.shapePart, CST.piece, LKind.piece, argumentShapes]
        rw [← filledExpr_node xs l]
        cases xs with
        | nil =>
          simp only [argLoop, CST.children, List.isEmpty_nil, if_true]
          rw [ih]; rfl
        | cons x xs =>
          simp only [argLoop, CST.children, List.isEmpty_cons, Bool.false_eq_true, if_false, removeElements_node, List.map_cons,
            CST.new]
          rw [ih]; rfl
      case dot =>
        simp only [List.map_cons, CST.shapePart, CST.piece, LKind.piece, argumentShapes, CST.notInAst, if_true, argLoop,
          Option.toList_none, List.append_nil]
        exact ih _ _ _ _
      all_goals
        simp only [List.map_cons, CST.shapePart, CST.piece, LKind.piece, argumentShapes, CST.notInAst, Bool.false_eq_true, if_false,
          argLoop, Option.toList_some, CST.add]
        exact (keep _).symm
    · rcases k with _ | _ | _ | (_ | _ | _) | _ <;>
        (simp only [List.map_cons, CST.shapePart, CST.piece, argumentShapes, CST.notInAst, Bool.false_eq_true, if_false,
          argLoop, Option.toList_some, CST.add]
         exact (keep _).symm)

theorem removeElements_append (xs ys : List CST) : removeElements (xs ++ ys) = removeElements xs ++ removeElements ys := by
  simp [removeElements]

theorem bracketKids_shape (b l1) (ds : List CST) (h : ArgsOk (removeBlanks ds)) :
    .node (.bracket b) (CST.sshapeL (bracketKids (.leaf (.bopen b) l1 :: ds))) = commandShape b (ds.map CST.shapePart) := by
  unfold commandShape bracketKids
  simp only
  rw [← shapePart_blank]
  have : removeBlanks (.leaf (.bopen b) l1 :: ds) = .leaf (.bopen b) l1 :: removeBlanks ds := by
    simp [removeBlanks, CST.isBlank]
  rw [this, sshapeL_eq]
  congr 1
  have hopen : ∀ xs : List CST, removeElements (.leaf (.bopen b) l1 :: xs) = removeElements xs := by
    intro xs; simp [removeElements, CST.notInAst]
  have short : ∀ xs : List CST, xs.length < 3 → checkValidArguments (.leaf (.bopen b) l1 :: xs) =
      (.leaf (.bopen b) l1 :: xs, []) := by
    intro xs hx
    rcases xs with _ | ⟨c1, _ | ⟨c2, _ | ⟨c3, rest⟩⟩⟩
    · rfl
    · rfl
    · rfl
    · exact absurd hx (by simp only [List.length_cons]; omega)
  rcases hr : removeBlanks ds with _ | ⟨c1, _ | ⟨c2, _ | ⟨c3, rest⟩⟩⟩
  · rw [short _ (by simp), hopen]; rfl
  · rw [short _ (by simp), hopen, ← shapePart_filter]; simp [argumentShapes, filledExpr]
  · rw [short _ (by simp), hopen, ← shapePart_filter]; simp [argumentShapes, filledExpr]
  · rw [hr] at h
    have h' : ArgsOk rest := h.2.2.2.2.2.2.2.2.2.2.2.2
    have := argLoop_shape rest c3 [] mockLocation false h'
    simp only [checkValidArguments, hopen, List.map_cons, List.take_succ_cons, List.take_zero, List.drop_succ_cons, List.drop_zero]
    rw [show c1 :: c2 :: c3 :: (argLoop c3 (CST.new .expr) false rest).1 =
      [c1, c2, c3] ++ (argLoop c3 (CST.new .expr) false rest).1 from rfl, removeElements_append, List.map_append]
    congr 1
    exact (shapePart_filter [c1, c2, c3]).symm

/-! ### the closing bracket does not count -/

theorem argumentShapes_closing : ∀ (ps : List ShapePart) (items), argumentShapes items (ps ++ [(.closing, none)]) = argumentShapes items ps
  | [], items => by simp [argumentShapes]
  | (k, s) :: ps, items => by
    have ih := argumentShapes_closing ps
    cases k <;> simp only [List.cons_append, argumentShapes, ih]

theorem commandShape_closing (b) (ps : List ShapePart) : commandShape b (ps ++ [(.closing, none)]) = commandShape b ps := by
  unfold commandShape
  simp only [List.filter_append]
  have : ([(CmdPiece.closing, none)] : List ShapePart).filter (·.1 ≠ .blank) = [(.closing, none)] := rfl
  rw [this]
  generalize ps.filter (·.1 ≠ .blank) = qs
  rcases qs with _ | ⟨p1, _ | ⟨p2, _ | ⟨p3, rest⟩⟩⟩
  · simp [argumentShapes]
  · simp [argumentShapes, List.filterMap_cons]
  · simp [argumentShapes, List.filterMap_cons]
  · simp [argumentShapes_closing]

/-! ### the concrete tree -/

/-- The pieces that a tree is in a command. -/
def CST.shapeParts : CST → List ShapePart
  | .leaf k l => [(CST.leaf k l).shapePart]
  | .node .backSlash [] _ => [(.other, some (.leaf .invalid none))]
  | .node .backSlash (c :: _) _ => [(.other, some c.sshape)]
  | .node (.bracket b) cs _ =>
    [(if b = .angle then .macro else .other, some (commandShape b (cs.tail.attach.flatMap fun ⟨c, h⟩ =>
      have := List.mem_of_mem_tail h; c.shapeParts)))]
  | .node _ cs _ => cs.attach.flatMap fun ⟨c, _⟩ => c.shapeParts

theorem shapeParts_expr (cs : List CST) (l : Loc) : (CST.node .expr cs l).shapeParts = cs.flatMap CST.shapeParts := by
  rw [CST.shapeParts] <;> simp [List.flatMap_subtype]

theorem shapeParts_bracket (b c) (cs : List CST) (l : Loc) : (CST.node (.bracket b) (c :: cs) l).shapeParts =
    [(if b = .angle then .macro else .other, some (commandShape b (cs.flatMap CST.shapeParts)))] := by
  rw [CST.shapeParts]
  simp [List.flatMap_subtype]

theorem removeBlanks_append (xs ys : List CST) : removeBlanks (xs ++ ys) = removeBlanks xs ++ removeBlanks ys := by
  simp [removeBlanks]

theorem argsOk_simple : ∀ (ds : List CST), (∀ d ∈ ds, d.simple = true) → ArgsOk (removeBlanks ds) ∧
    ∀ b l, ArgsOk (removeBlanks ds ++ [.leaf (.bclose b) l])
  | [], _ => by simp [removeBlanks, ArgsOk, CST.isBlank]
  | d :: ds, h => by
    obtain ⟨ih1, ih2⟩ := argsOk_simple ds (fun x hx => h x (by simp [hx]))
    have hd := h d (by simp)
    simp only [removeBlanks, List.filter_cons] at ih1 ih2 ⊢
    rcases hb : d.isBlank with _ | _
    · have hc : d.piece.1 ≠ .closing := by
        rcases d with ⟨k, l⟩ | ⟨k, cs, l⟩
        · cases k <;> simp [CST.simple, LKind.inExpr] at hd <;> simp [CST.piece, LKind.piece]
        · rcases k with _ | _ | _ | (_ | _ | _) | _ <;> simp [CST.piece]
      have ho : (∀ b l, d ≠ .leaf (.bopen b) l) ∧ ∀ l, d ≠ .leaf .eof l := by
        constructor
        · rintro b l rfl; simp [CST.simple, LKind.inExpr] at hd
        · rintro l rfl; simp [CST.simple, LKind.inExpr] at hd
      simp only [Bool.not_false, if_true, List.cons_append]
      exact ⟨⟨hb, fun x => absurd x hc, ho.1, ho.2, ih1⟩, fun b l => ⟨hb, fun x => absurd x hc, ho.1, ho.2, ih2 b l⟩⟩
    · simpa using ⟨ih1, ih2⟩

mutual

theorem XI.shapes : ∀ {c d es}, XI c d es → c.shapeParts = [d.shapePart]
  | _, _, _, .leaf _ => by simp [CST.shapeParts]
  | _, _, _, .escaped _ => by
    simp [CST.shapeParts, CST.shapePart, CST.piece, LKind.piece, CST.notInAst]
  | _, _, _, .stray => by simp [CST.shapeParts, CST.shapePart, CST.piece, LKind.piece, CST.notInAst, CST.sshape, LKind.sshape]
  | _, _, _, @XI.closed b cs l l1 l2 ds es h => by
    have h2 := h.shapes
    have ok := (argsOk_simple ds h.simple).2 b l2
    rw [List.cons_append, List.cons_append, shapeParts_bracket, List.flatMap_append, h2]
    have e : ([CST.leaf (.bclose b) l2] : List CST).flatMap CST.shapeParts = [(.closing, none)] := by
      simp [CST.shapeParts, CST.shapePart, CST.piece, LKind.piece, CST.notInAst]
    have key := bracketKids_shape b l1 (ds ++ [.leaf (.bclose b) l2]) (by
      rw [removeBlanks_append]; exact ok)
    rw [e]
    rw [List.map_append] at key
    have e2 : ([CST.leaf (.bclose b) l2] : List CST).map CST.shapePart = [(.closing, none)] := by
      simp [CST.shapePart, CST.piece, LKind.piece, CST.notInAst]
    rw [e2] at key
    rw [← key]
    rcases b <;> simp [CST.shapePart, CST.piece, CST.notInAst, CST.sshape, IKind.toAst]
  | _, _, _, @XI.unclosed b cs l l1 ds es h => by
    have h2 := h.shapes
    have ok := (argsOk_simple ds h.simple).1
    rw [shapeParts_bracket, h2, ← bracketKids_shape b l1 ds ok]
    rcases b <;> simp [CST.shapePart, CST.piece, CST.notInAst, CST.sshape, IKind.toAst]

theorem XL.shapes : ∀ {cs ds es}, XL cs ds es → cs.flatMap CST.shapeParts = ds.map CST.shapePart
  | _, _, _, .nil => by simp
  | _, _, _, .cons h hs => by
    have h1 := h.shapes
    have h2 := hs.shapes
    simp [h1, h2]

theorem XB.shapes : ∀ {cs ds es}, XB cs ds es → cs.flatMap CST.shapeParts = ds.map CST.shapePart
  | _, _, _, .nil => by simp
  | _, _, _, .expr _ h hs => by
    have h1 := h.shapes
    have h2 := hs.shapes
    simp [shapeParts_expr, h1, h2]
  | _, _, _, .newline hs => by
    have h2 := hs.shapes
    simp [CST.shapeParts, h2]

end

/-- The expression of a line of the concrete tree. -/
def CST.lineShapes : CST → List Shape
  | .node .expr cs _ => filledExpr ((cs.flatMap CST.shapeParts).filterMap (·.2))
  | _ => []

/-- The statement of a child of the document. -/
def CST.stmtShapes : CST → List Shape
  | .node .stmt cs _ => [.node .stmt (cs.flatMap CST.lineShapes)]
  | _ => []

theorem removeElements_astable : ∀ (ds : List CST), CST.astableL ds = true → removeElements ds = ds
  | [], _ => rfl
  | d :: ds, h => by
    simp only [CST.astableL, Bool.and_eq_true] at h
    have := removeElements_astable ds h.2
    simp only [removeElements] at this ⊢
    have hd : d.notInAst = false := by
      rcases d with ⟨k, l⟩ | ⟨k, cs, l⟩
      · have := h.1
        cases k <;> simp [CST.astable, LKind.inAst] at this <;> rfl
      · rfl
    rw [List.filter_cons, hd]
    simp [this]

theorem XL.nonempty {cs ds es} (h : XL cs ds es) (hc : cs ≠ []) : ds ≠ [] := by
  cases h with
  | nil => exact absurd rfl hc
  | cons => simp

theorem XLines.shapes {cs ds es} (h : XLines cs ds es) (ha : CST.astableL ds = true) :
    ds.map CST.sshape = cs.flatMap CST.lineShapes := by
  induction h with
  | nil => rfl
  | cons h _ ih =>
    rw [astableL_append, Bool.and_eq_true] at ha
    rw [List.map_append, List.flatMap_cons, ih ha.2]
    congr 1
    cases h with
    | close => rfl
    | newline => rfl
    | expr hne h =>
      have hd := h.nonempty hne
      have := ha.1
      simp only [CST.astableL, CST.astable, Bool.and_true, Bool.and_eq_true] at this
      rw [CST.lineShapes, h.shapes, shapePart_filter, removeElements_astable _ this.2, ← filledExpr_node _ mockLocation]
      simp [hd, CST.sshape]

theorem XDoc.shapes {cs ds es} (h : XDoc cs ds es) (ha : CST.astableL ds = true) :
    ds.map CST.sshape = cs.flatMap CST.stmtShapes := by
  induction h with
  | nil => rfl
  | cons h _ ih =>
    rw [astableL_append, Bool.and_eq_true] at ha
    rw [List.map_append, List.flatMap_cons, ih ha.2]
    congr 1
    cases h with
    | newline => rfl
    | eof => rfl
    | stmt h =>
      have := ha.1
      simp only [CST.astableL, CST.astable, Bool.and_true, Bool.and_eq_true] at this
      simp [CST.sshape, CST.stmtShapes, sshapeL_eq, h.shapes this.2, IKind.toAst]

/-! ### from tokens to the concrete tree -/

theorem intoShape_intoShape (ps qs : List ShapePart) (st) : intoShape qs (intoShape ps st) = intoShape (ps ++ qs) st := by
  rcases st with _ | ⟨f, st⟩ <;> simp [intoShape]

theorem intoShape_nil (st) : intoShape [] st = st := by
  rcases st with _ | ⟨f, st⟩ <;> simp [intoShape]

theorem outsideAll_append (ps qs st) : outsideAll ps st ++ outsideAll qs (intoShape ps st) = outsideAll (ps ++ qs) st := by
  rcases st with _ | ⟨f, st⟩ <;> simp [intoShape, outsideAll]

theorem outsideAll_nil (st) : outsideAll [] st = [] := by
  rcases st with _ | ⟨f, st⟩ <;> simp [outsideAll]

theorem tops_leaf {t : Token} {ts k} (h : exprLeaf t.kind = some k) (st) :
    readTops st (t :: ts) = outsideAll (CST.shapeParts (.leaf k t.loc)) st ++
      readTops (intoShape (CST.shapeParts (.leaf k t.loc)) st) ts := by
  obtain ⟨tk, l⟩ := t
  cases tk <;> simp [exprLeaf] at h <;> subst h <;>
    simp [readTops, CST.shapeParts, CST.shapePart, CST.piece, LKind.piece, TokKind.shapePart, TokKind.piece, CST.notInAst,
      CST.sshape, LKind.sshape]

theorem tops_newline {t : Token} {ts} (h : t.kind = .newLine) (f st) :
    readTops (f :: st) (t :: ts) = readTops (intoShape [(.blank, none)] (f :: st)) ts := by
  obtain ⟨tk, l⟩ := t
  cases h
  simp [readTops]

theorem tops_line {t : Token} {ts} (h : t.kind = .newLine) : readTops [] (t :: ts) = .newline :: readTops [] ts := by
  obtain ⟨tk, l⟩ := t
  cases h
  simp [readTops]

theorem tops_open {t : Token} {ts b} (h : t.kind = .bopen b) (st) :
    readTops st (t :: ts) = readTops (⟨b, []⟩ :: st) ts := by
  obtain ⟨tk, l⟩ := t
  cases h
  simp [readTops]

theorem tops_close {u : Token} {ts} {f : ShapeCmd} (hu : u.kind = .bclose f.bracket) (st) :
    readTops (f :: st) (u :: ts) = outsideAll [f.part []] st ++ readTops (intoShape [f.part []] st) ts := by
  obtain ⟨tk, l⟩ := u
  simp only at hu
  subst hu
  simp [readTops, endShapes]

theorem tops_stop {u : Token} {ts} {f : ShapeCmd} (hs : itemStop u.kind = true) (hn : u.kind ≠ .newLine)
    (hu : u.kind ≠ .bclose f.bracket) (st) :
    readTops (f :: st) (u :: ts) = outsideAll [f.part []] st ++ readTops (intoShape [f.part []] st) (u :: ts) := by
  have key : ∀ b, b ≠ some f.bracket → endShapes b [] (f :: st) =
      (outsideAll [f.part []] st ++ (endShapes b [] (intoShape [f.part []] st)).1,
        (endShapes b [] (intoShape [f.part []] st)).2) := by
    intro b hb
    rw [endShapes, if_neg hb]
    rcases st with _ | ⟨g, st⟩
    · simp [endShapes, intoShape, outsideAll]
    · simp only [intoShape, endShapes, outsideAll, ShapeCmd.part, List.append_nil, List.nil_append]
  obtain ⟨tk, l⟩ := u
  cases tk <;> simp [itemStop] at hs hn
  · simp only [readTops]
    rw [key none (by simp)]
  · rename_i b'
    have : some b' ≠ some f.bracket := by rintro h; injection h with h; subst h; simp at hu
    simp only [readTops]
    rw [key _ this, List.append_assoc]
  · simp only [readTops]
    rw [key none (by simp)]

theorem tops_esc {t u : Token} {us v} (ht : t.kind = .backSlash) (hv : escapable u.kind = some v) (st) :
    readTops st (t :: u :: us) =
      outsideAll (CST.shapeParts (.node .backSlash [.leaf (.text v) u.loc] t.loc)) st ++
      readTops (intoShape (CST.shapeParts (.node .backSlash [.leaf (.text v) u.loc] t.loc)) st) us := by
  obtain ⟨c, rfl, h1, h2, _⟩ := escapedChar_some hv
  obtain ⟨tk, l⟩ := t
  cases ht
  simp [readTops, h1, CST.shapeParts, CST.sshape, LKind.sshape]

theorem tops_escN {t u : Token} {us} (ht : t.kind = .backSlash) (hv : escapable u.kind = none) (st) :
    readTops st (t :: u :: us) =
      outsideAll (CST.shapeParts (.node .backSlash [] t.loc)) st ++
      readTops (intoShape (CST.shapeParts (.node .backSlash [] t.loc)) st) (u :: us) := by
  obtain ⟨tk, l⟩ := t
  cases ht
  simp [readTops, escapedChar_none hv, CST.shapeParts]

theorem shapeParts_bracketNode (b) (t u : Token) (cs) :
    (bracketNode b t cs u).shapeParts = [ShapeCmd.part ⟨b, cs.flatMap CST.shapeParts⟩ []] := by
  unfold bracketNode
  rw [List.cons_append, shapeParts_bracket, List.flatMap_append]
  simp only [ShapeCmd.part, List.append_nil]
  by_cases hu : u.kind = .bclose b
  · rw [if_pos hu, ← commandShape_closing b (cs.flatMap CST.shapeParts)]
    simp [CST.shapeParts, CST.shapePart, CST.piece, LKind.piece, CST.notInAst]
  · rw [if_neg hu]; simp

mutual

theorem EI.tops : ∀ {ts cs r}, EI ts cs r → HasEof ts → ∀ st,
    readTops st ts = outsideAll (cs.flatMap CST.shapeParts) st ++ readTops (intoShape (cs.flatMap CST.shapeParts) st) r
  | _, _, _, .stop _ => fun _ _ => by simp [intoShape_nil, outsideAll_nil]
  | _, _, _, .leaf hk h => fun he st => by
    rw [tops_leaf hk, h.tops (he.tail (exprLeaf_ne_eof hk)), intoShape_intoShape, ← List.append_assoc, outsideAll_append]
    simp
  | _, _, _, .esc ht hv h => fun he st => by
    rw [tops_esc ht hv, h.tops ((he.tail (by simp [ht])).tail (escapable_ne_eof hv)), intoShape_intoShape, ← List.append_assoc,
      outsideAll_append]
    simp
  | _, _, _, .escN ht hv h => fun he st => by
    rw [tops_escN ht hv, h.tops (he.tail (by simp [ht])), intoShape_intoShape, ← List.append_assoc, outsideAll_append]
    simp
  | _, _, _, .bclosed (t := t) (b := b) (cs := cs) (u := u) ht hb hu h => fun he st => by
    have he1 := he.tail (by simp [ht])
    have he2 := (hb.suffix.1.mp he1).tail (by simp [hu])
    rw [tops_open ht, hb.tops he1, intoShape, tops_close hu, h.tops he2, List.flatMap_cons, shapeParts_bracketNode,
      intoShape_intoShape, ← List.append_assoc, outsideAll_append]
    simp
  | _, _, _, .bunclosed (t := t) (b := b) (cs := cs) (u := u) ht hb hu h => fun he st => by
    have he1 := he.tail (by simp [ht])
    have he2 := hb.suffix.1.mp he1
    rw [tops_open ht, hb.tops he1, intoShape, tops_stop (hb.rest_stop.1.stop he2) (hb.rest_stop.2 _ rfl) hu,
      h.tops he2, List.flatMap_cons, shapeParts_bracketNode, intoShape_intoShape, ← List.append_assoc, outsideAll_append]
    simp

theorem BI.tops : ∀ {ts cs r}, BI ts cs r → HasEof ts → ∀ f st,
    readTops (f :: st) ts = readTops (intoShape (cs.flatMap CST.shapeParts) (f :: st)) r
  | _, _, _, .stop _ _ => fun _ _ _ => by simp [intoShape_nil]
  | _, _, _, .expr (c := c) (cs := cs) he hb => fun h f st => by
    rw [he.tops h, intoShape, hb.tops (he.suffix.1.mp h)]
    simp only [exprNode, List.flatMap_cons, shapeParts_expr, intoShape, outsideAll, List.nil_append, List.append_assoc]
  | _, _, _, .newline (t := t) ht h => fun he f st => by
    rw [tops_newline ht, intoShape, h.tops (he.tail (by simp [ht]))]
    simp [CST.shapeParts, CST.shapePart, CST.piece, LKind.piece, CST.notInAst, intoShape]

end

/-! ### lines and statements -/

/-- The end of the document or a line end. -/
def AtBreak : List Top → Prop
  | [] => True
  | .newline :: _ => True
  | _ => False

/-- What stands on one line. -/
def OnLine (xs : List Top) : Prop := xs ≠ [] ∧ ∀ x ∈ xs, x ≠ .newline

theorem topLines_ne (xs) : topLines xs ≠ [] := by
  cases xs with
  | nil => simp [topLines]
  | cons x xs => cases x <;> simp only [topLines] <;> (try split) <;> simp

theorem topLines_line : ∀ (xs : List Top), (∀ x ∈ xs, x ≠ .newline) → topLines xs = [xs] ∧
    ∀ R, topLines (xs ++ .newline :: R) = xs :: topLines R
  | [], _ => by simp [topLines]
  | x :: xs, h => by
    obtain ⟨h1, h2⟩ := topLines_line xs (fun y hy => h y (by simp [hy]))
    cases x
    case newline => exact absurd rfl (h .newline (by simp))
    all_goals simp [topLines, h1, h2]

/-- The statements behind a line that holds the last one of these expressions. -/
def lineEnd (xs : List Shape) : List Top → List Shape
  | [] => [.node .stmt xs]
  | _ :: R => statementShapes (some xs) (topLines R)

theorem statement_line {xs : List Top} (hx : OnLine xs) {R} (hR : AtBreak R) (cur) :
    statementShapes cur (topLines (xs ++ R)) = lineEnd (cur.getD [] ++ lineExpr xs) R := by
  obtain ⟨hne, hx⟩ := hx
  obtain ⟨h1, h2⟩ := topLines_line xs hx
  obtain ⟨x, xs', rfl⟩ := List.exists_cons_of_ne_nil hne
  rcases R with _ | ⟨_ | _ | _ | _, R⟩
  · rw [List.append_nil, h1]
    simp [statementShapes, lineEnd]
  · exact hR.elim
  · exact hR.elim
  · rw [h2]
    simp [statementShapes, lineEnd]
  · exact hR.elim

theorem statement_break {R : List Top} (hR : AtBreak R) (xs) :
    statementShapes (some xs) (topLines R) = .node .stmt xs :: statementShapes none (topLines R) := by
  rcases R with _ | ⟨_ | _ | _ | _, R⟩
  · simp [topLines, statementShapes]
  · exact hR.elim
  · exact hR.elim
  · simp [topLines, statementShapes]
  · exact hR.elim

theorem lineEnd_break {R : List Top} (hR : AtBreak R) (h2 : AtBreak R.tail) (xs) :
    lineEnd xs R = .node .stmt xs :: statementShapes none (topLines R) := by
  rcases R with _ | ⟨_ | _ | _ | _, R⟩
  · simp [topLines, statementShapes, lineEnd]
  · exact hR.elim
  · exact hR.elim
  · rw [lineEnd, statement_break (R := R) h2]
    simp [topLines, statementShapes]
  · exact hR.elim

theorem lineExpr_items (ps : List ShapePart) :
    lineExpr (outsideAll ps []) = filledExpr (ps.filterMap (·.2)) := by
  unfold lineExpr outsideAll
  rw [List.filterMap_map]
  congr 1
  induction ps with
  | nil => rfl
  | cons p ps ih =>
    obtain ⟨k, s⟩ := p
    cases s <;> simp [List.filterMap_cons, ih]

theorem EI.onLine {c cs ts r} (h : EI ts (c :: cs) r) : OnLine (outsideAll ((c :: cs).flatMap CST.shapeParts) []) := by
  constructor
  · have : c.shapeParts ≠ [] := by
      cases h with
      | leaf => simp [CST.shapeParts]
      | esc => simp [CST.shapeParts]
      | escN => simp [CST.shapeParts]
      | bclosed => rw [shapeParts_bracketNode]; simp
      | bunclosed => rw [shapeParts_bracketNode]; simp
    simp [outsideAll, this]
  · intro x hx
    simp only [outsideAll, List.mem_map] at hx
    obtain ⟨⟨k, s⟩, _, rfl⟩ := hx
    cases s <;> simp

theorem LI.tops {ts c r} (h : LI ts c r) (he : HasEof ts) :
    ∃ X, OnLine X ∧ readTops [] ts = X ++ readTops [] r ∧ lineExpr X = c.lineShapes := by
  cases h with
  | @expr _ c cs _ h =>
    refine ⟨_, h.onLine, h.tops he [], ?_⟩
    rw [lineExpr_items]
    rfl
  | @close t _ b ht =>
    refine ⟨[.closing], by simp [OnLine], ?_, by simp [lineExpr, filledExpr, CST.lineShapes]⟩
    obtain ⟨tk, l⟩ := t
    cases ht
    simp [readTops, endShapes, outsideAll]

theorem NoLine.atBreak {ts} (h : NoLine ts) (he : HasEof ts) : AtBreak (readTops [] ts) := by
  rcases ts with _ | ⟨t, ts⟩
  · simp [readTops, AtBreak]
  · obtain ⟨k, l⟩ := t
    rcases h he _ rfl with h | h | h <;> cases h <;> simp [readTops, AtBreak, endShapes, outsideAll]

theorem SI.tops : ∀ {ts cs r}, SI ts cs r → HasEof ts → ∃ X, readTops [] ts = X ++ readTops [] r ∧ ∀ R, AtBreak R →
    AtBreak (X ++ R) ∧ ∀ xs, lineEnd xs (X ++ R) = lineEnd (xs ++ cs.flatMap CST.lineShapes) R
  | _, _, _, .stop _ => fun _ => ⟨[], rfl, fun R hR => ⟨hR, fun xs => by simp⟩⟩
  | _, _, _, .more (c := c) ht hl h => fun he => by
    have he1 := he.tail (by simp [ht])
    obtain ⟨x, h1, h2, h3⟩ := hl.tops he1
    obtain ⟨X, h4, h5⟩ := h.tops (hl.hasEof.mp he1)
    refine ⟨.newline :: (x ++ X), ?_, fun R hR => ⟨trivial, fun xs => ?_⟩⟩
    · rw [tops_line ht, h2, h4]; simp
    · obtain ⟨h6, h7⟩ := h5 R hR
      rw [List.cons_append, lineEnd, List.append_assoc, statement_line h1 h6, h7, h3]
      simp [CST.lineShapes]

theorem SI.rest : ∀ {ts cs r}, SI ts cs r → ∀ t ts1, r = t :: ts1 → t.kind = .newLine → NoLine ts1
  | _, _, _, .stop h => h
  | _, _, _, .more _ _ h => h.rest

theorem TI.rest {ts c r} (h : TI ts c r) : ∀ t ts1, r = t :: ts1 → t.kind = .newLine → NoLine ts1 := by
  cases h with
  | mk _ h => exact h.rest

theorem TI.tops {ts c r} (h : TI ts c r) (he : HasEof ts) (h1 : AtBreak (readTops [] r)) (h2 : AtBreak (readTops [] r).tail) :
    statementShapes none (topLines (readTops [] ts)) = c.stmtShapes ++ statementShapes none (topLines (readTops [] r)) := by
  cases h with
  | mk hl hs =>
    rename_i c r0 cs
    obtain ⟨x, h3, h4, h5⟩ := hl.tops he
    obtain ⟨X, h6, h7⟩ := hs.tops (hl.hasEof.mp he)
    obtain ⟨h8, h9⟩ := h7 _ h1
    obtain ⟨l, hl⟩ := foldl_add_new .stmt (c :: cs)
    rw [hl, h4, h6, statement_line h3 h8, h9, lineEnd_break h1 h2, h5]
    simp [CST.stmtShapes]

theorem statement_newline (R) : statementShapes none (topLines (.newline :: R)) = statementShapes none (topLines R) := by
  simp [topLines, statementShapes]

theorem NI.tops : ∀ {ts cs r}, NI ts cs r →
    statementShapes none (topLines (readTops [] ts)) = statementShapes none (topLines (readTops [] r))
  | _, _, _, .stop _ => rfl
  | _, _, _, .more ht h => by rw [tops_line ht, statement_newline, h.tops]

theorem NI.stmts : ∀ {ts cs r}, NI ts cs r → cs.flatMap CST.stmtShapes = []
  | _, _, _, .stop _ => rfl
  | _, _, _, .more _ h => by simp [CST.stmtShapes, h.stmts]

theorem DI.tops : ∀ {ts cs r}, DI ts cs r → HasEof ts → statementShapes none (topLines (readTops [] ts)) =
    cs.flatMap CST.stmtShapes ++ statementShapes none (topLines (readTops [] r))
  | _, _, _, .noStmt _ => fun _ => rfl
  | _, _, _, .lastStmt _ _ => fun _ => rfl
  | _, _, _, .more hs ht hN h => fun he => by
    have he1 := (hs.hasEof.mp he).tail (by simp [ht])
    have hn := (hs.rest _ _ rfl ht).atBreak he1
    rw [hs.tops he (by rw [tops_line ht]; trivial) (by rw [tops_line ht]; exact hn), tops_line ht, statement_newline, hN.tops,
      h.tops (hN.hasEof.mp he1)]
    simp [CST.stmtShapes, hN.stmts]

theorem PI.tops {ts c rest} (h : PI ts c rest) : ∃ cs l, c = .node .document cs l ∧
    outline ts = .node .document (cs.flatMap CST.stmtShapes) := by
  have he := h.hasEof
  cases h with
  | mk hD hO hN ht =>
    rename_i cs r cs2 r2 ns t
    obtain ⟨l, hl⟩ := foldl_add_new .document (cs ++ cs2 ++ ns ++ [.leaf .eof t.loc])
    refine ⟨_, l, hl, ?_⟩
    have hend : readTops [] (t :: rest) = [] := by
      obtain ⟨tk, l⟩ := t
      cases ht
      simp [readTops, endShapes, outsideAll]
    have hlast : statementShapes none (topLines (readTops [] r2)) = [] := by
      rw [hN.tops, hend]; rfl
    have he1 := hD.hasEof.mp he
    have hstmt : statementShapes none (topLines (readTops [] r)) = cs2.flatMap CST.stmtShapes := by
      cases hO with
      | none => rw [hlast]; rfl
      | some h =>
        have he2 := h.hasEof.mp he1
        have hb : AtBreak (readTops [] r2) ∧ AtBreak (readTops [] r2).tail := by
          cases hN with
          | stop => rw [hend]; exact ⟨trivial, trivial⟩
          | more ht' h' =>
            rw [tops_line ht']
            exact ⟨trivial, (h.rest _ _ rfl ht').atBreak (he2.tail (by simp [ht']))⟩
        rw [h.tops he1 hb.1 hb.2, hlast]
        simp
    unfold outline
    rw [hD.tops he, hstmt]
    simp [hN.stmts, CST.stmtShapes]

theorem transform_outline {ts : List Token} {c : CST} {ids : Nat → Str} {a : AST} {es : List TErr}
    (hp : parse ts = .ok c) (hx : transform ids c = .ok (a, es)) : a.shape = outline ts := by
  obtain ⟨rest, hP⟩ := parse_ok hp
  obtain ⟨cs, ds, l, m, hT⟩ := transform_trans hp hx
  obtain ⟨cs', l', h1, h2⟩ := hP.tops
  rw [hT.doc] at h1
  injection h1 with _ h1 _
  rw [h2, hT.spec.shape, ← h1, ← hT.rel.shapes hT.astable, ← sshapeL_eq]
  simp [CST.sshape, IKind.toAst]

end Brack
