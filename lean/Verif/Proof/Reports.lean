import Verif.Spec.Reports
import Verif.Proof.TransFinal

/-
Helper lemmas: the errors of a document are those read off its tokens.
-/

namespace Brack

/-! ### one command -/

/-- The piece that a leaf is. -/
def LKind.piece : LKind → CmdPiece
  | .module _ => .module
  | .ident _ => .ident
  | .dot => .dot
  | .comma => .comma
  | .whitespace | .newline => .blank
  | .bclose _ => .closing
  | _ => .other

/-- The piece that a simplified tree is. -/
def CST.piece : CST → CmdPart
  | .leaf k l => (k.piece, l)
  | .node (.bracket .angle) _ l => (.macro, l)
  | .node _ _ l => (.other, l)

theorem piece_loc (c : CST) : c.piece.2 = c.loc := by
  rcases c with ⟨k, l⟩ | ⟨k, cs, l⟩
  · rfl
  · rcases k with _ | _ | _ | (_ | _ | _) | _ <;> rfl

theorem piece_module (c : CST) : c.isModuleOrAngle = decide (c.piece.1 ∈ [CmdPiece.module, .macro]) := by
  rcases c with ⟨k, l⟩ | ⟨k, cs, l⟩
  · cases k <;> simp [CST.isModuleOrAngle, CST.piece, LKind.piece]
  · rcases k with _ | _ | _ | (_ | _ | _) | _ <;> simp [CST.isModuleOrAngle, CST.piece]

theorem piece_ident (c : CST) : c.isIdentOrAngle = decide (c.piece.1 ∈ [CmdPiece.ident, .macro]) := by
  rcases c with ⟨k, l⟩ | ⟨k, cs, l⟩
  · cases k <;> simp [CST.isIdentOrAngle, CST.piece, LKind.piece]
  · rcases k with _ | _ | _ | (_ | _ | _) | _ <;> simp [CST.isIdentOrAngle, CST.piece]

theorem piece_dot (c : CST) : c.isDot = decide (c.piece.1 = .dot) := by
  rcases c with ⟨k, l⟩ | ⟨k, cs, l⟩
  · cases k <;> simp [CST.isDot, CST.piece, LKind.piece]
  · rcases k with _ | _ | _ | (_ | _ | _) | _ <;> simp [CST.isDot, CST.piece]

theorem piece_blank (c : CST) : c.isBlank = decide (c.piece.1 = .blank) := by
  rcases c with ⟨k, l⟩ | ⟨k, cs, l⟩
  · cases k <;> simp [CST.isBlank, CST.piece, LKind.piece]
  · rcases k with _ | _ | _ | (_ | _ | _) | _ <;> simp [CST.isBlank, CST.piece]

theorem checkAt_piece (i : Nat) (good : CST → Bool) (allowed kind) (hg : ∀ c, good c = decide (c.piece.1 ∈ allowed))
    (x : CST) (ds : List CST) : checkAt (i + 1) good kind (x :: ds) = expectPiece allowed kind (ds.map CST.piece)[i]? := by
  unfold checkAt
  rw [List.getElem?_cons_succ, List.getElem?_map]
  rcases ds[i]? with _ | c
  · rfl
  · simp only [Option.map_some, expectPiece, hg, decide_eq_true_eq, piece_loc]

theorem append_singleton_isEmpty (xs : List CST) (c : CST) : (xs ++ [c]).isEmpty = false := by
  cases xs <;> rfl

theorem argLoop_piece : ∀ (cs : List CST) (prev : CST) (xs : List CST) (l : Loc) (comma : Bool),
    (argLoop prev (.node .expr xs l) comma cs).2 = argumentErrors prev.loc xs.isEmpty comma (cs.map CST.piece)
  | [], prev, xs, l, comma => rfl
  | c :: cs, prev, xs, l, comma => by
    have ih := fun prev xs l comma => argLoop_piece cs prev xs l comma
    rcases c with ⟨k, l'⟩ | ⟨k, ks, l'⟩
    · cases k <;> simp only [argLoop, List.map_cons, CST.piece, LKind.piece, argumentErrors, CST.children, CST.add, CST.new] <;>
        first
        | (rw [ih]; simp only [CST.loc, append_singleton_isEmpty]; done)
        | skip
      · rcases xs with _ | ⟨x, xs⟩ <;> cases comma <;> simp
      · rcases xs with _ | ⟨x, xs⟩ <;> simp [ih, CST.loc]
    · rcases k with _ | _ | _ | (_ | _ | _) | _ <;>
        simp only [argLoop, List.map_cons, CST.piece, argumentErrors, CST.add] <;> rw [ih, append_singleton_isEmpty] <;> rfl

theorem removeBlanks_piece (ds : List CST) :
    (removeBlanks ds).map CST.piece = (ds.map CST.piece).filter (·.1 ≠ .blank) := by
  induction ds with
  | nil => rfl
  | cons c ds ih =>
    simp only [removeBlanks, List.filter_cons, List.map_cons, piece_blank] at ih ⊢
    by_cases h : c.piece.1 = .blank
    · simpa [h] using ih
    · simpa [h] using ih

theorem checkValidArguments_piece (b l1) (ds : List CST) :
    (checkValidArguments (removeBlanks (.leaf (.bopen b) l1 :: ds))).2 =
      match (ds.map CST.piece).filter (·.1 ≠ .blank) with
      | _ :: _ :: x :: rest => argumentErrors x.2 true false rest
      | _ => [] := by
  rw [← removeBlanks_piece]
  have : removeBlanks (.leaf (.bopen b) l1 :: ds) = .leaf (.bopen b) l1 :: removeBlanks ds := by
    simp [removeBlanks, CST.isBlank]
  rw [this]
  rcases removeBlanks ds with _ | ⟨c1, _ | ⟨c2, _ | ⟨c3, rest⟩⟩⟩
  · rfl
  · rfl
  · rfl
  · simp only [checkValidArguments, List.map_cons, CST.new]
    rw [argLoop_piece, piece_loc]
    rfl

theorem bracketErrs_piece (b l1) (ds : List CST) : bracketErrs (.leaf (.bopen b) l1 :: ds) =
    contentErrors (ds.map CST.piece) := by
  unfold contentErrors
  unfold bracketErrs
  rw [checkValidArguments_piece]
  unfold checkModule checkDot checkIdent
  rw [checkAt_piece 0 _ _ _ piece_module, checkAt_piece 1 _ [.dot] _ (by simpa using piece_dot),
    checkAt_piece 2 _ _ _ piece_ident]
  congr 2
  unfold checkUnexpectedDot
  rw [List.drop_succ_cons, ← List.map_drop, List.filter_map, List.map_map]
  have : (fun c : CST => CST.isDot c) = (fun x : CmdPart => decide (x.1 = .dot)) ∘ CST.piece := by
    funext c; exact piece_dot c
  rw [← this]
  refine List.map_congr_left fun c _ => ?_
  simp [piece_loc]

/-! ### the concrete tree -/

/-- The pieces that a tree is in a command. -/
def CST.cmdPieces : CST → List CmdPart
  | .leaf k l => [(k.piece, l)]
  | .node .backSlash [] l => [(.other, l)]
  | .node .backSlash (c :: _) _ => [(.other, c.loc)]
  | .node (.bracket .angle) _ l => [(.macro, l)]
  | .node (.bracket _) _ l => [(.other, l)]
  | .node _ cs _ => cs.attach.flatMap fun ⟨c, _⟩ => c.cmdPieces

theorem cmdPieces_expr (cs : List CST) (l : Loc) : (CST.node .expr cs l).cmdPieces = cs.flatMap CST.cmdPieces := by
  rw [CST.cmdPieces] <;> simp [List.flatMap_subtype]

mutual

/-- The errors in a tree. -/
def CST.found : CST → List TErr
  | .leaf _ _ => []
  | .node .backSlash [] l => [⟨.invalidBackslash, l⟩]
  | .node .backSlash (_ :: _) _ => []
  | .node (.bracket _) [] _ => []
  | .node (.bracket b) (c :: cs) _ => CST.foundL cs ++ commandErrors b c.loc (cs.flatMap CST.cmdPieces)
  | .node _ cs _ => CST.foundL cs

def CST.foundL : List CST → List TErr
  | [] => []
  | c :: cs => c.found ++ CST.foundL cs

end

theorem foundL_append (cs ds : List CST) : CST.foundL (cs ++ ds) = CST.foundL cs ++ CST.foundL ds := by
  induction cs with
  | nil => simp [CST.foundL]
  | cons c cs ih => simp [CST.foundL, ih]

theorem found_expr (cs l) : (CST.node .expr cs l).found = CST.foundL cs := by simp [CST.found]

theorem commandErrors_closed (b l1 l2) (ds : List CST) :
    commandErrors b l1 (List.map CST.piece (ds ++ [.leaf (.bclose b) l2])) = bracketErrs (.leaf (.bopen b) l1 :: (ds ++ [.leaf (.bclose b) l2])) := by
  rw [bracketErrs_piece]
  unfold commandErrors
  simp [CST.piece, LKind.piece]

theorem commandErrors_unclosed (b l1) (ds : List CST) (hs : ∀ d ∈ ds, d.simple = true) :
    commandErrors b l1 (ds.map CST.piece) = [notClosedErr b l1 ds] ++ bracketErrs (.leaf (.bopen b) l1 :: ds) := by
  rw [bracketErrs_piece]
  unfold commandErrors
  have hl : (ds.map CST.piece).getLast?.any (·.1 = .closing) = false := by
    rw [List.getLast?_map]
    rcases hd : ds.getLast? with _ | d
    · rfl
    · have := hs d (List.mem_of_getLast? hd)
      rcases d with ⟨k, l⟩ | ⟨k, cs, l⟩
      · cases k <;> simp [CST.simple, LKind.inExpr] at this <;> simp [CST.piece, LKind.piece]
      · rcases k with _ | _ | _ | (_ | _ | _) | _ <;> simp [CST.piece]
  rw [hl]
  have he : mergeLocation l1 (((ds.map CST.piece).getLast?.map (·.2)).getD l1) =
      mergeLocation l1 ((CST.leaf (.bopen b) l1 :: ds).getLast (by simp)).loc := by
    rcases ds.eq_nil_or_concat with rfl | ⟨ds', d, rfl⟩
    · rfl
    · simp [piece_loc, List.getLast_cons]
  simp only [Bool.false_eq_true, if_false, he, notClosedErr]

mutual

theorem XI.found : ∀ {c d es}, XI c d es → es = c.found ∧ c.cmdPieces = [d.piece]
  | _, _, _, .leaf _ => by simp [CST.found, CST.cmdPieces, CST.piece]
  | _, _, _, .escaped _ => by simp [CST.found, CST.cmdPieces, CST.piece, CST.loc, LKind.piece]
  | _, _, _, .stray => by simp [CST.found, CST.cmdPieces, CST.piece, LKind.piece]
  | _, _, _, @XI.closed b cs l l1 l2 ds es h => by
    obtain ⟨h1, h2⟩ := h.found
    refine ⟨?_, ?_⟩
    · have := commandErrors_closed b l1 l2 ds
      rw [List.map_append] at this
      rw [List.cons_append, List.cons_append, CST.found, foundL_append, ← h1, List.flatMap_append, h2, ← this]
      simp [CST.foundL, CST.found, CST.piece, CST.cmdPieces, CST.loc]
    · rcases b <;> simp [CST.cmdPieces, CST.piece]
  | _, _, _, @XI.unclosed b cs l l1 ds es h => by
    obtain ⟨h1, h2⟩ := h.found
    refine ⟨?_, ?_⟩
    · rw [CST.found, ← h1, h2, CST.loc, commandErrors_unclosed b l1 ds h.simple]
      simp
    · rcases b <;> simp [CST.cmdPieces, CST.piece]

theorem XL.found : ∀ {cs ds es}, XL cs ds es → es = CST.foundL cs ∧ cs.flatMap CST.cmdPieces = ds.map CST.piece
  | _, _, _, .nil => by simp [CST.foundL]
  | _, _, _, .cons h hs => by
    obtain ⟨h1, h2⟩ := h.found
    obtain ⟨h3, h4⟩ := hs.found
    simp [CST.foundL, ← h1, ← h3, h2, h4]

theorem XB.found : ∀ {cs ds es}, XB cs ds es → es = CST.foundL cs ∧ cs.flatMap CST.cmdPieces = ds.map CST.piece
  | _, _, _, .nil => by simp [CST.foundL]
  | _, _, _, .expr _ h hs => by
    obtain ⟨h1, h2⟩ := h.found
    obtain ⟨h3, h4⟩ := hs.found
    simp [CST.foundL, found_expr, ← h1, ← h3, cmdPieces_expr, h2, h4]
  | _, _, _, .newline hs => by
    obtain ⟨h3, h4⟩ := hs.found
    simp [CST.foundL, CST.found, ← h3, CST.cmdPieces, CST.piece, h4]

end

theorem XDoc.found {cs ds es} (h : XDoc cs ds es) : es = CST.foundL cs := by
  have hlines : ∀ {cs ds es}, XLines cs ds es → es = CST.foundL cs := by
    intro cs ds es h
    induction h with
    | nil => rfl
    | cons h _ ih =>
      rw [CST.foundL, ← ih]
      congr 1
      cases h with
      | close => rfl
      | newline => rfl
      | expr _ h => rw [found_expr]; exact h.found.1
  induction h with
  | nil => rfl
  | cons h _ ih =>
    rw [CST.foundL, ← ih]
    congr 1
    cases h with
    | newline => rfl
    | eof => rfl
    | stmt h => rw [CST.found]; exact hlines h; all_goals simp

/-! ### from tokens to the concrete tree -/

theorem into_into (ps qs : List CmdPart) (st) : intoOpen qs (intoOpen ps st) = intoOpen (ps ++ qs) st := by
  rcases st with _ | ⟨f, st⟩ <;> simp [intoOpen]

theorem into_nil (st) : intoOpen [] st = st := by
  rcases st with _ | ⟨f, st⟩ <;> simp [intoOpen]

theorem report_leaf {t : Token} {ts k} (h : exprLeaf t.kind = some k) (st) :
    report st (t :: ts) = report (intoOpen (CST.cmdPieces (.leaf k t.loc)) st) ts := by
  obtain ⟨tk, l⟩ := t
  cases tk <;> simp [exprLeaf] at h <;> subst h <;> simp [report, CST.cmdPieces, TokKind.piece, LKind.piece]

theorem report_newline {t : Token} {ts} (h : t.kind = .newLine) (st) :
    report st (t :: ts) = report (intoOpen [(.blank, t.loc)] st) ts := by
  obtain ⟨tk, l⟩ := t
  cases h
  simp [report, TokKind.piece]

theorem report_open {t : Token} {ts b} (h : t.kind = .bopen b) (st) :
    report st (t :: ts) = report (⟨b, t.loc, []⟩ :: st) ts := by
  obtain ⟨tk, l⟩ := t
  cases h
  simp [report]

theorem report_close {u : Token} {ts} {f : OpenCmd} (hu : u.kind = .bclose f.bracket) (st) :
    report (f :: st) (u :: ts) =
      commandErrors f.bracket f.opening (f.pieces ++ [(.closing, u.loc)]) ++ report (intoOpen [f.piece u] st) ts := by
  obtain ⟨tk, l⟩ := u
  simp only at hu
  subst hu
  simp [report, endCommands]

theorem report_stop {u : Token} {ts} {f : OpenCmd} (hs : itemStop u.kind = true) (hn : u.kind ≠ .newLine)
    (hu : u.kind ≠ .bclose f.bracket) (st) :
    report (f :: st) (u :: ts) =
      commandErrors f.bracket f.opening f.pieces ++ report (intoOpen [f.piece u] st) (u :: ts) := by
  have key : ∀ b, b ≠ some f.bracket → endCommands u b [] (f :: st) =
      (commandErrors f.bracket f.opening f.pieces ++ (endCommands u b [] (intoOpen [f.piece u] st)).1,
        (endCommands u b [] (intoOpen [f.piece u] st)).2) := by
    intro b hb
    rw [endCommands, if_neg hb]
    rcases st with _ | ⟨g, st⟩
    · simp [endCommands, intoOpen]
    · simp only [intoOpen, endCommands, List.append_nil]
      rfl
  obtain ⟨tk, l⟩ := u
  cases tk <;> simp [itemStop] at hs hn
  · simp only [report]
    rw [key none (by simp)]
  · rename_i b'
    have : some b' ≠ some f.bracket := by rintro h; injection h with h; subst h; simp at hu
    simp only [report]
    rw [key _ this, List.append_assoc]
  · simp only [report]
    rw [key none (by simp)]

theorem report_esc {t u : Token} {us v} (ht : t.kind = .backSlash) (hv : escapable u.kind = some v) (st) :
    report st (t :: u :: us) =
      report (intoOpen (CST.cmdPieces (.node .backSlash [.leaf (.text v) u.loc] t.loc)) st) us := by
  obtain ⟨c, rfl, h1, h2, _⟩ := escapedChar_some hv
  obtain ⟨tk, l⟩ := t
  cases ht
  rw [report]
  simp [h1, CST.cmdPieces, CST.loc]

theorem report_escN {t u : Token} {us} (ht : t.kind = .backSlash) (hv : escapable u.kind = none) (st) :
    report st (t :: u :: us) = ⟨.invalidBackslash, t.loc⟩ ::
      report (intoOpen (CST.cmdPieces (.node .backSlash [] t.loc)) st) (u :: us) := by
  obtain ⟨tk, l⟩ := t
  cases ht
  rw [report]
  simp [escapedChar_none hv, CST.cmdPieces]

theorem found_closed (b) (t u : Token) (cs) (hu : u.kind = .bclose b) :
    (bracketNode b t cs u).found =
      CST.foundL cs ++ commandErrors b t.loc (cs.flatMap CST.cmdPieces ++ [(.closing, u.loc)]) := by
  unfold bracketNode
  rw [List.cons_append, CST.found, if_pos hu, foundL_append]
  simp [CST.foundL, CST.found, CST.cmdPieces, LKind.piece, CST.loc]

theorem found_unclosed (b) (t u : Token) (cs) (hu : u.kind ≠ .bclose b) :
    (bracketNode b t cs u).found = CST.foundL cs ++ commandErrors b t.loc (cs.flatMap CST.cmdPieces) := by
  unfold bracketNode
  rw [List.cons_append, CST.found, if_neg hu]
  simp [CST.loc]

theorem pieces_bracketNode (b) (t u : Token) (cs ps) :
    (bracketNode b t cs u).cmdPieces = [OpenCmd.piece ⟨b, t.loc, ps⟩ u] := by
  unfold bracketNode
  rcases b <;> simp [CST.cmdPieces, OpenCmd.piece]

mutual

theorem EI.report : ∀ {ts cs r}, EI ts cs r → HasEof ts → ∀ st,
    report st ts = CST.foundL cs ++ report (intoOpen (cs.flatMap CST.cmdPieces) st) r
  | _, _, _, .stop _ => fun _ _ => by simp [CST.foundL, into_nil]
  | _, _, _, .leaf hk h => fun he st => by
    rw [report_leaf hk, h.report (he.tail (exprLeaf_ne_eof hk)), CST.foundL, into_into]
    simp [CST.found]
  | _, _, _, .esc ht hv h => fun he st => by
    rw [report_esc ht hv, h.report ((he.tail (by simp [ht])).tail (escapable_ne_eof hv)), CST.foundL, into_into]
    simp [CST.found]
  | _, _, _, .escN ht hv h => fun he st => by
    rw [report_escN ht hv, h.report (he.tail (by simp [ht])), CST.foundL, into_into]
    simp [CST.found]
  | _, _, _, .bclosed (t := t) (b := b) (cs := cs) (u := u) ht hb hu h => fun he st => by
    have he1 := he.tail (by simp [ht])
    have he2 := (hb.suffix.1.mp he1).tail (by simp [hu])
    rw [report_open ht, hb.report he1, intoOpen, report_close hu, h.report he2, CST.foundL, found_closed b t u cs hu,
      into_into, List.flatMap_cons, pieces_bracketNode b t u cs ([] ++ cs.flatMap CST.cmdPieces)]
    simp
  | _, _, _, .bunclosed (t := t) (b := b) (cs := cs) (u := u) ht hb hu h => fun he st => by
    have he1 := he.tail (by simp [ht])
    have he2 := hb.suffix.1.mp he1
    rw [report_open ht, hb.report he1, intoOpen, report_stop (hb.rest_stop.1.stop he2) (hb.rest_stop.2 _ rfl) hu,
      h.report he2, CST.foundL, found_unclosed b t u cs hu, into_into, List.flatMap_cons,
      pieces_bracketNode b t u cs ([] ++ cs.flatMap CST.cmdPieces)]
    simp

theorem BI.report : ∀ {ts cs r}, BI ts cs r → HasEof ts → ∀ st,
    report st ts = CST.foundL cs ++ report (intoOpen (cs.flatMap CST.cmdPieces) st) r
  | _, _, _, .stop _ _ => fun _ _ => by simp [CST.foundL, into_nil]
  | _, _, _, .expr (c := c) (cs := cs) he hb => fun h st => by
    rw [he.report h, hb.report (he.suffix.1.mp h), into_into]
    simp only [exprNode, CST.foundL, found_expr, List.flatMap_cons, cmdPieces_expr, List.append_assoc]
  | _, _, _, .newline (t := t) ht h => fun he st => by
    rw [report_newline ht, h.report (he.tail (by simp [ht])), into_into]
    simp [CST.foundL, CST.found, CST.cmdPieces, LKind.piece]

end

theorem LI.report {ts c r} (h : LI ts c r) (he : HasEof ts) : report [] ts = c.found ++ report [] r := by
  cases h with
  | expr h => rw [h.report he, exprNode, found_expr]; rfl
  | @close t _ b ht =>
    obtain ⟨tk, l⟩ := t
    cases ht
    simp [Brack.report, endCommands, CST.found]

theorem report_line {t : Token} {ts} (h : t.kind = .newLine) : report [] (t :: ts) = report [] ts := by
  rw [report_newline h]; rfl

theorem SI.report : ∀ {ts cs r}, SI ts cs r → HasEof ts → report [] ts = CST.foundL cs ++ report [] r
  | _, _, _, .stop _ => fun _ => by simp [CST.foundL]
  | _, _, _, .more ht hl h => fun he => by
    have he1 := he.tail (by simp [ht])
    rw [report_line ht, hl.report he1, h.report (hl.hasEof.mp he1)]
    simp [CST.foundL, CST.found]

theorem TI.report {ts c r} (h : TI ts c r) (he : HasEof ts) : report [] ts = c.found ++ report [] r := by
  cases h with
  | mk h1 h2 =>
    obtain ⟨l, hl⟩ := foldl_add_new .stmt (_ :: _)
    rw [hl, h1.report he, h2.report (h1.hasEof.mp he)]
    simp [CST.found, CST.foundL]

theorem NI.report : ∀ {ts cs r}, NI ts cs r → report [] ts = CST.foundL cs ++ report [] r
  | _, _, _, .stop _ => by simp [CST.foundL]
  | _, _, _, .more ht h => by
    rw [report_line ht, h.report]
    simp [CST.foundL, CST.found]

theorem DI.report : ∀ {ts cs r}, DI ts cs r → HasEof ts → report [] ts = CST.foundL cs ++ report [] r
  | _, _, _, .noStmt _ => fun _ => by simp [CST.foundL]
  | _, _, _, .lastStmt _ _ => fun _ => by simp [CST.foundL]
  | _, _, _, .more hs ht hN h => fun he => by
    have he1 := (hs.hasEof.mp he).tail (by simp [ht])
    rw [hs.report he, report_line ht, hN.report, h.report (hN.hasEof.mp he1)]
    simp [CST.foundL, foundL_append, CST.found]

theorem OI.report {ts cs r} (h : OI ts cs r) (he : HasEof ts) : report [] ts = CST.foundL cs ++ report [] r := by
  cases h with
  | none => simp [CST.foundL]
  | some h => simpa [CST.foundL] using h.report he

theorem PI.report {ts c rest} (h : PI ts c rest) : report [] ts = c.found := by
  have he := h.hasEof
  cases h with
  | @mk _ _ _ _ _ t _ hD hO hN ht =>
    obtain ⟨l, hl⟩ := foldl_add_new .document (_ ++ _)
    rw [hl, hD.report he, hO.report (hD.hasEof.mp he), hN.report]
    have : Brack.report [] (t :: rest) = [] := by
      obtain ⟨tk, l⟩ := t
      cases ht
      simp [Brack.report, endCommands]
    simp [CST.found, CST.foundL, foundL_append, this]

theorem transform_report {ts : List Token} {c : CST} {ids : Nat → Str} {a : AST} {es : List TErr}
    (hp : parse ts = .ok c) (hx : transform ids c = .ok (a, es)) : es = report [] ts := by
  obtain ⟨rest, hP⟩ := parse_ok hp
  obtain ⟨cs, ds, l, m, hT⟩ := transform_trans hp hx
  rw [hP.report, hT.doc, CST.found, hT.rel.found]
  all_goals simp

end Brack
