import Verif.Proof.WrittenTok
import Verif.Proof.ParserDet
import Verif.Proof.TransWell
import Verif.Spec.WellFormed

/-
Helper lemmas: the concrete trees of written documents.
-/

namespace Brack

theorem piecesL_app (cs ds : List CST) : CST.piecesL (cs ++ ds) = CST.piecesL cs ++ CST.piecesL ds := by
  induction cs with
  | nil => simp [CST.piecesL]
  | cons c cs ih => simp [CST.piecesL, ih]

theorem wf_leaf (k : LKind) (l : Loc) : (CST.leaf k l).WellFormed := by
  intro n h
  cases h
  rfl

theorem wf_node {k : IKind} {cs : List CST} {l : Loc} (h : (CST.node k cs l).nodeOk = true)
    (hs : ∀ c ∈ cs, c.WellFormed) : (CST.node k cs l).WellFormed := by
  intro n hn
  cases hn with
  | self => exact h
  | child hm hn => exact hs _ hm n hn

/-- The element of an item. -/
def Markup.elem : Markup → Elem
  | .words _ | .escaped _ => .other
  | .blank _ => .blank
  | .call b _ _ _ => if b = .angle then .angle else .other

/-- The pieces of shapes. -/
def partPieces (ss : List Shape) : List Piece := ss.map Piece.part

theorem partsOf_partPieces (ss : List Shape) : partsOf (partPieces ss) = ss := by
  induction ss with
  | nil => rfl
  | cons s ss ih => simp only [partPieces, List.map, partsOf] at *; rw [ih]

theorem commaGroups_partPieces (ss : List Shape) : commaGroups (partPieces ss) = [partPieces ss] := by
  induction ss with
  | nil => rfl
  | cons s ss ih =>
    show commaGroups (.part s :: partPieces ss) = _
    simp only [commaGroups, ih]
    rfl

theorem commaGroups_app (ss : List Shape) (ps : List Piece) :
    commaGroups (partPieces ss ++ .comma :: ps) = partPieces ss :: commaGroups ps := by
  induction ss with
  | nil => rfl
  | cons s ss ih =>
    show commaGroups (.part s :: (partPieces ss ++ .comma :: ps)) = _
    simp only [commaGroups, ih]
    rfl

theorem splitCommas_none {es : List Elem} (h : Elem.comma ∉ es) : splitCommas es = [es] := by
  induction es with
  | nil => rfl
  | cons e es ih =>
    have he : e ≠ .comma := by rintro rfl; simp at h
    cases e <;> simp_all [splitCommas]

theorem splitCommas_app {es fs : List Elem} (h : Elem.comma ∉ es) :
    splitCommas (es ++ .comma :: fs) = es :: splitCommas fs := by
  induction es with
  | nil => rfl
  | cons e es ih =>
    have he : e ≠ .comma := by rintro rfl; simp at h
    cases e <;> simp_all [splitCommas]

/-- The pieces of arguments. -/
def argPieces : List (List Markup) → List Piece
  | [] => []
  | a :: as => partPieces (Markup.shapeL a) ++ (if as.isEmpty then [] else .comma :: argPieces as)

/-- The elements of arguments. -/
def argElems : List (List Markup) → List Elem
  | [] => []
  | a :: as => a.map Markup.elem ++ (if as.isEmpty then [] else .comma :: argElems as)

theorem elem_plain (i : Markup) : i.elem ≠ .comma ∧ i.elem ≠ .dot := by
  cases i <;> simp [Markup.elem]
  split <;> simp

theorem elem_blank (i : Markup) (h : i.isBlank = false) : i.elem ≠ .blank := by
  cases i <;> simp [Markup.isBlank] at h <;> simp [Markup.elem]
  split <;> simp

theorem comma_notMem (a : List Markup) : Elem.comma ∉ a.map Markup.elem := by
  simp only [List.mem_map, not_exists, not_and]
  exact fun i _ => (elem_plain i).1

theorem dot_notMem (a : List Markup) : Elem.dot ∉ a.map Markup.elem := by
  simp only [List.mem_map, not_exists, not_and]
  exact fun i _ => (elem_plain i).2

theorem shapeL_ne_nil {a : List Markup} (h : a.any (fun i => !i.isBlank) = true) : Markup.shapeL a ≠ [] := by
  induction a with
  | nil => simp at h
  | cons i a ih =>
    simp only [List.any_cons, Bool.or_eq_true, Bool.not_eq_true'] at h
    simp only [Markup.shapeL]
    rcases h with h | h
    · cases i <;> simp [Markup.isBlank] at h <;> simp [Markup.shape]
    · intro e
      exact ih h (List.append_eq_nil_iff.1 e).2

theorem shapeL_blank {a : List Markup} (h : a.all Markup.isBlank = true) : Markup.shapeL a = [] := by
  induction a with
  | nil => rfl
  | cons i a ih =>
    simp only [List.all_cons, Bool.and_eq_true] at h
    rw [Markup.shapeL, ih h.2]
    cases i <;> simp [Markup.isBlank] at h <;> rfl

/-- Only blanks: there is one argument, which is blank. -/
theorem onlyBlanks_iff {as : List (List Markup)} : onlyBlanks as = true ↔ ∃ a, as = [a] ∧ a.all Markup.isBlank = true := by
  rcases as with _ | ⟨a, _ | ⟨b, as⟩⟩
  · simp [onlyBlanks]
  · simp [onlyBlanks]
  · simp [onlyBlanks]

theorem argumentsOf_args {as : List (List Markup)}
    (h : (onlyBlanks as || as.all (fun a => a.any (fun i => !i.isBlank))) = true) :
    argumentsOf (argPieces as) = if onlyBlanks as then [] else Markup.shapeArgs as := by
  cases ho : onlyBlanks as
  case true =>
    obtain ⟨a, rfl, hb⟩ := onlyBlanks_iff.1 ho
    simp [argPieces, shapeL_blank hb, partPieces, argumentsOf]
  rw [ho, Bool.false_or] at h
  rw [if_neg (by simp)]
  rcases as with _ | ⟨a, as⟩
  · rfl
  · have key : ∀ (as : List (List Markup)) (a : List Markup),
        (commaGroups (argPieces (a :: as))).map (fun g => Shape.node .expr (partsOf g)) = Markup.shapeArgs (a :: as) := by
      intro as
      induction as with
      | nil =>
        intro a
        simp [argPieces, commaGroups_partPieces, partsOf_partPieces, Markup.shapeArgs]
      | cons b as ih =>
        intro a
        rw [argPieces, if_neg (by simp), commaGroups_app, List.map_cons, ih, partsOf_partPieces]
        simp only [Markup.shapeArgs]
    have hne : argPieces (a :: as) ≠ [] := by
      simp only [List.all_cons, Bool.and_eq_true] at h
      have := shapeL_ne_nil h.1
      intro e
      rw [argPieces] at e
      have := (List.append_eq_nil_iff.1 e).1
      simp only [partPieces, List.map_eq_nil_iff] at this
      contradiction
    unfold argumentsOf
    rw [if_neg (by simpa using hne), key]

theorem argumentsOk_args {as : List (List Markup)}
    (h : (onlyBlanks as || as.all (fun a => a.any (fun i => !i.isBlank))) = true) :
    argumentsOk (if as.isEmpty then [] else .blank :: argElems as) = true := by
  have nodot : ∀ as : List (List Markup), Elem.dot ∉ argElems as := by
    intro as
    induction as with
    | nil => simp [argElems]
    | cons a as ih =>
      rw [argElems]
      have := dot_notMem a
      cases as.isEmpty <;> simp_all
  cases ho : onlyBlanks as
  case true =>
    obtain ⟨a, rfl, hb⟩ := onlyBlanks_iff.1 ho
    have hall : (a.map Markup.elem).all (· = .blank) = true := by
      rw [List.all_eq_true] at hb ⊢
      intro e he
      obtain ⟨i, hi, rfl⟩ := List.mem_map.1 he
      have := hb i hi
      cases i <;> simp [Markup.isBlank] at this
      rfl
    have hd := nodot [a]
    simp only [argElems, List.isEmpty_nil, if_true, List.append_nil] at hd ⊢
    simp only [List.isEmpty_cons, Bool.false_eq_true, if_false, argumentsOk, List.all_cons, hall]
    simpa using hd
  rw [ho, Bool.false_or] at h
  have groups : ∀ (as : List (List Markup)) (a : List Markup), (a :: as).all (fun a => a.any (fun i => !i.isBlank)) = true →
      (splitCommas (argElems (a :: as))).all (fun g => g.any (· ≠ .blank)) = true := by
    have one : ∀ a : List Markup, a.any (fun i => !i.isBlank) = true →
        ((a.map Markup.elem).any (· ≠ .blank)) = true := by
      intro a ha
      simp only [List.any_eq_true, Bool.not_eq_true'] at ha
      obtain ⟨i, hi, hb⟩ := ha
      simp only [List.any_eq_true, List.mem_map, decide_eq_true_eq]
      exact ⟨i.elem, ⟨i, hi, rfl⟩, elem_blank i hb⟩
    intro as
    induction as with
    | nil =>
      intro a ha
      simp only [List.all_cons, Bool.and_eq_true] at ha
      have e : argElems [a] = a.map Markup.elem := by simp [argElems]
      rw [e, splitCommas_none (comma_notMem a)]
      simpa using one a ha.1
    | cons b as ih =>
      intro a ha
      rw [List.all_cons, Bool.and_eq_true] at ha
      rw [argElems, if_neg (by simp), splitCommas_app (comma_notMem a), List.all_cons, one a ha.1, ih b ha.2]
      rfl
  rcases as with _ | ⟨a, as⟩
  · rfl
  · have hg := groups as a h
    rw [if_neg (by simp)]
    unfold argumentsOk
    have hd : (Elem.blank :: argElems (a :: as)).contains .dot = false := by
      simpa using nodot (a :: as)
    rw [hd]
    have : (splitCommas (Elem.blank :: argElems (a :: as))).all (fun g => g.any (· ≠ .blank)) = true := by
      rw [splitCommas]
      · rcases hs : splitCommas (argElems (a :: as)) with _ | ⟨g, gs⟩
        · rw [argElems] at hs
          cases has : as.isEmpty
          · rw [has] at hs
            simp only [Bool.false_eq_true, if_false] at hs
            rw [splitCommas_app (comma_notMem a)] at hs
            simp at hs
          · rw [has] at hs
            simp only [if_true, List.append_nil] at hs
            rw [splitCommas_none (comma_notMem a)] at hs
            simp at hs
        · rw [hs] at hg
          simpa using hg
      · simp
    rw [this]
    simp

/-! ### Items -/

/-- What is known of the tree of an item. -/
structure ItemTree (i : Markup) (c : CST) : Prop where
  pieces : c.pieces = partPieces i.shape
  elems : c.elems = [i.elem]
  wf : c.WellFormed
  loose : i.isBlank = false → (c.evs []).any Event.looseSeparator = false

/-- Reading these tokens gives a tree of the item. -/
def ReadsAs (ts : List Token) (i : Markup) : Prop :=
  ∀ T cs r, EI T cs r → ∃ c, EI (ts ++ T) (c :: cs) r ∧ ItemTree i c

/-- The rest of the content of a bracket. -/
def Body (T : List Token) (ps : List Piece) (es : List Elem) (r : List Token) : Prop :=
  ∃ ei r1 cs, EI T ei r1 ∧ BI r1 cs r ∧ CST.piecesL ei ++ CST.piecesL cs = ps ∧
    CST.elemsL ei ++ CST.elemsL cs = es ∧ (∀ c ∈ ei, c.WellFormed) ∧ ∀ c ∈ cs, c.WellFormed

theorem Body.toBI {T ps es r} (h : Body T ps es r) : ∃ cs, BI T cs r ∧ CST.piecesL cs = ps ∧ CST.elemsL cs = es ∧
    ∀ c ∈ cs, c.WellFormed := by
  obtain ⟨ei, r1, cs, h1, h2, rfl, rfl, h3, h4⟩ := h
  rcases ei with _ | ⟨c, ei⟩
  · cases h1
    exact ⟨cs, h2, by simp [CST.piecesL], by simp [CST.elemsL], h4⟩
  · refine ⟨exprNode c ei :: cs, .expr h1 h2, ?_, ?_, ?_⟩
    · simp [CST.piecesL, exprNode, CST.pieces]
    · simp [CST.elemsL, exprNode, CST.elems]
    · intro d hd
      rcases List.mem_cons.1 hd with rfl | hd
      · exact wf_node rfl h3
      · exact h4 d hd

theorem Body.close {t : Token} {r b} (h : t.kind = .bclose b) : Body (t :: r) [] [] (t :: r) :=
  ⟨[], _, [], .stop (StopAt.close h), .stop (StopAt.close h) (by
    intro u hu
    simp only [List.head?_cons, Option.mem_def, Option.some.injEq] at hu
    subst hu
    simp [h]), by simp [CST.piecesL], by simp [CST.elemsL], by simp, by simp⟩

theorem Body.item {ts i T ps es r} (hr : ReadsAs ts i) (h : Body T ps es r) :
    Body (ts ++ T) (partPieces i.shape ++ ps) (i.elem :: es) r := by
  obtain ⟨ei, r1, cs, h1, h2, rfl, rfl, h3, h4⟩ := h
  obtain ⟨c, hc, hI⟩ := hr _ _ _ h1
  refine ⟨c :: ei, r1, cs, hc, h2, by simp [CST.piecesL, hI.pieces], by simp [CST.elemsL, hI.elems], ?_, h4⟩
  intro d hd
  rcases List.mem_cons.1 hd with rfl | hd
  · exact hI.wf
  · exact h3 d hd

theorem Body.newline {t : Token} {T ps es r} (ht : t.kind = .newLine) (h : Body T ps es r) :
    Body (t :: T) ps (.blank :: es) r := by
  obtain ⟨cs, h1, rfl, rfl, h2⟩ := h.toBI
  refine ⟨[], _, .leaf .newline t.loc :: cs, .stop (StopAt.newLine ht), .newline ht h1, ?_, ?_, by simp, ?_⟩
  · simp [CST.piecesL, CST.pieces]
  · simp [CST.elemsL, CST.elems]
  · intro d hd
    rcases List.mem_cons.1 hd with rfl | hd
    · exact wf_leaf _ _
    · exact h2 d hd

theorem Body.leaf {t : Token} {k T ps es r} (h : exprLeaf t.kind = some k) (hb : Body T ps es r) :
    Body (t :: T) ((CST.leaf k t.loc).pieces ++ ps) ((CST.leaf k t.loc).elems ++ es) r := by
  obtain ⟨ei, r1, cs, h1, h2, rfl, rfl, h3, h4⟩ := hb
  refine ⟨_ :: ei, r1, cs, .leaf h h1, h2, by simp [CST.piecesL], by simp [CST.elemsL], ?_, h4⟩
  intro d hd
  rcases List.mem_cons.1 hd with rfl | hd
  · exact wf_leaf _ _
  · exact h3 d hd

theorem map_cons_split {ts : List Token} {k ks} (h : ts.map (·.kind) = k :: ks) :
    ∃ t ts', ts = t :: ts' ∧ t.kind = k ∧ ts'.map (·.kind) = ks := by
  rcases ts with _ | ⟨t, ts⟩
  · simp at h
  · simp only [List.map_cons, List.cons.injEq] at h
    exact ⟨t, ts, rfl, h.1, h.2⟩

theorem bracket_tree {b : Bracket} {t u : Token} {m n : Str} {args : List (List Markup)} {cs : List CST}
    (ha : (onlyBlanks args || args.all (fun a => a.any (fun i => !i.isBlank))) = true) (hu : u.kind = .bclose b)
    (hp : CST.piecesL cs = .part (.leaf .module (some m)) :: .dot :: .part (.leaf .ident (some n)) :: argPieces args)
    (he : CST.elemsL cs = .module :: .dot :: .ident :: (if args.isEmpty then [] else .blank :: argElems args))
    (hw : ∀ c ∈ cs, c.WellFormed) (hg : GBody cs) : ItemTree (.call b m n args) (bracketNode b t cs u) := by
  have hclosed := bracket_isClosed (b := b) (t := t) (u := u) hg
  have hnode : bracketNode b t cs u = .node (.bracket b)
      (CST.leaf (.bopen b) t.loc :: cs ++ [.leaf (.bclose b) u.loc]) ⟨t.loc.start, u.loc.stop⟩ := by
    simp [bracketNode, hu]
  refine ⟨?_, ?_, ?_, fun _ => ?_⟩
  · rw [hnode, CST.pieces]
    simp only [List.cons_append, CST.piecesL, piecesL_app, CST.pieces, List.nil_append, List.append_nil, hp]
    simp only [commandOf, argumentsOf_args ha]
    rfl
  · rw [hnode]
    cases b <;> simp [CST.elems, Markup.elem]
  · rw [hnode] at hclosed ⊢
    refine wf_node ?_ ?_
    · rw [CST.nodeOk, hclosed]
      simp only [List.cons_append, CST.elemsL, elemsL_append, CST.elems, List.nil_append, List.append_nil, he, hu]
      simp only [commandOk, argumentsOk_args ha]
      simp
    · intro c hc
      simp only [List.cons_append, List.mem_cons, List.mem_append, List.not_mem_nil, or_false] at hc
      rcases hc with rfl | hc | rfl
      · exact wf_leaf _ _
      · exact hw c hc
      · exact wf_leaf _ _
  · have := evs_closed [] b cs (l := ⟨t.loc.start, u.loc.stop⟩) (l1 := t.loc) (l2 := u.loc)
    rw [hnode]
    simp only [List.cons_append] at *
    rw [this, List.any_append, hg.inner_sep]
    simp [Event.looseSeparator]

mutual

theorem item_tree (i : Markup) : ∀ (inside : Bool) (ts : List Token), i.ok inside = true → ts.map (·.kind) = i.toks →
    (∀ c, i = .blank c → c ≠ '\n') → ReadsAs ts i := by
  intro inside ts hok hk hn T cs r hE
  rcases i with s | c | c | ⟨b, m, nm, args⟩
  · obtain ⟨t, ts, rfl, h1, h2⟩ := map_cons_split hk
    obtain rfl := List.map_eq_nil_iff.1 h2
    refine ⟨.leaf (.text s) t.loc, .leaf (by rw [h1]; rfl) hE, ?_, ?_, wf_leaf _ _, fun _ => ?_⟩
    · simp [CST.pieces, Markup.shape, partPieces]
    · simp [CST.elems, Markup.elem]
    · simp [CST.evs, leafEvs, Event.looseSeparator, LKind.tokKind]
  · obtain ⟨t, ts, rfl, h1, h2⟩ := map_cons_split hk
    obtain ⟨u, ts, rfl, h3, h4⟩ := map_cons_split h2
    obtain rfl := List.map_eq_nil_iff.1 h4
    simp only [Markup.ok, Bool.or_eq_true, beq_iff_eq, Bool.and_eq_true] at hok
    have hesc : escapable (escapeTok c) = some [c] := by
      rcases hok with rfl | ⟨_, rfl | rfl⟩ <;> rfl
    refine ⟨.node .backSlash [.leaf (.text [c]) u.loc] t.loc, .esc h1 (by rw [h3]; exact hesc) hE,
      ?_, ?_, wf_node rfl (by simp [wf_leaf]), fun _ => ?_⟩
    · simp [CST.pieces, CST.piecesL, Markup.shape, partPieces]
    · simp [CST.elems, Markup.elem]
    · simp [CST.evs, escEvs, Event.looseSeparator]
  · obtain ⟨t, ts, rfl, h1, h2⟩ := map_cons_split hk
    obtain rfl := List.map_eq_nil_iff.1 h2
    rw [if_neg (hn c rfl)] at h1
    refine ⟨.leaf .whitespace t.loc, .leaf (by rw [h1]; rfl) hE, ?_, ?_, wf_leaf _ _, fun h => ?_⟩
    · simp [CST.pieces, Markup.shape, partPieces]
    · simp [CST.elems, Markup.elem]
    · simp [Markup.isBlank] at h
  · simp only [Markup.ok, Bool.and_eq_true] at hok
    obtain ⟨_, ha, ha'⟩ := hok
    rw [Markup.toks] at hk
    obtain ⟨t, ts, rfl, h1, hk⟩ := map_cons_split hk
    obtain ⟨tm, ts, rfl, h2, hk⟩ := map_cons_split hk
    obtain ⟨td, ts, rfl, h3, hk⟩ := map_cons_split hk
    obtain ⟨ti, ts, rfl, h4, hk⟩ := map_cons_split hk
    obtain ⟨ta, tu, rfl, h5, h6⟩ := List.map_eq_append_iff.1 hk
    obtain ⟨u, tu, rfl, hu, h7⟩ := map_cons_split h6
    obtain rfl := List.map_eq_nil_iff.1 h7
    have hargs : Body (ta ++ u :: T) (argPieces args) (if args.isEmpty then [] else .blank :: argElems args) (u :: T) := by
      rcases hargs : args with _ | ⟨a, as⟩
      · rw [hargs] at h5
        obtain rfl := List.map_eq_nil_iff.1 h5
        exact Body.close hu
      · rw [hargs] at h5
        obtain ⟨tw, ta, rfl, h8, h9⟩ := map_cons_split h5
        have := args_body (a :: as) ta (u :: T) [] [] (u :: T) (hargs ▸ ha) h9 (Body.close hu)
        rw [List.append_nil, List.append_nil] at this
        have := Body.leaf (t := tw) (k := .whitespace) (by rw [h8]; rfl) this
        simpa [CST.pieces, CST.elems] using this
    have body := Body.leaf (t := tm) (k := .module m) (by rw [h2]; rfl) (Body.leaf (t := td) (k := .dot) (by rw [h3]; rfl)
      (Body.leaf (t := ti) (k := .ident nm) (by rw [h4]; rfl) hargs))
    simp only [CST.pieces, CST.elems, List.cons_append, List.nil_append] at body
    obtain ⟨cs0, hb0, hp0, he0, hw0⟩ := body.toBI
    refine ⟨bracketNode b t cs0 u, ?_, bracket_tree ha' hu hp0 he0 hw0 hb0.grammar⟩
    have := EI.bclosed h1 hb0 hu hE
    simpa using this

theorem list_body (is : List Markup) : ∀ (ts T : List Token) (ps : List Piece) (es : List Elem) (r : List Token),
    Markup.okL true is = true → ts.map (·.kind) = Markup.toksL is → Body T ps es r →
    Body (ts ++ T) (partPieces (Markup.shapeL is) ++ ps) (is.map Markup.elem ++ es) r := by
  intro ts T ps es r hok hk hb
  rcases is with _ | ⟨i, is⟩
  · obtain rfl := List.map_eq_nil_iff.1 hk
    simpa [Markup.shapeL, partPieces] using hb
  · simp only [Markup.okL, Bool.and_eq_true] at hok
    rw [Markup.toksL] at hk
    obtain ⟨t1, t2, rfl, h1, h2⟩ := List.map_eq_append_iff.1 hk
    have ih := list_body is t2 T ps es r hok.1.2 h2 hb
    by_cases hn : ∀ c, i = .blank c → c ≠ '\n'
    · have := Body.item (item_tree i true t1 hok.1.1 h1 hn) ih
      simpa [Markup.shapeL, partPieces] using this
    · have : i = .blank '\n' := by
        rcases i with s | c | c | ⟨b, m, n, args⟩
        · exact absurd (fun c h => by cases h) hn
        · exact absurd (fun c h => by cases h) hn
        · by_cases hc : c = '\n'
          · rw [hc]
          · exact absurd (fun c' h => by cases h; exact hc) hn
        · exact absurd (fun c h => by cases h) hn
      subst this
      obtain ⟨t, t1, rfl, h3, h4⟩ := map_cons_split h1
      obtain rfl := List.map_eq_nil_iff.1 h4
      have := Body.newline (t := t) h3 ih
      simpa [Markup.shapeL, Markup.shape, partPieces, Markup.elem] using this

theorem args_body (as : List (List Markup)) : ∀ (ts T : List Token) (ps : List Piece) (es : List Elem) (r : List Token),
    Markup.okArgs as = true → ts.map (·.kind) = Markup.toksArgs as → Body T ps es r →
    Body (ts ++ T) (argPieces as ++ ps) (argElems as ++ es) r := by
  intro ts T ps es r hok hk hb
  rcases as with _ | ⟨a, as⟩
  · obtain rfl := List.map_eq_nil_iff.1 hk
    simpa [argPieces, argElems] using hb
  · simp only [Markup.okArgs, Bool.and_eq_true] at hok
    rw [Markup.toksArgs] at hk
    obtain ⟨t1, t2, rfl, h1, h2⟩ := List.map_eq_append_iff.1 hk
    rw [argPieces, argElems]
    cases has : as.isEmpty
    · rw [has] at h2
      obtain ⟨t, t2, rfl, h3, h4⟩ := map_cons_split h2
      have ih := args_body as t2 T ps es r hok.2 h4 hb
      have := Body.leaf (t := t) (k := .comma) (by rw [h3]; rfl) ih
      have := list_body a t1 _ _ _ r hok.1 h1 this
      simpa [CST.pieces, CST.elems] using this
    · rw [has] at h2
      obtain rfl := List.map_eq_nil_iff.1 h2
      have := list_body a t1 _ _ _ r hok.1 h1 hb
      simpa using this

end

/-! ### Lines -/

/-- Where a line ends. -/
def LineEnd (T : List Token) : Prop := ∃ t T', T = t :: T' ∧ (t.kind = .newLine ∨ t.kind = .eof)

theorem LineEnd.stopAt {T} (h : LineEnd T) : StopAt T := by
  obtain ⟨t, T, rfl, h⟩ := h
  intro u hu
  simp only [List.head?_cons, Option.mem_def, Option.some.injEq] at hu
  subst hu
  rcases h with h | h <;> exact .inl (by rw [h]; rfl)

theorem no_blanks {is : List Markup} (h : Markup.okL false is = true) : ∀ i ∈ is, i.ok false = true ∧ i.isBlank = false := by
  induction is with
  | nil => simp
  | cons i is ih =>
    simp only [Markup.okL, Bool.and_eq_true] at h
    intro j hj
    rcases List.mem_cons.1 hj with rfl | hj
    · refine ⟨h.1.1, ?_⟩
      have := h.1.1
      cases j <;> simp [Markup.ok] at this <;> rfl
    · exact ih h.1.2 j hj

theorem list_tree (is : List Markup) : ∀ (ts T : List Token), Markup.okL false is = true →
    ts.map (·.kind) = Markup.toksL is → LineEnd T →
    ∃ cs, EI (ts ++ T) cs T ∧ cs.length = is.length ∧ CST.piecesL cs = partPieces (Markup.shapeL is) ∧
      (∀ c ∈ cs, c.WellFormed) ∧ (CST.evsL [] cs).any Event.looseSeparator = false := by
  induction is with
  | nil =>
    intro ts T _ hk hT
    obtain rfl := List.map_eq_nil_iff.1 hk
    exact ⟨[], .stop hT.stopAt, rfl, rfl, by simp, by simp [CST.evsL]⟩
  | cons i is ih =>
    intro ts T hok hk hT
    have hb := (no_blanks hok i (by simp)).2
    simp only [Markup.okL, Bool.and_eq_true] at hok
    rw [Markup.toksL] at hk
    obtain ⟨t1, t2, rfl, h1, h2⟩ := List.map_eq_append_iff.1 hk
    obtain ⟨cs, e1, e2, e3, e4, e5⟩ := ih t2 T hok.1.2 h2 hT
    obtain ⟨c, hc, hI⟩ := item_tree i false t1 hok.1.1 h1 (by rintro c rfl; simp [Markup.isBlank] at hb) _ _ _ e1
    refine ⟨c :: cs, by rw [List.append_assoc]; exact hc, by simp [e2], ?_, ?_, ?_⟩
    · simp [CST.piecesL, hI.pieces, e3, Markup.shapeL, partPieces]
    · intro d hd
      rcases List.mem_cons.1 hd with rfl | hd
      · exact hI.wf
      · exact e4 d hd
    · rw [CST.evsL, List.any_append, hI.loose hb, e5]
      rfl

/-- What is known of the tree of a line. -/
structure LineTree (line : List Markup) (c : CST) : Prop where
  shape : c.lineShape = [.node .expr (Markup.shapeL line)]
  wf : c.WellFormed
  loose : (c.evs []).any Event.looseSeparator = false

theorem line_tree {line : List Markup} {ts T : List Token} (hne : line ≠ []) (hok : Markup.okL false line = true)
    (hk : ts.map (·.kind) = Markup.toksL line) (hT : LineEnd T) : ∃ c, LI (ts ++ T) c T ∧ LineTree line c := by
  obtain ⟨cs, h1, h2, h3, h4, h5⟩ := list_tree line ts T hok hk hT
  rcases cs with _ | ⟨c, cs⟩
  · rcases line with _ | ⟨_, _⟩
    · exact absurd rfl hne
    · simp at h2
  · refine ⟨_, .expr h1, ?_, wf_node rfl h4, ?_⟩
    · simp only [exprNode, CST.lineShape, h3, partsOf_partPieces]
    · rw [evs_exprNode]; exact h5

/-! ### Paragraphs -/

/-- Where a paragraph ends: at the end of the document, possibly after a line end, or at two line ends. -/
def ParaEnd (T : List Token) : Prop :=
  (∃ t T', T = t :: T' ∧ t.kind = .eof) ∨
  ∃ t u T', T = t :: u :: T' ∧ t.kind = .newLine ∧ (u.kind = .newLine ∨ u.kind = .eof)

theorem ParaEnd.lineEnd {T} (h : ParaEnd T) : LineEnd T := by
  rcases h with ⟨t, T, rfl, h⟩ | ⟨t, u, T, rfl, h, _⟩
  · exact ⟨t, T, rfl, .inr h⟩
  · exact ⟨t, _, rfl, .inl h⟩

/-- What is known of the trees of some lines. -/
structure LineTrees (lines : List (List Markup)) (cs : List CST) : Prop where
  shape : cs.flatMap CST.lineShape = lines.map (fun line => .node .expr (Markup.shapeL line))
  wf : ∀ c ∈ cs, c.WellFormed
  loose : (CST.evsL [] cs).any Event.looseSeparator = false

theorem more_lines (lines : List (List Markup)) : ∀ (ts T : List Token),
    (∀ line ∈ lines, line ≠ [] ∧ Markup.okL false line = true) →
    ts.map (·.kind) = (if lines.isEmpty then [] else .newLine :: lineToks lines) → ParaEnd T →
    ∃ cs, SI (ts ++ T) cs T ∧ LineTrees lines cs := by
  induction lines with
  | nil =>
    intro ts T _ hk hT
    obtain rfl := List.map_eq_nil_iff.1 hk
    refine ⟨[], .stop ?_, rfl, by simp, by simp [CST.evsL]⟩
    rintro t ts1 h ht _ u hu
    rcases hT with ⟨t', T', rfl, h'⟩ | ⟨t', u', T', rfl, h', h''⟩
    · cases h
      rw [h'] at ht
      cases ht
    · simp only [List.nil_append, List.cons.injEq] at h
      obtain ⟨rfl, rfl⟩ := h
      simp only [List.head?_cons, Option.mem_def, Option.some.injEq] at hu
      subst hu
      rcases h'' with h | h
      · exact .inl h
      · exact .inr (.inl h)
  | cons line lines ih =>
    intro ts T hok hk hT
    rw [if_neg (by simp)] at hk
    obtain ⟨t, ts, rfl, h1, hk⟩ := map_cons_split hk
    rw [lineToks] at hk
    obtain ⟨t1, t2, rfl, h2, h3⟩ := List.map_eq_append_iff.1 hk
    obtain ⟨cs, hS, hI⟩ := ih t2 T (fun l hl => hok l (by simp [hl])) h3 hT
    have hend : LineEnd (t2 ++ T) := by
      rcases lines with _ | ⟨l, lines⟩
      · obtain rfl := List.map_eq_nil_iff.1 h3
        exact hT.lineEnd
      · rw [if_neg (by simp)] at h3
        obtain ⟨t', t2, rfl, h4, _⟩ := map_cons_split h3
        exact ⟨t', _, rfl, .inl h4⟩
    obtain ⟨c, hL, hc⟩ := line_tree (hok line (by simp)).1 (hok line (by simp)).2 h2 hend
    refine ⟨.leaf .newline t.loc :: c :: cs, ?_, ?_, ?_, ?_⟩
    · have := SI.more h1 hL hS
      simpa using this
    · rw [List.flatMap_cons, List.flatMap_cons, hc.shape, hI.shape]
      rfl
    · intro d hd
      rcases List.mem_cons.1 hd with rfl | hd
      · exact wf_leaf _ _
      · rcases List.mem_cons.1 hd with rfl | hd
        · exact hc.wf
        · exact hI.wf d hd
    · simp only [CST.evsL, List.any_append, hc.loose, hI.loose]
      simp [CST.evs, leafEvs, Event.looseSeparator, LKind.tokKind]

/-- What is known of the tree of a paragraph. -/
structure ParaTree (p : List (List Markup)) (c : CST) : Prop where
  shape : c.stmtShape = [.node .stmt (p.map (fun line => .node .expr (Markup.shapeL line)))]
  wf : c.WellFormed
  loose : (c.evs []).any Event.looseSeparator = false

theorem para_tree {p : List (List Markup)} {ts T : List Token} (hp : paragraphOk p = true)
    (hk : ts.map (·.kind) = lineToks p) (hT : ParaEnd T) : ∃ c, TI (ts ++ T) c T ∧ ParaTree p c := by
  simp only [paragraphOk, Bool.and_eq_true, Bool.not_eq_true', List.isEmpty_eq_false_iff, List.all_eq_true] at hp
  rcases p with _ | ⟨line, lines⟩
  · exact absurd rfl hp.1
  · rw [lineToks] at hk
    obtain ⟨t1, t2, rfl, h2, h3⟩ := List.map_eq_append_iff.1 hk
    obtain ⟨cs, hS, hI⟩ := more_lines lines t2 T (fun l hl => hp.2 l (by simp [hl])) h3 hT
    have hend : LineEnd (t2 ++ T) := by
      rcases lines with _ | ⟨l, lines⟩
      · obtain rfl := List.map_eq_nil_iff.1 h3
        exact hT.lineEnd
      · rw [if_neg (by simp)] at h3
        obtain ⟨t', t2, rfl, h4, _⟩ := map_cons_split h3
        exact ⟨t', _, rfl, .inl h4⟩
    obtain ⟨c, hL, hc⟩ := line_tree (hp.2 line (by simp)).1 (hp.2 line (by simp)).2 h2 hend
    obtain ⟨l, hl⟩ := foldl_add_new .stmt (c :: cs)
    refine ⟨_, by rw [List.append_assoc]; exact .mk hL hS, ?_, ?_, ?_⟩
    · rw [hl, CST.stmtShape, List.flatMap_cons, hc.shape, hI.shape]
      rfl
    · rw [hl]
      refine wf_node rfl ?_
      intro d hd
      rcases List.mem_cons.1 hd with rfl | hd
      · exact hc.wf
      · exact hI.wf d hd
    · rw [hl]
      simp only [CST.evs, CST.evsL, List.any_append, hc.loose, hI.loose]
      rfl

/-! ### Documents -/

/-- What is known of the trees in a document. -/
structure DocTrees (d : List (List (List Markup))) (cs : List CST) : Prop where
  shape : cs.flatMap CST.stmtShape =
    d.map (fun p => .node .stmt (p.map (fun line => .node .expr (Markup.shapeL line))))
  wf : ∀ c ∈ cs, c.WellFormed
  loose : (CST.evsL [] cs).any Event.looseSeparator = false

theorem DocTrees.nil : DocTrees [] [] := ⟨rfl, by simp, by simp [CST.evsL]⟩

theorem DocTrees.append {d e cs ds} (h1 : DocTrees d cs) (h2 : DocTrees e ds) : DocTrees (d ++ e) (cs ++ ds) := by
  refine ⟨by rw [List.flatMap_append, h1.shape, h2.shape, List.map_append], ?_, ?_⟩
  · intro c hc
    rcases List.mem_append.1 hc with hc | hc
    · exact h1.wf c hc
    · exact h2.wf c hc
  · rw [evsL_append, List.any_append, h1.loose, h2.loose]; rfl

theorem DocTrees.one {p c} (h : ParaTree p c) : DocTrees [p] [c] := by
  refine ⟨by simp [h.shape], ?_, ?_⟩
  · intro d hd
    rw [List.mem_singleton] at hd
    subst hd
    exact h.wf
  · rw [CST.evsL, List.any_append, h.loose]; simp [CST.evsL]

theorem DocTrees.skip {k l} (h1 : CST.stmtShape (.leaf k l) = []) (h2 : ((CST.leaf k l).evs []).any Event.looseSeparator = false) :
    DocTrees [] [.leaf k l] := by
  refine ⟨by simp [h1], ?_, ?_⟩
  · intro d hd
    rw [List.mem_singleton] at hd
    subst hd
    exact wf_leaf _ _
  · rw [CST.evsL, List.any_append, h2]; simp [CST.evsL]

theorem DocTrees.newline (l) : DocTrees [] [.leaf .newline l] :=
  .skip rfl (by simp [CST.evs, leafEvs, Event.looseSeparator, LKind.tokKind])

theorem DocTrees.eof (l) : DocTrees [] [.leaf .eof l] := .skip rfl (by simp [CST.evs, leafEvs])

theorem newlines_tree (n : Nat) : ∀ (ts T : List Token), ts.map (·.kind) = List.replicate n .newLine →
    (∀ t ∈ T.head?, t.kind ≠ .newLine) → ∃ cs, NI (ts ++ T) cs T ∧ DocTrees [] cs := by
  induction n with
  | zero =>
    intro ts T hk hT
    obtain rfl := List.map_eq_nil_iff.1 hk
    exact ⟨[], .stop hT, .nil⟩
  | succ n ih =>
    intro ts T hk hT
    rw [List.replicate_succ] at hk
    obtain ⟨t, ts, rfl, h1, hk⟩ := map_cons_split hk
    obtain ⟨cs, hN, hI⟩ := ih ts T hk hT
    exact ⟨_, .more h1 hN, (DocTrees.newline _).append hI⟩

/-- The end of the text. -/
theorem end_tree {ts : List Token} {n : Nat} (hk : ts.map (·.kind) = List.replicate n .newLine ++ [.eof]) :
    ∃ t1 t, ts = t1 ++ [t] ∧ t1.map (·.kind) = List.replicate n .newLine ∧ t.kind = .eof := by
  obtain ⟨t1, t2, rfl, h1, h2⟩ := List.map_eq_append_iff.1 hk
  obtain ⟨t, t2, rfl, h3, h4⟩ := map_cons_split h2
  obtain rfl := List.map_eq_nil_iff.1 h4
  exact ⟨t1, t, rfl, h1, h3⟩

theorem head_eof {t : Token} (h : t.kind = .eof) : ∀ u ∈ [t].head?, u.kind ≠ .newLine := by
  intro u hu
  simp only [List.head?_cons, Option.mem_def, Option.some.injEq] at hu
  subst hu
  simp [h]

/-- A document starts with the first token of an item, unless it is empty. -/
theorem toks_head {i : Markup} (hok : i.ok false = true) : ∃ k ks, i.toks = k :: ks ∧ k ≠ .newLine := by
  rcases i with s | c | c | ⟨b, m, n, args⟩
  · exact ⟨_, _, rfl, by simp⟩
  · exact ⟨_, _, rfl, by simp⟩
  · simp [Markup.ok] at hok
  · exact ⟨_, _, rfl, by simp⟩

theorem lineToks_head {p : List (List Markup)} (hp : paragraphOk p = true) :
    ∃ k ks, lineToks p = k :: ks ∧ k ≠ .newLine := by
  simp only [paragraphOk, Bool.and_eq_true, Bool.not_eq_true', List.isEmpty_eq_false_iff, List.all_eq_true] at hp
  rcases p with _ | ⟨line, lines⟩
  · exact absurd rfl hp.1
  · have hl := hp.2 line (by simp)
    rcases line with _ | ⟨i, line⟩
    · exact absurd rfl hl.1
    · have := hl.2
      simp only [Markup.okL, Bool.and_eq_true] at this
      obtain ⟨k, ks, h1, h2⟩ := toks_head this.1.1
      exact ⟨k, _, by rw [lineToks, Markup.toksL, h1]; rfl, h2⟩

/-- The document up to the last statement, the last statement and the rest. -/
theorem doc_tree {d : List (List (List Markup))} {ks : List TokKind} (h : DocToks d ks) : ∀ ts : List Token,
    ts.map (·.kind) = ks → ∃ cs r cs2 r2 ns t, DI ts cs r ∧ OI r cs2 r2 ∧ NI r2 ns [t] ∧ t.kind = .eof ∧
      DocTrees d (cs ++ cs2 ++ ns) := by
  induction h with
  | empty n =>
    intro ts hk
    obtain ⟨t1, t, rfl, h1, h2⟩ := end_tree hk
    obtain ⟨ns, hN, hI⟩ := newlines_tree n t1 [t] h1 (head_eof h2)
    have hno : NoLine (t1 ++ [t]) := by
      intro _ u hu
      rcases n with _ | n
      · obtain rfl := List.map_eq_nil_iff.1 h1
        simp only [List.nil_append, List.head?_cons, Option.mem_def, Option.some.injEq] at hu
        subst hu
        exact .inr (.inl h2)
      · obtain ⟨t', t1, rfl, h3, _⟩ := map_cons_split h1
        simp only [List.cons_append, List.head?_cons, Option.mem_def, Option.some.injEq] at hu
        subst hu
        exact .inl h3
    exact ⟨[], _, [], _, ns, t, .noStmt hno, .none hno, hN, h2, by simpa using hI⟩
  | last p n hp =>
    intro ts hk
    obtain ⟨tp, te, rfl, h1, h2⟩ := List.map_eq_append_iff.1 hk
    obtain ⟨t1, t, rfl, h3, h4⟩ := end_tree h2
    rcases n with _ | n
    · obtain rfl := List.map_eq_nil_iff.1 h3
      obtain ⟨c, hT, hI⟩ := para_tree (T := [t]) hp h1 (.inl ⟨t, [], rfl, h4⟩)
      refine ⟨[], _, [c], _, [], t, .lastStmt hT (head_eof h4), .some hT, .stop (head_eof h4), h4, ?_⟩
      simpa using DocTrees.one hI
    · rw [List.replicate_succ] at h3
      obtain ⟨t', t1, rfl, h5, h6⟩ := map_cons_split h3
      obtain ⟨ns, hN, hJ⟩ := newlines_tree n t1 [t] h6 (head_eof h4)
      obtain ⟨c, hT, hI⟩ := para_tree (T := t' :: (t1 ++ [t])) hp h1 (.inr (by
        rcases n with _ | n
        · obtain rfl := List.map_eq_nil_iff.1 h6
          exact ⟨t', t, [], rfl, h5, .inr h4⟩
        · obtain ⟨u, t1, rfl, h7, _⟩ := map_cons_split h6
          exact ⟨t', u, _, rfl, h5, .inl h7⟩))
      have hno : NoLine [t] := by
        intro _ u hu
        simp only [List.head?_cons, Option.mem_def, Option.some.injEq] at hu
        subst hu
        exact .inr (.inl h4)
      refine ⟨_, _, [], _, [], t, .more hT h5 hN (.noStmt hno), .none hno, .stop (head_eof h4), h4, ?_⟩
      have := (DocTrees.one hI).append ((DocTrees.newline t'.loc).append hJ)
      simpa using this
  | more p n d ks hp hn hd h ih =>
    intro ts hk
    obtain ⟨tp, tr, rfl, h1, h2⟩ := List.map_eq_append_iff.1 hk
    obtain ⟨t1, t2, rfl, h3, h4⟩ := List.map_eq_append_iff.1 h2
    obtain ⟨cs, r, cs2, r2, ns, t, hD, hO, hN, ht, hI⟩ := ih t2 h4
    have hhead : ∀ t ∈ t2.head?, t.kind ≠ .newLine := by
      have : ∃ k ks', ks = k :: ks' ∧ k ≠ .newLine := by
        cases h with
        | empty => exact absurd rfl hd
        | last p n hp =>
          obtain ⟨k, ks, e, hk⟩ := lineToks_head hp
          exact ⟨k, _, by rw [e]; rfl, hk⟩
        | more p n d ks hp =>
          obtain ⟨k, ks, e, hk⟩ := lineToks_head hp
          exact ⟨k, _, by rw [e]; rfl, hk⟩
      obtain ⟨k, ks', rfl, hne⟩ := this
      obtain ⟨u, t2, rfl, h5, _⟩ := map_cons_split h4
      intro v hv
      simp only [List.head?_cons, Option.mem_def, Option.some.injEq] at hv
      subst hv
      rw [h5]
      exact hne
    obtain ⟨n, rfl⟩ : ∃ m, n = m + 2 := ⟨n - 2, by omega⟩
    rw [List.replicate_succ] at h3
    obtain ⟨u, t1, rfl, h5, h6⟩ := map_cons_split h3
    obtain ⟨ms, hM, hJ⟩ := newlines_tree _ t1 t2 h6 hhead
    obtain ⟨c, hT, hC⟩ := para_tree (T := u :: (t1 ++ t2)) hp h1 (.inr (by
      rw [List.replicate_succ] at h6
      obtain ⟨v, t1, rfl, h7, _⟩ := map_cons_split h6
      exact ⟨u, v, _, rfl, h5, .inl h7⟩))
    refine ⟨_, r, cs2, r2, ns, t, .more hT h5 hM hD, hO, hN, ht, ?_⟩
    have := (DocTrees.one hC).append ((DocTrees.newline u.loc).append (hJ.append hI))
    simpa using this

/-- The tree of a written document. -/
theorem written_tree {d : List (List (List Markup))} {ts : List Token} (h : DocToks d (ts.map (·.kind))) :
    ∃ c, parse ts = .ok c ∧ c.docShape = documentShape d ∧ c.WellFormed ∧
      (trace [] ts).any Event.looseSeparator = false := by
  obtain ⟨cs, r, cs2, r2, ns, t, hD, hO, hN, ht, hI⟩ := doc_tree h ts rfl
  have hP := PI.mk hD hO hN ht
  obtain ⟨l, hl⟩ := foldl_add_new .document (cs ++ cs2 ++ ns ++ [CST.leaf .eof t.loc])
  have hJ := hI.append (DocTrees.eof t.loc)
  rw [List.append_nil] at hJ
  refine ⟨_, hP.parse, ?_, ?_, ?_⟩
  · rw [hl]
    simp only [CST.docShape, CST.children, hJ.shape, documentShape]
  · rw [hl]
    exact wf_node rfl hJ.wf
  · rw [parse_trace hP.parse, hl, evs_document]
    exact hJ.loose

end Brack
