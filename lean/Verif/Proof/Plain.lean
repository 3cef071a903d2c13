import Verif.Model.Pipeline
import Verif.Proof.GenOne
import Verif.Proof.TransFinal
import Verif.Proof.TransWell
import Verif.Proof.ParserTree

/-
Helper lemmas on documents without commands.
-/

namespace Brack

/-- A bracket node begins with its opening bracket. -/
def OpensNode (n : CST) : Prop := ∀ b cs l, n = .node (.bracket b) cs l → ∃ l1 ds, cs = .leaf (.bopen b) l1 :: ds

theorem OpensNode.leaf {k l} : OpensNode (.leaf k l) := by intro b cs l' h; cases h

mutual

theorem GItem.opens : ∀ {c}, GItem c → ∀ {n}, CST.NodeOf n c → OpensNode n
  | _, .leaf _, _, .self => .leaf
  | _, .escaped _, _, .self => by intro b cs l h; cases h
  | _, .escaped _, _, .child hc hn => by
    simp only [List.mem_singleton] at hc
    subst hc
    cases hn
    exact .leaf
  | _, .backslash, _, .self => by intro b cs l h; cases h
  | _, .closed _, _, .self => by intro b cs l h; cases h; exact ⟨_, _, rfl⟩
  | _, .closed hb, _, .child hc hn => by
    simp only [List.cons_append, List.mem_cons, List.mem_append, List.not_mem_nil, or_false] at hc
    rcases hc with rfl | hc | rfl
    · cases hn; exact .leaf
    · exact hb.opens hc hn
    · cases hn; exact .leaf
  | _, .unclosed _, _, .self => by intro b cs l h; cases h; exact ⟨_, _, rfl⟩
  | _, .unclosed hb, _, .child hc hn => by
    simp only [List.mem_cons] at hc
    rcases hc with rfl | hc
    · cases hn; exact .leaf
    · exact hb.opens hc hn

theorem GBody.opens : ∀ {cs}, GBody cs → ∀ {c}, c ∈ cs → ∀ {n}, CST.NodeOf n c → OpensNode n
  | _, .nil, _, hc, _, _ => by simp at hc
  | _, .expr _ hg hb, _, hc, _, hn => by
    rcases List.mem_cons.mp hc with rfl | hc
    · cases hn with
      | self => intro b cs l h; cases h
      | child hc hn => exact (hg _ hc).opens hn
    · exact hb.opens hc hn
  | _, .newline hb, _, hc, _, hn => by
    rcases List.mem_cons.mp hc with rfl | hc
    · cases hn; exact .leaf
    · exact hb.opens hc hn

end

theorem GLine.opens {c} (h : GLine c) {n} (hn : CST.NodeOf n c) : OpensNode n := by
  cases h with
  | close => cases hn; exact .leaf
  | expr _ hg =>
    cases hn with
    | self => intro b cs l h; cases h
    | child hc hn => exact (hg _ hc).opens hn

theorem GLines.opens {cs} (h : GLines cs) {c} (hc : c ∈ cs) {n} (hn : CST.NodeOf n c) : OpensNode n := by
  induction h with
  | one h => simp only [List.mem_singleton] at hc; subst hc; exact h.opens hn
  | more h _ ih =>
    simp only [List.mem_cons] at hc
    rcases hc with rfl | rfl | hc
    · exact h.opens hn
    · cases hn; exact .leaf
    · exact ih hc

theorem GStmt.opens {s} (h : GStmt s) {n} (hn : CST.NodeOf n s) : OpensNode n := by
  cases h with
  | mk hl =>
    cases hn with
    | self => intro b cs l h; cases h
    | child hc hn => exact hl.opens hc hn

theorem GNewlines.opens {cs} (h : GNewlines cs) {c} (hc : c ∈ cs) {n} (hn : CST.NodeOf n c) : OpensNode n := by
  obtain ⟨l, rfl⟩ := h c hc
  cases hn; exact .leaf

theorem GChildren.opens {cs} (h : GChildren cs) {c} (hc : c ∈ cs) {n} (hn : CST.NodeOf n c) : OpensNode n := by
  induction h with
  | more hs hnl _ ih =>
    simp only [List.cons_append, List.mem_cons, List.mem_append] at hc
    rcases hc with rfl | rfl | rfl | hc | hc
    · exact hs.opens hn
    · cases hn; exact .leaf
    · cases hn; exact .leaf
    · exact hnl.opens hc hn
    · exact ih hc
  | last hs hnl =>
    simp only [List.cons_append, List.mem_cons, List.mem_append, List.not_mem_nil, or_false] at hc
    rcases hc with rfl | hc | rfl
    · exact hs.opens hn
    · exact hnl.opens hc hn
    · cases hn; exact .leaf
  | empty hnl =>
    simp only [List.mem_append, List.mem_cons, List.not_mem_nil, or_false] at hc
    rcases hc with hc | rfl
    · exact hnl.opens hc hn
    · cases hn; exact .leaf

theorem GDocument.opens {c} (h : GDocument c) {n} (hn : CST.NodeOf n c) : OpensNode n := by
  cases h with
  | mk hl =>
    cases hn with
    | self => intro b cs l h; cases h
    | child hc hn => exact hl.opens hc hn

theorem mem_tokensL {cs : List CST} {c : CST} (hc : c ∈ cs) {t : Token} (ht : t ∈ c.tokens) :
    t ∈ CST.tokensL cs := by
  induction cs with
  | nil => simp at hc
  | cons d cs ih =>
    simp only [CST.tokensL, List.mem_append]
    rcases List.mem_cons.mp hc with rfl | hc
    · exact .inl ht
    · exact .inr (ih hc)

/-- The tokens of an inner node are tokens of the tree. -/
theorem node_tokens {k ds l c} (h : CST.NodeOf (.node k ds l) c) {t : Token}
    (ht : t ∈ (CST.node k ds l).tokens) : t ∈ c.tokens := by
  generalize hm : CST.node k ds l = n at h ht
  induction h with
  | self => exact ht
  | @child k' cs l' d hd hn ih =>
    unfold CST.tokens
    split
    · next h => cases h
    · next h => cases h; simp at hd
    · next h =>
      cases h
      simp only [List.mem_singleton] at hd
      subst hd
      rw [← hm] at hn
      cases hn
    · next h => cases h; exact mem_tokensL hd ih

/-- Without opening bracket tokens there are no bracket nodes. -/
theorem no_brackets {c} (hg : GDocument c) (ht : ∀ t ∈ c.tokens, ∀ b, t.kind ≠ .bopen b) (b cs l) :
    ¬ CST.NodeOf (.node (.bracket b) cs l) c := by
  intro hn
  obtain ⟨l1, ds, rfl⟩ := hg.opens hn b cs l rfl
  refine ht ⟨.bopen b, l1⟩ (node_tokens hn ?_) b rfl
  simp [CST.tokens, CST.tokensL, LKind.tokKind]

/-- Without backslash tokens there are no backslash nodes. -/
theorem no_backslashes {c : CST} (ht : ∀ t ∈ c.tokens, t.kind ≠ .backSlash) (cs l) :
    CST.NodeOf (.node .backSlash cs l) c → cs ≠ [] := by
  rintro hn rfl
  refine ht ⟨.backSlash, l⟩ (node_tokens hn ?_) rfl
  simp [CST.tokens]

/-- Is the shape a leaf? -/
def Shape.isLeaf : Shape → Prop
  | .leaf _ _ => True
  | .node _ _ => False

/-- A tree without brackets contributes leaves only. -/
theorem pieces_leaves (c : CST) : (∀ b cs l, ¬ CST.NodeOf (.node (.bracket b) cs l) c) →
    ∀ s, Piece.part s ∈ c.pieces → s.isLeaf := by
  refine CST.rec
    (motive_1 := fun c => (∀ b cs l, ¬ CST.NodeOf (.node (.bracket b) cs l) c) →
      ∀ s, Piece.part s ∈ c.pieces → s.isLeaf)
    (motive_2 := fun cs => (∀ c ∈ cs, ∀ b ds l, ¬ CST.NodeOf (.node (.bracket b) ds l) c) →
      ∀ s, Piece.part s ∈ CST.piecesL cs → s.isLeaf) ?_ ?_ ?_ ?_ c
  · intro k l _ s hs
    rcases k <;> simp [CST.pieces] at hs <;> subst hs <;> trivial
  · intro k cs l ih hb s hs
    have ih' := ih (fun c hc b ds l' hn => hb b ds l' (.child hc hn)) s
    rcases k
    case bracket b => exact absurd .self (hb b cs l)
    all_goals simp only [CST.pieces] at hs; exact ih' hs
  · intro _ s hs; simp [CST.piecesL] at hs
  · intro c cs ih1 ih2 hb s hs
    simp only [CST.piecesL, List.mem_append] at hs
    rcases hs with hs | hs
    · exact ih1 (hb c (by simp)) s hs
    · exact ih2 (fun d hd => hb d (by simp [hd])) s hs

theorem mem_partsOf {ps : List Piece} {s : Shape} (h : s ∈ partsOf ps) : Piece.part s ∈ ps := by
  induction ps with
  | nil => simp [partsOf] at h
  | cons p ps ih =>
    rcases p with _ | _ | s'
    · simp only [partsOf] at h; simp [ih h]
    · simp only [partsOf] at h; simp [ih h]
    · simp only [partsOf, List.mem_cons] at h
      rcases h with rfl | h
      · simp
      · simp [ih h]

theorem piecesL_leaves {cs : List CST} (hb : ∀ c ∈ cs, ∀ b ds l, ¬ CST.NodeOf (.node (.bracket b) ds l) c)
    (s : Shape) (hs : Piece.part s ∈ CST.piecesL cs) : s.isLeaf := by
  induction cs with
  | nil => simp [CST.piecesL] at hs
  | cons c cs ih =>
    simp only [CST.piecesL, List.mem_append] at hs
    rcases hs with hs | hs
    · exact pieces_leaves c (hb c (by simp)) s hs
    · exact ih (fun d hd => hb d (by simp [hd])) hs

/-- A text leaf. -/
def IsText (a : AST) : Prop := ∃ i v l, a = .leaf .text i (some v) l

/-- An expression of texts. -/
def TextExpr (a : AST) : Prop := ∃ i cs l, a = .node .expr i cs l ∧ ∀ c ∈ cs, IsText c

/-- A statement of expressions of texts. -/
def TextStmt (a : AST) : Prop := ∃ i cs l, a = .node .stmt i cs l ∧ ∀ c ∈ cs, TextExpr c

/-- A document of texts. -/
def TextDoc (a : AST) : Prop := ∃ i cs l, a = .node .document i cs l ∧ ∀ c ∈ cs, TextStmt c

theorem shapeL_mem {cs : List AST} {c : AST} (h : c ∈ cs) : c.shape ∈ AST.shapeL cs := by
  induction cs with
  | nil => simp at h
  | cons d cs ih =>
    simp only [AST.shapeL, List.mem_cons]
    rcases List.mem_cons.mp h with rfl | h
    · exact .inl rfl
    · exact .inr (ih h)

/-- A document without brackets follows the grammar as texts only. -/
theorem textDoc_of {c : CST} {a : AST} (hb : ∀ b ds l, ¬ CST.NodeOf (.node (.bracket b) ds l) c)
    (hs : a.shape = c.docShape) (hf : a.Follows) : TextDoc a := by
  rcases a with ⟨k, i, v, l⟩ | ⟨k, i, cs, l⟩
  · simp [AST.shape, CST.docShape] at hs
  · have hs' := hs
    simp only [AST.shape, CST.docShape, Shape.node.injEq] at hs
    obtain ⟨rfl, hs⟩ := hs
    refine ⟨i, cs, l, rfl, ?_⟩
    intro s hsm
    have h0 := shapeL_mem hsm
    rw [hs] at h0
    obtain ⟨cs', hcs', h1⟩ := List.mem_flatMap.mp h0
    clear h0
    have hcc : ∀ n, CST.NodeOf n cs' → CST.NodeOf n c := by
      intro n hn
      rcases c with _ | ⟨k, ds, l'⟩
      · simp [CST.children] at hcs'
      · exact .child hcs' hn
    rcases cs' with _ | ⟨k', ds, l'⟩
    · simp [CST.stmtShape] at h1
    · rcases k' <;> simp only [CST.stmtShape, List.mem_singleton, List.not_mem_nil] at h1
      rcases s with ⟨k, i', v, l''⟩ | ⟨k, i', es, l''⟩
      · simp [AST.shape] at h1
      · simp only [AST.shape, Shape.node.injEq] at h1
        obtain ⟨rfl, h1⟩ := h1
        refine ⟨_, _, _, rfl, ?_⟩
        intro e he
        have h0 := shapeL_mem he
        rw [h1] at h0
        obtain ⟨e', he', h2⟩ := List.mem_flatMap.mp h0
        clear h0
        rcases e' with _ | ⟨k'', fs, l3⟩
        · simp [CST.lineShape] at h2
        · rcases k'' <;> simp only [CST.lineShape, List.mem_singleton, List.not_mem_nil] at h2
          rcases e with ⟨k, i3, v, l4⟩ | ⟨k, i3, ts, l4⟩
          · simp [AST.shape] at h2
          · simp only [AST.shape, Shape.node.injEq] at h2
            obtain ⟨rfl, h2⟩ := h2
            refine ⟨_, _, _, rfl, ?_⟩
            intro t ht
            have h3 := shapeL_mem ht
            rw [h2] at h3
            have hleaf := piecesL_leaves (fun d hd b ds' l5 hn =>
              hb b ds' l5 (hcc _ (.child he' (.child hd hn)))) _ (mem_partsOf h3)
            have hrule := hf (.node .expr i3 ts l4) (.child hsm (.child he .self))
            simp only [AST.followsRule, Bool.and_eq_true, List.all_eq_true] at hrule
            have hit := hrule.2 t ht
            rcases t with ⟨k, i5, v, l6⟩ | ⟨k, i5, us, l6⟩
            · rcases k <;> rcases v with _ | v <;> simp [AST.isExprItem] at hit
              exact ⟨_, _, _, rfl⟩
            · simp [AST.shape, Shape.isLeaf] at hleaf

/-- Every content is that of a leaf. -/
theorem contents_node {k v l} {a : AST} : (⟨k, v, l⟩ : Content) ∈ a.contents →
    ∃ i, AST.NodeOf (.leaf k i v l) a := by
  refine AST.rec (motive_1 := fun a => (⟨k, v, l⟩ : Content) ∈ a.contents → ∃ i, AST.NodeOf (.leaf k i v l) a)
    (motive_2 := fun as => (⟨k, v, l⟩ : Content) ∈ AST.contentsL as →
      ∃ a ∈ as, ∃ i, AST.NodeOf (.leaf k i v l) a) ?_ ?_ ?_ ?_ a
  · intro k' i v' l' h
    simp only [AST.contents, List.mem_singleton, Content.mk.injEq] at h
    obtain ⟨rfl, rfl, rfl⟩ := h
    exact ⟨i, .self⟩
  · intro k' i cs l' ih h
    obtain ⟨c, hc, j, hn⟩ := ih h
    exact ⟨j, .child hc hn⟩
  · intro h; simp [AST.contentsL] at h
  · intro c cs ih1 ih2 h
    simp only [AST.contentsL, List.mem_append] at h
    rcases h with h | h
    · exact ⟨c, by simp, ih1 h⟩
    · obtain ⟨d, hd, hn⟩ := ih2 h
      exact ⟨d, by simp [hd], hn⟩

section
variable {W : Wasm}

/-- The texts of the leaves. -/
def AST.textOf (a : AST) : Str := (a.contents.filterMap (·.value)).flatten

theorem contentsL_text (cs : List AST) :
    ((AST.contentsL cs).filterMap (·.value)).flatten = (cs.map AST.textOf).flatten := by
  induction cs with
  | nil => rfl
  | cons c cs ih => simp [AST.contentsL, AST.textOf, ih]

theorem genChildren_all (ck inDoc : Bool) {ps : Plugins W} {cs : List AST}
    (h : ∀ c ∈ cs, genChild ck inDoc c ps = (.ok c.textOf, ps)) :
    genChildren ck inDoc cs ps = (.ok (cs.map AST.textOf), ps) := by
  induction cs with
  | nil => rfl
  | cons c cs ih =>
    rw [genChildren_cons_run, h c (by simp)]
    simp only []
    rw [ih (fun d hd => h d (by simp [hd]))]
    rfl

theorem genText (ck inDoc : Bool) {ps : Plugins W} (h : NoHooks ps) {a : AST} (ha : IsText a) :
    genChild ck inDoc a ps = (.ok a.textOf, ps) := by
  obtain ⟨i, v, l, rfl⟩ := ha
  rw [genChild_text_run, h.text]
  simp [hookBy, AST.textOf, AST.contents]

theorem genExpr (ck inDoc : Bool) {ps : Plugins W} (h : NoHooks ps) {a : AST} (ha : TextExpr a) :
    genChild ck inDoc a ps = (.ok a.textOf, ps) := by
  obtain ⟨i, cs, l, rfl, hc⟩ := ha
  rw [genChild_expr_run, genChildren_all ck false (fun c hc' => genText ck false h (hc c hc'))]
  simp only [afterAll, h.expr, hookBy]
  rw [AST.textOf, AST.contents, contentsL_text]

theorem genStmt (ck : Bool) {ps : Plugins W} (h : NoHooks ps) {a : AST} (ha : TextStmt a) :
    genChild ck true a ps = (.ok a.textOf, ps) := by
  obtain ⟨i, cs, l, rfl, hc⟩ := ha
  rw [genChild_stmt_run, genChildren_all ck false (fun c hc' => genExpr ck false h (hc c hc'))]
  simp only [afterAll, h.stmt, hookBy]
  rw [AST.textOf, AST.contents, contentsL_text]

theorem generate_textDoc (ck : Bool) {ps : Plugins W} (h : NoHooks ps) {a : AST} (ha : TextDoc a) :
    generate ck a ps = (.ok a.textOf, ps) := by
  obtain ⟨i, cs, l, rfl, hc⟩ := ha
  rw [generate_run, genChildren_all ck true (fun c hc' => genStmt ck h (hc c hc'))]
  simp only [afterAll, h.document, hookBy]
  rw [AST.textOf, AST.contents, contentsL_text]

theorem expandChildren_all (o : AST) {ps : Plugins W} {cs : List AST}
    (h : ∀ c ∈ cs, (∀ i es l, c ≠ .node (.bracket .angle) i es l) ∧ expandOther o c ps = (.ok c, ps)) :
    expandChildren o cs ps = (.ok cs, ps) := by
  induction cs with
  | nil => rfl
  | cons c cs ih =>
    have hc := h c (by simp)
    have ih := ih (fun d hd => h d (by simp [hd]))
    rw [expandChildren]
    · rw [PM.bind_run, hc.2]
      simp only []
      rw [PM.bind_run, ih]
      rfl
    · exact hc.1

theorem expandOther_node (o : AST) {ps : Plugins W} {k i l} {cs : List AST}
    (h : ∀ c ∈ cs, (∀ i es l, c ≠ .node (.bracket .angle) i es l) ∧ expandOther o c ps = (.ok c, ps)) :
    expandOther o (.node k i cs l) ps = (.ok (.node k i cs l), ps) := by
  rw [expandOther, PM.bind_run, expandChildren_all o h]
  rfl

theorem expander_textDoc {ps : Plugins W} {a : AST} (ha : TextDoc a) : expander a ps = (.ok a, ps) := by
  obtain ⟨i, cs, l, rfl, hc⟩ := ha
  unfold expander
  suffices ∀ o, expandOther o (.node .document i cs l) ps = (.ok (.node .document i cs l), ps) from this _
  intro o
  refine expandOther_node o (fun s hs => ?_)
  obtain ⟨i, es, l, rfl, hc⟩ := hc s hs
  refine ⟨by simp, expandOther_node o (fun e he => ?_)⟩
  obtain ⟨i, ts, l, rfl, hc⟩ := hc e he
  refine ⟨by simp, expandOther_node o (fun t ht => ?_)⟩
  obtain ⟨i, v, l, rfl⟩ := hc t ht
  exact ⟨by simp, by rw [expandOther]; rfl⟩

theorem compileText_front {S : Segmenter} {ids : Nat → Str} {ck : Bool} {text : Str} {ts c a es}
    (ht : tokenizeStr S text = .ok ts) (hp : parse ts = .ok c) (hx : transform ids c = .ok (a, es))
    (ps : Plugins W) :
    compileText S ids ck text ps = (do let b ← expander a; generate ck b : PM W Str) ps := by
  unfold compileText
  rw [PM.bind_run, PM.lift_run, ht]
  simp only []
  rw [PM.bind_run, PM.lift_run, hp]
  simp only []
  rw [PM.bind_run, PM.lift_run, hx]

theorem compile_textDoc {S : Segmenter} {ids : Nat → Str} {ck : Bool} {text : Str} {ts c a es}
    (ht : tokenizeStr S text = .ok ts) (hp : parse ts = .ok c) (hx : transform ids c = .ok (a, es))
    {ps : Plugins W} (h : NoHooks ps) (ha : TextDoc a) :
    compileText S ids ck text ps = (.ok a.textOf, ps) := by
  rw [compileText_front ht hp hx, PM.bind_run, expander_textDoc ha]
  exact generate_textDoc ck h ha

end

end Brack
