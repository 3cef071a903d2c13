import Verif.Proof.ParserDet
import Verif.Proof.TransAux
import Verif.Proof.TransRel
import Verif.Spec.Paragraphs

/-
Helper lemmas: parsing and transforming a document some lines further down.
-/

namespace Brack

mutual

/-- The same tree some lines further down. -/
def CST.down (d : Nat) : CST → CST
  | .leaf k l => .leaf k (l.down d)
  | .node k cs l => .node k (CST.downL d cs) (l.down d)

def CST.downL (d : Nat) : List CST → List CST
  | [] => []
  | c :: cs => c.down d :: CST.downL d cs

end

theorem downL_eq (d : Nat) (cs : List CST) : CST.downL d cs = cs.map (CST.down d) := by
  induction cs with
  | nil => rfl
  | cons c cs ih => simp [CST.downL, ih]

theorem CST.down_loc (d : Nat) (c : CST) : (c.down d).loc = c.loc.down d := by
  cases c <;> simp [CST.down, CST.loc]

theorem bracketNode_down (d b t cs u) :
    (bracketNode b t cs u).down d = bracketNode b (t.down d) (CST.downL d cs) (u.down d) := by
  unfold bracketNode
  by_cases h : u.kind = .bclose b <;>
    simp [CST.down, downL_eq, h, Token.down, Loc.down]

theorem exprNode_down (d c cs) : (exprNode c cs).down d = exprNode (c.down d) (CST.downL d cs) := by
  have : ∀ (c : CST) (cs : List CST), (((c.down d) :: CST.downL d cs).getLast (by simp)).loc =
      (((c :: cs).getLast (by simp)).loc).down d := by
    intro c cs
    induction cs generalizing c with
    | nil => simp [CST.downL, CST.down_loc]
    | cons c' cs ih => simpa [CST.downL, List.getLast_cons] using ih c'
  unfold exprNode
  rw [this]
  simp [CST.down, CST.downL, Loc.down, CST.down_loc]

theorem hasEof_down {d ts} : HasEof (List.map (Token.down d) ts) ↔ HasEof ts := by
  unfold HasEof
  constructor
  · rintro ⟨t, ht, hk⟩
    obtain ⟨u, hu, rfl⟩ := List.mem_map.mp ht
    exact ⟨u, hu, hk⟩
  · rintro ⟨t, ht, hk⟩
    exact ⟨_, List.mem_map.mpr ⟨t, ht, rfl⟩, hk⟩

theorem StopAt.down (d) {ts} (h : StopAt ts) : StopAt (ts.map (Token.down d)) := by
  intro u hu
  rcases ts with _ | ⟨t, ts⟩
  · simp at hu
  · simp only [List.map_cons, List.head?_cons, Option.mem_def, Option.some.injEq] at hu
    subst hu
    rw [hasEof_down]
    exact h t rfl

theorem head_down {d ts} {p : TokKind → Prop} (h : ∀ t ∈ (ts : List Token).head?, p t.kind) :
    ∀ t ∈ (ts.map (Token.down d)).head?, p t.kind := by
  intro u hu
  rcases ts with _ | ⟨t, ts⟩
  · simp at hu
  · simp only [List.map_cons, List.head?_cons, Option.mem_def, Option.some.injEq] at hu
    subst hu
    exact h t rfl

mutual

theorem EI.down (d) : ∀ {ts cs r}, EI ts cs r → EI (ts.map (Token.down d)) (CST.downL d cs) (r.map (Token.down d))
  | _, _, _, .stop hs => .stop (hs.down d)
  | _, _, _, .leaf hk h => .leaf (t := Token.down d _) hk (h.down d)
  | _, _, _, .esc ht hu h => .esc (t := Token.down d _) (u := Token.down d _) ht hu (h.down d)
  | _, _, _, .escN ht hu h => .escN (t := Token.down d _) (u := Token.down d _) ht hu (h.down d)
  | _, _, _, .bclosed ht hb hu h => by
    rw [CST.downL, bracketNode_down]
    exact .bclosed (t := Token.down d _) (u := Token.down d _) ht (hb.down d) hu (h.down d)
  | _, _, _, .bunclosed ht hb hu h => by
    rw [CST.downL, bracketNode_down]
    exact .bunclosed (t := Token.down d _) (u := Token.down d _) ht (hb.down d) hu (h.down d)

theorem BI.down (d) : ∀ {ts cs r}, BI ts cs r → BI (ts.map (Token.down d)) (CST.downL d cs) (r.map (Token.down d))
  | _, _, _, .stop hs hn => .stop (hs.down d) (head_down (p := (· ≠ .newLine)) hn)
  | _, _, _, .expr h hb => by
    rw [CST.downL, exprNode_down]
    exact .expr (h.down d) (hb.down d)
  | _, _, _, .newline ht hb => .newline (t := Token.down d _) ht (hb.down d)

end

theorem LI.down (d) {ts c r} (h : LI ts c r) : LI (ts.map (Token.down d)) (c.down d) (r.map (Token.down d)) := by
  cases h with
  | expr h => rw [exprNode_down]; exact .expr (h.down d)
  | close ht => exact .close (t := Token.down d _) ht

theorem NoLine.down (d) {ts} (h : NoLine ts) : NoLine (ts.map (Token.down d)) := by
  intro he
  exact head_down (p := fun k => k = .newLine ∨ k = .eof ∨ k = .empty) (h (hasEof_down.mp he))

theorem SI.down (d) : ∀ {ts cs r}, SI ts cs r → SI (ts.map (Token.down d)) (CST.downL d cs) (r.map (Token.down d))
  | _, _, _, .stop (ts := ts) hs => .stop (fun t ts1 h1 h2 => by
    rcases ts with _ | ⟨u, ts⟩
    · simp at h1
    · simp only [List.map_cons, List.cons.injEq] at h1
      obtain ⟨rfl, rfl⟩ := h1
      exact (hs u ts rfl h2).down d)
  | _, _, _, .more ht hl h => .more (t := Token.down d _) ht (hl.down d) (h.down d)

/-- The same child of a document some lines further down; the range of a statement is not compared. -/
inductive ChildDown (d : Nat) : CST → CST → Prop
  | stmt {cs l l'} : ChildDown d (.node .stmt cs l) (.node .stmt (CST.downL d cs) l')
  | leaf {k l} : ChildDown d (.leaf k l) (.leaf k (l.down d))

inductive ChildrenDown (d : Nat) : List CST → List CST → Prop
  | nil : ChildrenDown d [] []
  | cons {c c' cs cs'} : ChildDown d c c' → ChildrenDown d cs cs' → ChildrenDown d (c :: cs) (c' :: cs')

theorem ChildrenDown.append {d cs cs' ds ds'} (h : ChildrenDown d cs cs') (h' : ChildrenDown d ds ds') :
    ChildrenDown d (cs ++ ds) (cs' ++ ds') := by
  induction h with
  | nil => exact h'
  | cons h _ ih => exact .cons h ih

theorem TI.down (d) {ts c r} (h : TI ts c r) : ∃ c', TI (ts.map (Token.down d)) c' (r.map (Token.down d)) ∧
    ChildDown d c c' := by
  cases h with
  | @mk c r cs r' hl hs =>
    refine ⟨_, .mk (hl.down d) (hs.down d), ?_⟩
    obtain ⟨l, h1⟩ := foldl_add_new .stmt (c :: cs)
    obtain ⟨l', h2⟩ := foldl_add_new .stmt (c.down d :: CST.downL d cs)
    rw [h1, h2]
    exact .stmt (cs := c :: cs)

theorem NI.down (d) : ∀ {ts cs r}, NI ts cs r → ∃ cs', NI (ts.map (Token.down d)) cs' (r.map (Token.down d)) ∧
    ChildrenDown d cs cs'
  | _, _, _, .stop hs => ⟨[], .stop (head_down (p := (· ≠ .newLine)) hs), .nil⟩
  | _, _, _, .more ht h => by
    obtain ⟨cs', h1, h2⟩ := h.down d
    exact ⟨_, .more (t := Token.down d _) ht h1, .cons .leaf h2⟩

theorem DI.down (d) : ∀ {ts cs r}, DI ts cs r → ∃ cs', DI (ts.map (Token.down d)) cs' (r.map (Token.down d)) ∧
    ChildrenDown d cs cs'
  | _, _, _, .noStmt hn => ⟨[], .noStmt (hn.down d), .nil⟩
  | _, _, _, .lastStmt hs hr => by
    obtain ⟨c', h1, h2⟩ := hs.down d
    exact ⟨[], .lastStmt h1 (head_down (p := (· ≠ .newLine)) hr), .nil⟩
  | _, _, _, .more hs ht hn h => by
    obtain ⟨c', h1, h2⟩ := hs.down d
    obtain ⟨ns', h3, h4⟩ := hn.down d
    obtain ⟨cs', h5, h6⟩ := h.down d
    exact ⟨_, .more (t := Token.down d _) h1 ht h3 h5, .cons h2 (.cons .leaf (h4.append h6))⟩

theorem OI.down (d) {ts cs r} (h : OI ts cs r) : ∃ cs', OI (ts.map (Token.down d)) cs' (r.map (Token.down d)) ∧
    ChildrenDown d cs cs' := by
  cases h with
  | none hn => exact ⟨[], .none (hn.down d), .nil⟩
  | some hs =>
    obtain ⟨c', h1, h2⟩ := hs.down d
    exact ⟨[c'], .some h1, .cons h2 .nil⟩

/-! ### transforming -/

/-- The kind of a tree. -/
def CST.tag : CST → LKind ⊕ IKind
  | .leaf k _ => .inl k
  | .node k _ _ => .inr k

/-- Trees that give the same AST, with leaves some lines further down. -/
structure TreeAlike (d : Nat) (c c' : CST) : Prop where
  tag : c'.tag = c.tag
  shape : c'.sshape = c.sshape
  astable : c'.astable = c.astable
  cont : c'.cont = c.cont.map (Content.down d)

/-- Trees that are alike, with ranges some lines further down. -/
structure TreeTwin (d : Nat) (c c' : CST) : Prop extends TreeAlike d c c' where
  loc : c'.loc = c.loc.down d

inductive EachTree (R : CST → CST → Prop) : List CST → List CST → Prop
  | nil : EachTree R [] []
  | cons {c c' cs cs'} : R c c' → EachTree R cs cs' → EachTree R (c :: cs) (c' :: cs')

theorem EachTree.append {R cs cs' ds ds'} (h : EachTree R cs cs') (h' : EachTree R ds ds') : EachTree R (cs ++ ds) (cs' ++ ds') := by
  induction h with
  | nil => exact h'
  | cons h _ ih => exact .cons h ih

theorem EachTree.mono {R R' : CST → CST → Prop} {cs cs'} (hR : ∀ c c', R c c' → R' c c') (h : EachTree R cs cs') :
    EachTree R' cs cs' := by
  induction h with
  | nil => exact .nil
  | cons h _ ih => exact .cons (hR _ _ h) ih

theorem EachTree.filter {R : CST → CST → Prop} {p : CST → Bool} (hp : ∀ c c', R c c' → p c' = p c) {cs cs'}
    (h : EachTree R cs cs') : EachTree R (cs.filter p) (cs'.filter p) := by
  induction h with
  | nil => exact .nil
  | @cons c c' cs cs' h _ ih =>
    by_cases hc : p c = true
    · rw [List.filter_cons_of_pos hc, List.filter_cons_of_pos (by rw [hp _ _ h, hc])]
      exact .cons h ih
    · rw [List.filter_cons_of_neg hc, List.filter_cons_of_neg (by rw [hp _ _ h]; exact hc)]
      exact ih

theorem EachTree.alike {d cs cs'} (h : EachTree (TreeAlike d) cs cs') : CST.sshapeL cs' = CST.sshapeL cs ∧
    CST.astableL cs' = CST.astableL cs ∧ CST.contL cs' = (CST.contL cs).map (Content.down d) := by
  induction h with
  | nil => exact ⟨rfl, rfl, rfl⟩
  | cons h _ ih =>
    simp [CST.sshapeL, CST.astableL, CST.contL, h.shape, h.astable, h.cont, ih]

theorem EachTree.node {d cs cs'} (h : EachTree (TreeAlike d) cs cs') (k l l') : TreeAlike d (.node k cs l) (.node k cs' l') := by
  obtain ⟨h1, h2, h3⟩ := h.alike
  exact ⟨rfl, by simp [CST.sshape, h1], by simp [CST.astable, h2], by simp [CST.cont, h3]⟩

theorem TreeTwin.leaf (d k l) : TreeTwin d (.leaf k l) (.leaf k (l.down d)) := by
  refine ⟨⟨rfl, rfl, rfl, ?_⟩, rfl⟩
  cases k <;> simp [CST.cont, LKind.content, Content.down]

theorem tag_isModuleOrAngle {c c' : CST} (h : c'.tag = c.tag) : c'.isModuleOrAngle = c.isModuleOrAngle := by
  rcases c with ⟨k, l⟩ | ⟨k, cs, l⟩ <;> rcases c' with ⟨k', l'⟩ | ⟨k', cs', l'⟩ <;>
    simp only [CST.tag, Sum.inl.injEq, Sum.inr.injEq, reduceCtorEq] at h <;> subst h
  · cases k' <;> rfl
  · rcases k' with _ | _ | _ | b | _ <;> try rfl
    cases b <;> rfl

theorem tag_isIdentOrAngle {c c' : CST} (h : c'.tag = c.tag) : c'.isIdentOrAngle = c.isIdentOrAngle := by
  rcases c with ⟨k, l⟩ | ⟨k, cs, l⟩ <;> rcases c' with ⟨k', l'⟩ | ⟨k', cs', l'⟩ <;>
    simp only [CST.tag, Sum.inl.injEq, Sum.inr.injEq, reduceCtorEq] at h <;> subst h
  · cases k' <;> rfl
  · rcases k' with _ | _ | _ | b | _ <;> try rfl
    cases b <;> rfl

theorem tag_isDot {c c' : CST} (h : c'.tag = c.tag) : c'.isDot = c.isDot := by
  rcases c with ⟨k, l⟩ | ⟨k, cs, l⟩ <;> rcases c' with ⟨k', l'⟩ | ⟨k', cs', l'⟩ <;>
    simp only [CST.tag, Sum.inl.injEq, Sum.inr.injEq, reduceCtorEq] at h <;> subst h
  · cases k' <;> rfl
  · rfl

theorem tag_notInAst {c c' : CST} (h : c'.tag = c.tag) : c'.notInAst = c.notInAst := by
  rcases c with ⟨k, l⟩ | ⟨k, cs, l⟩ <;> rcases c' with ⟨k', l'⟩ | ⟨k', cs', l'⟩ <;>
    simp only [CST.tag, Sum.inl.injEq, Sum.inr.injEq, reduceCtorEq] at h <;> subst h
  · cases k' <;> rfl
  · rfl

theorem tag_isBlank {c c' : CST} (h : c'.tag = c.tag) : c'.isBlank = c.isBlank := by
  rcases c with ⟨k, l⟩ | ⟨k, cs, l⟩ <;> rcases c' with ⟨k', l'⟩ | ⟨k', cs', l'⟩ <;>
    simp only [CST.tag, Sum.inl.injEq, Sum.inr.injEq, reduceCtorEq] at h <;> subst h
  · cases k' <;> rfl
  · rfl

/-- The same error some lines further down. -/
def TErr.down (d : Nat) (e : TErr) : TErr := ⟨e.kind, e.loc.down d⟩

theorem TErr.down_Down (d) (e : TErr) : e.Down d (e.down d) := ⟨rfl, rfl, fun _ => rfl⟩

theorem TErrsDown.append {d} : ∀ {es es' fs fs'}, TErrsDown d es es' → TErrsDown d fs fs' →
    TErrsDown d (es ++ fs) (es' ++ fs')
  | [], [], _, _, _, h => h
  | _ :: _, _ :: _, _, _, h, h' => ⟨h.1, TErrsDown.append h.2 h'⟩
  | [], _ :: _, _, _, h, _ => h.elim
  | _ :: _, [], _, _, h, _ => h.elim

theorem TErrsDown.map (d) : ∀ es, TErrsDown d es (es.map (TErr.down d))
  | [] => trivial
  | e :: es => ⟨e.down_Down d, TErrsDown.map d es⟩

theorem EachTree.get {R cs cs'} (h : EachTree R cs cs') (i : Nat) :
    (cs[i]? = none ∧ cs'[i]? = none) ∨ ∃ c c', cs[i]? = some c ∧ cs'[i]? = some c' ∧ R c c' := by
  induction h generalizing i with
  | nil => simp
  | @cons c c' cs cs' h _ ih =>
    rcases i with _ | i
    · exact .inr ⟨c, c', rfl, rfl, h⟩
    · simpa using ih i

theorem EachTree.drop {R cs cs'} (h : EachTree R cs cs') (i : Nat) : EachTree R (cs.drop i) (cs'.drop i) := by
  induction h generalizing i with
  | nil => simpa using .nil
  | @cons c c' cs cs' h hs ih =>
    rcases i with _ | i
    · exact .cons h hs
    · simpa using ih i

theorem checkAt_down {d i good kind cs cs'} (h : EachTree (TreeTwin d) cs cs') (hg : ∀ c c' : CST, c'.tag = c.tag → good c' = good c) :
    checkAt i good kind cs' = (checkAt i good kind cs).map (TErr.down d) := by
  unfold checkAt
  rcases h.get i with ⟨h1, h2⟩ | ⟨c, c', h1, h2, h3⟩
  · rw [h1, h2]; rfl
  · rw [h1, h2]
    simp only [hg _ _ h3.tag]
    by_cases hc : good c = true
    · simp [hc]
    · simp [hc, TErr.down, h3.loc]

theorem checkUnexpectedDot_down {d cs cs'} (h : EachTree (TreeTwin d) cs cs') :
    checkUnexpectedDot cs' = (checkUnexpectedDot cs).map (TErr.down d) := by
  unfold checkUnexpectedDot
  have h1 := (h.drop 3).filter (p := CST.isDot) (fun c c' h => tag_isDot h.tag)
  revert h1
  generalize (cs.drop 3).filter CST.isDot = xs
  generalize (cs'.drop 3).filter CST.isDot = ys
  intro h1
  induction h1 with
  | nil => rfl
  | cons h _ ih => simp [ih, TErr.down, h.loc]

theorem argLoop_down {d} : ∀ {cs cs'}, EachTree (TreeTwin d) cs cs' → ∀ {prev prev' es es' l l' comma},
    prev'.loc = prev.loc.down d → EachTree (TreeTwin d) es es' →
    EachTree (TreeAlike d) (argLoop prev (.node .expr es l) comma cs).1 (argLoop prev' (.node .expr es' l') comma cs').1 ∧
    (argLoop prev' (.node .expr es' l') comma cs').2 = (argLoop prev (.node .expr es l) comma cs).2.map (TErr.down d)
  | _, _, .nil, prev, prev', es, es', l, l', comma, _, he => by
    cases he with
    | nil => simp only [argLoop, CST.children]; exact ⟨.nil, rfl⟩
    | cons h hs =>
      simp only [argLoop, CST.children, List.isEmpty_cons, Bool.false_eq_true, if_false]
      exact ⟨.cons (((EachTree.cons h hs).mono (fun _ _ h => h.toTreeAlike)).node _ _ _) .nil, rfl⟩
  | _, _, .cons (c := c) (c' := c') (cs := cs) (cs' := cs') h hs, prev, prev', es, es', l, l', comma, hp, he => by
    have hadd : argLoop c ((CST.node .expr es l).add c) false cs = argLoop c (.node .expr (es ++ [c]) (mergeLocation l c.loc)) false cs := rfl
    have hadd' : argLoop c' ((CST.node .expr es' l').add c') false cs' = argLoop c' (.node .expr (es' ++ [c']) (mergeLocation l' c'.loc)) false cs' := rfl
    have hcont := argLoop_down hs (comma := false) (l := mergeLocation l c.loc) (l' := mergeLocation l' c'.loc) h.loc (he.append (.cons h .nil))
    have hempty : es'.isEmpty = es.isEmpty := by cases he <;> rfl
    have hexpr : TreeAlike d (.node .expr es l) (.node .expr es' l') := (he.mono (fun _ _ h => h.toTreeAlike)).node _ _ _
    have htag := h.tag
    have hloc := h.loc
    rcases c with ⟨k, lc⟩ | ⟨k, ds, lc⟩ <;> rcases c' with ⟨k', lc'⟩ | ⟨k', ds', lc'⟩ <;>
      simp only [CST.tag, Sum.inl.injEq, Sum.inr.injEq, reduceCtorEq] at htag <;> subst htag
    · simp only [CST.loc] at hloc
      subst hloc
      have hn := argLoop_down hs (comma := true) (l := mockLocation) (l' := mockLocation) (prev := .leaf k' lc) (prev' := .leaf k' (lc.down d)) rfl .nil
      have hk := argLoop_down hs (comma := comma) (l := l) (l' := l') (prev := .leaf k' lc) (prev' := .leaf k' (lc.down d)) rfl he
      cases k'
      case comma =>
        simp only [argLoop, CST.children, hempty]
        by_cases hc : es.isEmpty = true
        · simp only [hc, if_true]
          exact ⟨hk.1, by simp [hk.2, TErr.down]⟩
        · simp only [hc, if_false, Bool.false_eq_true]
          exact ⟨.cons hexpr hn.1, hn.2⟩
      case bclose b =>
        simp only [argLoop, CST.children, hempty]
        by_cases hc : es.isEmpty = true
        · simp only [hc, Bool.not_true, Bool.false_eq_true, if_false]
          cases comma
          · exact ⟨.cons h.toTreeAlike .nil, rfl⟩
          · exact ⟨.cons h.toTreeAlike .nil, by simp [TErr.down, hp]⟩
        · simp only [hc, Bool.not_false, if_true]
          exact ⟨.cons hexpr (.cons h.toTreeAlike .nil), rfl⟩
      case dot =>
        simp only [argLoop]
        exact ⟨hk.1, by simp [hk.2, TErr.down]⟩
      all_goals
        simp only [argLoop]
        exact hcont
    · simp only [argLoop]
      exact hcont

theorem checkValidArguments_down {d cs cs'} (h : EachTree (TreeTwin d) cs cs') :
    EachTree (TreeAlike d) (checkValidArguments cs).1 (checkValidArguments cs').1 ∧
      (checkValidArguments cs').2 = (checkValidArguments cs).2.map (TErr.down d) := by
  have hA := h.mono (fun _ _ h => h.toTreeAlike)
  cases h with
  | nil => exact ⟨.nil, rfl⟩
  | cons h0 h =>
    cases h with
    | nil => exact ⟨hA, rfl⟩
    | cons h1 h =>
      cases h with
      | nil => exact ⟨hA, rfl⟩
      | cons h2 h =>
        cases h with
        | nil => exact ⟨hA, rfl⟩
        | cons h3 h =>
          have := argLoop_down h (comma := false) (l := mockLocation) (l' := mockLocation) h3.loc .nil
          simp only [checkValidArguments, CST.new]
          exact ⟨.cons h0.toTreeAlike (.cons h1.toTreeAlike (.cons h2.toTreeAlike (.cons h3.toTreeAlike this.1))), this.2⟩

theorem bracket_down {d cs cs'} (h : EachTree (TreeTwin d) cs cs') :
    EachTree (TreeAlike d) (bracketKids cs) (bracketKids cs') ∧ bracketErrs cs' = (bracketErrs cs).map (TErr.down d) := by
  have hb : EachTree (TreeTwin d) (removeBlanks cs) (removeBlanks cs') :=
    h.filter (fun c c' h => by rw [tag_isBlank h.tag])
  obtain ⟨h1, h2⟩ := checkValidArguments_down hb
  refine ⟨h1.filter (fun c c' h => by rw [tag_notInAst h.tag]), ?_⟩
  unfold bracketErrs checkModule checkDot checkIdent
  rw [checkAt_down h (fun _ _ => tag_isModuleOrAngle), checkAt_down h (fun _ _ => tag_isDot),
    checkAt_down h (fun _ _ => tag_isIdentOrAngle), checkUnexpectedDot_down h, h2]
  simp

theorem mergeLocation_start_down (d) (l1 l2 : Loc) :
    (mergeLocation (l1.down d) (l2.down d)).start = (mergeLocation l1 l2).start.down d := by
  have hc : compare (l1.start.line + d) (l2.start.line + d) = compare l1.start.line l2.start.line := by
    rcases h : compare l1.start.line l2.start.line with _ | _ | _
    · rw [Nat.compare_eq_lt] at h ⊢; omega
    · rw [Nat.compare_eq_eq] at h ⊢; omega
    · rw [Nat.compare_eq_gt] at h ⊢; omega
  unfold mergeLocation Loc.down Pos.down
  simp only [hc]
  rcases compare l1.start.line l2.start.line with _ | _ | _ <;> simp only []
  rcases compare l1.start.character l2.start.character with _ | _ | _ <;> rfl

theorem EachTree.last {d cs cs'} (h : EachTree (TreeTwin d) cs cs') (hne : cs ≠ []) (hne' : cs' ≠ []) :
    TreeTwin d (cs.getLast hne) (cs'.getLast hne') := by
  induction h with
  | nil => exact absurd rfl hne
  | cons h hs ih =>
    cases hs with
    | nil => exact h
    | cons h1 h2 => simpa [List.getLast_cons] using ih (by simp) (by simp)

theorem notClosedErr_down {d b l1 ds ds'} (h : EachTree (TreeTwin d) ds ds') :
    (notClosedErr b l1 ds).Down d (notClosedErr b (l1.down d) ds') := by
  have hl := EachTree.last (EachTree.cons (TreeTwin.leaf d (.bopen b) l1) h) (by simp) (by simp)
  refine ⟨rfl, ?_, fun h => absurd rfl (h b)⟩
  simp only [notClosedErr, hl.loc]
  exact mergeLocation_start_down d _ _

mutual

theorem XI.down (d) : ∀ {c c1 es}, XI c c1 es → ∃ c1' es', XI (c.down d) c1' es' ∧ TreeTwin d c1 c1' ∧ TErrsDown d es es'
  | _, _, _, .leaf h => ⟨_, _, .leaf h, .leaf _ _ _, trivial⟩
  | _, _, _, .escaped h => ⟨_, _, .escaped h, .leaf _ _ _, trivial⟩
  | _, _, _, .stray => ⟨_, _, .stray, .leaf _ _ _, ⟨⟨rfl, rfl, fun _ => rfl⟩, trivial⟩⟩
  | _, _, _, .closed (b := b) (l := l) (l1 := l1) (l2 := l2) h => by
    obtain ⟨ds', es', h1, h2, h3⟩ := h.down d
    have h4 : EachTree (TreeTwin d) (_ :: _ ++ [_]) (_ :: _ ++ [_]) :=
      (EachTree.cons (TreeTwin.leaf d (.bopen b) l1) h2).append (.cons (TreeTwin.leaf d (.bclose b) l2) .nil)
    obtain ⟨h5, h6⟩ := bracket_down h4
    refine ⟨_, _, ?_, ⟨h5.node _ l (l.down d), rfl⟩, h3.append (h6 ▸ TErrsDown.map d _)⟩
    have := XI.closed (b := b) (l := l.down d) (l1 := l1.down d) (l2 := l2.down d) h1
    rw [CST.down, downL_eq]
    simpa [downL_eq, CST.down] using this
  | _, _, _, .unclosed (b := b) (l := l) (l1 := l1) h => by
    obtain ⟨ds', es', h1, h2, h3⟩ := h.down d
    have h4 := EachTree.cons (TreeTwin.leaf d (.bopen b) l1) h2
    obtain ⟨h5, h6⟩ := bracket_down h4
    refine ⟨_, _, XI.unclosed (b := b) (l := l.down d) (l1 := l1.down d) h1, ⟨h5.node _ _ _, rfl⟩,
      (h3.append (show TErrsDown d [_] [_] from ⟨notClosedErr_down h2, trivial⟩)).append (h6 ▸ TErrsDown.map d _)⟩

theorem XL.down (d) : ∀ {cs ds es}, XL cs ds es → ∃ ds' es', XL (CST.downL d cs) ds' es' ∧ EachTree (TreeTwin d) ds ds' ∧
    TErrsDown d es es'
  | _, _, _, .nil => ⟨_, _, .nil, .nil, trivial⟩
  | _, _, _, .cons h hs => by
    obtain ⟨c1, es1, h1, h2, h3⟩ := h.down d
    obtain ⟨ds', es', h4, h5, h6⟩ := hs.down d
    exact ⟨_, _, .cons h1 h4, .cons h2 h5, h3.append h6⟩

theorem XB.down (d) : ∀ {cs ds es}, XB cs ds es → ∃ ds' es', XB (CST.downL d cs) ds' es' ∧ EachTree (TreeTwin d) ds ds' ∧
    TErrsDown d es es'
  | _, _, _, .nil => ⟨_, _, .nil, .nil, trivial⟩
  | _, _, _, .expr (cs := cs) hne h hs => by
    obtain ⟨ds1, es1, h1, h2, h3⟩ := h.down d
    obtain ⟨ds', es', h4, h5, h6⟩ := hs.down d
    exact ⟨_, _, .expr (by cases cs <;> simp [CST.downL] at hne ⊢) h1 h4, h2.append h5, h3.append h6⟩
  | _, _, _, .newline hs => by
    obtain ⟨ds', es', h4, h5, h6⟩ := hs.down d
    exact ⟨_, _, .newline h4, .cons (.leaf _ _ _) h5, h6⟩

end

theorem XLine.down (d) {c ds es} (h : XLine c ds es) : ∃ ds' es', XLine (c.down d) ds' es' ∧ EachTree (TreeAlike d) ds ds' ∧
    TErrsDown d es es' := by
  cases h with
  | close => exact ⟨_, _, .close, .nil, trivial⟩
  | newline => exact ⟨_, _, .newline, .nil, trivial⟩
  | @expr cs ds es l hne h =>
    obtain ⟨ds', es', h4, h5, h6⟩ := h.down d
    exact ⟨_, _, .expr (by cases cs <;> simp [CST.downL] at hne ⊢) h4,
      .cons ((h5.mono (fun _ _ h => h.toTreeAlike)).node _ _ _) .nil, h6⟩

theorem XLines.down (d) {cs ds es} (h : XLines cs ds es) : ∃ ds' es', XLines (CST.downL d cs) ds' es' ∧
    EachTree (TreeAlike d) ds ds' ∧ TErrsDown d es es' := by
  induction h with
  | nil => exact ⟨_, _, .nil, .nil, trivial⟩
  | cons h _ ih =>
    obtain ⟨ds1, es1, h1, h2, h3⟩ := h.down d
    obtain ⟨ds', es', h4, h5, h6⟩ := ih
    exact ⟨_, _, .cons h1 h4, h2.append h5, h3.append h6⟩

theorem XChild.down (d) {c c' ds es} (h : XChild c ds es) (hc : ChildDown d c c') :
    ∃ ds' es', XChild c' ds' es' ∧ EachTree (TreeAlike d) ds ds' ∧ TErrsDown d es es' := by
  cases h with
  | stmt h =>
    obtain ⟨ds', es', h4, h5, h6⟩ := h.down d
    cases hc
    exact ⟨_, _, .stmt h4, .cons (h5.node _ _ _) .nil, h6⟩
  | newline => cases hc; exact ⟨_, _, .newline, .nil, trivial⟩
  | eof => cases hc; exact ⟨_, _, .eof, .nil, trivial⟩

theorem XDoc.down (d) {cs cs' ds es} (h : XDoc cs ds es) (hc : ChildrenDown d cs cs') :
    ∃ ds' es', XDoc cs' ds' es' ∧ EachTree (TreeAlike d) ds ds' ∧ TErrsDown d es es' := by
  induction hc generalizing ds es with
  | nil => cases h; exact ⟨_, _, .nil, .nil, trivial⟩
  | cons h1 _ ih =>
    cases h with
    | cons h2 h3 =>
      obtain ⟨ds1, es1, h4, h5, h6⟩ := h2.down d h1
      obtain ⟨ds', es', h7, h8, h9⟩ := ih h3
      exact ⟨_, _, .cons h4 h7, h5.append h8, h6.append h9⟩

end Brack
