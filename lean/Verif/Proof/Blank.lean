import Verif.Proof.ParserDet
import Verif.Proof.ParaDown

/-
Helper lemmas: parsing and transforming token lists that differ in the number of line ends of a blank line,
or in line ends before the end.
-/

namespace Brack

/-! ### token lists -/

/-- The second list has the tokens of the first, and further line ends: each between two line ends,
before the end, or between a line end and a name that is closed at once. -/
inductive Padded : List Token → List Token → Prop
  | nil : Padded [] []
  | cons {t t' ts ts'} : t'.kind = t.kind → Padded ts ts' → Padded (t :: ts) (t' :: ts')
  | blank {n n' x m m' ts ts'} : n.kind = .newLine → n'.kind = .newLine → x.kind = .newLine → m.kind = .newLine →
      m'.kind = .newLine → Padded (m :: ts) (m' :: ts') → Padded (n :: m :: ts) (n' :: x :: m' :: ts')
  | name {n n' x i i' c c' s b ts ts'} : n.kind = .newLine → n'.kind = .newLine → x.kind = .newLine → i.kind = .ident s →
      i'.kind = .ident s → c.kind = .bclose b → c'.kind = .bclose b → Padded ts ts' →
      Padded (n :: i :: c :: ts) (n' :: x :: i' :: c' :: ts')
  | final {e n e' ts ts'} : e.kind = .eof → n.kind = .newLine → e'.kind = .eof → Padded ts ts' →
      Padded (e :: ts) (n :: e' :: ts')

theorem Padded.hasEof {T T'} (h : Padded T T') : HasEof T → HasEof T' := by
  induction h with
  | nil => exact id
  | cons hk _ ih =>
    rintro ⟨t, ht, he⟩
    rcases List.mem_cons.mp ht with rfl | ht
    · exact ⟨_, List.mem_cons_self, by rw [hk, he]⟩
    · exact (ih ⟨t, ht, he⟩).cons
  | blank hn _ _ _ _ _ ih => exact fun h => ((ih (h.tail (by simp [hn]))).cons).cons
  | name hn _ _ hi _ hc _ _ ih =>
    exact fun h => (((ih (((h.tail (by simp [hn])).tail (by simp [hi])).tail (by simp [hc]))).cons).cons).cons.cons
  | final _ _ he' _ _ => exact fun _ => ⟨_, List.mem_cons_of_mem _ List.mem_cons_self, he'⟩

/-- Two lists that start with tokens of the same kind. -/
def SameHead (T T' : List Token) : Prop := T'.head?.map Token.kind = T.head?.map Token.kind

/-- Two lists start alike, unless a line end was added at the end. -/
theorem Padded.head {T T'} (h : Padded T T') : SameHead T T' ∨
    ∃ e ts n e' ts', T = e :: ts ∧ T' = n :: e' :: ts' ∧ e.kind = .eof ∧ n.kind = .newLine ∧ e'.kind = .eof ∧
      Padded ts ts' := by
  cases h with
  | nil => exact .inl rfl
  | cons hk _ => exact .inl (by simp [SameHead, hk])
  | blank hn hn' => exact .inl (by simp [SameHead, hn, hn'])
  | name hn hn' => exact .inl (by simp [SameHead, hn, hn'])
  | final he hn he' h => exact .inr ⟨_, _, _, _, _, rfl, rfl, he, hn, he', h⟩

/-- A list whose first token is neither a line end nor the end. -/
theorem Padded.uncons {t : Token} {ts T'} (h : Padded (t :: ts) T') (hn : t.kind ≠ .newLine) (he : t.kind ≠ .eof) :
    ∃ t' ts', T' = t' :: ts' ∧ t'.kind = t.kind ∧ Padded ts ts' := by
  cases h with
  | cons hk hp => exact ⟨_, _, rfl, hk, hp⟩
  | blank h => exact absurd h hn
  | name h => exact absurd h hn
  | final h => exact absurd h he

/-- A list whose first token is a line end. -/
theorem Padded.line {t : Token} {ts T'} (h : Padded (t :: ts) T') (hn : t.kind = .newLine) :
    ∃ t' ts', T' = t' :: ts' ∧ t'.kind = .newLine ∧ (Padded ts ts' ∨
      ∃ x ts1', ts' = x :: ts1' ∧ x.kind = .newLine ∧ Padded ts ts1') := by
  cases h with
  | cons hk hp => exact ⟨_, _, rfl, by rw [hk, hn], .inl hp⟩
  | blank _ hn' hx hm hm' hp => exact ⟨_, _, rfl, hn', .inr ⟨_, _, rfl, hx, hp⟩⟩
  | name _ hn' hx hi hi' hc hc' hp =>
    exact ⟨_, _, rfl, hn', .inr ⟨_, _, rfl, hx, .cons (by rw [hi, hi']) (.cons (by rw [hc, hc']) hp)⟩⟩
  | final h => rw [h] at hn; cases hn

theorem SameHead.all {T T'} (h : SameHead T T') {p : TokKind → Prop} (hp : ∀ t ∈ T.head?, p t.kind) :
    ∀ t ∈ T'.head?, p t.kind := by
  intro t ht
  rcases T' with _ | ⟨u, us⟩
  · simp at ht
  · have : u = t := by simpa using ht
    subst this
    rcases T with _ | ⟨v, vs⟩
    · simp [SameHead] at h
    · simp only [SameHead, List.head?_cons, Option.map_some, Option.some.injEq] at h
      rw [h]
      exact hp v rfl

theorem StopAt.items {ts} (h : StopAt ts) (he : HasEof ts) : ∀ t ∈ ts.head?, itemStop t.kind = true := by
  intro t ht
  rcases h t ht with h | h
  · exact h
  · exact absurd he h.2

theorem StopAt.of_items {ts : List Token} (h : ∀ t ∈ ts.head?, itemStop t.kind = true) : StopAt ts :=
  fun t ht => .inl (h t ht)

theorem StopAt.padded {T T'} (h : StopAt T) (hp : Padded T T') (he : HasEof T) : StopAt T' := by
  rcases hp.head with hh | ⟨e, ts, n, e', ts', rfl, rfl, _, hn, _, _⟩
  · exact .of_items (hh.all (p := fun k => itemStop k = true) (h.items he))
  · exact StopAt.newLine hn

theorem NoLine.padded {T T'} (h : NoLine T) (hp : Padded T T') (he : HasEof T) : NoLine T' := by
  intro _
  rcases hp.head with hh | ⟨e, ts, n, e', ts', rfl, rfl, _, hn, _, _⟩
  · exact hh.all (p := fun k => k = .newLine ∨ k = .eof ∨ k = .empty) (h he)
  · intro t ht
    have : n = t := by simpa using ht
    subst this
    exact .inl hn

/-! ### simplified trees -/

/-- Trees that give the same AST up to ranges. -/
structure Twin (c c' : CST) : Prop where
  tag : c'.tag = c.tag
  shape : c'.sshape = c.sshape
  astable : c'.astable = c.astable

theorem Twin.leaf (k l l') : Twin (.leaf k l) (.leaf k l') := ⟨rfl, rfl, rfl⟩

theorem EachTree.twins {cs cs'} (h : EachTree Twin cs cs') : CST.sshapeL cs' = CST.sshapeL cs ∧
    CST.astableL cs' = CST.astableL cs := by
  induction h with
  | nil => exact ⟨rfl, rfl⟩
  | cons h _ ih => simp [CST.sshapeL, CST.astableL, h.shape, h.astable, ih]

theorem EachTree.twin {cs cs'} (h : EachTree Twin cs cs') (k l l') : Twin (.node k cs l) (.node k cs' l') := by
  obtain ⟨h1, h2⟩ := h.twins
  exact ⟨rfl, by simp [CST.sshape, h1], by simp [CST.astable, h2]⟩

/-- Children of a bracket that differ in the number of adjacent line ends, or in a line end at the end if
`fin`. -/
inductive PaddedKids (fin : Bool) : List CST → List CST → Prop
  | nil : PaddedKids fin [] []
  | cons {c c' cs cs'} : Twin c c' → PaddedKids fin cs cs' → PaddedKids fin (c :: cs) (c' :: cs')
  | blank {l l' lx cs cs'} : PaddedKids fin cs cs' →
      PaddedKids fin (.leaf .newline l :: cs) (.leaf .newline l' :: .leaf .newline lx :: cs')
  | final {l} : fin = true → PaddedKids fin [] [.leaf .newline l]

theorem EachTree.padded {fin cs cs' ds ds'} (h : EachTree Twin cs cs') (h' : PaddedKids fin ds ds') :
    PaddedKids fin (cs ++ ds) (cs' ++ ds') := by
  induction h with
  | nil => exact h'
  | cons h _ ih => exact .cons h ih

theorem PaddedKids.append {cs cs' ds ds'} (h : PaddedKids false cs cs') (h' : PaddedKids false ds ds') :
    PaddedKids false (cs ++ ds) (cs' ++ ds') := by
  induction h with
  | nil => exact h'
  | cons h _ ih => exact .cons h ih
  | blank _ ih => exact .blank ih
  | final h => cases h

theorem removeBlanks_newline (l cs) : removeBlanks (.leaf .newline l :: cs) = removeBlanks cs := by
  simp [removeBlanks, CST.isBlank]

theorem PaddedKids.removeBlanks {fin cs cs'} (h : PaddedKids fin cs cs') :
    EachTree Twin (Brack.removeBlanks cs) (Brack.removeBlanks cs') := by
  induction h with
  | nil => exact .nil
  | @cons c c' cs cs' h _ ih =>
    unfold Brack.removeBlanks at ih ⊢
    have := tag_isBlank h.tag
    by_cases hc : c.isBlank = true
    · rw [List.filter_cons_of_neg (by simp [hc]), List.filter_cons_of_neg (by simp [this, hc])]
      exact ih
    · rw [List.filter_cons_of_pos (by simp [hc]), List.filter_cons_of_pos (by simp [this, hc])]
      exact .cons h ih
  | blank _ ih =>
    simp only [removeBlanks_newline] at ih ⊢
    exact ih
  | final _ => simp only [removeBlanks_newline]; exact .nil

/-! ### the arguments of a bracket -/

theorem argLoop_twin : ∀ {cs cs'}, EachTree Twin cs cs' → ∀ {prev prev' es es' l l' comma}, EachTree Twin es es' →
    EachTree Twin (argLoop prev (.node .expr es l) comma cs).1 (argLoop prev' (.node .expr es' l') comma cs').1 ∧
    ((argLoop prev (.node .expr es l) comma cs).2 = [] ↔ (argLoop prev' (.node .expr es' l') comma cs').2 = [])
  | _, _, .nil, prev, prev', es, es', l, l', comma, he => by
    cases he with
    | nil => simp only [argLoop, CST.children]; exact ⟨.nil, trivial⟩
    | cons h hs =>
      simp only [argLoop, CST.children, List.isEmpty_cons, Bool.false_eq_true, if_false]
      exact ⟨.cons ((EachTree.cons h hs).twin _ _ _) .nil, trivial⟩
  | _, _, .cons (c := c) (c' := c') (cs := cs) (cs' := cs') h hs, prev, prev', es, es', l, l', comma, he => by
    have hcont := argLoop_twin hs (prev := c) (prev' := c') (comma := false) (l := mergeLocation l c.loc)
      (l' := mergeLocation l' c'.loc) (he.append (.cons h .nil))
    have hempty : es'.isEmpty = es.isEmpty := by cases he <;> rfl
    have hexpr : Twin (.node .expr es l) (.node .expr es' l') := he.twin _ _ _
    have htag := h.tag
    rcases c with ⟨k, lc⟩ | ⟨k, ds, lc⟩ <;> rcases c' with ⟨k', lc'⟩ | ⟨k', ds', lc'⟩ <;>
      simp only [CST.tag, Sum.inl.injEq, Sum.inr.injEq, reduceCtorEq] at htag <;> subst htag
    · have hn := argLoop_twin hs (comma := true) (l := mockLocation) (l' := mockLocation) (prev := .leaf k' lc) (prev' := .leaf k' lc') .nil
      have hk := argLoop_twin hs (comma := comma) (l := l) (l' := l') (prev := .leaf k' lc) (prev' := .leaf k' lc') he
      cases k'
      case comma =>
        simp only [argLoop, CST.children, hempty]
        by_cases hc : es.isEmpty = true
        · simp only [hc, if_true]
          exact ⟨hk.1, by simp⟩
        · simp only [hc, if_false, Bool.false_eq_true]
          exact ⟨.cons hexpr hn.1, hn.2⟩
      case bclose b =>
        simp only [argLoop, CST.children, hempty]
        by_cases hc : es.isEmpty = true
        · simp only [hc, Bool.not_true, Bool.false_eq_true, if_false]
          cases comma
          · exact ⟨.cons h .nil, Iff.rfl⟩
          · exact ⟨.cons h .nil, by simp⟩
        · simp only [hc, Bool.not_false, if_true]
          exact ⟨.cons hexpr (.cons h .nil), trivial⟩
      case dot =>
        simp only [argLoop]
        exact ⟨hk.1, by simp⟩
      all_goals
        simp only [argLoop]
        exact hcont
    · simp only [argLoop]
      exact hcont

theorem checkValidArguments_twin {cs cs'} (h : EachTree Twin cs cs') :
    EachTree Twin (checkValidArguments cs).1 (checkValidArguments cs').1 ∧
      ((checkValidArguments cs).2 = [] ↔ (checkValidArguments cs').2 = []) := by
  have hA := h
  cases h with
  | nil => exact ⟨.nil, Iff.rfl⟩
  | cons h0 h =>
    cases h with
    | nil => exact ⟨hA, Iff.rfl⟩
    | cons h1 h =>
      cases h with
      | nil => exact ⟨hA, Iff.rfl⟩
      | cons h2 h =>
        cases h with
        | nil => exact ⟨hA, Iff.rfl⟩
        | @cons c3 c3' _ _ h3 h =>
          have := argLoop_twin h (prev := c3) (prev' := c3') (comma := false) (l := mockLocation) (l' := mockLocation) .nil
          simp only [checkValidArguments, CST.new]
          exact ⟨.cons h0 (.cons h1 (.cons h2 (.cons h3 this.1))), this.2⟩

/-- The name of a bracket stands at the start of it, and there are no further dots. -/
def NamedHead (cs : List CST) : Prop :=
  (∀ c ∈ cs[1]?, c.isModuleOrAngle = true) ∧ (∀ c ∈ cs[2]?, c.isDot = true) ∧ (∀ c ∈ cs[3]?, c.isIdentOrAngle = true) ∧
    ∀ c ∈ cs.drop 3, c.isDot = false

theorem checkAt_nil {i good kind cs} : checkAt i good kind cs = [] ↔ ∀ c ∈ cs[i]?, good c = true := by
  unfold checkAt
  rcases cs[i]? with _ | c
  · simp
  · by_cases h : good c = true <;> simp [h]

theorem bracketErrs_nil (cs) : bracketErrs cs = [] ↔ NamedHead cs ∧ (checkValidArguments (removeBlanks cs)).2 = [] := by
  unfold bracketErrs checkModule checkDot checkIdent checkUnexpectedDot NamedHead
  simp [checkAt_nil, List.append_eq_nil_iff, List.filter_eq_nil_iff, and_assoc]

/-- Being well named does not depend on ranges. -/
theorem EachTree.named {cs cs'} (h : EachTree Twin cs cs') : NamedHead cs ↔ NamedHead cs' := by
  have hg : ∀ (good : CST → Bool), (∀ c c' : CST, c'.tag = c.tag → good c' = good c) → ∀ i : Nat,
      ((∀ c ∈ cs[i]?, good c = true) ↔ ∀ c ∈ cs'[i]?, good c = true) := by
    intro good hgood i
    rcases h.get i with ⟨h1, h2⟩ | ⟨c, c', h1, h2, h3⟩
    · simp [h1, h2]
    · simp [h1, h2, hgood _ _ h3.tag]
  unfold NamedHead
  rw [hg _ (fun _ _ => tag_isModuleOrAngle) 1, hg _ (fun _ _ => tag_isDot) 2, hg _ (fun _ _ => tag_isIdentOrAngle) 3]
  have : (∀ c ∈ cs.drop 3, c.isDot = false) ↔ ∀ c ∈ cs'.drop 3, c.isDot = false := by
    have h3 := h.drop 3
    revert h3
    generalize cs.drop 3 = xs
    generalize cs'.drop 3 = ys
    intro h3
    induction h3 with
    | nil => simp
    | cons h _ ih => simp [tag_isDot h.tag, ih]
  rw [this]

theorem PaddedKids.dots {fin cs cs'} (h : PaddedKids fin cs cs') :
    (∀ c ∈ cs, c.isDot = false) ↔ ∀ c ∈ cs', c.isDot = false := by
  induction h with
  | nil => simp
  | cons h _ ih => simp [tag_isDot h.tag, ih]
  | blank _ ih =>
    simp only [List.forall_mem_cons, CST.isDot, true_and] at ih ⊢
    exact ih
  | final _ => simp [CST.isDot]

theorem PaddedKids.named {b b' cs cs'} (h : PaddedKids false cs cs') : NamedHead (b :: cs) ↔ NamedHead (b' :: cs') := by
  cases h with
  | nil => simp [NamedHead]
  | final h => cases h
  | blank _ => simp [NamedHead, CST.isModuleOrAngle]
  | cons h1 h =>
    cases h with
    | nil => simp [NamedHead, tag_isModuleOrAngle h1.tag]
    | final h => cases h
    | blank _ => simp [NamedHead, CST.isDot]
    | cons h2 h =>
      cases h with
      | nil => simp [NamedHead, tag_isModuleOrAngle h1.tag, tag_isDot h2.tag]
      | final h => cases h
      | blank _ => simp [NamedHead, CST.isIdentOrAngle]
      | cons h3 h =>
        have := h.dots
        simp [NamedHead, tag_isModuleOrAngle h1.tag, tag_isDot h2.tag, tag_isIdentOrAngle h3.tag, tag_isDot h3.tag, this]

theorem PaddedKids.bracketKids {fin cs cs'} (h : PaddedKids fin cs cs') :
    EachTree Twin (Brack.bracketKids cs) (Brack.bracketKids cs') :=
  (checkValidArguments_twin h.removeBlanks).1.filter (fun c c' h => by rw [tag_notInAst h.tag])

theorem PaddedKids.bracketErrs {b b' cs cs'} (hb : Twin b b') (h : PaddedKids false cs cs') :
    Brack.bracketErrs (b :: cs) = [] ↔ Brack.bracketErrs (b' :: cs') = [] := by
  rw [bracketErrs_nil, bracketErrs_nil, h.named (b := b) (b' := b'),
    (checkValidArguments_twin (PaddedKids.cons hb h).removeBlanks).2]

/-! ### parsing and simplifying -/

/-- The items are simplified to alike trees, and both without errors or both with errors. -/
def ItemsAlike (cs cs' : List CST) : Prop :=
  ∃ ds es ds' es', XL cs ds es ∧ XL cs' ds' es' ∧ EachTree Twin ds ds' ∧ (es = [] ↔ es' = [])

/-- The bodies of a bracket are simplified to alike trees. -/
def BodiesAlike (fin : Bool) (cs cs' : List CST) : Prop :=
  ∃ ds es ds' es', XB cs ds es ∧ XB cs' ds' es' ∧ PaddedKids fin ds ds' ∧ (es = [] ↔ es' = [])

theorem nil_iff_append {α : Type} {es es' fs fs' : List α} (h : es = [] ↔ es' = []) (h' : fs = [] ↔ fs' = []) :
    es ++ fs = [] ↔ es' ++ fs' = [] := by
  simp [List.append_eq_nil_iff, h, h']

theorem ItemsAlike.cons {c c' d d' es es' cs cs'} (h : XI c d es) (h' : XI c' d' es') (ht : Twin d d') (he : es = [] ↔ es' = [])
    (hs : ItemsAlike cs cs') : ItemsAlike (c :: cs) (c' :: cs') := by
  obtain ⟨ds, fs, ds', fs', h1, h2, h3, h4⟩ := hs
  exact ⟨_, _, _, _, .cons h h1, .cons h' h2, .cons ht h3, nil_iff_append he h4⟩

theorem bracket_closed {b : Bracket} {cs cs' : List CST} {l l' l1 l1' l2 l2'} (h : BodiesAlike false cs cs') :
    ∃ d es d' es', XI (.node (.bracket b) (.leaf (.bopen b) l1 :: cs ++ [.leaf (.bclose b) l2]) l) d es ∧
      XI (.node (.bracket b) (.leaf (.bopen b) l1' :: cs' ++ [.leaf (.bclose b) l2']) l') d' es' ∧ Twin d d' ∧
      (es = [] ↔ es' = []) := by
  obtain ⟨ds, es, ds', es', h1, h2, h3, h4⟩ := h
  have h5 : PaddedKids false (ds ++ [.leaf (.bclose b) l2]) (ds' ++ [.leaf (.bclose b) l2']) :=
    h3.append (.cons (.leaf _ _ _) .nil)
  have h6 := PaddedKids.cons (Twin.leaf (.bopen b) l1 l1') h5
  exact ⟨_, _, _, _, .closed h1, .closed h2, h6.bracketKids.twin _ _ _,
    nil_iff_append h4 (h5.bracketErrs (Twin.leaf (.bopen b) l1 l1'))⟩

theorem bracket_unclosed {fin} {b : Bracket} {cs cs' : List CST} {l l' l1 l1'} (h : BodiesAlike fin cs cs') :
    ∃ d es d' es', XI (.node (.bracket b) (.leaf (.bopen b) l1 :: cs) l) d es ∧
      XI (.node (.bracket b) (.leaf (.bopen b) l1' :: cs') l') d' es' ∧ Twin d d' ∧ (es = [] ↔ es' = []) := by
  obtain ⟨ds, es, ds', es', h1, h2, h3, h4⟩ := h
  have h6 := PaddedKids.cons (Twin.leaf (.bopen b) l1 l1') h3
  exact ⟨_, _, _, _, .unclosed h1, .unclosed h2, h6.bracketKids.twin _ _ _, by simp⟩

theorem bracketNode_closed {b t cs u} (h : u.kind = .bclose b) : bracketNode b t cs u =
    .node (.bracket b) (.leaf (.bopen b) t.loc :: cs ++ [.leaf (.bclose b) u.loc]) ⟨t.loc.start, u.loc.stop⟩ := by
  simp [bracketNode, h]

theorem bracketNode_unclosed {b t cs u} (h : u.kind ≠ .bclose b) : bracketNode b t cs u =
    .node (.bracket b) (.leaf (.bopen b) t.loc :: cs) ⟨t.loc.start, u.loc.stop⟩ := by
  simp [bracketNode, h]

mutual

theorem EI.padded : ∀ {T cs r}, EI T cs r → ∀ {T'}, Padded T T' → HasEof T →
    ∃ cs' r', EI T' cs' r' ∧ Padded r r' ∧ ItemsAlike cs cs'
  | _, _, _, .stop hs, T', hp, he => ⟨[], T', .stop (hs.padded hp he), hp, [], [], [], [], .nil, .nil, .nil, Iff.rfl⟩
  | _, _, _, .leaf (t := t) hk h, T', hp, he => by
    obtain ⟨t', ts', hT, hk', hp⟩ := hp.uncons (by rintro e; rw [e] at hk; cases hk) (exprLeaf_ne_eof hk)
    obtain ⟨cs', r', h1, h2, h3⟩ := h.padded hp (he.tail (exprLeaf_ne_eof hk))
    have := (exprLeaf_tok hk).2
    subst hT
    exact ⟨_, _, .leaf (by rw [hk']; exact hk) h1, h2, .cons (.leaf this) (.leaf this) (.leaf _ _ _) Iff.rfl h3⟩
  | _, _, _, .esc (t := t) (u := u) ht hu h, T', hp, he => by
    obtain ⟨t', ts', hT, hk', hp⟩ := hp.uncons (by simp [ht]) (by simp [ht])
    obtain ⟨u', us', hT2, hk2, hp⟩ := hp.uncons (by rintro e; rw [e] at hu; cases hu) (escapable_ne_eof hu)
    obtain ⟨cs', r', h1, h2, h3⟩ := h.padded hp ((he.tail (by simp [ht])).tail (escapable_ne_eof hu))
    subst hT2
    obtain ⟨c, hv, hm, _⟩ := escapable_tok hu
    subst hv
    subst hT
    exact ⟨_, _, .esc (by rw [hk', ht]) (by rw [hk2]; exact hu) h1, h2,
      .cons (.escaped hm) (.escaped hm) (.leaf _ _ _) Iff.rfl h3⟩
  | _, _, _, .escN (t := t) (u := u) ht hu h, T', hp, he => by
    obtain ⟨t', ts', hT, hk', hp⟩ := hp.uncons (by simp [ht]) (by simp [ht])
    obtain ⟨cs', r', h1, h2, h3⟩ := h.padded hp (he.tail (by simp [ht]))
    have hx : ∃ (u' : Token) (us' : List Token), ts' = u' :: us' ∧ escapable u'.kind = none := by
      clear h1 hT
      cases hp with
      | cons hk2 hp => exact ⟨_, _, rfl, by rw [hk2]; exact hu⟩
      | blank _ hn => exact ⟨_, _, rfl, by rw [hn]; rfl⟩
      | name _ hn => exact ⟨_, _, rfl, by rw [hn]; rfl⟩
      | final _ hn => exact ⟨_, _, rfl, by rw [hn]; rfl⟩
    obtain ⟨u', us', rfl, hu'⟩ := hx
    subst hT
    exact ⟨_, _, .escN (by rw [hk', ht]) hu' h1, h2, .cons .stray .stray (.leaf _ _ _) (by simp) h3⟩
  | _, _, _, .bclosed (t := t) (b := b) (u := u) ht hb hu h, T', hp, he => by
    obtain ⟨t', ts', hT, hk', hp⟩ := hp.uncons (by simp [ht]) (by simp [ht])
    have he1 := he.tail (by simp [ht])
    obtain ⟨cs', r', h1, h2, h3, fin, h4, h5⟩ := hb.padded hp he1
    have hfin : fin = false := by
      cases fin
      · rfl
      · have := h4 rfl u rfl
        rw [hu] at this; cases this
    subst hfin
    obtain ⟨u', us', hr, hk2, hp2⟩ := h2.uncons (by simp [hu]) (by simp [hu])
    subst hr
    obtain ⟨ds', r2, h6, h7, h8⟩ := h.padded hp2 ((hb.suffix.1.mp he1).tail (by simp [hu]))
    have hu' : u'.kind = .bclose b := by rw [hk2, hu]
    subst hT
    refine ⟨_, _, .bclosed (by rw [hk', ht]) h1 hu' h6, h7, ?_⟩
    rw [bracketNode_closed hu, bracketNode_closed hu']
    obtain ⟨d, es, d', es', k1, k2, k3, k4⟩ := bracket_closed h5
    exact .cons k1 k2 k3 k4 h8
  | _, _, _, .bunclosed (t := t) (b := b) (u := u) ht hb hu h, T', hp, he => by
    obtain ⟨t', ts', hT, hk', hp⟩ := hp.uncons (by simp [ht]) (by simp [ht])
    have he1 := he.tail (by simp [ht])
    obtain ⟨cs', r', h1, h2, h3, fin, h4, h5⟩ := hb.padded hp he1
    obtain ⟨ds', r2, h6, h7, h8⟩ := h.padded h2 (hb.suffix.1.mp he1)
    rcases r' with _ | ⟨u', us'⟩
    · simp [SameHead] at h3
    · simp only [SameHead, List.head?_cons, Option.map_some, Option.some.injEq] at h3
      have hu' : u'.kind ≠ .bclose b := by rw [h3]; exact hu
      subst hT
      refine ⟨_, _, .bunclosed (by rw [hk', ht]) h1 hu' h6, h7, ?_⟩
      rw [bracketNode_unclosed hu, bracketNode_unclosed hu']
      obtain ⟨d, es, d', es', k1, k2, k3, k4⟩ := bracket_unclosed h5
      exact .cons k1 k2 k3 k4 h8

theorem BI.padded : ∀ {T cs r}, BI T cs r → ∀ {T'}, Padded T T' → HasEof T →
    ∃ cs' r', BI T' cs' r' ∧ Padded r r' ∧ SameHead r r' ∧
      ∃ fin, (fin = true → ∀ t ∈ r.head?, t.kind = .eof) ∧ BodiesAlike fin cs cs'
  | _, _, _, .stop hs hn, T', hp, he => by
    rcases hp.head with hh | ⟨e, ts, n, e', ts', rfl, rfl, he1, hn1, he2, hp1⟩
    · exact ⟨[], T', .stop (hs.padded hp he) (hh.all (p := (· ≠ .newLine)) hn), hp, hh, false, by simp,
        [], [], [], [], .nil, .nil, .nil, Iff.rfl⟩
    · refine ⟨_, _, .newline hn1 (.stop (.of_items (by simp [he2, itemStop])) (by simp [he2])), .cons (by rw [he1, he2]) hp1,
        by simp [SameHead, he1, he2], true, by simp [he1], [], [], _, [], .nil, .newline .nil, .final rfl, Iff.rfl⟩
  | _, _, _, .expr (r := r) h hb, T', hp, he => by
    obtain ⟨cs', r', h1, h2, ds, es, ds', es', h3, h4, h5, h6⟩ := h.padded hp he
    obtain ⟨bs', r2, h7, h8, h9, fin, h10, ds2, es2, ds2', es2', h11, h12, h13, h14⟩ := hb.padded h2 (h.suffix.1.mp he)
    cases h3 with
    | cons h3 h3' =>
      cases h5 with
      | cons h5 h5' =>
        cases h4 with
        | cons h4 h4' =>
          exact ⟨_, _, .expr h1 h7, h8, h9, fin, h10, _, _, _, _, .expr (by simp) (.cons h3 h3') h11,
            .expr (by simp) (.cons h4 h4') h12, (EachTree.cons h5 h5').padded h13, nil_iff_append h6 h14⟩
  | _, _, _, .newline (t := t) ht hb, T', hp, he => by
    have he1 := he.tail (by simp [ht])
    obtain ⟨t', ts', hT, ht', hp⟩ := hp.line ht
    rcases hp with hp | ⟨x, ts1', hx, hxk, hp⟩
    · obtain ⟨bs', r2, h7, h8, h9, fin, h10, ds2, es2, ds2', es2', h11, h12, h13, h14⟩ := hb.padded hp he1
      subst hT
      exact ⟨_, _, .newline ht' h7, h8, h9, fin, h10, _, _, _, _, .newline h11, .newline h12,
        .cons (.leaf _ _ _) h13, h14⟩
    · obtain ⟨bs', r2, h7, h8, h9, fin, h10, ds2, es2, ds2', es2', h11, h12, h13, h14⟩ := hb.padded hp he1
      subst hT hx
      exact ⟨_, _, .newline ht' (.newline hxk h7), h8, h9, fin, h10, _, _, _, _, .newline h11, .newline (.newline h12),
        .blank h13, h14⟩

end

/-- The lines are simplified to alike trees. -/
def LinesAlike (cs cs' : List CST) : Prop :=
  ∃ ds es ds' es', XLines cs ds es ∧ XLines cs' ds' es' ∧ EachTree Twin ds ds' ∧ (es = [] ↔ es' = [])

theorem LI.padded {T c r} (h : LI T c r) {T'} (hp : Padded T T') (he : HasEof T) :
    ∃ c' r', LI T' c' r' ∧ Padded r r' ∧ ∀ {cs cs'}, LinesAlike cs cs' → LinesAlike (c :: cs) (c' :: cs') := by
  cases h with
  | expr h =>
    obtain ⟨cs', r', h1, h2, ds, es, ds', es', h3, h4, h5, h6⟩ := h.padded hp he
    cases h3 with
    | cons h3 h3' =>
      cases h5 with
      | cons h5 h5' =>
        cases h4 with
        | cons h4 h4' =>
          refine ⟨_, _, .expr h1, h2, ?_⟩
          rintro cs cs' ⟨ds, es, ds', es', k1, k2, k3, k4⟩
          exact ⟨_, _, _, _, .cons (.expr (by simp) (.cons h3 h3')) k1, .cons (.expr (by simp) (.cons h4 h4')) k2,
            .cons ((EachTree.cons h5 h5').twin _ _ _) k3, nil_iff_append h6 k4⟩
  | close ht =>
    obtain ⟨t', ts', rfl, hk, hp⟩ := hp.uncons (by simp [ht]) (by simp [ht])
    refine ⟨_, _, .close (by rw [hk, ht]), hp, ?_⟩
    rintro cs cs' ⟨ds, es, ds', es', k1, k2, k3, k4⟩
    exact ⟨_, _, _, _, .cons .close k1, .cons .close k2, k3, k4⟩

/-- A line that consists of a name and is followed by a closing bracket. -/
theorem LI.name {i c : Token} {ts s b} (hi : i.kind = .ident s) (hc : c.kind = .bclose b) :
    LI (i :: c :: ts) (exprNode (.leaf (.ident s) i.loc) []) (c :: ts) :=
  .expr (.leaf (by rw [hi]; rfl) (.stop (.close hc)))

theorem SI.close {c : Token} {ts b} (hc : c.kind = .bclose b) : SI (c :: ts) [] (c :: ts) :=
  .stop (fun t ts1 h1 h2 => by cases h1; rw [hc] at h2; cases h2)

/-- The rest of the first list is a closing bracket that nothing can be done with; in the second list it is
preceded by an empty line and a name. -/
def Stuck (r r' : List Token) : Prop :=
  ∃ c ts n x i c' ts' s b, r = c :: ts ∧ r' = n :: x :: i :: c' :: ts' ∧ n.kind = .newLine ∧ x.kind = .newLine ∧
    i.kind = .ident s ∧ c.kind = .bclose b ∧ c'.kind = .bclose b ∧ Padded ts ts'

theorem SI.padded : ∀ {T cs r}, SI T cs r → ∀ {T'}, Padded T T' → HasEof T →
    ∃ cs' r', SI T' cs' r' ∧ (Padded r r' ∧ LinesAlike cs cs' ∨ Stuck r r')
  | _, _, _, .stop hs, T', hp, he => by
    refine ⟨[], T', .stop ?_, .inl ⟨hp, [], [], [], [], .nil, .nil, .nil, Iff.rfl⟩⟩
    intro t ts1 h1 h2
    subst h1
    cases hp with
    | cons hk hp =>
      rw [hk] at h2
      exact (hs _ _ rfl h2).padded hp (he.tail (by simp [h2]))
    | blank _ _ hx => exact fun _ => by simp [hx]
    | name hn _ hx => exact fun _ => by simp [hx]
    | final _ _ he' => exact fun _ => by simp [he']
  | _, _, _, .more ht hl h, T', hp, he => by
    have he1 := he.tail (by simp [ht])
    cases hp with
    | cons hk hp =>
      obtain ⟨c', r1, h1, h2, h3⟩ := hl.padded hp he1
      obtain ⟨cs', r2, h4, h5⟩ := h.padded h2 (hl.hasEof.mp he1)
      refine ⟨_, _, .more (by rw [hk, ht]) h1 h4, h5.imp (fun h5 => ⟨h5.1, ?_⟩) id⟩
      obtain ⟨ds, es, ds', es', k1, k2, k3, k4⟩ := h3 h5.2
      exact ⟨_, _, _, _, .cons .newline k1, .cons .newline k2, k3, k4⟩
    | blank _ _ _ hm => exact absurd (fun _ => by simp [hm]) (hl.not_noLine he1)
    | @name _ n' x i i' c c' _ _ _ _ _ hn' hx hi hi' hc hc' hp =>
      obtain ⟨rfl, rfl⟩ := hl.det (.name hi hc) he1
      obtain ⟨rfl, rfl⟩ := h.det (.close hc) (hl.hasEof.mp he1)
      exact ⟨[], _, .stop (fun t ts1 h1 h2 => by cases h1; exact fun _ => by simp [hx]),
        .inr ⟨_, _, _, _, _, _, _, _, _, rfl, rfl, hn', hx, hi', hc, hc', hp⟩⟩
    | final hn => rw [hn] at ht; cases ht

/-- A child of a document is simplified to the same. -/
def ChildAlike (c c' : CST) : Prop :=
  ∃ ds es ds' es', XChild c ds es ∧ XChild c' ds' es' ∧ EachTree Twin ds ds' ∧ (es = [] ↔ es' = [])

theorem TI.padded {T c r} (h : TI T c r) {T'} (hp : Padded T T') (he : HasEof T) :
    ∃ c' r', TI T' c' r' ∧ (Padded r r' ∧ ChildAlike c c' ∨ Stuck r r') := by
  cases h with
  | @mk c r cs r' hl hs =>
    obtain ⟨c', r1, h1, h2, h3⟩ := hl.padded hp he
    obtain ⟨cs', r2, h4, h5⟩ := hs.padded h2 (hl.hasEof.mp he)
    refine ⟨_, _, .mk h1 h4, h5.imp (fun h5 => ⟨h5.1, ?_⟩) id⟩
    obtain ⟨ds, es, ds', es', k1, k2, k3, k4⟩ := h3 h5.2
    obtain ⟨l, e1⟩ := foldl_add_new .stmt (c :: cs)
    obtain ⟨l', e2⟩ := foldl_add_new .stmt (c' :: cs')
    rw [e1, e2]
    exact ⟨_, _, _, _, .stmt k1, .stmt k2, .cons (k3.twin _ _ _) .nil, k4⟩

/-- Children of a document that are simplified to the same. -/
def DocsAlike (cs cs' : List CST) : Prop :=
  ∃ ds es ds' es', XDoc cs ds es ∧ XDoc cs' ds' es' ∧ EachTree Twin ds ds' ∧ (es = [] ↔ es' = [])

theorem DocsAlike.append {cs cs' ds ds'} (h : DocsAlike cs cs') (h' : DocsAlike ds ds') :
    DocsAlike (cs ++ ds) (cs' ++ ds') := by
  obtain ⟨_, _, _, _, h1, h2, h3, h4⟩ := h
  obtain ⟨_, _, _, _, k1, k2, k3, k4⟩ := h'
  exact ⟨_, _, _, _, h1.append k1, h2.append k2, h3.append k3, nil_iff_append h4 k4⟩

theorem DocsAlike.nil : DocsAlike [] [] := ⟨_, _, _, _, .nil, .nil, .nil, Iff.rfl⟩

theorem DocsAlike.one {c c'} (h : ChildAlike c c') : DocsAlike [c] [c'] := by
  obtain ⟨_, _, _, _, h1, h2, h3, h4⟩ := h
  exact ⟨_, _, _, _, .cons h1 .nil, .cons h2 .nil, h3.append .nil, nil_iff_append h4 Iff.rfl⟩

theorem DocsAlike.newlines {cs cs'} (h : GNewlines cs) (h' : GNewlines cs') : DocsAlike cs cs' :=
  ⟨_, _, _, _, h.xdoc, h'.xdoc, .nil, Iff.rfl⟩

theorem NI.padded : ∀ {T ns r}, NI T ns r → ∀ {T'}, Padded T T' →
    ∃ ns' r', NI T' ns' r' ∧ Padded r r' ∧ SameHead r r'
  | _, _, _, .stop hn, T', hp => by
    rcases hp.head with hh | ⟨e, ts, n, e', ts', rfl, rfl, he1, hn1, he2, hp1⟩
    · exact ⟨[], T', .stop (hh.all (p := (· ≠ .newLine)) hn), hp, hh⟩
    · exact ⟨_, _, .more hn1 (.stop (by simp [he2])), .cons (by rw [he1, he2]) hp1, by simp [SameHead, he1, he2]⟩
  | _, _, _, .more ht h, T', hp => by
    obtain ⟨t', ts', hT, ht', hp⟩ := hp.line ht
    rcases hp with hp | ⟨x, ts1', hx, hxk, hp⟩
    · obtain ⟨ns', r', h1, h2, h3⟩ := h.padded hp
      subst hT
      exact ⟨_, r', .more ht' h1, h2, h3⟩
    · obtain ⟨ns', r', h1, h2, h3⟩ := h.padded hp
      subst hT hx
      exact ⟨_, r', .more ht' (.more hxk h1), h2, h3⟩

/-- The three loops of `parse` on padded lists. -/
theorem DI.padded : ∀ {T cs r}, DI T cs r → ∀ {T'}, Padded T T' → HasEof T → ∀ {cs2 r2 ns r3}, OI r cs2 r2 → NI r2 ns r3 →
    ∃ cs' r' cs2' r2' ns' r3', DI T' cs' r' ∧ OI r' cs2' r2' ∧ NI r2' ns' r3' ∧ SameHead r3 r3' ∧
      ((∀ t ∈ r3.head?, t.kind = .eof) → DocsAlike (cs ++ cs2 ++ ns) (cs' ++ cs2' ++ ns'))
  | T, _, _, .noStmt hn, T', hp, he, cs2, r2, ns, r3, hO, hN => by
    cases hO with
    | some h => exact absurd hn (h.not_noLine he)
    | none _ =>
      obtain ⟨ns', r', h1, h2, h3⟩ := hN.padded hp
      exact ⟨_, _, _, _, _, _, .noStmt (hn.padded hp he), .none (hn.padded hp he), h1, h3,
        fun _ => .newlines hN.grammar h1.grammar⟩
  | T, _, _, .lastStmt hs hr, T', hp, he, cs2, r2, ns, r3, hO, hN => by
    cases hO with
    | none hn => exact absurd hn (hs.not_noLine he)
    | some h =>
      obtain ⟨rfl, rfl⟩ := hs.det h he
      obtain ⟨c', r', h1, ⟨h2, h3⟩ | h2⟩ := hs.padded hp he
      · rcases h2.head with hh | ⟨e, ts, n, e', ts', rfl, rfl, he1, hn1, he2, hp1⟩
        · obtain ⟨ns', r3', h4, h5, h6⟩ := hN.padded h2
          exact ⟨_, _, _, _, _, _, .lastStmt h1 (hh.all (p := (· ≠ .newLine)) hr), .some h1, h4, h6,
            fun _ => (DocsAlike.nil.append (.one h3)).append (.newlines hN.grammar h4.grammar)⟩
        · obtain ⟨rfl, rfl⟩ := hN.det (.stop (by simp [he1]))
          have hl : NoLine (e' :: ts') := fun _ => by simp [he2]
          refine ⟨_, _, _, _, _, _, .more h1 hn1 (.stop (by simp [he2])) (.noStmt hl), .none hl, .stop (by simp [he2]),
            by simp [SameHead, he1, he2], fun _ => ?_⟩
          have hnl : GNewlines [CST.leaf .newline n.loc] := by simp [GNewlines]
          simpa using (DocsAlike.one h3).append (.newlines (cs := []) (by simp [GNewlines]) hnl)
      · obtain ⟨c, ts, n, x, i, k, ts', s, b, rfl, rfl, hn, hx, hi, hc, hk, hp⟩ := h2
        obtain ⟨rfl, rfl⟩ := hN.det (.stop (by simp [hc]))
        have hT : TI (i :: k :: ts') _ (k :: ts') := .mk (.name hi hk) (.close hk)
        exact ⟨_, _, _, _, _, _, .more h1 hn (.more hx (.stop (by simp [hi]))) (.lastStmt hT (by simp [hk])), .some hT,
          .stop (by simp [hk]), by simp [SameHead, hc, hk], by simp [hc]⟩
  | T, _, _, .more (s := s) (t := t) (r := r) (ns := ms) (r1 := r1) hs ht hm h, T', hp, he, cs2, r2, ns, r3, hO, hN => by
    obtain ⟨s', r', h1, ⟨h2, h3⟩ | h2⟩ := hs.padded hp he
    · have he1 := hs.hasEof.mp he
      have he2 := he1.tail (by simp [ht])
      have key : ∃ t' ts' ms' r1', r' = t' :: ts' ∧ t'.kind = .newLine ∧ NI ts' ms' r1' ∧ Padded r1 r1' := by
        obtain ⟨t', ts', hT, ht', hp⟩ := h2.line ht
        rcases hp with hp | ⟨x, ts1', hx, hxk, hp⟩
        · obtain ⟨ms', r1', k1, k2, k3⟩ := hm.padded hp
          exact ⟨_, _, ms', r1', hT, ht', k1, k2⟩
        · obtain ⟨ms', r1', k1, k2, k3⟩ := hm.padded hp
          subst hx
          exact ⟨_, _, _, r1', hT, ht', .more hxk k1, k2⟩
      obtain ⟨t', ts', ms', r1', rfl, ht', k1, k2⟩ := key
      obtain ⟨cs', r'', cs2', r2', ns', r3', k4, k5, k6, k8, k9⟩ := h.padded k2 (hm.hasEof.mp he2) hO hN
      refine ⟨_, _, _, _, _, _, .more h1 ht' k1 k4, k5, k6, k8, fun hf => ?_⟩
      have hg : GNewlines (.leaf .newline t.loc :: ms) := by
        intro c hc
        rcases List.mem_cons.mp hc with rfl | hc
        · exact ⟨_, rfl⟩
        · exact hm.grammar c hc
      have hg' : GNewlines (.leaf .newline t'.loc :: ms') := by
        intro c hc
        rcases List.mem_cons.mp hc with rfl | hc
        · exact ⟨_, rfl⟩
        · exact k1.grammar c hc
      simpa using (DocsAlike.one h3).append ((DocsAlike.newlines hg hg').append (k9 hf))
    · obtain ⟨c, ts, n, x, i, k, ts', s, b, h4, _, _, _, _, hc, _⟩ := h2
      cases h4
      rw [hc] at ht; cases ht

/-- Parsing padded lists. -/
theorem parse_padded {T T'} (hp : Padded T T') (he : HasEof T) :
    (∃ m m', parse T = .err m ∧ parse T' = .err m') ∨
    ∃ cs l cs' l' ds es ds' es', parse T = .ok (.node .document cs l) ∧ parse T' = .ok (.node .document cs' l') ∧
      XDoc cs ds es ∧ XDoc cs' ds' es' ∧ EachTree Twin ds ds' ∧ (es = [] ↔ es' = []) := by
  have he' := hp.hasEof he
  rcases parse_spec (.inl he) with ⟨c, rest, h1, h2⟩ | ⟨m, cs, r, cs2, r2, ns, r3, h1, hD, hO, hN, hne⟩
  · right
    cases h2 with
    | @mk cs r cs2 r2 ns t rest hD hO hN ht =>
      obtain ⟨cs', r', cs2', r2', ns', r3', k1, k2, k3, k5, k6⟩ := hD.padded hp he hO hN
      rcases r3' with _ | ⟨t', rest'⟩
      · simp [SameHead] at k5
      simp only [SameHead, List.head?_cons, Option.map_some, Option.some.injEq] at k5
      have h3 := (PI.mk k1 k2 k3 (by rw [k5, ht])).parse
      obtain ⟨l, e1⟩ := foldl_add_new .document (cs ++ cs2 ++ ns ++ [CST.leaf .eof t.loc])
      obtain ⟨l', e2⟩ := foldl_add_new .document (cs' ++ cs2' ++ ns' ++ [CST.leaf .eof t'.loc])
      rw [e1] at h1
      rw [e2] at h3
      obtain ⟨ds, es, ds', es', q1, q2, q3, q4⟩ := (k6 (by simp [ht])).append
        (.one (c := .leaf .eof t.loc) (c' := .leaf .eof t'.loc) ⟨_, _, _, _, .eof, .eof, .nil, Iff.rfl⟩)
      exact ⟨_, l, _, l', ds, es, ds', es', h1, h3, q1, q2, q3, q4⟩
  · left
    obtain ⟨cs', r', cs2', r2', ns', r3', k1, k2, k3, k5, k6⟩ := hD.padded hp he hO hN
    have hne' := k5.all (p := (· ≠ .eof)) hne
    rcases parse_spec (.inl he') with ⟨c, rest, h3, h4⟩ | ⟨m', _, _, _, _, _, _, h3, _⟩
    · exfalso
      cases h4 with
      | mk hD2 hO2 hN2 ht2 =>
        obtain ⟨rfl, rfl⟩ := k1.det hD2 he'
        obtain ⟨rfl, rfl⟩ := k2.det hO2 (k1.hasEof.mp he')
        obtain ⟨rfl, rfl⟩ := k3.det hN2
        exact hne' _ rfl ht2
    · exact ⟨m, m', h1, h3⟩

end Brack
