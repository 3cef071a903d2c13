import Verif.Proof.Layout
import Verif.Spec.Compose

/-
Helper lemmas: parsing and transforming token lists that differ in one closed bracket.
-/

namespace Brack

/-! ### trees that differ in some places -/

mutual

/-- The trees are the same up to ranges, except for `n` places, where the first has `B` and the second has `B'`. -/
inductive Sw (B B' : CST) : Nat → CST → CST → Prop
  | leaf {k l l'} : Sw B B' 0 (.leaf k l) (.leaf k l')
  | here : Sw B B' 1 B B'
  | node {k n cs cs' l l'} : SwL B B' n cs cs' → Sw B B' n (.node k cs l) (.node k cs' l')

inductive SwL (B B' : CST) : Nat → List CST → List CST → Prop
  | nil : SwL B B' 0 [] []
  | cons {n m c c' cs cs'} : Sw B B' n c c' → SwL B B' m cs cs' → SwL B B' (n + m) (c :: cs) (c' :: cs')

end

/-- Errors of the same kinds, except for `n` places, where the first list has `ex` and the second has `ex'`. -/
inductive EK (ex ex' : List TErr) : Nat → List TErr → List TErr → Prop
  | nil : EK ex ex' 0 [] []
  | cons {n e e' es es'} : e'.kind = e.kind → EK ex ex' n es es' → EK ex ex' n (e :: es) (e' :: es')
  | here {n es es'} : EK ex ex' n es es' → EK ex ex' (n + 1) (ex ++ es) (ex' ++ es')

theorem EK.append {ex ex' n m es es' fs fs'} (h : EK ex ex' n es es') (h' : EK ex ex' m fs fs') :
    EK ex ex' (n + m) (es ++ fs) (es' ++ fs') := by
  induction h with
  | nil => simpa using h'
  | cons hk _ ih => exact .cons hk ih
  | here _ ih =>
    rw [List.append_assoc, List.append_assoc, Nat.add_right_comm]
    exact .here ih

theorem EK.of_kinds {ex ex' : List TErr} : ∀ {es es' : List TErr}, es'.map TErr.kind = es.map TErr.kind → EK ex ex' 0 es es'
  | [], es', h => by
    have : es' = [] := by simpa using h
    subst this; exact .nil
  | e :: es, [], h => by simp at h
  | e :: es, e' :: es', h => by
    simp only [List.map_cons, List.cons.injEq] at h
    exact .cons h.1 (.of_kinds h.2)

theorem EK.zero {ex ex' n es es'} (h : EK ex ex' n es es') : n = 0 → es'.map TErr.kind = es.map TErr.kind := by
  induction h with
  | nil => intro _; rfl
  | cons hk _ ih => intro hn; simp [hk, ih hn]
  | here _ => intro hn; omega

theorem EK.one {ex ex' n es es'} (h : EK ex ex' n es es') : n = 1 → ∃ k1 k2,
    es.map TErr.kind = k1 ++ ex.map TErr.kind ++ k2 ∧ es'.map TErr.kind = k1 ++ ex'.map TErr.kind ++ k2 := by
  induction h with
  | nil => intro hn; omega
  | @cons n e e' es es' hk _ ih =>
    intro hn
    obtain ⟨k1, k2, h1, h2⟩ := ih hn
    exact ⟨e.kind :: k1, k2, by simp [h1], by simp [hk, h2]⟩
  | @here n es es' h _ =>
    intro hn
    exact ⟨[], es.map TErr.kind, by simp, by simp [h.zero (by omega)]⟩

section

variable {B B' : CST} {b0 : Bracket}

theorem SwL.append {n m cs cs' ds ds'} (h : SwL B B' n cs cs') (h' : SwL B B' m ds ds') :
    SwL B B' (n + m) (cs ++ ds) (cs' ++ ds') := by
  induction cs generalizing n cs' with
  | nil => cases h; simpa using h'
  | cons c cs ih =>
    cases h with
    | cons h1 h2 =>
      rw [Nat.add_assoc]
      exact .cons h1 (ih h2)

theorem SwL.one {n c c'} (h : Sw B B' n c c') : SwL B B' n [c] [c'] := by
  have := SwL.cons h .nil
  simpa using this

theorem Sw.tag (hB : B.tag = .inr (.bracket b0)) (hB' : B'.tag = .inr (.bracket b0)) {n c c'} (h : Sw B B' n c c') :
    c'.tag = c.tag := by
  cases h with
  | leaf => rfl
  | here => rw [hB, hB']
  | node => rfl

/-- Only a tree with children differs. -/
theorem Sw.leaf_zero (hB : B.tag = .inr (.bracket b0)) {n k l c'} (h : Sw B B' n (.leaf k l) c') : n = 0 := by
  generalize hc : CST.leaf k l = c at h
  cases h with
  | leaf => rfl
  | here => subst hc; cases hB
  | node => cases hc

theorem SwL.tags (hB : B.tag = .inr (.bracket b0)) (hB' : B'.tag = .inr (.bracket b0)) : ∀ {cs n cs'}, SwL B B' n cs cs' →
    EachTree (fun c c' => c'.tag = c.tag) cs cs'
  | [], _, _, h => by cases h; exact .nil
  | c :: cs, _, _, h => by
    cases h with
    | cons h1 h2 => exact .cons (h1.tag hB hB') (h2.tags hB hB')

theorem SwL.filter {p : CST → Bool} (hp : ∀ c c' : CST, c'.tag = c.tag → p c' = p c) (hn : ∀ k cs l, p (.node k cs l) = true)
    (hB : B.tag = .inr (.bracket b0)) (hB' : B'.tag = .inr (.bracket b0)) : ∀ {cs n cs'}, SwL B B' n cs cs' →
    SwL B B' n (cs.filter p) (cs'.filter p)
  | [], _, _, h => by cases h; exact .nil
  | c :: cs, _, _, h => by
    cases h with
    | @cons n m _ c' _ cs' h1 h2 =>
      have ht := h1.tag hB hB'
      by_cases hc : p c = true
      · rw [List.filter_cons_of_pos hc, List.filter_cons_of_pos (by rw [hp _ _ ht, hc])]
        exact .cons h1 (h2.filter hp hn hB hB')
      · rw [List.filter_cons_of_neg hc, List.filter_cons_of_neg (by rw [hp _ _ ht]; exact hc)]
        rcases c with ⟨k, l⟩ | ⟨k, ds, l⟩
        · rw [h1.leaf_zero hB, Nat.zero_add]
          exact h2.filter hp hn hB hB'
        · exact absurd (hn _ _ _) hc

theorem SwL.removeBlanks (hB : B.tag = .inr (.bracket b0)) (hB' : B'.tag = .inr (.bracket b0)) {cs n cs'}
    (h : SwL B B' n cs cs') : SwL B B' n (Brack.removeBlanks cs) (Brack.removeBlanks cs') :=
  h.filter (fun c c' h => by rw [tag_isBlank h]) (fun _ _ _ => rfl) hB hB'

theorem SwL.removeElements (hB : B.tag = .inr (.bracket b0)) (hB' : B'.tag = .inr (.bracket b0)) {cs n cs'}
    (h : SwL B B' n cs cs') : SwL B B' n (Brack.removeElements cs) (Brack.removeElements cs') :=
  h.filter (fun c c' h => by rw [tag_notInAst h]) (fun _ _ _ => rfl) hB hB'

/-- A closing bracket stands at the end only. -/
def ClosesLast : List CST → Prop
  | [] => True
  | .leaf (.bclose _) _ :: cs => cs = []
  | _ :: cs => ClosesLast cs

theorem ClosesLast.tail {c cs} (h : ClosesLast (c :: cs)) : ClosesLast cs := by
  rcases c with ⟨k, l⟩ | ⟨k, ds, l⟩
  · cases k <;> try exact h
    have : cs = [] := h
    subst this; trivial
  · exact h

theorem SwL.isEmpty {n es es'} (h : SwL B B' n es es') : es'.isEmpty = es.isEmpty := by cases h <;> rfl

theorem argLoop_sw (hB : B.tag = .inr (.bracket b0)) (hB' : B'.tag = .inr (.bracket b0)) : ∀ {cs m cs'}, SwL B B' m cs cs' →
    ClosesLast cs → ∀ {prev prev' n es es' l l' comma}, SwL B B' n es es' →
    SwL B B' (n + m) (argLoop prev (.node .expr es l) comma cs).1 (argLoop prev' (.node .expr es' l') comma cs').1 ∧
    (argLoop prev' (.node .expr es' l') comma cs').2.map TErr.kind = (argLoop prev (.node .expr es l) comma cs).2.map TErr.kind
  | [], _, _, h, _, prev, prev', n, es, es', l, l', comma, he => by
    cases h
    have he2 := he
    cases he2 with
    | nil => exact ⟨.nil, rfl⟩
    | cons h hs => exact ⟨.one (.node he), rfl⟩
  | c :: cs, _, _, h, hcl, prev, prev', n, es, es', l, l', comma, he => by
    cases h with
    | @cons n1 m _ c' _ cs' h hs =>
    have hcl' := hcl.tail
    have hcont := argLoop_sw hB hB' hs hcl' (prev := c) (prev' := c') (comma := false) (l := mergeLocation l c.loc)
      (l' := mergeLocation l' c'.loc) (he.append (.one h))
    rw [Nat.add_assoc] at hcont
    have hempty := he.isEmpty
    have hexpr : Sw B B' n (.node .expr es l) (.node .expr es' l') := .node he
    have htag := h.tag hB hB'
    have hzero : ∀ k l, c = .leaf k l → n1 = 0 := fun k l e => by subst e; exact h.leaf_zero hB
    rcases c with ⟨k, lc⟩ | ⟨k, ds, lc⟩ <;> rcases c' with ⟨k', lc'⟩ | ⟨k', ds', lc'⟩ <;>
      simp only [CST.tag, Sum.inl.injEq, Sum.inr.injEq, reduceCtorEq] at htag <;> subst htag
    · have hn := argLoop_sw hB hB' hs hcl' (comma := true) (l := mockLocation) (l' := mockLocation) (prev := .leaf k' lc) (prev' := .leaf k' lc') .nil
      have hk := argLoop_sw hB hB' hs hcl' (comma := comma) (l := l) (l' := l') (prev := .leaf k' lc) (prev' := .leaf k' lc') he
      have h0 := hzero _ _ rfl
      subst h0
      rw [Nat.zero_add] at hn
      cases k'
      case comma =>
        simp only [argLoop, CST.children, hempty]
        by_cases hc : es.isEmpty = true
        · simp only [hc, if_true]
          exact ⟨by simpa using hk.1, by simp [hk.2]⟩
        · simp only [hc, if_false, Bool.false_eq_true]
          exact ⟨SwL.cons hexpr (by rw [Nat.zero_add]; exact hn.1), hn.2⟩
      case bclose b =>
        have hcs : cs = [] := hcl
        subst hcs
        cases hs
        simp only [argLoop, CST.children, hempty]
        by_cases hc : es.isEmpty = true
        · have : es = [] := by simpa using hc
          subst this
          cases he
          simp only [List.isEmpty_nil, Bool.not_true, Bool.false_eq_true, if_false]
          cases comma
          · exact ⟨.one h, rfl⟩
          · exact ⟨.one h, rfl⟩
        · simp only [hc, Bool.not_false, if_true]
          exact ⟨.cons hexpr (.one h), by simp⟩
      case dot =>
        simp only [argLoop]
        exact ⟨by simpa using hk.1, by simp [hk.2]⟩
      all_goals
        simp only [argLoop]
        exact hcont
    · simp only [argLoop]
      exact hcont

theorem checkValidArguments_sw (hB : B.tag = .inr (.bracket b0)) (hB' : B'.tag = .inr (.bracket b0)) {cs n cs'}
    (h : SwL B B' n cs cs') (hcl : ClosesLast cs) :
    SwL B B' n (checkValidArguments cs).1 (checkValidArguments cs').1 ∧
      (checkValidArguments cs').2.map TErr.kind = (checkValidArguments cs).2.map TErr.kind := by
  have hA := h
  cases h with
  | nil => exact ⟨.nil, rfl⟩
  | cons h0 h =>
    cases h with
    | nil => exact ⟨hA, rfl⟩
    | cons h1 h =>
      cases h with
      | nil => exact ⟨hA, rfl⟩
      | cons h2 h =>
        cases h with
        | nil => exact ⟨hA, rfl⟩
        | @cons _ _ c3 c3' _ _ h3 h =>
          have := argLoop_sw hB hB' h hcl.tail.tail.tail.tail (prev := c3) (prev' := c3') (comma := false)
            (l := mockLocation) (l' := mockLocation) .nil
          simp only [checkValidArguments, CST.new]
          rw [Nat.zero_add] at this
          exact ⟨.cons h0 (.cons h1 (.cons h2 (.cons h3 this.1))), this.2⟩

theorem checkAt_kinds {i good kind cs cs'} (hg : ∀ c c' : CST, c'.tag = c.tag → good c' = good c)
    (h : EachTree (fun c c' => c'.tag = c.tag) cs cs') :
    (checkAt i good kind cs').map TErr.kind = (checkAt i good kind cs).map TErr.kind := by
  unfold checkAt
  rcases h.get i with ⟨h1, h2⟩ | ⟨c, c', h1, h2, h3⟩
  · simp [h1, h2]
  · simp only [h1, h2, hg _ _ h3]
    cases good c <;> rfl

theorem checkUnexpectedDot_kinds {cs cs'} (h : EachTree (fun c c' => c'.tag = c.tag) cs cs') :
    (checkUnexpectedDot cs').map TErr.kind = (checkUnexpectedDot cs).map TErr.kind := by
  unfold checkUnexpectedDot
  have h3 := h.drop 3
  revert h3
  generalize cs.drop 3 = xs
  generalize cs'.drop 3 = ys
  intro h3
  induction h3 with
  | nil => rfl
  | @cons c c' _ _ h _ ih =>
    by_cases hc : c.isDot = true
    · rw [List.filter_cons_of_pos hc, List.filter_cons_of_pos (by rw [tag_isDot h, hc])]
      simpa using ih
    · rw [List.filter_cons_of_neg hc, List.filter_cons_of_neg (by rw [tag_isDot h]; exact hc)]
      exact ih

theorem ClosesLast.removeBlanks : ∀ {cs}, ClosesLast cs → ClosesLast (Brack.removeBlanks cs)
  | [], _ => trivial
  | c :: cs, h => by
    have ih := h.tail.removeBlanks
    unfold Brack.removeBlanks at ih ⊢
    by_cases hc : c.isBlank = true
    · rw [List.filter_cons_of_neg (by simp [hc])]; exact ih
    · rw [List.filter_cons_of_pos (by simp [hc])]
      rcases c with ⟨k, l⟩ | ⟨k, ds, l⟩
      · cases k <;> try exact ih
        have : cs = [] := h
        subst this; rfl
      · exact ih

theorem SwL.bracket (hB : B.tag = .inr (.bracket b0)) (hB' : B'.tag = .inr (.bracket b0)) {cs n cs'} (h : SwL B B' n cs cs')
    (hcl : ClosesLast cs) : SwL B B' n (bracketKids cs) (bracketKids cs') ∧
      (bracketErrs cs').map TErr.kind = (bracketErrs cs).map TErr.kind := by
  have ht := h.tags hB hB'
  obtain ⟨h1, h2⟩ := checkValidArguments_sw hB hB' (h.removeBlanks hB hB') hcl.removeBlanks
  refine ⟨h1.removeElements hB hB', ?_⟩
  unfold bracketErrs checkModule checkDot checkIdent
  simp only [List.map_append, h2, checkUnexpectedDot_kinds ht]
  rw [checkAt_kinds (fun _ _ => tag_isModuleOrAngle) ht, checkAt_kinds (fun _ _ => tag_isDot) ht,
    checkAt_kinds (fun _ _ => tag_isIdentOrAngle) ht]

theorem ClosesLast.simple {b l} : ∀ {ds : List CST}, (∀ d ∈ ds, d.simple = true) → ClosesLast (ds ++ [.leaf (.bclose b) l]) ∧ ClosesLast ds
  | [], _ => ⟨rfl, trivial⟩
  | d :: ds, h => by
    have hd := h d (by simp)
    obtain ⟨h1, h2⟩ := ClosesLast.simple (b := b) (l := l) (ds := ds) (fun d hd => h d (by simp [hd]))
    rcases d with ⟨k, l⟩ | ⟨k, cs, l⟩
    · cases k <;> simp [CST.simple, LKind.inExpr] at hd <;> exact ⟨h1, h2⟩
    · exact ⟨h1, h2⟩

/-! ### token lists -/

/-- A closed bracket, whatever follows. -/
structure Filling (b : Bracket) (X : List Token) (B : CST) (ex : List TErr) : Prop where
  parsed : ∃ o body c, X = o :: body ++ [c] ∧ o.kind = .bopen b ∧ c.kind = .bclose b ∧
    ∀ R, ∃ bs, BI (body ++ c :: R) bs (c :: R) ∧ XI (bracketNode b o bs c) B ex
  tag : B.tag = .inr (.bracket b)

/-- The lists have tokens of the same kinds, except for `n` places, where the first has `X` and the second `X'`. -/
inductive Hole (X X' : List Token) : Nat → List Token → List Token → Prop
  | nil : Hole X X' 0 [] []
  | cons {n t t' ts ts'} : t.kind ≠ .backSlash → t'.kind = t.kind → (t.kind = .eof → n = 0) → Hole X X' n ts ts' →
      Hole X X' n (t :: ts) (t' :: ts')
  | alone {t t'} : t.kind = .backSlash → t'.kind = .backSlash → Hole X X' 0 [t] [t']
  | esc {n t t' u u' ts ts'} : t.kind = .backSlash → t'.kind = .backSlash → u'.kind = u.kind → (u.kind = .eof → n = 0) →
      Hole X X' n ts ts' → Hole X X' n (t :: u :: ts) (t' :: u' :: ts')
  | hole {n T T' R R'} : T = X ++ R → T' = X' ++ R' → Hole X X' n R R' → Hole X X' (n + 1) T T'

variable {X X' : List Token} {ex ex' : List TErr}

theorem Hole.head (hX : Filling b0 X B ex) (hX' : Filling b0 X' B' ex') {n T T'} (h : Hole X X' n T T') : SameHead T T' := by
  cases h with
  | nil => rfl
  | cons _ hk => simp [SameHead, hk]
  | alone h h' => simp [SameHead, h, h']
  | esc h h' => simp [SameHead, h, h']
  | hole h h' =>
    obtain ⟨o, body, c, rfl, h1, _⟩ := hX.parsed
    obtain ⟨o', body', c', rfl, h1', _⟩ := hX'.parsed
    subst h h'
    simp [SameHead, h1, h1']

theorem Hole.uncons (hX : Filling b0 X B ex) {n} {t : Token} {ts T'} (h : Hole X X' n (t :: ts) T') (hn : ∀ b, t.kind ≠ .bopen b)
    (hb : t.kind ≠ .backSlash) : ∃ t' ts', T' = t' :: ts' ∧ t'.kind = t.kind ∧ Hole X X' n ts ts' := by
  generalize hT : t :: ts = T at h
  cases h with
  | nil => cases hT
  | cons _ hk _ hp => cases hT; exact ⟨_, _, rfl, hk, hp⟩
  | alone h => cases hT; exact absurd h hb
  | esc h => cases hT; exact absurd h hb
  | hole h =>
    obtain ⟨o, body, c, rfl, h1, _⟩ := hX.parsed
    rw [← hT] at h
    cases h
    exact absurd h1 (hn _)

theorem Hole.unopen {n} {t : Token} {ts T'} (h : Hole X X' n (t :: ts) T')
    (hb : t.kind ≠ .backSlash) : (∃ t' ts', T' = t' :: ts' ∧ t'.kind = t.kind ∧ Hole X X' n ts ts') ∨
      ∃ m R R', n = m + 1 ∧ t :: ts = X ++ R ∧ T' = X' ++ R' ∧ Hole X X' m R R' := by
  generalize hT : t :: ts = T at h
  cases h with
  | nil => cases hT
  | cons _ hk _ hp => cases hT; exact .inl ⟨_, _, rfl, hk, hp⟩
  | alone h => cases hT; exact absurd h hb
  | esc h => cases hT; exact absurd h hb
  | hole h h' hp => exact .inr ⟨_, _, _, rfl, h, h', hp⟩

theorem Hole.unesc (hX : Filling b0 X B ex) {n} {t u : Token} {us T'} (h : Hole X X' n (t :: u :: us) T') (hb : t.kind = .backSlash) :
    ∃ t' u' us', T' = t' :: u' :: us' ∧ t'.kind = .backSlash ∧ u'.kind = u.kind ∧ (u.kind = .eof → n = 0) ∧ Hole X X' n us us' := by
  generalize hT : t :: u :: us = T at h
  cases h with
  | nil => cases hT
  | cons h _ _ _ => cases hT; exact absurd hb h
  | alone => cases hT
  | esc _ h2 h3 h0 h4 => cases hT; exact ⟨_, _, _, rfl, h2, h3, h0, h4⟩
  | hole h =>
    obtain ⟨o, body, c, rfl, h1, _⟩ := hX.parsed
    rw [← hT] at h
    have e : t = o := by
      have := congrArg List.head? h
      simpa using this
    subst e
    rw [hb] at h1; cases h1

theorem Hole.hasEof (hne : ∀ t ∈ X, t.kind ≠ .eof) {n T T'} (h : Hole X X' n T T') : HasEof T → HasEof T' := by
  induction h with
  | nil => exact id
  | cons _ hk _ _ ih =>
    rintro ⟨t, ht, he⟩
    rcases List.mem_cons.mp ht with rfl | ht
    · exact ⟨_, List.mem_cons_self, by rw [hk, he]⟩
    · exact (ih ⟨t, ht, he⟩).cons
  | alone h _ => exact fun he => absurd (he.tail (by simp [h])) not_hasEof_nil
  | esc h _ hk _ _ ih =>
    intro he
    obtain ⟨t, ht, hu⟩ := he.tail (by simp [h])
    rcases List.mem_cons.mp ht with rfl | ht
    · exact ⟨_, List.mem_cons_of_mem _ List.mem_cons_self, by rw [hk, hu]⟩
    · exact (ih ⟨t, ht, hu⟩).cons.cons
  | hole h h' _ ih =>
    rintro ⟨t, ht, he⟩
    subst h h'
    rcases List.mem_append.mp ht with ht | ht
    · exact absurd he (hne t ht)
    · obtain ⟨t', ht', he'⟩ := ih ⟨t, ht, he⟩
      exact ⟨t', List.mem_append.mpr (.inr ht'), he'⟩

theorem StopAt.hole (hX : Filling b0 X B ex) (hX' : Filling b0 X' B' ex') {n T T'} (h : StopAt T) (hp : Hole X X' n T T')
    (he : HasEof T) : StopAt T' :=
  .of_items ((hp.head hX hX').all (p := fun k => itemStop k = true) (h.items he))

theorem NoLine.hole (hX : Filling b0 X B ex) (hX' : Filling b0 X' B' ex') {n T T'} (h : NoLine T) (hp : Hole X X' n T T')
    (he : HasEof T) : NoLine T' :=
  fun _ => (hp.head hX hX').all (p := fun k => k = .newLine ∨ k = .eof ∨ k = .empty) (h he)

/-! ### parsing -/

/-- The items are simplified to trees that differ in `n` places. -/
def ItemsSw (B B' : CST) (ex ex' : List TErr) (n : Nat) (cs cs' : List CST) : Prop :=
  ∃ ds es ds' es', XL cs ds es ∧ XL cs' ds' es' ∧ SwL B B' n ds ds' ∧ EK ex ex' n es es'

/-- The same for the body of a bracket. -/
def BodiesSw (B B' : CST) (ex ex' : List TErr) (n : Nat) (cs cs' : List CST) : Prop :=
  ∃ ds es ds' es', XB cs ds es ∧ XB cs' ds' es' ∧ SwL B B' n ds ds' ∧ EK ex ex' n es es'

theorem ItemsSw.cons {n m c c' d d' es es' cs cs'} (h : XI c d es) (h' : XI c' d' es') (ht : Sw B B' n d d') (he : EK ex ex' n es es')
    (hs : ItemsSw B B' ex ex' m cs cs') : ItemsSw B B' ex ex' (n + m) (c :: cs) (c' :: cs') := by
  obtain ⟨ds, fs, ds', fs', h1, h2, h3, h4⟩ := hs
  exact ⟨_, _, _, _, .cons h h1, .cons h' h2, .cons ht h3, he.append h4⟩

theorem ItemsSw.cons0 {m c c' d d' es es' cs cs'} (h : XI c d es) (h' : XI c' d' es') (ht : Sw B B' 0 d d') (he : EK ex ex' 0 es es')
    (hs : ItemsSw B B' ex ex' m cs cs') : ItemsSw B B' ex ex' m (c :: cs) (c' :: cs') := by
  have := hs.cons h h' ht he
  rwa [Nat.zero_add] at this

theorem bracketSw_closed (hB : B.tag = .inr (.bracket b0)) (hB' : B'.tag = .inr (.bracket b0)) {n} {b : Bracket} {cs cs' : List CST}
    {l l' l1 l1' l2 l2'} (h : BodiesSw B B' ex ex' n cs cs') :
    ∃ d es d' es', XI (.node (.bracket b) (.leaf (.bopen b) l1 :: cs ++ [.leaf (.bclose b) l2]) l) d es ∧
      XI (.node (.bracket b) (.leaf (.bopen b) l1' :: cs' ++ [.leaf (.bclose b) l2']) l') d' es' ∧ Sw B B' n d d' ∧
      EK ex ex' n es es' := by
  obtain ⟨ds, es, ds', es', h1, h2, h3, h4⟩ := h
  have h5 : SwL B B' n (.leaf (.bopen b) l1 :: ds ++ [.leaf (.bclose b) l2]) (.leaf (.bopen b) l1' :: ds' ++ [.leaf (.bclose b) l2']) := by
    have := SwL.cons (Sw.leaf (B := B) (B' := B') (k := .bopen b) (l := l1) (l' := l1'))
      (h3.append (.one (Sw.leaf (k := .bclose b) (l := l2) (l' := l2'))))
    simpa using this
  obtain ⟨h6, h7⟩ := h5.bracket hB hB' (ClosesLast.simple h1.simple).1
  exact ⟨_, _, _, _, .closed h1, .closed h2, .node h6, h4.append (m := 0) (.of_kinds h7)⟩

theorem bracketSw_unclosed (hB : B.tag = .inr (.bracket b0)) (hB' : B'.tag = .inr (.bracket b0)) {n} {b : Bracket} {cs cs' : List CST}
    {l l' l1 l1'} (h : BodiesSw B B' ex ex' n cs cs') :
    ∃ d es d' es', XI (.node (.bracket b) (.leaf (.bopen b) l1 :: cs) l) d es ∧
      XI (.node (.bracket b) (.leaf (.bopen b) l1' :: cs') l') d' es' ∧ Sw B B' n d d' ∧ EK ex ex' n es es' := by
  obtain ⟨ds, es, ds', es', h1, h2, h3, h4⟩ := h
  have h5 : SwL B B' n (.leaf (.bopen b) l1 :: ds) (.leaf (.bopen b) l1' :: ds') := by
    have := SwL.cons (Sw.leaf (B := B) (B' := B') (k := .bopen b) (l := l1) (l' := l1')) h3
    simpa using this
  obtain ⟨h6, h7⟩ := h5.bracket hB hB' (ClosesLast.simple (b := b) (l := l1) h1.simple).2
  refine ⟨_, _, _, _, .unclosed h1, .unclosed h2, .node h6, ?_⟩
  have h8 : EK ex ex' 0 [notClosedErr b l1 ds] [notClosedErr b l1' ds'] := .of_kinds rfl
  exact (h4.append h8).append (m := 0) (.of_kinds h7)

mutual

theorem EI.hole (hX : Filling b0 X B ex) (hX' : Filling b0 X' B' ex') : ∀ {T cs r}, EI T cs r → ∀ {n T'}, Hole X X' n T T' → HasEof T →
    ∃ n1 n2 cs' r', n1 + n2 = n ∧ EI T' cs' r' ∧ Hole X X' n2 r r' ∧ ItemsSw B B' ex ex' n1 cs cs'
  | _, _, _, .stop hs, n, T', hp, he =>
    ⟨0, n, [], T', by simp, .stop (hs.hole hX hX' hp he), hp, [], [], [], [], .nil, .nil, .nil, .nil⟩
  | _, _, _, .leaf (t := t) hk h, n, T', hp, he => by
    obtain ⟨t', ts', hT, hk', hp⟩ := hp.uncons hX (by rintro b e; rw [e] at hk; cases hk) (by rintro e; rw [e] at hk; cases hk)
    obtain ⟨n1, n2, cs', r', h0, h1, h2, h3⟩ := h.hole hX hX' hp (he.tail (exprLeaf_ne_eof hk))
    have := (exprLeaf_tok hk).2
    subst hT
    exact ⟨n1, n2, _, _, h0, .leaf (by rw [hk']; exact hk) h1, h2, .cons0 (.leaf this) (.leaf this) .leaf .nil h3⟩
  | _, _, _, .esc (t := t) (u := u) ht hu h, n, T', hp, he => by
    obtain ⟨t', u', us', hT, ht', hk, _, hp⟩ := hp.unesc hX ht
    obtain ⟨n1, n2, cs', r', h0, h1, h2, h3⟩ := h.hole hX hX' hp ((he.tail (by simp [ht])).tail (escapable_ne_eof hu))
    obtain ⟨c, hv, hm, _⟩ := escapable_tok hu
    subst hv
    subst hT
    exact ⟨n1, n2, _, _, h0, .esc ht' (by rw [hk]; exact hu) h1, h2, .cons0 (.escaped hm) (.escaped hm) .leaf .nil h3⟩
  | _, _, _, .escN (t := t) (u := u) ht hu h, n, T', hp, he => by
    obtain ⟨t', u', us', hT, ht', hk, h00, hp⟩ := hp.unesc hX ht
    obtain ⟨n1, n2, cs', r', h0, h1, h2, h3⟩ := h.hole hX hX' (.cons (escapable_backSlash hu) hk h00 hp) (he.tail (by simp [ht]))
    subst hT
    exact ⟨n1, n2, _, _, h0, .escN ht' (by rw [hk]; exact hu) h1, h2, .cons0 .stray .stray .leaf (.of_kinds rfl) h3⟩
  | _, _, _, .bclosed (t := t) (ts := ts) (b := b) (u := u) (us := us) ht hb hu h, n, T', hp, he => by
    have he1 := he.tail (by simp [ht])
    rcases hp.unopen (by simp [ht]) with ⟨t', ts', hT, hk, hp⟩ | ⟨m, R, R', hn, hT, hT', hp2⟩
    · obtain ⟨n1, n2, cs', r', h0, h1, h2, h5⟩ := hb.hole hX hX' hp he1
      obtain ⟨u', us', hr, hk2, hp2⟩ := h2.uncons hX (by simp [hu]) (by simp [hu])
      subst hr
      obtain ⟨n3, n4, ds2, r2, k0, k1, k2, k3⟩ := h.hole hX hX' hp2 ((hb.suffix.1.mp he1).tail (by simp [hu]))
      have hu' : u'.kind = .bclose b := by rw [hk2, hu]
      subst hT
      refine ⟨n1 + n3, n4, _, _, by omega, .bclosed (by rw [hk, ht]) h1 hu' k1, k2, ?_⟩
      rw [bracketNode_closed hu, bracketNode_closed hu']
      obtain ⟨d, es, d', es', q1, q2, q3, q4⟩ := bracketSw_closed hX.tag hX'.tag h5
      exact .cons q1 q2 q3 q4 k3
    · have hrec := fun (n : Nat) (T' : List Token) (hp : Hole X X' n us T') (he : HasEof us) => h.hole hX hX' hp he
      obtain ⟨o, body, c, rfl, x1, x2, x3⟩ := hX.parsed
      obtain ⟨o', body', c', rfl, y1, y2, y3⟩ := hX'.parsed
      have e1 : t = o ∧ ts = body ++ c :: R := by simpa using hT
      obtain ⟨rfl, rfl⟩ := e1
      obtain ⟨bs, x3, x4⟩ := x3 R
      obtain ⟨bs', y3, y4⟩ := y3 R'
      rw [ht] at x1
      cases x1
      obtain ⟨rfl, e2⟩ := hb.det x3 he1
      cases e2
      obtain ⟨n3, n4, ds2, r2, k0, k1, k2, k3⟩ := hrec _ _ hp2 ((hb.suffix.1.mp he1).tail (by simp [hu]))
      subst hT'
      refine ⟨1 + n3, n4, bracketNode b0 o' bs' c' :: ds2, r2, by omega, ?_, k2, ?_⟩
      · simpa using EI.bclosed y1 y3 y2 k1
      · exact .cons x4 y4 .here (by simpa using EK.here (ex := ex) (ex' := ex') .nil) k3
  | _, _, _, .bunclosed (t := t) (ts := ts) (b := b) (u := u) ht hb hu h, n, T', hp, he => by
    have he1 := he.tail (by simp [ht])
    rcases hp.unopen (by simp [ht]) with ⟨t', ts', hT, hk, hp⟩ | ⟨m, R, R', hn, hT, hT', hp⟩
    · obtain ⟨n1, n2, cs', r', h0, h1, h2, h5⟩ := hb.hole hX hX' hp he1
      obtain ⟨n3, n4, ds2, r2, k0, k1, k2, k3⟩ := h.hole hX hX' h2 (hb.suffix.1.mp he1)
      have hh := h2.head hX hX'
      rcases r' with _ | ⟨u', us'⟩
      · simp [SameHead] at hh
      · simp only [SameHead, List.head?_cons, Option.map_some, Option.some.injEq] at hh
        have hu' : u'.kind ≠ .bclose b := by rw [hh]; exact hu
        subst hT
        refine ⟨n1 + n3, n4, _, _, by omega, .bunclosed (by rw [hk, ht]) h1 hu' k1, k2, ?_⟩
        rw [bracketNode_unclosed hu, bracketNode_unclosed hu']
        obtain ⟨d, es, d', es', q1, q2, q3, q4⟩ := bracketSw_unclosed hX.tag hX'.tag h5
        exact .cons q1 q2 q3 q4 k3
    · exfalso
      obtain ⟨o, body, c, rfl, x1, x2, x3⟩ := hX.parsed
      have e1 : t = o ∧ ts = body ++ c :: R := by simpa using hT
      obtain ⟨rfl, rfl⟩ := e1
      obtain ⟨bs, x3, x4⟩ := x3 R
      rw [ht] at x1
      cases x1
      obtain ⟨rfl, e2⟩ := hb.det x3 he1
      cases e2
      exact hu x2

theorem BI.hole (hX : Filling b0 X B ex) (hX' : Filling b0 X' B' ex') : ∀ {T cs r}, BI T cs r → ∀ {n T'}, Hole X X' n T T' → HasEof T →
    ∃ n1 n2 cs' r', n1 + n2 = n ∧ BI T' cs' r' ∧ Hole X X' n2 r r' ∧ BodiesSw B B' ex ex' n1 cs cs'
  | _, _, _, .stop hs hn, n, T', hp, he =>
    ⟨0, n, [], T', by simp, .stop (hs.hole hX hX' hp he) ((hp.head hX hX').all (p := (· ≠ .newLine)) hn), hp,
      [], [], [], [], .nil, .nil, .nil, .nil⟩
  | _, _, _, .expr h hb, n, T', hp, he => by
    obtain ⟨n1, n2, cs', r', h0, h1, h2, ds, es, ds', es', h3, h4, h5, h6⟩ := h.hole hX hX' hp he
    obtain ⟨n3, n4, bs', r2, k0, k1, k2, ds2, es2, ds2', es2', k3, k4, k5, k6⟩ := hb.hole hX hX' h2 (h.suffix.1.mp he)
    cases h3 with
    | cons h3 h3' =>
      cases h5 with
      | cons h5 h5' =>
        cases h4 with
        | cons h4 h4' =>
          exact ⟨_, n4, _, _, by rw [← h0, ← k0, Nat.add_assoc], .expr h1 k1, k2, _, _, _, _, .expr (by simp) (.cons h3 h3') k3,
            .expr (by simp) (.cons h4 h4') k4, (SwL.cons h5 h5').append k5, h6.append k6⟩
  | _, _, _, .newline (t := t) ht hb, n, T', hp, he => by
    obtain ⟨t', ts', hT, hk, hp⟩ := hp.uncons hX (by simp [ht]) (by simp [ht])
    obtain ⟨n3, n4, bs', r2, k0, k1, k2, ds2, es2, ds2', es2', k3, k4, k5, k6⟩ := hb.hole hX hX' hp (he.tail (by simp [ht]))
    subst hT
    refine ⟨n3, n4, _, _, k0, .newline (by rw [hk, ht]) k1, k2, _, _, _, _, .newline k3, .newline k4, ?_, k6⟩
    have := SwL.cons (Sw.leaf (B := B) (B' := B') (k := .newline) (l := t.loc) (l' := t'.loc)) k5
    rwa [Nat.zero_add] at this

end

/-! ### lines and documents -/

/-- The lines are simplified to trees that differ in `n` places. -/
def LinesSw (B B' : CST) (ex ex' : List TErr) (n : Nat) (cs cs' : List CST) : Prop :=
  ∃ ds es ds' es', XLines cs ds es ∧ XLines cs' ds' es' ∧ SwL B B' n ds ds' ∧ EK ex ex' n es es'

/-- The same for a child of the document. -/
def ChildSw (B B' : CST) (ex ex' : List TErr) (n : Nat) (c c' : CST) : Prop :=
  ∃ ds es ds' es', XChild c ds es ∧ XChild c' ds' es' ∧ SwL B B' n ds ds' ∧ EK ex ex' n es es'

/-- The same for the children of a document. -/
def DocsSw (B B' : CST) (ex ex' : List TErr) (n : Nat) (cs cs' : List CST) : Prop :=
  ∃ ds es ds' es', XDoc cs ds es ∧ XDoc cs' ds' es' ∧ SwL B B' n ds ds' ∧ EK ex ex' n es es'

theorem DocsSw.append {n m cs cs' ds ds'} (h : DocsSw B B' ex ex' n cs cs') (h' : DocsSw B B' ex ex' m ds ds') :
    DocsSw B B' ex ex' (n + m) (cs ++ ds) (cs' ++ ds') := by
  obtain ⟨_, _, _, _, h1, h2, h3, h4⟩ := h
  obtain ⟨_, _, _, _, k1, k2, k3, k4⟩ := h'
  exact ⟨_, _, _, _, h1.append k1, h2.append k2, h3.append k3, h4.append k4⟩

theorem DocsSw.nil : DocsSw B B' ex ex' 0 [] [] := ⟨_, _, _, _, .nil, .nil, .nil, .nil⟩

theorem DocsSw.one {n c c'} (h : ChildSw B B' ex ex' n c c') : DocsSw B B' ex ex' n [c] [c'] := by
  obtain ⟨_, _, _, _, h1, h2, h3, h4⟩ := h
  exact ⟨_, _, _, _, .cons h1 .nil, .cons h2 .nil, h3.append (m := 0) .nil, h4.append (m := 0) .nil⟩

theorem DocsSw.newlines {cs cs'} (h : GNewlines cs) (h' : GNewlines cs') : DocsSw B B' ex ex' 0 cs cs' :=
  ⟨_, _, _, _, h.xdoc, h'.xdoc, .nil, .nil⟩

theorem LI.hole (hX : Filling b0 X B ex) (hX' : Filling b0 X' B' ex') {T c r} (h : LI T c r) {n T'} (hp : Hole X X' n T T')
    (he : HasEof T) : ∃ n1 n2 c' r', n1 + n2 = n ∧ LI T' c' r' ∧ Hole X X' n2 r r' ∧
      ∀ {m cs cs'}, LinesSw B B' ex ex' m cs cs' → LinesSw B B' ex ex' (n1 + m) (c :: cs) (c' :: cs') := by
  cases h with
  | expr h =>
    obtain ⟨n1, n2, cs', r', h0, h1, h2, ds, es, ds', es', h3, h4, h5, h6⟩ := h.hole hX hX' hp he
    cases h3 with
    | cons h3 h3' =>
      cases h5 with
      | cons h5 h5' =>
        cases h4 with
        | cons h4 h4' =>
          refine ⟨_, _, _, _, h0, .expr h1, h2, ?_⟩
          rintro m cs cs' ⟨ds, es, ds', es', k1, k2, k3, k4⟩
          exact ⟨_, _, _, _, .cons (.expr (by simp) (.cons h3 h3')) k1, .cons (.expr (by simp) (.cons h4 h4')) k2,
            .cons (.node (.cons h5 h5')) k3, h6.append k4⟩
  | close ht =>
    obtain ⟨t', ts', rfl, hk, hp⟩ := hp.uncons hX (by simp [ht]) (by simp [ht])
    refine ⟨0, n, _, _, by simp, .close (by rw [hk, ht]), hp, ?_⟩
    rintro m cs cs' ⟨ds, es, ds', es', k1, k2, k3, k4⟩
    rw [Nat.zero_add]
    exact ⟨_, _, _, _, .cons .close k1, .cons .close k2, k3, k4⟩

theorem SI.hole (hX : Filling b0 X B ex) (hX' : Filling b0 X' B' ex') : ∀ {T cs r}, SI T cs r → ∀ {n T'}, Hole X X' n T T' → HasEof T →
    ∃ n1 n2 cs' r', n1 + n2 = n ∧ SI T' cs' r' ∧ Hole X X' n2 r r' ∧ LinesSw B B' ex ex' n1 cs cs'
  | T, _, _, .stop hs, n, T', hp, he => by
    refine ⟨0, n, [], T', by simp, .stop ?_, hp, [], [], [], [], .nil, .nil, .nil, .nil⟩
    intro t' ts1 h1 h2
    have hh := hp.head hX hX'
    rcases T with _ | ⟨t, ts⟩
    · rw [h1] at hh; simp [SameHead] at hh
    · rw [h1] at hh
      simp only [SameHead, List.head?_cons, Option.map_some, Option.some.injEq] at hh
      have ht : t.kind = .newLine := by rw [← hh, h2]
      obtain ⟨t2, ts2, e, _, hp⟩ := hp.uncons hX (by simp [ht]) (by simp [ht])
      rw [h1] at e
      cases e
      exact (hs _ _ rfl ht).hole hX hX' hp (he.tail (by simp [ht]))
  | _, _, _, .more ht hl h, n, T', hp, he => by
    have he1 := he.tail (by simp [ht])
    obtain ⟨t', ts', rfl, hk, hp⟩ := hp.uncons hX (by simp [ht]) (by simp [ht])
    obtain ⟨n1, n2, c', r1, h0, h1, h2, h3⟩ := hl.hole hX hX' hp he1
    obtain ⟨n3, n4, cs', r2, h00, h4, h5, h6⟩ := h.hole hX hX' h2 (hl.hasEof.mp he1)
    obtain ⟨ds, es, ds', es', k1, k2, k3, k4⟩ := h3 h6
    exact ⟨n1 + n3, n4, _, _, by omega, .more (by rw [hk, ht]) h1 h4, h5, _, _, _, _, .cons .newline k1, .cons .newline k2, k3, k4⟩

theorem TI.hole (hX : Filling b0 X B ex) (hX' : Filling b0 X' B' ex') {T c r} (h : TI T c r) {n T'} (hp : Hole X X' n T T')
    (he : HasEof T) : ∃ n1 n2 c' r', n1 + n2 = n ∧ TI T' c' r' ∧ Hole X X' n2 r r' ∧ ChildSw B B' ex ex' n1 c c' := by
  cases h with
  | @mk c r cs r' hl hs =>
    obtain ⟨n1, n2, c', r1, h0, h1, h2, h3⟩ := hl.hole hX hX' hp he
    obtain ⟨n3, n4, cs', r2, h00, h4, h5, h6⟩ := hs.hole hX hX' h2 (hl.hasEof.mp he)
    refine ⟨n1 + n3, n4, _, _, by omega, .mk h1 h4, h5, ?_⟩
    obtain ⟨ds, es, ds', es', k1, k2, k3, k4⟩ := h3 h6
    obtain ⟨l, e1⟩ := foldl_add_new .stmt (c :: cs)
    obtain ⟨l', e2⟩ := foldl_add_new .stmt (c' :: cs')
    rw [e1, e2]
    exact ⟨_, _, _, _, .stmt k1, .stmt k2, .one (.node k3), k4⟩

theorem NI.hole (hX : Filling b0 X B ex) (hX' : Filling b0 X' B' ex') : ∀ {T ns r}, NI T ns r → ∀ {n T'}, Hole X X' n T T' →
    ∃ ns' r', NI T' ns' r' ∧ Hole X X' n r r'
  | _, _, _, .stop hn, n, T', hp => ⟨[], T', .stop ((hp.head hX hX').all (p := (· ≠ .newLine)) hn), hp⟩
  | _, _, _, .more ht h, n, T', hp => by
    obtain ⟨t', ts', hT, hk, hp⟩ := hp.uncons hX (by simp [ht]) (by simp [ht])
    obtain ⟨ns', r', h1, h2⟩ := h.hole hX hX' hp
    subst hT
    exact ⟨_, r', .more (by rw [hk, ht]) h1, h2⟩

theorem DI.hole (hX : Filling b0 X B ex) (hX' : Filling b0 X' B' ex') : ∀ {T cs r}, DI T cs r → ∀ {n T'}, Hole X X' n T T' → HasEof T →
    ∃ n1 n2 cs' r', n1 + n2 = n ∧ DI T' cs' r' ∧ Hole X X' n2 r r' ∧ DocsSw B B' ex ex' n1 cs cs'
  | T, _, _, .noStmt hn, n, T', hp, he => ⟨0, n, _, _, by simp, .noStmt (hn.hole hX hX' hp he), hp, .nil⟩
  | T, _, _, .lastStmt hs hr, n, T', hp, he => by
    obtain ⟨n1, n2, c', r', _, h1, h2, h3⟩ := hs.hole hX hX' hp he
    exact ⟨0, n, _, _, by simp, .lastStmt h1 ((h2.head hX hX').all (p := (· ≠ .newLine)) hr), hp, .nil⟩
  | T, _, _, .more (s := s) (t := t) (r := r) (ns := ms) (r1 := r1) hs ht hm h, n, T', hp, he => by
    have he1 := hs.hasEof.mp he
    have he2 := he1.tail (by simp [ht])
    obtain ⟨n1, n2, s', r', h0, h1, h2, h3⟩ := hs.hole hX hX' hp he
    obtain ⟨t', ts', hr, hk, h2⟩ := h2.uncons hX (by simp [ht]) (by simp [ht])
    obtain ⟨ms', r1', k1, k2⟩ := hm.hole hX hX' h2
    obtain ⟨n3, n4, cs', r'', k0, k3, k4, k5⟩ := h.hole hX hX' k2 (hm.hasEof.mp he2)
    subst hr
    refine ⟨n1 + n3, n4, _, _, by omega, .more h1 (by rw [hk, ht]) k1 k3, k4, ?_⟩
    have hg : GNewlines (.leaf .newline t.loc :: ms) := by
      intro c hc
      rcases List.mem_cons.mp hc with rfl | hc
      · exact ⟨_, rfl⟩
      · exact hm.grammar c hc
    have hg' : GNewlines (.leaf .newline t'.loc :: ms') := by
      intro c hc
      rcases List.mem_cons.mp hc with rfl | hc
      · exact ⟨_, rfl⟩
      · exact k1.grammar c hc
    simpa using (DocsSw.one h3).append ((DocsSw.newlines hg hg').append k5)

theorem OI.hole (hX : Filling b0 X B ex) (hX' : Filling b0 X' B' ex') {T cs r} (h : OI T cs r) {n T'} (hp : Hole X X' n T T')
    (he : HasEof T) : ∃ n1 n2 cs' r', n1 + n2 = n ∧ OI T' cs' r' ∧ Hole X X' n2 r r' ∧ DocsSw B B' ex ex' n1 cs cs' := by
  cases h with
  | none h => exact ⟨0, n, _, _, by simp, .none (h.hole hX hX' hp he), hp, .nil⟩
  | some h =>
    obtain ⟨n1, n2, c', r', h0, h1, h2, h3⟩ := h.hole hX hX' hp he
    exact ⟨n1, n2, _, _, h0, .some h1, h2, .one h3⟩

theorem Hole.eof (hX : Filling b0 X B ex) {n} {t : Token} {ts T'} (h : Hole X X' n (t :: ts) T') (ht : t.kind = .eof) : n = 0 := by
  generalize hT : t :: ts = T at h
  cases h with
  | nil => cases hT
  | cons _ _ h0 _ => cases hT; exact h0 ht
  | alone => rfl
  | esc h => cases hT; rw [ht] at h; cases h
  | hole h =>
    obtain ⟨o, body, c, rfl, h1, _⟩ := hX.parsed
    rw [← hT] at h
    have e : t = o := by
      have := congrArg List.head? h
      simpa using this
    subst e
    rw [ht] at h1; cases h1

/-- Parsing lists that differ in `n` closed brackets. -/
theorem parse_swap (hX : Filling b0 X B ex) (hX' : Filling b0 X' B' ex') {n T T'} (hp : Hole X X' n T T') (he : HasEof T)
    (he' : HasEof T') : (∃ m m', parse T = .err m ∧ parse T' = .err m') ∨
    ∃ cs l cs' l' ds es ds' es', parse T = .ok (.node .document cs l) ∧ parse T' = .ok (.node .document cs' l') ∧
      XDoc cs ds es ∧ XDoc cs' ds' es' ∧ SwL B B' n ds ds' ∧ EK ex ex' n es es' := by
  have key : ∀ {cs r cs2 r2 ns r3}, DI T cs r → OI r cs2 r2 → NI r2 ns r3 → ∃ n1 n2 cs' r' cs2' r2' ns' r3', n1 + n2 = n ∧ DI T' cs' r' ∧
      OI r' cs2' r2' ∧ NI r2' ns' r3' ∧ Hole X X' n2 r3 r3' ∧ DocsSw B B' ex ex' n1 (cs ++ cs2 ++ ns) (cs' ++ cs2' ++ ns') := by
    intro cs r cs2 r2 ns r3 hD hO hN
    obtain ⟨n1, n2, cs', r', h0, h1, h2, h3⟩ := hD.hole hX hX' hp he
    have he1 := hD.hasEof.mp he
    obtain ⟨n3, n4, cs2', r2', k0, h4, h5, h6⟩ := hO.hole hX hX' h2 he1
    obtain ⟨ns', r3', h7, h8⟩ := hN.hole hX hX' h5
    exact ⟨n1 + n3, n4, _, _, _, _, _, _, by omega, h1, h4, h7, h8, (h3.append h6).append (m := 0) (.newlines hN.grammar h7.grammar)⟩
  rcases parse_spec (.inl he) with ⟨c, rest, h1, h2⟩ | ⟨m, cs, r, cs2, r2, ns, r3, h1, hD, hO, hN, hne⟩
  · right
    cases h2 with
    | @mk cs r cs2 r2 ns t rest hD hO hN ht =>
      obtain ⟨n1, n2, cs', r', cs2', r2', ns', r3', k0, k1, k2, k3, k5, k6⟩ := key hD hO hN
      have h0 := k5.eof hX ht
      subst h0
      have k5 := k5.head hX hX'
      rcases r3' with _ | ⟨t', rest'⟩
      · simp [SameHead] at k5
      simp only [SameHead, List.head?_cons, Option.map_some, Option.some.injEq] at k5
      have h3 := (PI.mk k1 k2 k3 (by rw [k5, ht])).parse
      obtain ⟨l, e1⟩ := foldl_add_new .document (cs ++ cs2 ++ ns ++ [CST.leaf .eof t.loc])
      obtain ⟨l', e2⟩ := foldl_add_new .document (cs' ++ cs2' ++ ns' ++ [CST.leaf .eof t'.loc])
      rw [e1] at h1
      rw [e2] at h3
      have h4 := k6.append (m := 0)
        (.one (c := .leaf .eof t.loc) (c' := .leaf .eof t'.loc) ⟨_, _, _, _, .eof, .eof, .nil, .nil⟩)
      have e3 : n1 + 0 = n := k0
      rw [e3] at h4
      obtain ⟨ds, es, ds', es', q1, q2, q3, q4⟩ := h4
      exact ⟨_, l, _, l', ds, es, ds', es', h1, h3, q1, q2, q3, q4⟩
  · left
    obtain ⟨n1, n2, cs', r', cs2', r2', ns', r3', k0, k1, k2, k3, k5, k6⟩ := key hD hO hN
    have hne' := (k5.head hX hX').all (p := (· ≠ .eof)) hne
    rcases parse_spec (.inl he') with ⟨c, rest, h3, h4⟩ | ⟨m', _, _, _, _, _, _, h3, _⟩
    · exfalso
      cases h4 with
      | mk hD2 hO2 hN2 ht2 =>
        obtain ⟨rfl, rfl⟩ := k1.det hD2 he'
        obtain ⟨rfl, rfl⟩ := k2.det hO2 (k1.hasEof.mp he')
        obtain ⟨rfl, rfl⟩ := k3.det hN2
        exact hne' _ rfl ht2
    · exact ⟨m, m', h1, h3⟩

end

end Brack
