import Verif.Proof.TransFew

/-
Helper lemmas: how many errors start at a position.
-/

namespace Brack

/-- How many errors start there. -/
def errsAt (p : Pos) (es : List TErr) : Nat := es.countP (fun e => e.loc.start = p)

theorem errsAt_append (p es fs) : errsAt p (es ++ fs) = errsAt p es + errsAt p fs := List.countP_append

theorem errsAt_cons (p e es) : errsAt p (e :: es) = errsAt p es + if e.loc.start = p then 1 else 0 := by
  simp [errsAt, List.countP_cons]

theorem errsAt_zero {p es} (h : ∀ e ∈ es, e.loc.start ≠ p) : errsAt p es = 0 := by
  rw [errsAt, List.countP_eq_zero]
  simpa using h

theorem argLoop_at (p : Pos) : ∀ (cs : List CST) (prev expr : CST) (comma : Bool), Distinct (prev :: cs) →
    errsAt p (argLoop prev expr comma cs).2 ≤ 2 ∧
    (prev.loc.start = p → errsAt p (argLoop prev expr comma cs).2 ≤ if comma then 1 else 0) ∧
    ((∀ c ∈ prev :: cs, c.loc.start ≠ p) → errsAt p (argLoop prev expr comma cs).2 = 0)
  | [], _, _, _, _ => by simp [argLoop, errsAt]
  | c :: cs, prev, expr, comma, hd => by
    have hd' := (List.pairwise_cons.mp hd).2
    have hp : prev.loc.start = p → ∀ d ∈ c :: cs, d.loc.start ≠ p := fun e d hdm e' =>
      (List.pairwise_cons.mp hd).1 d hdm (by rw [e, e'])
    have go : ∀ e q, errsAt p (argLoop c e q cs).2 ≤ 2 ∧
        (prev.loc.start = p → errsAt p (argLoop c e q cs).2 ≤ if comma then 1 else 0) ∧
        ((∀ d ∈ prev :: c :: cs, d.loc.start ≠ p) → errsAt p (argLoop c e q cs).2 = 0) := fun e q => by
      obtain ⟨h1, h2, h3⟩ := argLoop_at p cs c e q hd'
      refine ⟨h1, fun h => ?_, fun h => h3 fun d hdm => h d (List.mem_cons_of_mem _ hdm)⟩
      rw [h3 (hp h)]
      exact Nat.zero_le _
    have more : ∀ e k, errsAt p ((⟨k, c.loc⟩ : TErr) :: (argLoop c e comma cs).2) ≤ 2 ∧
        (prev.loc.start = p → errsAt p ((⟨k, c.loc⟩ : TErr) :: (argLoop c e comma cs).2) ≤ if comma then 1 else 0) ∧
        ((∀ d ∈ prev :: c :: cs, d.loc.start ≠ p) → errsAt p ((⟨k, c.loc⟩ : TErr) :: (argLoop c e comma cs).2) = 0) := by
      intro e k
      obtain ⟨h1, h2, h3⟩ := argLoop_at p cs c e comma hd'
      rw [errsAt_cons]
      refine ⟨?_, fun h => ?_, fun h => ?_⟩
      · by_cases he : c.loc.start = p
        · have := h2 he
          rw [if_pos he]
          have : (if comma = true then 1 else 0) ≤ 1 := by split <;> omega
          omega
        · rw [if_neg he]
          omega
      · rw [h3 (hp h), if_neg (hp h c (by simp))]
        exact Nat.zero_le _
      · rw [h3 fun d hdm => h d (List.mem_cons_of_mem _ hdm), if_neg (h c (by simp))]
    rcases c with ⟨k, l0⟩ | ⟨k, ks, l0⟩
    · cases k <;> try exact go _ _
      case dot => exact more expr .unexpectedDot
      case comma =>
        simp only [argLoop]
        split
        · exact more expr .unexpectedComma
        · exact go _ _
      case bclose =>
        simp only [argLoop]
        split
        · simp [errsAt]
        · split
          · rename_i hc
            simp only [errsAt_cons, hc, if_true]
            refine ⟨?_, fun _ => ?_, fun h => ?_⟩
            · simp only [errsAt, List.countP_nil]; split <;> omega
            · simp only [errsAt, List.countP_nil]; split <;> omega
            · rw [if_neg (h prev (by simp))]; rfl
          · simp [errsAt]
    · exact go _ _

theorem filter_drop_sublist {α} (q : α → Bool) : ∀ (n : Nat) (l : List α), ((l.filter q).drop n).Sublist (l.drop n)
  | 0, l => List.filter_sublist
  | _ + 1, [] => by simp
  | n + 1, a :: l => by
    rw [List.filter_cons]
    split
    · exact filter_drop_sublist q n l
    · refine List.Sublist.trans ?_ (filter_drop_sublist q n l)
      rw [← List.tail_drop]
      exact List.tail_sublist _

theorem Distinct.index {cs : List CST} (h : Distinct cs) {i j : Nat} {c d : CST} (hi : cs[i]? = some c) (hj : cs[j]? = some d)
    (e : c.loc.start = d.loc.start) : i = j := by
  obtain ⟨hi1, rfl⟩ := List.getElem?_eq_some_iff.mp hi
  obtain ⟨hj1, rfl⟩ := List.getElem?_eq_some_iff.mp hj
  have := List.pairwise_iff_getElem.mp h
  rcases Nat.lt_trichotomy i j with hl | hl | hl
  · exact absurd e (this i j hi1 hj1 hl)
  · exact hl
  · exact absurd e.symm (this j i hj1 hi1 hl)

theorem checkAt_at (p : Pos) (i : Nat) (good kind) (csts : List CST) :
    errsAt p (checkAt i good kind csts) ≤ 1 ∧
    (errsAt p (checkAt i good kind csts) ≠ 0 → ∃ c, csts[i]? = some c ∧ c.loc.start = p) := by
  unfold checkAt
  rcases csts[i]? with _ | c
  · simp [errsAt]
  · simp only []
    split
    · simp [errsAt]
    · rw [errsAt_cons]
      by_cases h : c.loc.start = p
      · simp [h, errsAt]
      · simp [h, errsAt]

/-- The errors about the contents of a bracket at one of its elements. -/
theorem bracketErrs_at {csts : List CST} (hd : Distinct csts) {x : CST} (hx : x ∈ csts) :
    errsAt x.loc.start (bracketErrs csts) ≤ if x.isDot then 3 else 2 := by
  have hdots : errsAt x.loc.start (checkUnexpectedDot csts) ≤ if x.isDot then 1 else 0 := by
    have hsub : (csts.drop 3).filter CST.isDot |>.Sublist csts := List.filter_sublist.trans (List.drop_sublist 3 csts)
    have hd' := hd.sublist hsub
    by_cases hm : x ∈ (csts.drop 3).filter CST.isDot
    · rw [if_pos (List.mem_filter.mp hm).2, checkUnexpectedDot, errsAt, List.countP_map]
      generalize (csts.drop 3).filter CST.isDot = ds at hd' hm
      clear hsub hx hd
      induction ds with
      | nil => simp
      | cons d ds ih =>
        obtain ⟨h1, h2⟩ := List.pairwise_cons.mp hd'
        rw [List.countP_cons]
        rcases List.mem_cons.mp hm with rfl | hm
        · rw [List.countP_eq_zero.mpr (fun a ha => by simpa using (h1 a ha).symm)]
          simp
        · have := ih h2 hm
          have hne := h1 x hm
          simp only [Function.comp_apply, decide_eq_true_eq, hne, if_false]
          exact this
    · rw [errsAt_zero]
      · exact Nat.zero_le _
      · intro e he hs
        simp only [checkUnexpectedDot, List.mem_map] at he
        obtain ⟨d, hdm, rfl⟩ := he
        obtain ⟨i, hi⟩ := List.getElem?_of_mem (hsub.subset hdm)
        obtain ⟨j, hj⟩ := List.getElem?_of_mem hx
        have := hd.index hi hj hs
        subst this
        rw [hi] at hj
        injection hj with hj
        exact hm (hj ▸ hdm)
  obtain ⟨j, hj⟩ := List.getElem?_of_mem hx
  have h1 := checkAt_at x.loc.start 1 CST.isModuleOrAngle .moduleNotFound csts
  have h2 := checkAt_at x.loc.start 2 CST.isDot .dotNotFound csts
  have h3 := checkAt_at x.loc.start 3 CST.isIdentOrAngle .identifierNotFound csts
  have i1 : errsAt x.loc.start (checkModule csts) ≠ 0 → j = 1 := fun h => by
    obtain ⟨c, hc, e⟩ := h1.2 h
    exact (hd.index hc hj e).symm
  have i2 : errsAt x.loc.start (checkDot csts) ≠ 0 → j = 2 := fun h => by
    obtain ⟨c, hc, e⟩ := h2.2 h
    exact (hd.index hc hj e).symm
  have i3 : errsAt x.loc.start (checkIdent csts) ≠ 0 → j = 3 := fun h => by
    obtain ⟨c, hc, e⟩ := h3.2 h
    exact (hd.index hc hj e).symm
  have hargs : errsAt x.loc.start (checkValidArguments (removeBlanks csts)).2 ≤ 2 ∧
      (errsAt x.loc.start (checkValidArguments (removeBlanks csts)).2 ≠ 0 → 4 ≤ j) := by
    have hr : Distinct (removeBlanks csts) := hd.sublist List.filter_sublist
    have hdrop : ∀ c ∈ (removeBlanks csts).drop 4, ∃ i, 4 ≤ i ∧ csts[i]? = some c := by
      intro c hc
      have : (removeBlanks csts).drop 4 |>.Sublist (csts.drop 4) := by
        rw [removeBlanks]
        exact filter_drop_sublist _ _ _
      obtain ⟨i, hi⟩ := List.getElem?_of_mem (this.subset hc)
      rw [List.getElem?_drop] at hi
      exact ⟨4 + i, by omega, hi⟩
    unfold checkValidArguments
    generalize removeBlanks csts = as at hr hdrop
    rcases as with _ | ⟨c0, _ | ⟨c1, _ | ⟨c2, _ | ⟨c3, rest⟩⟩⟩⟩
    · simp [errsAt]
    · simp [errsAt]
    · simp [errsAt]
    · simp [errsAt]
    · have hr3 : Distinct (c3 :: rest) := hr.sublist (List.sublist_append_right [c0, c1, c2] _)
      obtain ⟨k1, k2, k3⟩ := argLoop_at x.loc.start rest c3 (CST.new .expr) false hr3
      refine ⟨k1, fun hne => ?_⟩
      by_cases hc3 : c3.loc.start = x.loc.start
      · have := k2 hc3
        simp at this
        exact absurd this hne
      · by_cases hex : ∃ c ∈ rest, c.loc.start = x.loc.start
        · obtain ⟨c, hc, e⟩ := hex
          obtain ⟨i, hi4, hi⟩ := hdrop c hc
          rw [← hd.index hi hj e]
          exact hi4
        · refine absurd (k3 fun c hc e => ?_) hne
          rcases List.mem_cons.mp hc with rfl | hc
          · exact hc3 e
          · exact hex ⟨c, hc, e⟩
  have b1 : errsAt x.loc.start (checkModule csts) ≤ 1 := h1.1
  have b2 : errsAt x.loc.start (checkDot csts) ≤ 1 := h2.1
  have b3 : errsAt x.loc.start (checkIdent csts) ≤ 1 := h3.1
  unfold bracketErrs
  simp only [errsAt_append]
  revert hdots
  split <;> intro hdots <;> omega

/-- Like `Few`, with how many errors start at an element and anywhere. -/
structure Most (ts : List Token) (ds : List CST) (es : List TErr) : Prop extends Few ts ds es where
  own : ∀ d ∈ ds, errsAt d.loc.start es ≤ if d.isDot then 0 else 1
  all : ∀ p, errsAt p es ≤ 3

theorem Most.away {ts us p} {es : List TErr} (h : ∀ e ∈ es, StartOf us e.loc.start) (hp : StartOf ts p)
    (hs : Strict (ts ++ us) ∨ Strict (us ++ ts)) : errsAt p es = 0 :=
  errsAt_zero fun e he => by
    rcases hs with hs | hs
    · exact (hs.apart hp (h e he)).symm
    · exact hs.apart (h e he) hp

theorem errsAt_apart {ts us : List Token} {es fs : List TErr} (hs : Strict (ts ++ us)) (he : ∀ e ∈ es, StartOf ts e.loc.start)
    (hf : ∀ e ∈ fs, StartOf us e.loc.start) (p : Pos) {n : Nat} (h1 : errsAt p es ≤ n) (h2 : errsAt p fs ≤ n) :
    errsAt p (es ++ fs) ≤ n := by
  rw [errsAt_append]
  by_cases hm : ∃ e ∈ es, e.loc.start = p
  · obtain ⟨e, hm, rfl⟩ := hm
    have := Most.away hf (he e hm) (.inl hs)
    omega
  · have := errsAt_zero (p := p) (es := es) fun e h1 h2 => hm ⟨e, h1, h2⟩
    omega

theorem Most.append {ts us ds ds' es fs} (h : Most ts ds es) (h' : Most us ds' fs) (hs : Strict (ts ++ us)) :
    Most (ts ++ us) (ds ++ ds') (es ++ fs) where
  toFew := h.toFew.append h'.toFew hs
  own := fun d hd => by
    rw [errsAt_append]
    rcases List.mem_append.mp hd with hd | hd
    · rw [Most.away h'.errs (h.elems d hd) (.inl hs)]
      exact h.own d hd
    · rw [Most.away h.errs (h'.elems d hd) (.inr hs), Nat.zero_add]
      exact h'.own d hd
  all := fun p => errsAt_apart hs h.errs h'.errs p (h.all p) (h'.all p)

theorem Most.none (ts) : Most ts [] [] := ⟨Few.none ts, by simp, by simp [errsAt]⟩

theorem Most.single {ts : List Token} {d : CST} (h : StartOf ts d.loc.start) : Most ts [d] [] :=
  ⟨Few.single h, by simp [errsAt], by simp [errsAt]⟩

theorem Most.bracket {o : Token} {ts us : List Token} {c : CST} {ds ds' : List CST} {es : List TErr} (h : Most ts ds es)
    (h' : Most us ds' []) (hs : Strict (o :: ts ++ us)) (hc : c.isBlank = false) (ho : c.loc.start = o.loc.start)
    {d : CST} (hd : d.loc.start = o.loc.start) (hdot : d.isDot = false) (missing : List TErr)
    (hm : missing = [] ∨ ∃ e, missing = [e] ∧ e.kind.isContent = false ∧ e.loc.start = o.loc.start) :
    Most (o :: ts ++ us) [d] (es ++ missing ++ bracketErrs (c :: (ds ++ ds'))) := by
  have hall : Most (ts ++ us) (ds ++ ds') (es ++ []) := h.append h' (Strict.append (ts := [o]) hs).2
  rw [List.append_nil] at hall
  have hfirst : ∀ p, StartOf (ts ++ us) p → o.loc.start ≠ p := fun p hp =>
    Strict.apart (ts := [o]) hs ⟨o, by simp, rfl⟩ hp
  have hdist : Distinct (c :: (ds ++ ds')) := List.pairwise_cons.mpr
    ⟨fun b hb => by rw [ho]; exact hfirst _ (hall.elems b hb), hall.distinct⟩
  have hb : ∀ e ∈ bracketErrs (c :: (ds ++ ds')), ∃ x ∈ ds ++ ds', e.loc = x.loc := fun e he => bracketErrs_tail hc he
  have hmiss : ∀ p, errsAt p missing ≤ if o.loc.start = p then 1 else 0 := by
    intro p
    rcases hm with rfl | ⟨e, rfl, _, h2⟩
    · simp [errsAt]
    · rw [errsAt_cons, h2]
      simp [errsAt]
  have hopen : errsAt o.loc.start (es ++ missing ++ bracketErrs (c :: (ds ++ ds'))) ≤ 1 := by
    rw [errsAt_append, errsAt_append, errsAt_zero fun e he => (hfirst _ (hall.errs e he)).symm,
      errsAt_zero (es := bracketErrs _) fun e he => by
        obtain ⟨x, hx, e1⟩ := hb e he
        rw [e1]
        exact (hfirst _ (hall.elems x hx)).symm]
    have := hmiss o.loc.start
    simp at this
    omega
  refine ⟨h.toFew.bracket h'.toFew hs hc ho hd missing hm, ?_, ?_⟩
  · intro x hx
    rw [List.mem_singleton.mp hx, hdot, hd]
    exact hopen
  · intro p
    by_cases hp : o.loc.start = p
    · rw [← hp]
      omega
    · have z := hmiss p
      rw [if_neg hp] at z
      rw [errsAt_append, errsAt_append]
      by_cases hx : ∃ x ∈ ds ++ ds', x.loc.start = p
      · obtain ⟨x, hx, rfl⟩ := hx
        have h1 := hall.own x hx
        have h2 := bracketErrs_at hdist (List.mem_cons_of_mem c hx)
        revert h1 h2
        split <;> intro h1 h2 <;> omega
      · have h1 := hall.all p
        have h2 := errsAt_zero (p := p) (es := bracketErrs (c :: (ds ++ ds'))) fun e he e1 => by
          obtain ⟨x, hxm, e2⟩ := hb e he
          exact hx ⟨x, hxm, by rw [← e2, e1]⟩
        omega

mutual

theorem XI.most : ∀ {c d es}, XI c d es → BracketStarts c → Strict c.tokens → Ordered c.tokens → Most c.tokens [d] es
  | _, _, _, .leaf h, hb, _, _ => .single ((XI.leaf h).start hb)
  | _, _, _, .escaped h, hb, _, _ => .single ((XI.escaped h).start hb)
  | _, _, _, @XI.stray l, hb, _, _ => by
    have hst := (XI.stray (l := l)).start hb
    refine ⟨(XI.stray (l := l)).few hb ‹_› ‹_›, fun d hd => ?_, fun p => ?_⟩
    · rw [List.mem_singleton.mp hd]
      exact Nat.le_trans List.countP_le_length (by simp [CST.isDot])
    · exact Nat.le_trans List.countP_le_length (by simp)
  | _, _, _, @XI.closed b cs l l1 l2 ds es h, hb, hs, ho => by
    have hb' : ∀ c ∈ cs, BracketStarts c := fun c hc => hb.child c (by simp [hc])
    obtain ⟨t, ht, hl⟩ := hb _ _ _ .self
    have htok : (CST.node (.bracket b) (.leaf (.bopen b) l1 :: cs ++ [.leaf (.bclose b) l2]) l).tokens =
        ⟨.bopen b, l1⟩ :: CST.tokensL cs ++ [⟨.bclose b, l2⟩] := by
      simp [CST.tokens, CST.tokensL, tokensL_append, LKind.tokKind]
    rw [htok] at hs ho ht ⊢
    simp only [List.cons_append, List.head?_cons, Option.mem_def, Option.some.injEq] at ht
    subst ht
    have h1 := h.most hb' (Strict.append (ts := [_]) (show Strict ([_] ++ (CST.tokensL cs ++ _)) from hs)).2.append.1
      (Ordered.append (ts := [_]) (show Ordered ([_] ++ (CST.tokensL cs ++ _)) from ho)).2.append.1
    have := Most.bracket (c := .leaf (.bopen b) l1) h1 (Most.single (ts := [⟨.bclose b, l2⟩]) (d := .leaf (.bclose b) l2) ⟨⟨.bclose b, l2⟩, by simp, rfl⟩) hs rfl rfl
      (d := .node (.bracket b) (bracketKids (.leaf (.bopen b) l1 :: ds ++ [.leaf (.bclose b) l2])) l) hl rfl [] (.inl rfl)
    simpa using this
  | _, _, _, @XI.unclosed b cs l l1 ds es h, hb, hs, ho => by
    have hb' : ∀ c ∈ cs, BracketStarts c := fun c hc => hb.child c (by simp [hc])
    obtain ⟨t, ht, hl⟩ := hb _ _ _ .self
    have htok : (CST.node (.bracket b) (.leaf (.bopen b) l1 :: cs) l).tokens = ⟨.bopen b, l1⟩ :: CST.tokensL cs ++ [] := by
      simp [CST.tokens, CST.tokensL, LKind.tokKind]
    rw [htok] at hs ho ht ⊢
    simp only [List.cons_append, List.head?_cons, Option.mem_def, Option.some.injEq] at ht
    subst ht
    have h1 := h.most hb' (Strict.append (ts := [_]) (show Strict ([_] ++ (CST.tokensL cs ++ _)) from hs)).2.append.1
      (Ordered.append (ts := [_]) (show Ordered ([_] ++ (CST.tokensL cs ++ _)) from ho)).2.append.1
    have := Most.bracket (c := .leaf (.bopen b) l1) h1 (Most.none []) hs rfl rfl
      (d := .node (.bracket b) (bracketKids (.leaf (.bopen b) l1 :: ds)) l) hl rfl [notClosedErr b l1 ds]
      (.inr ⟨_, rfl, rfl, merge_start_left (notClosed_start h hb' (by simpa [otok] using ho))⟩)
    simpa using this

theorem XL.most : ∀ {cs ds es}, XL cs ds es → (∀ c ∈ cs, BracketStarts c) → Strict (CST.tokensL cs) →
    Ordered (CST.tokensL cs) → Most (CST.tokensL cs) ds es
  | _, _, _, .nil, _, _, _ => by simpa [CST.tokensL] using Most.none []
  | _, _, _, .cons h hs, hb, hst, ho => by
    rw [CST.tokensL] at hst ho ⊢
    exact (h.most (hb _ (by simp)) hst.append.1 ho.append.1).append
      (hs.most (fun c hc => hb c (by simp [hc])) hst.append.2 ho.append.2) hst

theorem XB.most : ∀ {cs ds es}, XB cs ds es → (∀ c ∈ cs, BracketStarts c) → Strict (CST.tokensL cs) →
    Ordered (CST.tokensL cs) → Most (CST.tokensL cs) ds es
  | _, _, _, .nil, _, _, _ => by simpa [CST.tokensL] using Most.none []
  | _, _, _, .expr _ h hs, hb, hst, ho => by
    rw [CST.tokensL, tokens_expr] at hst ho ⊢
    exact (h.most (hb _ List.mem_cons_self).child hst.append.1 ho.append.1).append
      (hs.most (fun c hc => hb c (by simp [hc])) hst.append.2 ho.append.2) hst
  | _, _, _, @XB.newline l rest ds es hs, hb, hst, ho => by
    rw [CST.tokensL] at hst ho ⊢
    exact (Most.single (d := .leaf .newline l) ⟨_, by rw [CST.tokens]; exact List.mem_cons_self, rfl⟩).append
      (hs.most (fun c hc => hb c (by simp [hc])) hst.append.2 ho.append.2) hst

end

/-- How many errors of a piece outside of all brackets start anywhere. -/
structure MostErrs (ts : List Token) (es : List TErr) : Prop where
  errs : ∀ e ∈ es, StartOf ts e.loc.start
  all : ∀ p, errsAt p es ≤ 3

theorem MostErrs.append {ts us es fs} (h : MostErrs ts es) (h' : MostErrs us fs) (hs : Strict (ts ++ us)) :
    MostErrs (ts ++ us) (es ++ fs) where
  errs := fun e he => by
    rcases List.mem_append.mp he with he | he
    · exact (h.errs e he).mono (by simp +contextual)
    · exact (h'.errs e he).mono (by simp +contextual)
  all := fun p => errsAt_apart hs h.errs h'.errs p (h.all p) (h'.all p)

theorem MostErrs.none (ts) : MostErrs ts [] := ⟨by simp, by simp [errsAt]⟩

theorem XLine.most {c ds es} (h : XLine c ds es) (hb : BracketStarts c) (hs : Strict c.tokens)
    (ho : Ordered c.tokens) : MostErrs c.tokens es := by
  cases h with
  | close => exact .none _
  | newline => exact .none _
  | expr _ h =>
    rw [tokens_expr] at hs ho ⊢
    have := h.most hb.child hs ho
    exact ⟨this.errs, this.all⟩

theorem XLines.most {cs ds es} (h : XLines cs ds es) : (∀ c ∈ cs, BracketStarts c) → Strict (CST.tokensL cs) →
    Ordered (CST.tokensL cs) → MostErrs (CST.tokensL cs) es := by
  induction h with
  | nil => intros; exact .none _
  | cons h _ ih =>
    intro hb hst ho
    rw [CST.tokensL] at hst ho ⊢
    exact (h.most (hb _ (by simp)) hst.append.1 ho.append.1).append
      (ih (fun c hc => hb c (by simp [hc])) hst.append.2 ho.append.2) hst

theorem XChild.most {c ds es} (h : XChild c ds es) (hb : BracketStarts c) (hs : Strict c.tokens)
    (ho : Ordered c.tokens) : MostErrs c.tokens es := by
  cases h with
  | newline => exact .none _
  | eof => exact .none _
  | stmt h =>
    rw [tokens_stmt] at hs ho ⊢
    exact h.most hb.child hs ho

theorem XDoc.most {cs ds es} (h : XDoc cs ds es) : (∀ c ∈ cs, BracketStarts c) → Strict (CST.tokensL cs) →
    Ordered (CST.tokensL cs) → MostErrs (CST.tokensL cs) es := by
  induction h with
  | nil => intros; exact .none _
  | cons h _ ih =>
    intro hb hst ho
    rw [CST.tokensL] at hst ho ⊢
    exact (h.most (hb _ (by simp)) hst.append.1 ho.append.1).append
      (ih (fun c hc => hb c (by simp [hc])) hst.append.2 ho.append.2) hst

theorem transform_most {S : Segmenter} {text : Str} {ts : List Token} {c : CST} {ids : Nat → Str} {a : AST}
    {es : List TErr} (ht : tokenizeStr S text = .ok ts) (hp : parse ts = .ok c) (hx : transform ids c = .ok (a, es))
    : MostErrs ts es := by
  obtain ⟨cs, ds, l, m, hT⟩ := transform_trans hp hx
  obtain ⟨rest, hP⟩ := parse_ok hp
  have hst := tokens_strict S text ts ht
  have ho := (tiles_ordered S ts _ (C03_tiles S text ts ht)).1
  have htok := hP.tokens
  have hpl := parse_placed ho hp
  rw [hT.doc] at hpl htok
  rw [tokens_document] at htok
  rw [htok] at hst
  have := hpl.children (by simp)
  have hm := hT.rel.most this.starts hst.append.1 this.ord
  exact ⟨fun e he => (hm.errs e he).mono (by rw [htok]; simp +contextual), hm.all⟩

theorem errs_length (n : Nat) : ∀ (L : List Pos) (es : List TErr), (∀ e ∈ es, e.loc.start ∈ L) → (∀ p, errsAt p es ≤ n) →
    es.length ≤ n * L.length
  | [], es, h, _ => by
    rcases es with _ | ⟨e, es⟩
    · simp
    · exact absurd (h e (by simp)) (by simp)
  | p :: L, es, h, hn => by
    have hsplit := List.length_eq_countP_add_countP (fun e : TErr => decide (e.loc.start = p)) (l := es)
    have ih := errs_length n L (es.filter fun e => !decide (e.loc.start = p)) (fun e he => by
      have h1 := List.mem_filter.mp he
      have h2 : e.loc.start ≠ p := by simpa using h1.2
      exact (List.mem_cons.mp (h e h1.1)).resolve_left h2) (fun q =>
        Nat.le_trans (List.filter_sublist.countP_le) (hn q))
    have := hn p
    rw [← List.countP_eq_length_filter] at ih
    rw [List.length_cons, Nat.mul_succ]
    unfold errsAt at this
    have e : es.countP (fun e => !decide (e.loc.start = p)) = es.countP (fun a => ¬decide (a.loc.start = p) = true) := by
      congr 1; funext a; simp
    simp only [e] at ih
    omega

end Brack
