import Verif.Proof.Order

/-
Helper lemmas: how often an error is reported.
-/

namespace Brack

/-- How often an error of this kind can be reported. -/
def TErrKind.most : TErrKind → Nat
  | .unexpectedDot | .unexpectedComma => 2
  | _ => 1

/-- The starts of the elements are different from each other. -/
def Distinct (ds : List CST) : Prop := ds.Pairwise (fun a b => a.loc.start ≠ b.loc.start)

theorem Distinct.sublist {as bs : List CST} (h : Distinct bs) (hs : as.Sublist bs) : Distinct as :=
  List.Pairwise.sublist hs h

theorem argLoop_dots (l : Loc) : ∀ (cs : List CST) (prev expr : CST) (comma : Bool), Distinct cs →
    (argLoop prev expr comma cs).2.count ⟨.unexpectedDot, l⟩ ≤ 1 ∧
    ((argLoop prev expr comma cs).2.count ⟨.unexpectedDot, l⟩ = 0 ∨ ∃ c ∈ cs, c.loc = l)
  | [], _, _, _, _ => by simp [argLoop]
  | c :: cs, prev, expr, comma, hd => by
    have hd' := (List.pairwise_cons.mp hd).2
    have hn : ∀ d ∈ cs, d.loc ≠ c.loc := fun d hdm e => (List.pairwise_cons.mp hd).1 d hdm (by rw [e])
    have go : ∀ p e q, (argLoop p e q cs).2.count ⟨.unexpectedDot, l⟩ ≤ 1 ∧
        ((argLoop p e q cs).2.count ⟨.unexpectedDot, l⟩ = 0 ∨ ∃ d ∈ c :: cs, d.loc = l) := fun p e q => by
      obtain ⟨h1, h2⟩ := argLoop_dots l cs p e q hd'
      refine ⟨h1, h2.imp id ?_⟩
      rintro ⟨d, hdm, e⟩
      exact ⟨d, List.mem_cons_of_mem _ hdm, e⟩
    rcases c with ⟨k, l0⟩ | ⟨k, ks, l0⟩
    · cases k <;> try exact go _ _ _
      case dot =>
        have ih := argLoop_dots l cs (.leaf .dot l0) expr comma hd'
        simp only [argLoop, List.count_cons]
        by_cases e : l0 = l
        · subst e
          have h0 : (argLoop (.leaf .dot l0) expr comma cs).2.count ⟨.unexpectedDot, l0⟩ = 0 := by
            rcases ih.2 with h | ⟨d, hdm, e⟩
            · exact h
            · exact absurd e (hn d hdm)
          rw [h0]
          simp only [beq_self_eq_true, if_true]
          exact ⟨by omega, .inr ⟨_, List.mem_cons_self, rfl⟩⟩
        · have : ((⟨.unexpectedDot, l0⟩ : TErr) == ⟨.unexpectedDot, l⟩) = false := by simp [e]
          rw [this]
          simpa using go (.leaf .dot l0) expr comma
      case comma =>
        simp only [argLoop]
        split
        · have : ((⟨.unexpectedComma, l0⟩ : TErr) == ⟨.unexpectedDot, l⟩) = false := by simp
          simp only [List.count_cons, this]
          simpa using go (.leaf .comma l0) expr comma
        · exact go _ _ _
      case bclose =>
        simp only [argLoop]
        split
        · simp
        · split
          · have : ((⟨.unexpectedComma, prev.loc⟩ : TErr) == ⟨.unexpectedDot, l⟩) = false := by simp
            simp only [List.count_cons, this]
            simp
          · simp
    · exact go _ _ _

theorem argLoop_commas (l : Loc) : ∀ (cs : List CST) (prev expr : CST) (comma : Bool), Distinct (prev :: cs) →
    (argLoop prev expr comma cs).2.count ⟨.unexpectedComma, l⟩ ≤ 2 ∧
    ((argLoop prev expr comma cs).2.count ⟨.unexpectedComma, l⟩ ≤ 1 ∨ prev.loc ≠ l) ∧
    ((argLoop prev expr comma cs).2.count ⟨.unexpectedComma, l⟩ = 0 ∨ ∃ c ∈ prev :: cs, c.loc = l)
  | [], _, _, _, _ => by simp [argLoop]
  | c :: cs, prev, expr, comma, hd => by
    have hd' := (List.pairwise_cons.mp hd).2
    have hn : ∀ d ∈ cs, d.loc ≠ c.loc := fun d hdm e => (List.pairwise_cons.mp hd').1 d hdm (by rw [e])
    have hp : ∀ d ∈ c :: cs, d.loc ≠ prev.loc := fun d hdm e => (List.pairwise_cons.mp hd).1 d hdm (by rw [e])
    have go : ∀ e q, (argLoop c e q cs).2.count ⟨.unexpectedComma, l⟩ ≤ 2 ∧
        ((argLoop c e q cs).2.count ⟨.unexpectedComma, l⟩ ≤ 1 ∨ prev.loc ≠ l) ∧
        ((argLoop c e q cs).2.count ⟨.unexpectedComma, l⟩ = 0 ∨ ∃ d ∈ prev :: c :: cs, d.loc = l) := fun e q => by
      obtain ⟨h1, h2, h3⟩ := argLoop_commas l cs c e q hd'
      refine ⟨h1, ?_, h3.imp id ?_⟩
      · rcases h3 with h | ⟨d, hdm, e⟩
        · exact .inl (by omega)
        · exact .inr fun e' => hp d hdm (by rw [e, e'])
      · rintro ⟨d, hdm, e⟩
        exact ⟨d, List.mem_cons_of_mem _ hdm, e⟩
    rcases c with ⟨k, l0⟩ | ⟨k, ks, l0⟩
    · cases k <;> try exact go _ _
      case comma =>
        simp only [argLoop]
        split
        · simp only [List.count_cons]
          by_cases e : l0 = l
          · subst e
            have ih := argLoop_commas l0 cs (.leaf .comma l0) expr comma hd'
            have h1 := ih.2.1.resolve_right (fun h => h rfl)
            simp only [beq_self_eq_true, if_true]
            refine ⟨by omega, .inr fun e => ?_, .inr ⟨_, by simp; exact .inr (.inl rfl), rfl⟩⟩
            exact hp _ List.mem_cons_self e.symm
          · have : ((⟨.unexpectedComma, l0⟩ : TErr) == ⟨.unexpectedComma, l⟩) = false := by simp [e]
            rw [this]
            simpa using go expr comma
        · exact go _ _
      case bclose =>
        simp only [argLoop]
        split
        · simp
        · split
          · simp only [List.count_cons, List.count_nil]
            by_cases e : prev.loc = l
            · subst e
              simp
            · have : ((⟨.unexpectedComma, prev.loc⟩ : TErr) == ⟨.unexpectedComma, l⟩) = false := by simp [e]
              simp [this]
          · simp
    · exact go _ _

theorem argLoop_kinds : ∀ (cs : List CST) (prev expr : CST) (comma : Bool), ∀ e ∈ (argLoop prev expr comma cs).2,
    e.kind = .unexpectedDot ∨ e.kind = .unexpectedComma
  | [], _, _, _ => by simp [argLoop]
  | c :: cs, prev, expr, comma => by
    have go := fun p e q => argLoop_kinds cs p e q
    rcases c with ⟨k, l0⟩ | ⟨k, ks, l0⟩
    · cases k <;> try exact go _ _ _
      case dot =>
        simp only [argLoop, List.mem_cons]
        rintro e (rfl | h)
        · exact .inl rfl
        · exact go _ _ _ e h
      case comma =>
        simp only [argLoop]
        split
        · simp only [List.mem_cons]
          rintro e (rfl | h)
          · exact .inr rfl
          · exact go _ _ _ e h
        · exact go _ _ _
      case bclose =>
        simp only [argLoop]
        split
        · simp
        · split
          · simp
          · simp
    · exact go _ _ _

theorem count_other {es : List TErr} {e : TErr} (h : ∀ f ∈ es, f.kind ≠ e.kind) : es.count e = 0 := by
  rw [List.count_eq_zero]
  exact fun hm => h e hm rfl

theorem checkAt_kind {i good kind csts} : ∀ e ∈ checkAt i good kind csts, e.kind = kind := by
  intro e he
  unfold checkAt at he
  rcases hc : csts[i]? with _ | c <;> rw [hc] at he
  · simp at he
  · simp only [] at he
    split at he
    · simp at he
    · simp only [List.mem_singleton] at he
      rw [he]

theorem checkAt_count {i good kind csts} (e : TErr) : (checkAt i good kind csts).count e ≤ 1 := by
  refine Nat.le_trans (List.count_le_length) ?_
  unfold checkAt
  rcases csts[i]? with _ | c
  · simp
  · simp only []
    split <;> simp

theorem dots_count {csts : List CST} (hd : Distinct csts) (e : TErr) : (checkUnexpectedDot csts).count e ≤ 1 := by
  refine List.nodup_iff_count.mp ?_ e
  unfold checkUnexpectedDot
  rw [List.Nodup, List.pairwise_map]
  refine (hd.sublist (List.filter_sublist.trans (List.drop_sublist 3 csts))).imp ?_
  intro a b h e
  exact h (by injection e with _ e; rw [e])

/-- The errors of a bracket about its contents: how often each is reported, and that none is at the first element. -/
theorem bracketErrs_count {csts : List CST} (hd : Distinct csts) (e : TErr) : (bracketErrs csts).count e ≤ e.kind.most := by
  have hr : Distinct (removeBlanks csts) := hd.sublist List.filter_sublist
  have hargs : ∃ es, (checkValidArguments (removeBlanks csts)).2 = es ∧
      (∀ f ∈ es, f.kind = .unexpectedDot ∨ f.kind = .unexpectedComma) ∧
      (∀ l, es.count ⟨.unexpectedDot, l⟩ ≤ 1) ∧ ∀ l, es.count ⟨.unexpectedComma, l⟩ ≤ 2 := by
    refine ⟨_, rfl, ?_⟩
    unfold checkValidArguments
    generalize removeBlanks csts = as at hr
    rcases as with _ | ⟨c0, _ | ⟨c1, _ | ⟨c2, _ | ⟨c3, rest⟩⟩⟩⟩
    · simp
    · simp
    · simp
    · simp
    · have h3 : Distinct (c3 :: rest) := hr.sublist (List.sublist_append_right [c0, c1, c2] _)
      exact ⟨argLoop_kinds _ _ _ _, fun l => (argLoop_dots l _ _ _ _ (List.pairwise_cons.mp h3).2).1,
        fun l => (argLoop_commas l _ _ _ _ h3).1⟩
  obtain ⟨es, h1, h2, h3, h4⟩ := hargs
  have k1 : ∀ f ∈ checkModule csts, f.kind = .moduleNotFound := checkAt_kind
  have k2 : ∀ f ∈ checkDot csts, f.kind = .dotNotFound := checkAt_kind
  have k3 : ∀ f ∈ checkIdent csts, f.kind = .identifierNotFound := checkAt_kind
  have k4 : ∀ f ∈ checkUnexpectedDot csts, f.kind = .unexpectedDot := by
    intro f hf
    simp only [checkUnexpectedDot, List.mem_map] at hf
    obtain ⟨c, _, rfl⟩ := hf
    rfl
  have c1 : (checkModule csts).count e ≤ 1 := checkAt_count e
  have c2 : (checkDot csts).count e ≤ 1 := checkAt_count e
  have c3 : (checkIdent csts).count e ≤ 1 := checkAt_count e
  have c4 := dots_count hd e
  unfold bracketErrs
  rw [h1, List.count_append, List.count_append, List.count_append, List.count_append]
  have n1 : e.kind ≠ .moduleNotFound → (checkModule csts).count e = 0 := fun h => count_other fun f hf => by
    rw [k1 f hf]; exact h.symm
  have n2 : e.kind ≠ .dotNotFound → (checkDot csts).count e = 0 := fun h => count_other fun f hf => by
    rw [k2 f hf]; exact h.symm
  have n3 : e.kind ≠ .identifierNotFound → (checkIdent csts).count e = 0 := fun h => count_other fun f hf => by
    rw [k3 f hf]; exact h.symm
  have n4 : e.kind ≠ .unexpectedDot → (checkUnexpectedDot csts).count e = 0 := fun h => count_other fun f hf => by
    rw [k4 f hf]; exact h.symm
  have n5 : e.kind ≠ .unexpectedDot → e.kind ≠ .unexpectedComma → es.count e = 0 := fun h h' => count_other fun f hf => by
    rcases h2 f hf with k | k <;> rw [k]
    · exact h.symm
    · exact h'.symm
  obtain ⟨k, l⟩ := e
  have h3 := h3 l
  have h4 := h4 l
  cases k <;> simp [TErrKind.most] at * <;> omega

/-- None of them is at the first element. -/
theorem bracketErrs_tail {c : CST} {csts : List CST} (hc : c.isBlank = false) {e : TErr} (h : e ∈ bracketErrs (c :: csts)) :
    ∃ d ∈ csts, e.loc = d.loc := by
  have hat : ∀ i good kind, e ∈ checkAt (i + 1) good kind (c :: csts) → ∃ d ∈ csts, e.loc = d.loc := by
    intro i good kind he
    unfold checkAt at he
    rw [List.getElem?_cons_succ] at he
    rcases hi : csts[i]? with _ | d <;> rw [hi] at he
    · simp at he
    · simp only [] at he
      split at he
      · simp at he
      · simp only [List.mem_singleton] at he
        exact ⟨d, List.mem_of_getElem? hi, by rw [he]⟩
  simp only [bracketErrs, List.mem_append] at h
  rcases h with (((h | h) | h) | h) | h
  · exact hat 0 _ _ h
  · exact hat 1 _ _ h
  · exact hat 2 _ _ h
  · simp only [checkUnexpectedDot, List.mem_map, List.mem_filter, List.drop_succ_cons] at h
    obtain ⟨d, ⟨hd, _⟩, rfl⟩ := h
    exact ⟨d, List.mem_of_mem_drop hd, rfl⟩
  · have hr : removeBlanks (c :: csts) = c :: removeBlanks csts := by simp [removeBlanks, hc]
    rw [hr] at h
    unfold checkValidArguments at h
    have hsub : ∀ d, d ∈ removeBlanks csts → d ∈ csts := fun d hd => (mem_removeBlanks hd).1
    generalize removeBlanks csts = es at h hsub
    rcases es with _ | ⟨c1, _ | ⟨c2, _ | ⟨c3, rest⟩⟩⟩
    · simp at h
    · simp at h
    · simp at h
    · obtain ⟨_, d, hd, h2⟩ := argLoop_err _ _ _ _ h
      exact ⟨d, hsub d (List.mem_cons_of_mem _ (List.mem_cons_of_mem _ hd)), h2⟩

/-- A piece with the tokens `ts`, simplified to `ds` with the errors `es`: no error is reported too often, and those about
contents of commands are not about elements of `ds`. -/
structure Few (ts : List Token) (ds : List CST) (es : List TErr) : Prop where
  elems : ∀ d ∈ ds, StartOf ts d.loc.start
  distinct : Distinct ds
  errs : ∀ e ∈ es, StartOf ts e.loc.start
  apart : ∀ e ∈ es, e.kind.isContent = true → ∀ d ∈ ds, e.loc.start ≠ d.loc.start
  count : ∀ e, es.count e ≤ e.kind.most

theorem StartOf.mono {ts us p} (h : StartOf ts p) (hs : ∀ t ∈ ts, t ∈ us) : StartOf us p := by
  obtain ⟨t, ht, e⟩ := h
  exact ⟨t, hs t ht, e⟩

theorem Strict.apart {ts us p q} (h : Strict (ts ++ us)) (hp : StartOf ts p) (hq : StartOf us q) : p ≠ q := by
  obtain ⟨t, ht, rfl⟩ := hp
  obtain ⟨u, hu, rfl⟩ := hq
  have := (List.pairwise_append.mp h).2.2 t ht u hu
  intro e
  rw [e] at this
  unfold Pos.lt at this
  omega

theorem count_apart {ts us : List Token} {es fs : List TErr} (hs : Strict (ts ++ us)) (he : ∀ e ∈ es, StartOf ts e.loc.start)
    (hf : ∀ e ∈ fs, StartOf us e.loc.start) (e : TErr) {n : Nat} (h1 : es.count e ≤ n) (h2 : fs.count e ≤ n) :
    (es ++ fs).count e ≤ n := by
  rw [List.count_append]
  by_cases hm : e ∈ es
  · have : fs.count e = 0 := List.count_eq_zero.mpr fun hm' => hs.apart (he e hm) (hf e hm') rfl
    omega
  · have := List.count_eq_zero.mpr hm
    omega

theorem Few.append {ts us ds ds' es fs} (h : Few ts ds es) (h' : Few us ds' fs) (hs : Strict (ts ++ us)) :
    Few (ts ++ us) (ds ++ ds') (es ++ fs) where
  elems := fun d hd => by
    rcases List.mem_append.mp hd with hd | hd
    · exact (h.elems d hd).mono (by simp +contextual)
    · exact (h'.elems d hd).mono (by simp +contextual)
  distinct := List.pairwise_append.mpr ⟨h.distinct, h'.distinct, fun a ha b hb => hs.apart (h.elems a ha) (h'.elems b hb)⟩
  errs := fun e he => by
    rcases List.mem_append.mp he with he | he
    · exact (h.errs e he).mono (by simp +contextual)
    · exact (h'.errs e he).mono (by simp +contextual)
  apart := fun e he hk d hd => by
    rcases List.mem_append.mp he with he | he <;> rcases List.mem_append.mp hd with hd | hd
    · exact h.apart e he hk d hd
    · exact hs.apart (h.errs e he) (h'.elems d hd)
    · exact (hs.apart (h.elems d hd) (h'.errs e he)).symm
    · exact h'.apart e he hk d hd
  count := fun e => count_apart hs h.errs h'.errs e (h.count e) (h'.count e)

theorem Few.none (ts) : Few ts [] [] := ⟨by simp, List.Pairwise.nil, by simp, by simp, by simp⟩

theorem Few.single {ts : List Token} {d : CST} (h : StartOf ts d.loc.start) : Few ts [d] [] :=
  ⟨by simpa using h, List.pairwise_singleton _ _, by simp, by simp, by simp⟩

/-- The errors of a bracket: those of its contents, those about its contents, and the missing end. -/
theorem Few.bracket {o : Token} {ts us : List Token} {c : CST} {ds ds' : List CST} {es : List TErr} (h : Few ts ds es)
    (h' : Few us ds' []) (hs : Strict (o :: ts ++ us)) (hc : c.isBlank = false) (ho : c.loc.start = o.loc.start)
    {d : CST} (hd : d.loc.start = o.loc.start) (missing : List TErr)
    (hm : missing = [] ∨ ∃ e, missing = [e] ∧ e.kind.isContent = false ∧ e.loc.start = o.loc.start) :
    Few (o :: ts ++ us) [d] (es ++ missing ++ bracketErrs (c :: (ds ++ ds'))) := by
  have hall : Few (ts ++ us) (ds ++ ds') (es ++ []) := h.append h' (Strict.append (ts := [o]) hs).2
  rw [List.append_nil] at hall
  have hfirst : ∀ p, StartOf (ts ++ us) p → o.loc.start ≠ p := fun p hp =>
    Strict.apart (ts := [o]) hs ⟨o, by simp, rfl⟩ hp
  have hdist : Distinct (c :: (ds ++ ds')) := List.pairwise_cons.mpr
    ⟨fun b hb => by rw [ho]; exact hfirst _ (hall.elems b hb), hall.distinct⟩
  have hb : ∀ e ∈ bracketErrs (c :: (ds ++ ds')), ∃ x ∈ ds ++ ds', e.loc = x.loc := fun e he => bracketErrs_tail hc he
  have hin : ∀ p, StartOf (ts ++ us) p → StartOf (o :: ts ++ us) p := fun p hp => hp.mono (by simp +contextual)
  refine ⟨by simpa [hd] using ⟨o, by simp, rfl⟩, List.pairwise_singleton _ _, ?_, ?_, ?_⟩
  · intro e he
    simp only [List.mem_append] at he
    rcases he with (he | he) | he
    · exact hin _ (hall.errs e he)
    · rcases hm with rfl | ⟨e', rfl, _, h2⟩
      · simp at he
      · simp only [List.mem_singleton] at he
        exact ⟨o, by simp, by rw [he, h2]⟩
    · obtain ⟨x, hx, e⟩ := hb e he
      rw [e]
      exact hin _ (hall.elems x hx)
  · intro e he hk d' hd'
    simp only [List.mem_singleton] at hd'
    rw [hd', hd]
    simp only [List.mem_append] at he
    rcases he with (he | he) | he
    · exact (hfirst _ (hall.errs e he)).symm
    · rcases hm with rfl | ⟨e', rfl, h1, _⟩
      · simp at he
      · simp only [List.mem_singleton] at he
        rw [he, h1] at hk
        cases hk
    · obtain ⟨x, hx, e⟩ := hb e he
      rw [e]
      exact (hfirst _ (hall.elems x hx)).symm
  · intro e
    have c1 := hall.count e
    have c2 := bracketErrs_count hdist e
    have c3 : missing.count e ≤ 1 := Nat.le_trans List.count_le_length (by rcases hm with rfl | ⟨_, rfl, _⟩ <;> simp)
    have hmost : 1 ≤ e.kind.most := by cases e.kind <;> simp [TErrKind.most]
    rw [List.count_append, List.count_append]
    by_cases he : e ∈ bracketErrs (c :: (ds ++ ds'))
    · obtain ⟨x, hx, e1⟩ := hb e he
      have hk := (bracketErrs_err he).1
      have z1 : es.count e = 0 := List.count_eq_zero.mpr fun hm' => hall.apart e hm' hk x hx (by rw [e1])
      have z2 : missing.count e = 0 := List.count_eq_zero.mpr fun hm' => by
        rcases hm with rfl | ⟨e', rfl, h1, _⟩
        · simp at hm'
        · simp only [List.mem_singleton] at hm'
          rw [hm', h1] at hk
          cases hk
      omega
    · have z := List.count_eq_zero.mpr he
      by_cases he' : e ∈ missing
      · have z1 : es.count e = 0 := List.count_eq_zero.mpr fun hm' => by
          rcases hm with rfl | ⟨e', rfl, _, h2⟩
          · simp at he'
          · simp only [List.mem_singleton] at he'
            exact hfirst _ (hall.errs e hm') (by rw [he', h2])
        omega
      · have z1 := List.count_eq_zero.mpr he'
        omega

mutual

theorem XI.few : ∀ {c d es}, XI c d es → BracketStarts c → Strict c.tokens → Ordered c.tokens → Few c.tokens [d] es
  | _, _, _, .leaf h, hb, _, _ => .single ((XI.leaf h).start hb)
  | _, _, _, .escaped h, hb, _, _ => .single ((XI.escaped h).start hb)
  | _, _, _, @XI.stray l, hb, _, _ => by
    have hst := (XI.stray (l := l)).start hb
    refine ⟨fun d hd => by rw [List.mem_singleton.mp hd]; exact hst, List.pairwise_singleton _ _,
      fun e he => by rw [List.mem_singleton.mp he]; exact hst, ?_, ?_⟩
    · simp [TErrKind.isContent]
    · intro e
      refine Nat.le_trans List.count_le_length ?_
      cases e.kind <;> simp [TErrKind.most]
  | _, _, _, @XI.closed b cs l l1 l2 ds es h, hb, hs, ho => by
    have hb' : ∀ c ∈ cs, BracketStarts c := fun c hc => hb.child c (by simp [hc])
    obtain ⟨t, ht, hl⟩ := hb _ _ _ .self
    have htok : (CST.node (.bracket b) (.leaf (.bopen b) l1 :: cs ++ [.leaf (.bclose b) l2]) l).tokens =
        ⟨.bopen b, l1⟩ :: CST.tokensL cs ++ [⟨.bclose b, l2⟩] := by
      simp [CST.tokens, CST.tokensL, tokensL_append, LKind.tokKind]
    rw [htok] at hs ho ht ⊢
    simp only [List.cons_append, List.head?_cons, Option.mem_def, Option.some.injEq] at ht
    subst ht
    have h1 := h.few hb' (Strict.append (ts := [_]) (show Strict ([_] ++ (CST.tokensL cs ++ _)) from hs)).2.append.1
      (Ordered.append (ts := [_]) (show Ordered ([_] ++ (CST.tokensL cs ++ _)) from ho)).2.append.1
    have := Few.bracket (c := .leaf (.bopen b) l1) h1 (Few.single (ts := [⟨.bclose b, l2⟩]) (d := .leaf (.bclose b) l2) ⟨⟨.bclose b, l2⟩, by simp, rfl⟩) hs rfl rfl
      (d := .node (.bracket b) (bracketKids (.leaf (.bopen b) l1 :: ds ++ [.leaf (.bclose b) l2])) l) hl [] (.inl rfl)
    simpa using this
  | _, _, _, @XI.unclosed b cs l l1 ds es h, hb, hs, ho => by
    have hb' : ∀ c ∈ cs, BracketStarts c := fun c hc => hb.child c (by simp [hc])
    obtain ⟨t, ht, hl⟩ := hb _ _ _ .self
    have htok : (CST.node (.bracket b) (.leaf (.bopen b) l1 :: cs) l).tokens = ⟨.bopen b, l1⟩ :: CST.tokensL cs ++ [] := by
      simp [CST.tokens, CST.tokensL, LKind.tokKind]
    rw [htok] at hs ho ht ⊢
    simp only [List.cons_append, List.head?_cons, Option.mem_def, Option.some.injEq] at ht
    subst ht
    have h1 := h.few hb' (Strict.append (ts := [_]) (show Strict ([_] ++ (CST.tokensL cs ++ _)) from hs)).2.append.1
      (Ordered.append (ts := [_]) (show Ordered ([_] ++ (CST.tokensL cs ++ _)) from ho)).2.append.1
    have := Few.bracket (c := .leaf (.bopen b) l1) h1 (Few.none []) hs rfl rfl
      (d := .node (.bracket b) (bracketKids (.leaf (.bopen b) l1 :: ds)) l) hl [notClosedErr b l1 ds]
      (.inr ⟨_, rfl, rfl, merge_start_left (notClosed_start h hb' (by simpa [otok] using ho))⟩)
    simpa using this

theorem XL.few : ∀ {cs ds es}, XL cs ds es → (∀ c ∈ cs, BracketStarts c) → Strict (CST.tokensL cs) →
    Ordered (CST.tokensL cs) → Few (CST.tokensL cs) ds es
  | _, _, _, .nil, _, _, _ => by simpa [CST.tokensL] using Few.none []
  | _, _, _, .cons h hs, hb, hst, ho => by
    rw [CST.tokensL] at hst ho ⊢
    exact (h.few (hb _ (by simp)) hst.append.1 ho.append.1).append
      (hs.few (fun c hc => hb c (by simp [hc])) hst.append.2 ho.append.2) hst

theorem XB.few : ∀ {cs ds es}, XB cs ds es → (∀ c ∈ cs, BracketStarts c) → Strict (CST.tokensL cs) →
    Ordered (CST.tokensL cs) → Few (CST.tokensL cs) ds es
  | _, _, _, .nil, _, _, _ => by simpa [CST.tokensL] using Few.none []
  | _, _, _, .expr _ h hs, hb, hst, ho => by
    rw [CST.tokensL, tokens_expr] at hst ho ⊢
    exact (h.few (hb _ List.mem_cons_self).child hst.append.1 ho.append.1).append
      (hs.few (fun c hc => hb c (by simp [hc])) hst.append.2 ho.append.2) hst
  | _, _, _, @XB.newline l rest ds es hs, hb, hst, ho => by
    rw [CST.tokensL] at hst ho ⊢
    exact (Few.single (d := .leaf .newline l) ⟨_, by rw [CST.tokens]; exact List.mem_cons_self, rfl⟩).append
      (hs.few (fun c hc => hb c (by simp [hc])) hst.append.2 ho.append.2) hst

end

/-- Errors of a piece outside of all brackets. -/
structure FewErrs (ts : List Token) (es : List TErr) : Prop where
  errs : ∀ e ∈ es, StartOf ts e.loc.start
  count : ∀ e, es.count e ≤ e.kind.most

theorem FewErrs.append {ts us es fs} (h : FewErrs ts es) (h' : FewErrs us fs) (hs : Strict (ts ++ us)) :
    FewErrs (ts ++ us) (es ++ fs) where
  errs := fun e he => by
    rcases List.mem_append.mp he with he | he
    · exact (h.errs e he).mono (by simp +contextual)
    · exact (h'.errs e he).mono (by simp +contextual)
  count := fun e => count_apart hs h.errs h'.errs e (h.count e) (h'.count e)

theorem FewErrs.none (ts) : FewErrs ts [] := ⟨by simp, by simp⟩

theorem XLine.few {c ds es} (h : XLine c ds es) (hb : BracketStarts c) (hs : Strict c.tokens)
    (ho : Ordered c.tokens) : FewErrs c.tokens es := by
  cases h with
  | close => exact .none _
  | newline => exact .none _
  | expr _ h =>
    rw [tokens_expr] at hs ho ⊢
    have := h.few hb.child hs ho
    exact ⟨this.errs, this.count⟩

theorem XLines.few {cs ds es} (h : XLines cs ds es) : (∀ c ∈ cs, BracketStarts c) → Strict (CST.tokensL cs) →
    Ordered (CST.tokensL cs) → FewErrs (CST.tokensL cs) es := by
  induction h with
  | nil => intros; exact .none _
  | cons h _ ih =>
    intro hb hst ho
    rw [CST.tokensL] at hst ho ⊢
    exact (h.few (hb _ (by simp)) hst.append.1 ho.append.1).append
      (ih (fun c hc => hb c (by simp [hc])) hst.append.2 ho.append.2) hst

theorem XChild.few {c ds es} (h : XChild c ds es) (hb : BracketStarts c) (hs : Strict c.tokens)
    (ho : Ordered c.tokens) : FewErrs c.tokens es := by
  cases h with
  | newline => exact .none _
  | eof => exact .none _
  | stmt h =>
    rw [tokens_stmt] at hs ho ⊢
    exact h.few hb.child hs ho

theorem XDoc.few {cs ds es} (h : XDoc cs ds es) : (∀ c ∈ cs, BracketStarts c) → Strict (CST.tokensL cs) →
    Ordered (CST.tokensL cs) → FewErrs (CST.tokensL cs) es := by
  induction h with
  | nil => intros; exact .none _
  | cons h _ ih =>
    intro hb hst ho
    rw [CST.tokensL] at hst ho ⊢
    exact (h.few (hb _ (by simp)) hst.append.1 ho.append.1).append
      (ih (fun c hc => hb c (by simp [hc])) hst.append.2 ho.append.2) hst

theorem transform_few {S : Segmenter} {text : Str} {ts : List Token} {c : CST} {ids : Nat → Str} {a : AST}
    {es : List TErr} (ht : tokenizeStr S text = .ok ts) (hp : parse ts = .ok c) (hx : transform ids c = .ok (a, es))
    (e : TErr) : es.count e ≤ e.kind.most := by
  obtain ⟨cs, ds, l, m, hT⟩ := transform_trans hp hx
  obtain ⟨rest, hP⟩ := parse_ok hp
  have hst := tokens_strict S text ts ht
  have ho := (tiles_ordered S ts _ (C03_tiles S text ts ht)).1
  have htok := hP.tokens
  have hpl := parse_placed ho hp
  rw [hT.doc] at hpl htok
  rw [tokens_document] at htok
  rw [htok] at hst
  have := hpl.children (by simp)
  exact (hT.rel.few this.starts hst.append.1 this.ord).count e

end Brack
