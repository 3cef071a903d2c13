import Verif.Proof.ParserDet
import Verif.Proof.TransTrace

/-
Helper lemmas: parsing two token lists with a blank line between them.
-/

namespace Brack

/-- No bracket of these trees is unclosed. -/
def NoUnclosed (st : List Token) (cs : List CST) : Prop := ∀ o, Event.unclosed o ∉ CST.evsL st cs

theorem NoUnclosed.append {st cs ds} (h : NoUnclosed st (cs ++ ds)) : NoUnclosed st cs ∧ NoUnclosed st ds := by
  unfold NoUnclosed at *
  simp only [evsL_append, List.mem_append, not_or] at h
  exact ⟨fun o => (h o).1, fun o => (h o).2⟩

theorem NoUnclosed.cons {st c cs} (h : NoUnclosed st (c :: cs)) : NoUnclosed st [c] ∧ NoUnclosed st cs :=
  NoUnclosed.append (cs := [c]) h

theorem cons_eq_concat {t e : Token} {T ts : List Token} (h : t :: T = ts ++ [e]) (hne : t ≠ e) :
    ∃ ts', ts = t :: ts' ∧ T = ts' ++ [e] := by
  rcases ts with _ | ⟨t', ts'⟩
  · simp only [List.nil_append, List.cons.injEq] at h
    exact absurd h.1 hne
  · simp only [List.cons_append, List.cons.injEq] at h
    exact ⟨ts', by rw [h.1], h.2⟩

theorem ne_of_kind {t e : Token} (he : e.kind = .eof) (h : t.kind ≠ .eof) : t ≠ e := by
  rintro rfl; exact h he

theorem hasEof_concat {ts : List Token} {e : Token} (he : e.kind = .eof) : HasEof (ts ++ [e]) :=
  ⟨e, by simp, he⟩

section

variable {e n : Token} {X : List Token}

theorem StopAt.swap (he : e.kind = .eof) (hn : n.kind = .newLine) {ts} (h : StopAt (ts ++ [e])) :
    StopAt (ts ++ n :: X) := by
  rcases ts with _ | ⟨t, ts⟩
  · exact StopAt.newLine hn
  · intro u hu
    simp only [List.cons_append, List.head?_cons, Option.mem_def, Option.some.injEq] at hu
    subst hu
    rcases h t rfl with h | ⟨_, h⟩
    · exact .inl h
    · exact absurd (hasEof_concat he) h

theorem escapable_nl : escapable .newLine = none := rfl

mutual

theorem EI.swap (he : e.kind = .eof) (hn : n.kind = .newLine) : ∀ {T cs r}, EI T cs r → ∀ ts st, T = ts ++ [e] →
    NoUnclosed st cs → ∃ r', r = r' ++ [e] ∧ EI (ts ++ n :: X) cs (r' ++ n :: X)
  | _, _, _, .stop hs => fun ts st hT _ => by
    subst hT
    exact ⟨_, rfl, .stop (hs.swap he hn)⟩
  | _, _, _, .leaf hk h => fun ts st hT hq => by
    obtain ⟨ts', rfl, hT'⟩ := cons_eq_concat hT (ne_of_kind he (exprLeaf_ne_eof hk))
    obtain ⟨r', rfl, h'⟩ := h.swap he hn _ _ hT' hq.cons.2
    exact ⟨_, rfl, .leaf hk h'⟩
  | _, _, _, .esc ht hu h => fun ts st hT hq => by
    obtain ⟨ts', rfl, hT1⟩ := cons_eq_concat hT (ne_of_kind he (by simp [ht]))
    obtain ⟨ts2, rfl, hT2⟩ := cons_eq_concat hT1 (ne_of_kind he (escapable_ne_eof hu))
    obtain ⟨r', rfl, h'⟩ := h.swap he hn _ _ hT2 hq.cons.2
    exact ⟨_, rfl, .esc ht hu h'⟩
  | _, _, _, .escN (u := u) (us := us) ht hu h => fun ts st hT hq => by
    obtain ⟨ts', rfl, hT1⟩ := cons_eq_concat hT (ne_of_kind he (by simp [ht]))
    obtain ⟨r', rfl, h'⟩ := h.swap he hn _ _ hT1 hq.cons.2
    refine ⟨_, rfl, ?_⟩
    rcases ts' with _ | ⟨v, vs⟩
    · exact .escN ht (by rw [hn]; rfl) h'
    · simp only [List.cons_append, List.cons.injEq] at hT1
      obtain ⟨rfl, _⟩ := hT1
      exact .escN ht hu h'
  | _, _, _, .bclosed (t := t) (u := u) (b := b) (cs := cs) ht hb hu h => fun ts st hT hq => by
    obtain ⟨ts', rfl, hT1⟩ := cons_eq_concat hT (ne_of_kind he (by simp [ht]))
    have hq1 : NoUnclosed (t :: st) cs := by
      intro o ho
      apply hq.cons.1 o
      simp only [CST.evsL, List.append_nil, evs_bracketNode st b t u cs ht hb.grammar, List.mem_append]
      exact .inl ho
    obtain ⟨r1, h1, h2⟩ := hb.swap he hn _ _ hT1 hq1
    have hue : u.kind ≠ .eof := by simp [hu]
    obtain ⟨r2, rfl, h3⟩ := cons_eq_concat h1 (ne_of_kind he hue)
    obtain ⟨r', rfl, h'⟩ := h.swap he hn _ _ h3 hq.cons.2
    exact ⟨_, rfl, .bclosed ht (h2 (by simp)) hu h'⟩
  | _, _, _, .bunclosed (t := t) (u := u) (b := b) (cs := cs) ht hb hu h => fun ts st hT hq => by
    exfalso
    apply hq.cons.1 t
    simp only [CST.evsL, List.append_nil, evs_bracketNode st b t u cs ht hb.grammar, List.mem_append, hu, if_false]
    exact .inr (by simp)

theorem BI.swap (he : e.kind = .eof) (hn : n.kind = .newLine) : ∀ {T cs r}, BI T cs r → ∀ ts st, T = ts ++ [e] →
    NoUnclosed st cs → ∃ r', r = r' ++ [e] ∧ (r' ≠ [] → BI (ts ++ n :: X) cs (r' ++ n :: X))
  | _, _, _, .stop hs hl => fun ts st hT _ => by
    subst hT
    refine ⟨_, rfl, fun hne => .stop (hs.swap he hn) ?_⟩
    rcases ts with _ | ⟨t, ts⟩
    · exact absurd rfl hne
    · exact hl
  | _, _, _, .expr (c := c) (cs := cs) h hb => fun ts st hT hq => by
    have hq1 : NoUnclosed st (c :: cs) := by
      have := hq.cons.1
      unfold NoUnclosed at this ⊢
      simpa only [CST.evsL, List.append_nil, evs_exprNode] using this
    obtain ⟨r1, h1, h2⟩ := h.swap he hn _ _ hT hq1
    obtain ⟨r2, rfl, h3⟩ := hb.swap he hn _ _ h1 hq.cons.2
    exact ⟨_, rfl, fun hne => .expr h2 (h3 hne)⟩
  | _, _, _, .newline ht hb => fun ts st hT hq => by
    obtain ⟨ts', rfl, hT1⟩ := cons_eq_concat hT (ne_of_kind he (by simp [ht]))
    obtain ⟨r2, rfl, h3⟩ := hb.swap he hn _ _ hT1 hq.cons.2
    exact ⟨_, rfl, fun hne => .newline ht (h3 hne)⟩

end

theorem LI.swap (he : e.kind = .eof) (hn : n.kind = .newLine) {T c r} (h : LI T c r) {ts st} (hT : T = ts ++ [e])
    (hq : NoUnclosed st [c]) : ∃ r', r = r' ++ [e] ∧ LI (ts ++ n :: X) c (r' ++ n :: X) := by
  cases h with
  | @expr _ c cs _ h =>
    have hq1 : NoUnclosed st (c :: cs) := by
      unfold NoUnclosed at hq ⊢
      simpa only [CST.evsL, List.append_nil, evs_exprNode] using hq
    obtain ⟨r1, h1, h2⟩ := h.swap he hn _ _ hT hq1
    exact ⟨r1, h1, .expr h2⟩
  | close ht =>
    obtain ⟨ts', rfl, hT1⟩ := cons_eq_concat hT (ne_of_kind he (by simp [ht]))
    exact ⟨ts', hT1, .close ht⟩

theorem NoLine.swap (he : e.kind = .eof) (hn : n.kind = .newLine) {ts} (h : NoLine (ts ++ [e])) :
    NoLine (ts ++ n :: X) := by
  intro _ t ht
  rcases ts with _ | ⟨u, ts⟩
  · simp only [List.nil_append, List.head?_cons, Option.mem_def, Option.some.injEq] at ht
    exact .inl (ht ▸ hn)
  · exact h (hasEof_concat he) t ht

variable {n2 : Token}

theorem SI.swap (he : e.kind = .eof) (hn : n.kind = .newLine) (hn2 : n2.kind = .newLine) : ∀ {T cs r}, SI T cs r →
    ∀ ts st, T = ts ++ [e] → NoUnclosed st cs →
    ∃ r', r = r' ++ [e] ∧ SI (ts ++ n :: n2 :: X) cs (r' ++ n :: n2 :: X)
  | _, _, _, .stop hs => fun ts st hT _ => by
    subst hT
    refine ⟨_, rfl, .stop (fun t ts1 h1 h2 => ?_)⟩
    rcases ts with _ | ⟨u, ts⟩
    · simp only [List.nil_append, List.cons.injEq] at h1
      obtain ⟨rfl, rfl⟩ := h1
      intro _ v hv
      simp only [List.head?_cons, Option.mem_def, Option.some.injEq] at hv
      exact .inl (hv ▸ hn2)
    · simp only [List.cons_append, List.cons.injEq] at h1
      obtain ⟨rfl, rfl⟩ := h1
      exact (hs u _ rfl h2).swap he hn
  | _, _, _, .more ht hl h => fun ts st hT hq => by
    obtain ⟨ts', rfl, hT1⟩ := cons_eq_concat hT (ne_of_kind he (by simp [ht]))
    obtain ⟨r1, h1, h2⟩ := hl.swap (X := n2 :: X) he hn hT1 hq.cons.2.cons.1
    obtain ⟨r2, rfl, h3⟩ := h.swap he hn hn2 _ _ h1 hq.cons.2.cons.2
    exact ⟨_, rfl, .more ht h2 h3⟩

theorem TI.swap (he : e.kind = .eof) (hn : n.kind = .newLine) (hn2 : n2.kind = .newLine) {T c r} (h : TI T c r) {ts st}
    (hT : T = ts ++ [e]) (hq : NoUnclosed st [c]) :
    ∃ r', r = r' ++ [e] ∧ TI (ts ++ n :: n2 :: X) c (r' ++ n :: n2 :: X) := by
  cases h with
  | @mk c r cs r' hl hs =>
    have hq1 : NoUnclosed st (c :: cs) := by
      obtain ⟨l, hl⟩ := foldl_add_new .stmt (c :: cs)
      rw [hl] at hq
      unfold NoUnclosed at hq ⊢
      simpa only [CST.evsL, CST.evs, List.append_nil] using hq
    obtain ⟨r1, h1, h2⟩ := hl.swap (X := n2 :: X) he hn hT hq1.cons.1
    obtain ⟨r2, h3, h4⟩ := hs.swap (X := X) he hn hn2 _ _ h1 hq1.cons.2
    exact ⟨r2, h3, .mk h2 h4⟩

theorem NI.concat : ∀ {T cs r}, NI T cs r → ∀ ts, T = ts ++ [e] → e.kind = .eof →
    ∃ r', r = r' ++ [e] ∧ (r' ≠ [] → ∀ X, NI (ts ++ X) cs (r' ++ X)) ∧
      (r' = [] → ∀ X ds r, NI X ds r → NI (ts ++ X) (cs ++ ds) r)
  | _, _, _, .stop hs => fun ts hT _ => by
    subst hT
    refine ⟨_, rfl, fun hne X => .stop ?_, fun h X ds r hX => by subst h; exact hX⟩
    rcases ts with _ | ⟨t, ts⟩
    · exact absurd rfl hne
    · exact hs
  | _, _, _, .more ht h => fun ts hT he => by
    obtain ⟨ts', rfl, hT1⟩ := cons_eq_concat hT (ne_of_kind he (by simp [ht]))
    obtain ⟨r', rfl, h1, h2⟩ := h.concat _ hT1 he
    exact ⟨_, rfl, fun hne X => .more ht (h1 hne X), fun hr X ds r hX => .more ht (h2 hr X ds r hX)⟩

theorem NI.none {t : Token} {T ns r} (h : NI (t :: T) ns r) (ht : t.kind ≠ .newLine) : ns = [] ∧ r = t :: T := by
  cases h with
  | stop _ => exact ⟨rfl, rfl⟩
  | more h _ => exact absurd h ht

theorem TI.not_eof (he : e.kind = .eof) {s r} : ¬ TI [e] s r := by
  rintro ⟨hl, _⟩
  cases hl with
  | expr h =>
    refine StopAt.no_items ?_ (hasEof_concat (ts := []) he) h
    intro u hu
    have hu : e = u := by simpa using hu
    subst hu
    exact .inl (by rw [he]; rfl)
  | close ht => rw [he] at ht; cases ht

/-- The statements before the end of the first document, followed by a blank line and the second. -/
theorem DI.join (he : e.kind = .eof) (hn : n.kind = .newLine) (hn2 : n2.kind = .newLine)
    (hX : ∀ t ∈ X.head?, t.kind ≠ .newLine) {ds s} (hd : DI X ds s) : ∀ {T cs r}, DI T cs r →
    ∀ ts cs2 r2 ns, T = ts ++ [e] → (∃ t ts', ts = t :: ts' ∧ t.kind ≠ .newLine) → NoUnclosed [] (cs ++ cs2) →
      OI r cs2 r2 → NI r2 ns [e] →
      DI (ts ++ n :: n2 :: X) (cs ++ cs2 ++ ns ++ [.leaf .newline n.loc, .leaf .newline n2.loc] ++ ds) s
  | _, _, _, .noStmt hno => fun ts cs2 r2 ns hT hh _ hO hN => by
    subst hT
    exfalso
    obtain ⟨t, ts', rfl, ht⟩ := hh
    cases hO with
    | none _ =>
      have := (NI.none hN ht).2
      cases ts' <;> simp at this
    | some h =>
      obtain ⟨hl, _⟩ := h
      have h1 := hno (hasEof_concat he) t rfl
      cases hl with
      | expr h =>
        refine StopAt.no_items ?_ (hasEof_concat (ts := t :: ts') he) h
        intro u hu
        simp only [List.cons_append, List.head?_cons, Option.mem_def, Option.some.injEq] at hu
        subst hu
        rcases h1 with h1 | h1 | h1 <;> exact .inl (by rw [h1]; rfl)
      | close hk => rw [hk] at h1; simp at h1
  | _, _, _, .lastStmt (r := r) hs hr => fun ts cs2 r2 ns hT hh hq hO hN => by
    subst hT
    cases hO with
    | none hno =>
      exfalso
      obtain ⟨t, ts', rfl, ht⟩ := hh
      have := (NI.none hN ht).2
      cases ts' <;> simp at this
    | some h =>
      obtain ⟨rfl, rfl⟩ := hs.det h (hasEof_concat he)
      cases hN with
      | more ht _ => exact absurd ht (hr _ rfl)
      | stop _ =>
        obtain ⟨r', h1, h2⟩ := hs.swap (X := X) he hn hn2 rfl hq
        have hr' : r' = [] := by
          have := congrArg List.length h1
          simpa using this
        subst hr'
        have := DI.more h2 hn (.more hn2 (.stop hX)) hd
        simpa using this
  | _, _, _, .more (s := c) (t := t) (r := r) (ns := ms) (r1 := r1) (cs := cs) hs ht hm h =>
    fun ts cs2 r2 ns hT hh hq hO hN => by
      have hq' : NoUnclosed [] (c :: (.leaf .newline t.loc :: ms ++ (cs ++ cs2))) := by simpa using hq
      obtain ⟨q, h1, h2⟩ := hs.swap (X := X) he hn hn2 hT hq'.cons.1
      obtain ⟨q1, rfl, h3⟩ := cons_eq_concat h1 (ne_of_kind he (by simp [ht]))
      obtain ⟨q2, hq2, h4, h5⟩ := hm.concat _ h3 he
      rcases q2 with _ | ⟨u, q2⟩
      · have h6 := h5 rfl (n :: n2 :: X) _ _ (.more hn (.more hn2 (.stop hX)))
        rw [hq2] at h
        have : cs = [] ∧ cs2 = [] ∧ ns = [] := by
          cases h with
          | lastStmt h _ => exact absurd h (TI.not_eof he)
          | more h _ _ _ => exact absurd h (TI.not_eof he)
          | noStmt _ =>
            cases hO with
            | some h => exact absurd h (TI.not_eof he)
            | none _ =>
              cases hN with
              | stop _ => exact ⟨rfl, rfl, rfl⟩
              | more h _ => rw [he] at h; cases h
        obtain ⟨rfl, rfl, rfl⟩ := this
        have := DI.more h2 ht h6 hd
        simpa using this
      · have hu : u.kind ≠ .newLine := by
          have : ∀ {T ms r}, NI T ms r → ∀ u ∈ r.head?, u.kind ≠ .newLine := by
            intro T ms r h
            induction h with
            | stop h => exact h
            | more _ _ ih => exact ih
          exact this hm u (by rw [hq2]; rfl)
        have ih := DI.join he hn hn2 hX hd h _ _ _ _ hq2 ⟨u, q2, rfl, hu⟩ (hq'.cons.2.append.2) hO hN
        have := DI.more h2 ht (h4 (by simp) _) ih
        simpa using this

end

end Brack
