import Verif.Proof.TransLoc
import Verif.Proof.TransGrammar

/-
Helper lemmas: the results of the previous files put together for `transform` after `parse`.
-/

namespace Brack

theorem transform_eq {ids cs ds es l} (h : XDoc cs ds es) :
    (CST.astableL ds = true ∧ ∃ a m, transform ids (.node .document cs l) = .ok (a, es) ∧
      AuxSpec ids 0 (.node .document ds l) a m) ∨
    (CST.astableL ds = false ∧ transform ids (.node .document cs l) = .panic) := by
  have hs := h.simplify_document (l := l)
  have ha : (CST.node .document ds l).astable = CST.astableL ds := by
    simp [CST.astable, IKind.toAst]
  rcases hd : CST.astableL ds
  · right
    refine ⟨rfl, ?_⟩
    rw [transform, hs]
    simp only [aux_panic ids _ 0 (by rw [ha, hd])]
  · left
    obtain ⟨a, m, h1, h2⟩ := aux_ok ids _ 0 (by rw [ha, hd])
    refine ⟨rfl, a, m, ?_, h2⟩
    rw [transform, hs]
    simp only [h1]

/-- The situation after a successful `transform`. -/
structure Trans (ids : Nat → Str) (ts : List Token) (c : CST) (a : AST) (es : List TErr)
    (cs ds : List CST) (l : Loc) (m : Nat) : Prop where
  doc : c = .node .document cs l
  rel : XDoc cs ds es
  astable : CST.astableL ds = true
  spec : AuxSpec ids 0 (.node .document ds l) a m
  evs : trace [] ts = CST.evsL [] cs

theorem transform_trans {ids ts c a es} (hp : parse ts = .ok c)
    (ht : transform ids c = .ok (a, es)) : ∃ cs ds l m, Trans ids ts c a es cs ds l m := by
  obtain ⟨cs, l, ds, es', rfl, hx⟩ := (parse_grammar hp).xdoc
  rcases transform_eq (ids := ids) (l := l) hx with ⟨ha, a', m, h1, h2⟩ | ⟨_, h1⟩
  · rw [ht] at h1
    cases h1
    exact ⟨cs, ds, l, m, rfl, hx, ha, h2, by rw [parse_trace hp, evs_document]⟩
  · rw [ht] at h1; cases h1

theorem transform_panic_iff {ids ts c} (hp : parse ts = .ok c) :
    transform ids c = .panic ↔ (trace [] ts).any Event.looseSeparator = true := by
  obtain ⟨cs, l, ds, es', rfl, hx⟩ := (parse_grammar hp).xdoc
  have hl := hx.loose
  rw [parse_trace hp, evs_document]
  rcases transform_eq (ids := ids) (l := l) hx with ⟨ha, a', m, h1, h2⟩ | ⟨ha, h1⟩
  · rw [h1]
    rw [ha] at hl
    simp only [reduceCtorEq, false_iff]
    intro h
    rw [h] at hl
    simp at hl
  · rw [h1]
    rw [ha] at hl
    simpa using hl.symm

theorem transform_ok_or_panic {ids ts c} (hp : parse ts = .ok c) :
    (∃ a es, transform ids c = .ok (a, es)) ∨ transform ids c = .panic := by
  obtain ⟨cs, l, ds, es', rfl, hx⟩ := (parse_grammar hp).xdoc
  rcases transform_eq (ids := ids) (l := l) hx with ⟨ha, a', m, h1, h2⟩ | ⟨ha, h1⟩
  · exact .inl ⟨_, _, h1⟩
  · exact .inr h1

/-! ### kinds of errors -/

theorem XI.kinds : ∀ {c d es}, XI c d es → ∀ e ∈ es,
    e.kind.isContent = true ∨ e.kind = .invalidBackslash ∨ ∃ b, e.kind = .notClosed b := by
  intro c d es h
  refine XI.rec (motive_1 := fun _ _ es _ => ∀ e ∈ es,
      e.kind.isContent = true ∨ e.kind = .invalidBackslash ∨ ∃ b, e.kind = .notClosed b)
    (motive_2 := fun _ _ es _ => ∀ e ∈ es,
      e.kind.isContent = true ∨ e.kind = .invalidBackslash ∨ ∃ b, e.kind = .notClosed b)
    (motive_3 := fun _ _ es _ => ∀ e ∈ es,
      e.kind.isContent = true ∨ e.kind = .invalidBackslash ∨ ∃ b, e.kind = .notClosed b)
    ?_ ?_ ?_ ?_ ?_ ?_ ?_ ?_ ?_ ?_ h
  · simp
  · simp
  · simp
  · intro _ _ _ _ _ _ _ _ ih e he
    rcases List.mem_append.mp he with he | he
    · exact ih e he
    · exact .inl (bracketErrs_err he).1
  · intro b _ _ _ _ _ _ ih e he
    simp only [List.mem_append, List.mem_singleton] at he
    rcases he with (he | rfl) | he
    · exact ih e he
    · exact .inr (.inr ⟨b, rfl⟩)
    · exact .inl (bracketErrs_err he).1
  · simp
  · intro _ _ _ _ _ _ _ _ h1 h2 e he
    rcases List.mem_append.mp he with he | he
    · exact h1 e he
    · exact h2 e he
  · simp
  · intro _ _ _ _ _ _ _ _ _ _ h1 h2 e he
    rcases List.mem_append.mp he with he | he
    · exact h1 e he
    · exact h2 e he
  · intro _ _ _ _ _ h; exact h

theorem XL.kinds : ∀ {cs ds es}, XL cs ds es → ∀ e ∈ es,
    e.kind.isContent = true ∨ e.kind = .invalidBackslash ∨ ∃ b, e.kind = .notClosed b
  | _, _, _, .nil => by simp
  | _, _, _, .cons h hs => by
    intro e he
    rcases List.mem_append.mp he with he | he
    · exact h.kinds e he
    · exact hs.kinds e he

theorem XDoc.kinds {cs ds es} (h : XDoc cs ds es) : ∀ e ∈ es,
    e.kind.isContent = true ∨ e.kind = .invalidBackslash ∨ ∃ b, e.kind = .notClosed b := by
  have hlines : ∀ {cs ds es}, XLines cs ds es → ∀ e ∈ es,
      e.kind.isContent = true ∨ e.kind = .invalidBackslash ∨ ∃ b, e.kind = .notClosed b := by
    intro cs ds es h
    induction h with
    | nil => simp
    | cons h _ ih =>
      intro e he
      rcases List.mem_append.mp he with he | he
      · cases h with
        | close => simp at he
        | newline => simp at he
        | expr _ h => exact h.kinds e he
      · exact ih e he
  induction h with
  | nil => simp
  | cons h _ ih =>
    intro e he
    rcases List.mem_append.mp he with he | he
    · cases h with
      | eof => simp at he
      | newline => simp at he
      | stmt h => exact hlines h e he
    · exact ih e he

/-! ### separators outside brackets, from the token list -/

/-- Is this a dot, comma or space token? -/
def isSepKind : TokKind → Bool
  | .dot | .comma | .whiteSpace => true
  | _ => false

/-- If separators occur at positive depth only, and brackets are neither escaped nor left unclosed
before the end, no separator is outside all brackets. -/
theorem trace_no_loose : ∀ (n : Nat) (ts st : List Token) (d : Int), ts.length ≤ n →
    d ≤ st.length →
    (∀ pre t post, ts = pre ++ t :: post → isSepKind t.kind = true → 0 < d + depth pre) →
    UnclosedAtEnd (trace st ts) → (∀ e ∈ trace st ts, e.escapedOpen = false) →
    (trace st ts).any Event.looseSeparator = false := by
  intro n
  induction n with
  | zero =>
    intro ts st d hn hd hsep hb hesc
    rcases ts with _ | ⟨t, ts⟩
    · simp [trace, Event.looseSeparator]
    · simp at hn
  | succ n ih =>
    intro ts st d hn hd hsep hb hesc
    rcases ts with _ | ⟨t, ts⟩
    · simp [trace, Event.looseSeparator]
    simp only [List.length_cons, Nat.add_le_add_iff_right] at hn
    have hsep' : ∀ pre u post, ts = pre ++ u :: post → isSepKind u.kind = true →
        0 < (d + depth [t]) + depth pre := by
      intro pre u post e hu
      have := hsep (t :: pre) u post (by simp [e]) hu
      rw [depth_cons] at this
      omega
    have hun : (st.map Event.unclosed).any Event.looseSeparator = false := by
      rw [List.any_map]
      simp [Event.looseSeparator]
    have htail : ∀ e0 evs, trace st (t :: ts) = e0 :: evs → (∀ o, e0 ≠ .unclosed o) →
        UnclosedAtEnd evs ∧ ∀ e ∈ evs, e.escapedOpen = false := by
      intro e0 evs htr h0
      rw [htr] at hb hesc
      obtain ⟨body, rest, e, hbody⟩ := hb
      refine ⟨?_, fun e he => hesc e (by simp [he])⟩
      rcases body with _ | ⟨x, body⟩
      · rcases rest with _ | ⟨r, rest⟩
        · simp at e
        · simp only [List.nil_append, List.map_cons, List.cons.injEq] at e
          exact absurd e.1 (h0 r)
      · simp only [List.cons_append, List.cons.injEq] at e
        exact ⟨body, rest, e.2, fun y hy => hbody y (by simp [hy])⟩
    have hplain : trace st (t :: ts) = .plain st t :: trace st ts →
        depth [t] = 0 → (trace st (t :: ts)).any Event.looseSeparator = false := by
      intro htr hd0
      have h0 : Event.looseSeparator (.plain st t) = false := by
        rcases hst : st with _ | ⟨o, st'⟩
        · have hpos := hsep [] t ts rfl
          simp only [depth, List.map_nil, List.sum_nil, Int.add_zero] at hpos
          rw [hst] at hd
          simp only [List.length_nil] at hd
          obtain ⟨k, l⟩ := t
          cases k <;> first | rfl | (exfalso; have := hpos rfl; omega)
        · rfl
      obtain ⟨h1, h2⟩ := htail _ _ htr (by simp)
      rw [htr, List.any_cons, h0, Bool.false_or]
      rw [hd0, Int.add_zero] at hsep'
      exact ih ts st d hn hd hsep' h1 h2
    obtain ⟨k, l⟩ := t
    rcases k with _ | v | v | v | _ | _ | _ | _ | b | b | _ | _
    · simp only [trace]; exact hun
    · exact hplain (by simp [trace]) rfl
    · exact hplain (by simp [trace]) rfl
    · exact hplain (by simp [trace]) rfl
    · exact hplain (by simp [trace]) rfl
    · exact hplain (by simp [trace]) rfl
    · exact hplain (by simp [trace]) rfl
    · -- backslash
      have hd0 : depth [⟨.backSlash, l⟩] = 0 := rfl
      rw [hd0, Int.add_zero] at hsep'
      rcases ts with _ | ⟨u, us⟩
      · rw [trace]
        simp only [List.any_cons, hun, Bool.or_false]
        rfl
      · rcases hu : escapedChar u.kind with _ | c
        · have htr : trace st (⟨.backSlash, l⟩ :: u :: us) =
              .stray st ⟨.backSlash, l⟩ :: trace st (u :: us) := by simp [trace, hu]
          obtain ⟨h1, h2⟩ := htail _ _ htr (by simp)
          rw [htr, List.any_cons]
          exact ih _ st d hn hd hsep' h1 h2
        · have htr : trace st (⟨.backSlash, l⟩ :: u :: us) =
              .escape st ⟨.backSlash, l⟩ c u :: trace st us := by simp [trace, hu]
          obtain ⟨h1, h2⟩ := htail _ _ htr (by simp)
          have hne : ∀ b, u.kind ≠ .bopen b := by
            intro b hb'
            have := hesc (.escape st ⟨.backSlash, l⟩ c u) (by rw [htr]; simp)
            obtain ⟨uk, ul⟩ := u
            cases hb'
            simp [Event.escapedOpen] at this
          have hle : depth [u] ≤ 0 := by
            obtain ⟨uk, ul⟩ := u
            cases uk <;> simp [depth]
            exact absurd rfl (hne _)
          rw [htr, List.any_cons]
          refine ih us st (d + depth [u]) (by simp at hn; omega) (by omega) ?_ h1 h2
          intro pre t post e ht
          have := hsep' (u :: pre) t post (by simp [e]) ht
          rw [depth_cons] at this
          omega
    · -- opening bracket
      have htr : trace st (⟨.bopen b, l⟩ :: ts) = trace (⟨.bopen b, l⟩ :: st) ts := by
        simp [trace]
      rw [htr] at hb hesc ⊢
      have hd1 : depth [⟨.bopen b, l⟩] = 1 := rfl
      rw [hd1] at hsep'
      exact ih ts _ (d + 1) hn (by simp; omega) hsep' hb hesc
    · -- closing bracket
      have hd1 : depth [⟨.bclose b, l⟩] = -1 := rfl
      rw [hd1] at hsep'
      rcases st with _ | ⟨o, st⟩
      · have htr : trace [] (⟨.bclose b, l⟩ :: ts) = .unopened ⟨.bclose b, l⟩ :: trace [] ts := by
          simp [trace]
        obtain ⟨h1, h2⟩ := htail _ _ htr (by simp)
        rw [htr, List.any_cons]
        refine ih ts [] (d + -1) hn ?_ hsep' h1 h2
        simp only [List.length_nil, Int.natCast_zero] at hd ⊢
        omega
      · by_cases ho : o.kind = .bopen b
        · have htr : trace (o :: st) (⟨.bclose b, l⟩ :: ts) =
              .closed o ⟨.bclose b, l⟩ :: trace st ts := by
            simp [trace, ho]
          obtain ⟨h1, h2⟩ := htail _ _ htr (by simp)
          rw [htr, List.any_cons]
          refine ih ts st (d + -1) hn ?_ hsep' h1 h2
          simp only [List.length_cons] at hd
          omega
        · exfalso
          have htr : ∃ x ∈ trace (o :: st) (⟨.bclose b, l⟩ :: ts), (∀ o, x ≠ .unclosed o) := by
            simp only [trace]
            rcases hdw : (o :: st).dropWhile (fun o => o.kind ≠ .bopen b) with _ | ⟨o', st'⟩
            · simp only [hdw]
              exact ⟨.unopened ⟨.bclose b, l⟩, by simp, by simp⟩
            · simp only [hdw]
              exact ⟨.closed o' ⟨.bclose b, l⟩, by simp, by simp⟩
          have hhd : ∃ evs, trace (o :: st) (⟨.bclose b, l⟩ :: ts) = .unclosed o :: evs := by
            simp [trace, ho]
          obtain ⟨body, rest, e, hbody⟩ := hb
          obtain ⟨evs, he⟩ := hhd
          rcases body with _ | ⟨x, body⟩
          · obtain ⟨x, hx, hx'⟩ := htr
            rw [e] at hx
            simp only [List.nil_append, List.mem_map] at hx
            obtain ⟨r, _, rfl⟩ := hx
            exact hx' r rfl
          · rw [he] at e
            simp only [List.cons_append, List.cons.injEq] at e
            exact hbody x (by simp) o e.1.symm
    · exact hplain (by simp [trace]) rfl
    · simp only [trace]; exact hun

end Brack
