import Verif.Proof.Blank
import Verif.Proof.TransTrace

/-
Helper lemmas: parsing and transforming token lists that differ in blanks after a comma or a space token.
-/

namespace Brack

/-! ### token lists -/

/-- Space or line end. -/
def TokKind.isBlank : TokKind → Bool
  | .whiteSpace | .newLine => true
  | _ => false

/-- Comma or space. -/
def TokKind.isSep : TokKind → Bool
  | .whiteSpace | .comma => true
  | _ => false

/-- The second list has the tokens of the first, and further blanks after commas and spaces that are not
escaped. -/
inductive Spaced : List Token → List Token → Prop
  | nil : Spaced [] []
  | cons {t t' ts ts'} : t.kind ≠ .backSlash → t'.kind = t.kind → Spaced ts ts' → Spaced (t :: ts) (t' :: ts')
  | alone {t t'} : t.kind = .backSlash → t'.kind = .backSlash → Spaced [t] [t']
  | esc {t t' u u' ts ts'} : t.kind = .backSlash → t'.kind = .backSlash → u'.kind = u.kind → Spaced ts ts' →
      Spaced (t :: u :: ts) (t' :: u' :: ts')
  | ins {t t' x ts ts'} : t.kind.isSep = true → t'.kind = t.kind → x.kind.isBlank = true → Spaced ts ts' →
      Spaced (t :: ts) (t' :: x :: ts')

theorem TokKind.isSep_ne {k k' : TokKind} (h : k.isSep = true) (h' : k'.isSep = false) : k ≠ k' := by
  rintro rfl; rw [h] at h'; cases h'

theorem Spaced.head {T T'} (h : Spaced T T') : SameHead T T' := by
  cases h with
  | nil => rfl
  | cons _ hk => simp [SameHead, hk]
  | alone h h' => simp [SameHead, h, h']
  | esc h h' => simp [SameHead, h, h']
  | ins _ hk => simp [SameHead, hk]

theorem Spaced.hasEof {T T'} (h : Spaced T T') : HasEof T → HasEof T' := by
  induction h with
  | nil => exact id
  | cons _ hk _ ih =>
    rintro ⟨t, ht, he⟩
    rcases List.mem_cons.mp ht with rfl | ht
    · exact ⟨_, List.mem_cons_self, by rw [hk, he]⟩
    · exact (ih ⟨t, ht, he⟩).cons
  | alone h _ => exact fun he => absurd (he.tail (by simp [h])) not_hasEof_nil
  | esc h _ hk _ ih =>
    intro he
    obtain ⟨t, ht, hu⟩ := he.tail (by simp [h])
    rcases List.mem_cons.mp ht with rfl | ht
    · next hu => exact ⟨_, List.mem_cons_of_mem _ List.mem_cons_self, by rw [hk]; exact hu⟩
    · next hu => exact (ih ⟨t, ht, hu⟩).cons.cons
  | ins h _ _ _ ih => exact fun he => (ih (he.tail (TokKind.isSep_ne h rfl))).cons.cons

/-- A list whose first token is neither a separator nor a backslash. -/
theorem Spaced.uncons {t : Token} {ts T'} (h : Spaced (t :: ts) T') (hn : t.kind.isSep = false) (hb : t.kind ≠ .backSlash) :
    ∃ t' ts', T' = t' :: ts' ∧ t'.kind = t.kind ∧ Spaced ts ts' := by
  cases h with
  | cons _ hk hp => exact ⟨_, _, rfl, hk, hp⟩
  | alone h => exact absurd h hb
  | esc h => exact absurd h hb
  | ins h => rw [h] at hn; cases hn

/-- A list whose first token is a backslash. -/
theorem Spaced.unesc {t u : Token} {us T'} (h : Spaced (t :: u :: us) T') (hb : t.kind = .backSlash) :
    ∃ t' u' us', T' = t' :: u' :: us' ∧ t'.kind = .backSlash ∧ u'.kind = u.kind ∧ Spaced us us' := by
  cases h with
  | cons h _ _ => exact absurd hb h
  | esc _ h2 h3 h4 => exact ⟨_, _, _, rfl, h2, h3, h4⟩
  | ins h => rw [hb] at h; cases h

theorem StopAt.spaced {T T'} (h : StopAt T) (hp : Spaced T T') (he : HasEof T) : StopAt T' :=
  .of_items (hp.head.all (p := fun k => itemStop k = true) (h.items he))

theorem NoLine.spaced {T T'} (h : NoLine T) (hp : Spaced T T') (he : HasEof T) : NoLine T' :=
  fun _ => hp.head.all (p := fun k => k = .newLine ∨ k = .eof ∨ k = .empty) (h he)

/-! ### separators outside all brackets -/

theorem any_unclosed (st : List Token) : (st.map Event.unclosed).any Event.looseSeparator = false := by
  induction st with
  | nil => rfl
  | cons t st ih => simp [ih, Event.looseSeparator]

theorem loose_plain {st st' : List Token} {t t' : Token} (hs : st'.map Token.kind = st.map Token.kind) (hk : t'.kind = t.kind) :
    (Event.plain st' t').looseSeparator = (Event.plain st t).looseSeparator := by
  obtain ⟨k, l⟩ := t
  obtain ⟨k', l'⟩ := t'
  obtain rfl : k' = k := hk
  rcases st with _ | ⟨s, st⟩
  · have : st' = [] := by simpa using hs
    subst this
    cases k' <;> rfl
  · rcases st' with _ | ⟨s', st'⟩
    · simp at hs
    · cases k' <;> rfl

theorem drop_kinds {st st' : List Token} (b : Bracket) (hs : st'.map Token.kind = st.map Token.kind) :
    (st'.dropWhile (fun o => decide (o.kind ≠ .bopen b))).map Token.kind =
      (st.dropWhile (fun o => decide (o.kind ≠ .bopen b))).map Token.kind := by
  induction st generalizing st' with
  | nil =>
    have : st' = [] := by simpa using hs
    subst this; rfl
  | cons s st ih =>
    rcases st' with _ | ⟨s', st'⟩
    · simp at hs
    · simp only [List.map_cons, List.cons.injEq] at hs
      simp only [List.dropWhile_cons, hs.1]
      split
      · exact ih hs.2
      · simp [hs.1, hs.2]

theorem loose_step {t t' : Token} {ts ts'} (hb : t.kind ≠ .backSlash) (hk : t'.kind = t.kind)
    (ih : ∀ {st st' : List Token}, st'.map Token.kind = st.map Token.kind →
      (trace st' ts').any Event.looseSeparator = (trace st ts).any Event.looseSeparator) {st st' : List Token}
    (hs : st'.map Token.kind = st.map Token.kind) :
    (trace st' (t' :: ts')).any Event.looseSeparator = (trace st (t :: ts)).any Event.looseSeparator := by
  have hl := loose_plain hs hk
  have hi := ih hs
  obtain ⟨k, l⟩ := t
  obtain ⟨k', l'⟩ := t'
  obtain rfl : k' = k := hk
  cases k'
  case bopen b => simp only [trace]; exact ih (by simp [hs])
  case bclose b =>
    have hd := drop_kinds b hs
    simp only [trace, List.any_append]
    rw [any_unclosed, any_unclosed]
    simp only [Bool.false_or]
    generalize List.dropWhile (fun o : Token => decide (o.kind ≠ TokKind.bopen b)) st' = xs' at hd ⊢
    generalize List.dropWhile (fun o : Token => decide (o.kind ≠ TokKind.bopen b)) st = xs at hd ⊢
    rcases xs with _ | ⟨o, xs⟩
    · have : xs' = [] := by simpa using hd
      subst this
      simp [ih (st := []) (st' := []) rfl, Event.looseSeparator]
    · rcases xs' with _ | ⟨o', xs'⟩
      · simp at hd
      · simp only [List.map_cons, List.cons.injEq] at hd
        simp [ih hd.2, Event.looseSeparator]
  case backSlash => exact absurd rfl hb
  all_goals
    simp only [trace, any_unclosed, List.any_cons, hl, hi]

theorem escapable_backSlash {u : Token} (h : escapable u.kind = none) : u.kind ≠ .backSlash := by
  rintro e; rw [e] at h; cases h

theorem Spaced.loose {T T'} (h : Spaced T T') : ∀ {st st'}, st'.map Token.kind = st.map Token.kind →
    (trace st' T').any Event.looseSeparator = (trace st T).any Event.looseSeparator := by
  induction h with
  | nil => intro st st' _; simp only [trace, any_unclosed]
  | cons hb hk _ ih => intro st st' hs; exact loose_step hb hk ih hs
  | @alone t t' h h' =>
    intro st st' _
    obtain ⟨k, l⟩ := t
    obtain ⟨k', l'⟩ := t'
    cases h; cases h'
    simp only [trace, List.any_cons, any_unclosed, Event.looseSeparator]
  | @esc t t' u u' ts ts' h h' hk hsp ih =>
    intro st st' hs
    rcases hv : escapable u.kind with _ | v
    · rw [trace_escN h hv, trace_escN h' (by rw [hk]; exact hv), List.any_append, List.any_append,
        loose_step (escapable_backSlash hv) hk ih hs]
      simp [CST.evs, escEvs, Event.looseSeparator]
    · rw [trace_esc h hv, trace_esc h' (by rw [hk]; exact hv), List.any_append, List.any_append, ih hs]
      obtain ⟨c, rfl, _, h2, _⟩ := escapedChar_some hv
      simp [CST.evs, escEvs, Event.looseSeparator, h2]
  | @ins t t' x ts ts' h hk hx _ ih =>
    intro st st' hs
    have hi := ih hs
    obtain ⟨k, l⟩ := t
    obtain ⟨k', l'⟩ := t'
    obtain ⟨kx, lx⟩ := x
    obtain rfl : k' = k := hk
    have hst : st'.isEmpty = st.isEmpty := by
      rcases st with _ | ⟨s, st⟩ <;> rcases st' with _ | ⟨s', st'⟩ <;> simp at hs ⊢
    rcases st with _ | ⟨s, st⟩ <;> rcases st' with _ | ⟨s', st'⟩ <;> simp at hst <;>
    cases k' <;> simp [TokKind.isSep] at h <;> cases kx <;> simp [TokKind.isBlank] at hx <;>
      simp [trace, hi, Event.looseSeparator]

/-! ### children of a bracket -/

/-- Children of a bracket, with further blanks after commas and spaces. -/
inductive SpacedKids : List CST → List CST → Prop
  | nil : SpacedKids [] []
  | cons {c c' cs cs'} : Twin c c' → SpacedKids cs cs' → SpacedKids (c :: cs) (c' :: cs')
  | ins {k l l' x cs cs'} : k = .comma ∨ k = .whitespace → x.isBlank = true → SpacedKids cs cs' →
      SpacedKids (.leaf k l :: cs) (.leaf k l' :: x :: cs')

theorem SpacedKids.append {cs cs' ds ds'} (h : SpacedKids cs cs') (h' : SpacedKids ds ds') :
    SpacedKids (cs ++ ds) (cs' ++ ds') := by
  induction h with
  | nil => exact h'
  | cons h _ ih => exact .cons h ih
  | ins hk hx _ ih => exact .ins hk hx ih

theorem SpacedKids.removeBlanks {cs cs'} (h : SpacedKids cs cs') :
    EachTree Twin (Brack.removeBlanks cs) (Brack.removeBlanks cs') := by
  induction h with
  | nil => exact .nil
  | @cons c c' cs cs' h _ ih =>
    unfold Brack.removeBlanks at ih ⊢
    have := tag_isBlank h.tag
    by_cases hc : c.isBlank = true
    · rw [List.filter_cons_of_neg (by simp [hc]), List.filter_cons_of_neg (by simp [this, hc])]
      exact ih
    · rw [List.filter_cons_of_pos (by simp [hc]), List.filter_cons_of_pos (by simp [this, hc])]
      exact .cons h ih
  | @ins k l l' x cs cs' hk hx _ ih =>
    unfold Brack.removeBlanks at ih ⊢
    rcases hk with rfl | rfl
    · rw [List.filter_cons_of_pos rfl, List.filter_cons_of_pos rfl, List.filter_cons_of_neg (by simp [hx])]
      exact .cons (.leaf _ _ _) ih
    · rw [List.filter_cons_of_neg (by simp [CST.isBlank]), List.filter_cons_of_neg (by simp [CST.isBlank]),
        List.filter_cons_of_neg (by simp [hx])]
      exact ih

theorem CST.isDot_of_isBlank {c : CST} (h : c.isBlank = true) : c.isDot = false := by
  rcases c with ⟨k, l⟩ | ⟨k, cs, l⟩
  · cases k <;> simp [CST.isBlank] at h <;> rfl
  · simp [CST.isBlank] at h

theorem SpacedKids.dots {cs cs'} (h : SpacedKids cs cs') :
    (∀ c ∈ cs, c.isDot = false) ↔ ∀ c ∈ cs', c.isDot = false := by
  induction h with
  | nil => simp
  | cons h _ ih => simp [tag_isDot h.tag, ih]
  | ins hk hx _ ih =>
    have hd := CST.isDot_of_isBlank hx
    rcases hk with rfl | rfl <;> simp only [List.forall_mem_cons, hd, ih, true_and] <;> simp [CST.isDot]

theorem SpacedKids.named {b b' cs cs'} (h : SpacedKids cs cs') : NamedHead (b :: cs) ↔ NamedHead (b' :: cs') := by
  cases h with
  | nil => simp [NamedHead]
  | ins hk _ _ => rcases hk with rfl | rfl <;> simp [NamedHead, CST.isModuleOrAngle]
  | cons h1 h =>
    cases h with
    | nil => simp [NamedHead, tag_isModuleOrAngle h1.tag]
    | ins hk _ _ => rcases hk with rfl | rfl <;> simp [NamedHead, CST.isDot]
    | cons h2 h =>
      cases h with
      | nil => simp [NamedHead, tag_isModuleOrAngle h1.tag, tag_isDot h2.tag]
      | ins hk _ _ => rcases hk with rfl | rfl <;> simp [NamedHead, CST.isIdentOrAngle]
      | cons h3 h =>
        have := h.dots
        simp [NamedHead, tag_isModuleOrAngle h1.tag, tag_isDot h2.tag, tag_isIdentOrAngle h3.tag, tag_isDot h3.tag, this]

theorem SpacedKids.bracketKids {cs cs'} (h : SpacedKids cs cs') :
    EachTree Twin (Brack.bracketKids cs) (Brack.bracketKids cs') :=
  (checkValidArguments_twin h.removeBlanks).1.filter (fun c c' h => by rw [tag_notInAst h.tag])

theorem SpacedKids.bracketErrs {b b' cs cs'} (hb : Twin b b') (h : SpacedKids cs cs') :
    Brack.bracketErrs (b :: cs) = [] ↔ Brack.bracketErrs (b' :: cs') = [] := by
  rw [bracketErrs_nil, bracketErrs_nil, h.named (b := b) (b' := b'),
    (checkValidArguments_twin (SpacedKids.cons hb h).removeBlanks).2]

/-! ### the body of a bracket without the expressions it is divided into -/

/-- `FI ts ds es r`: the body of a bracket that starts at `ts` and stops at `r` is simplified to `ds` with
errors `es`. -/
inductive FI : List Token → List CST → List TErr → List Token → Prop
  | stop {ts} : StopAt ts → (∀ t ∈ ts.head?, t.kind ≠ .newLine) → FI ts [] [] ts
  | newline {t ts ds es r} : t.kind = .newLine → FI ts ds es r → FI (t :: ts) (.leaf .newline t.loc :: ds) es r
  | leaf {t ts k ds es r} : exprLeaf t.kind = some k → FI ts ds es r → FI (t :: ts) (.leaf k t.loc :: ds) es r
  | esc {t u us v ds es r} : t.kind = .backSlash → escapable u.kind = some v → FI us ds es r →
      FI (t :: u :: us) (.leaf (.text v) u.loc :: ds) es r
  | escN {t u us ds es r} : t.kind = .backSlash → escapable u.kind = none → FI (u :: us) ds es r →
      FI (t :: u :: us) (.leaf .invalid t.loc :: ds) (⟨.invalidBackslash, t.loc⟩ :: es) r
  | bclosed {t ts b ds es u us ds' es' r} : t.kind = .bopen b → FI ts ds es (u :: us) → u.kind = .bclose b →
      FI us ds' es' r →
      FI (t :: ts) (.node (.bracket b) (bracketKids (.leaf (.bopen b) t.loc :: ds ++ [.leaf (.bclose b) u.loc]))
          ⟨t.loc.start, u.loc.stop⟩ :: ds')
        ((es ++ bracketErrs (.leaf (.bopen b) t.loc :: ds ++ [.leaf (.bclose b) u.loc])) ++ es') r
  | bunclosed {t ts b ds es u us ds' es' r} : t.kind = .bopen b → FI ts ds es (u :: us) → u.kind ≠ .bclose b →
      FI (u :: us) ds' es' r →
      FI (t :: ts) (.node (.bracket b) (bracketKids (.leaf (.bopen b) t.loc :: ds)) ⟨t.loc.start, u.loc.stop⟩ :: ds')
        ((es ++ [notClosedErr b t.loc ds] ++ bracketErrs (.leaf (.bopen b) t.loc :: ds)) ++ es') r

mutual

theorem EI.flat : ∀ {T cs r}, EI T cs r → ∀ {ds0 es0 r0}, FI r ds0 es0 r0 →
    ∃ ds es, XL cs ds es ∧ FI T (ds ++ ds0) (es ++ es0) r0
  | _, _, _, .stop _, ds0, es0, r0, h0 => ⟨[], [], .nil, h0⟩
  | _, _, _, .leaf hk h, ds0, es0, r0, h0 => by
    obtain ⟨ds, es, h1, h2⟩ := h.flat h0
    exact ⟨_, _, .cons (.leaf (exprLeaf_tok hk).2) h1, .leaf hk h2⟩
  | _, _, _, .esc ht hu h, ds0, es0, r0, h0 => by
    obtain ⟨ds, es, h1, h2⟩ := h.flat h0
    obtain ⟨c, hv, hm, _⟩ := escapable_tok hu
    have h3 := FI.esc ht hu h2
    subst hv
    exact ⟨_, _, .cons (.escaped hm) h1, h3⟩
  | _, _, _, .escN ht hu h, ds0, es0, r0, h0 => by
    obtain ⟨ds, es, h1, h2⟩ := h.flat h0
    exact ⟨_, _, .cons .stray h1, .escN ht hu h2⟩
  | _, _, _, .bclosed ht hb hu h, ds0, es0, r0, h0 => by
    obtain ⟨ds, es, h1, h2⟩ := h.flat h0
    obtain ⟨ds1, es1, h3, h4⟩ := hb.flat
    have h5 := FI.bclosed ht h4 hu h2
    rw [bracketNode_closed hu]
    refine ⟨_, _, .cons (.closed h3) h1, ?_⟩
    rw [List.append_assoc]
    exact h5
  | _, _, _, .bunclosed ht hb hu h, ds0, es0, r0, h0 => by
    obtain ⟨ds, es, h1, h2⟩ := h.flat h0
    obtain ⟨ds1, es1, h3, h4⟩ := hb.flat
    have h5 := FI.bunclosed ht h4 hu h2
    rw [bracketNode_unclosed hu]
    refine ⟨_, _, .cons (.unclosed h3) h1, ?_⟩
    rw [List.append_assoc]
    exact h5

theorem BI.flat : ∀ {T cs r}, BI T cs r → ∃ ds es, XB cs ds es ∧ FI T ds es r
  | _, _, _, .stop hs hn => ⟨[], [], .nil, .stop hs hn⟩
  | _, _, _, .expr h hb => by
    obtain ⟨ds, es, h1, h2⟩ := hb.flat
    obtain ⟨ds1, es1, h3, h4⟩ := h.flat h2
    exact ⟨_, _, .expr (by simp) h3 h1, h4⟩
  | _, _, _, .newline ht hb => by
    obtain ⟨ds, es, h1, h2⟩ := hb.flat
    exact ⟨_, _, .newline h1, .newline ht h2⟩

end

/-- An item before the body of a bracket. -/
theorem BI.push {T ts cs r c d es ds es'} (hb : BI ts cs r) (hf : ∀ {cs0 r0}, EI ts cs0 r0 → EI T (c :: cs0) r0) (hx : XI c d es)
    (hxb : XB cs ds es') : ∃ cs', BI T cs' r ∧ XB cs' (d :: ds) (es ++ es') := by
  cases hb with
  | stop hs hn =>
    cases hxb
    refine ⟨_, .expr (hf (.stop hs)) (.stop hs hn), ?_⟩
    have := XB.expr (l := (exprNode c []).loc) (by simp) (.cons hx .nil) .nil
    simpa [exprNode, CST.loc] using this
  | newline ht hb =>
    refine ⟨_, .expr (hf (.stop (.newLine ht))) (.newline ht hb), ?_⟩
    have := XB.expr (l := (exprNode c []).loc) (by simp) (.cons hx .nil) hxb
    simpa [exprNode, CST.loc] using this
  | @expr _ c1 cs1 _ _ _ h hb =>
    cases hxb with
    | expr hne hxl hxb =>
      refine ⟨_, .expr (hf h) hb, ?_⟩
      have := XB.expr (l := (exprNode c (c1 :: cs1)).loc) (by simp) (.cons hx hxl) hxb
      simpa [exprNode, CST.loc] using this

theorem FI.body {T ds es r} (h : FI T ds es r) : ∃ cs, BI T cs r ∧ XB cs ds es := by
  induction h with
  | stop hs hn => exact ⟨_, .stop hs hn, .nil⟩
  | newline ht _ ih =>
    obtain ⟨cs, h1, h2⟩ := ih
    exact ⟨_, .newline ht h1, .newline h2⟩
  | leaf hk _ ih =>
    obtain ⟨cs, h1, h2⟩ := ih
    exact h1.push (.leaf hk) (.leaf (exprLeaf_tok hk).2) h2
  | @esc t u us v ds es r ht hu _ ih =>
    obtain ⟨cs, h1, h2⟩ := ih
    obtain ⟨c, hv, hm, _⟩ := escapable_tok hu
    have h3 := fun cs0 r0 => @EI.esc t u us v cs0 r0 ht hu
    subst hv
    exact h1.push (h3 _ _) (.escaped hm) h2
  | escN ht hu _ ih =>
    obtain ⟨cs, h1, h2⟩ := ih
    exact h1.push (.escN ht hu) .stray h2
  | bclosed ht _ hu _ ih1 ih2 =>
    obtain ⟨cs, h1, h2⟩ := ih1
    obtain ⟨cs', h3, h4⟩ := ih2
    have h5 := fun cs0 r0 => @EI.bclosed _ _ _ _ _ _ cs0 r0 ht h1 hu
    rw [bracketNode_closed hu] at h5
    exact h3.push (h5 _ _) (.closed h2) h4
  | bunclosed ht _ hu _ ih1 ih2 =>
    obtain ⟨cs, h1, h2⟩ := ih1
    obtain ⟨cs', h3, h4⟩ := ih2
    have h5 := fun cs0 r0 => @EI.bunclosed _ _ _ _ _ _ cs0 r0 ht h1 hu
    rw [bracketNode_unclosed hu] at h5
    exact h3.push (h5 _ _) (.unclosed h2) h4

theorem FI.suffix {T ds es r} (h : FI T ds es r) (he : HasEof T) : HasEof r := by
  obtain ⟨cs, h1, _⟩ := h.body
  exact h1.suffix.1.mp he

/-- A blank in the body of a bracket. -/
theorem FI.blank {x : Token} {T ds es r} (hx : x.kind.isBlank = true) (h : FI T ds es r) :
    ∃ c : CST, c.isBlank = true ∧ FI (x :: T) (c :: ds) es r := by
  rcases hk : x.kind <;> rw [hk] at hx <;> simp [TokKind.isBlank] at hx
  · exact ⟨_, rfl, .newline hk h⟩
  · exact ⟨_, rfl, .leaf (k := .whitespace) (by rw [hk]; rfl) h⟩

theorem FI.spaced {T ds es r} (h : FI T ds es r) : ∀ {T'}, Spaced T T' → HasEof T →
    ∃ ds' es' r', FI T' ds' es' r' ∧ Spaced r r' ∧ SpacedKids ds ds' ∧ (es = [] ↔ es' = []) := by
  induction h with
  | stop hs hn =>
    intro T' hp he
    exact ⟨[], [], T', .stop (hs.spaced hp he) (hp.head.all (p := (· ≠ .newLine)) hn), hp, .nil, Iff.rfl⟩
  | newline ht _ ih =>
    intro T' hp he
    obtain ⟨t', ts', rfl, hk, hp⟩ := hp.uncons (by rw [ht]; rfl) (by simp [ht])
    obtain ⟨ds', es', r', h1, h2, h3, h4⟩ := ih hp (he.tail (by simp [ht]))
    exact ⟨_, _, _, .newline (by rw [hk, ht]) h1, h2, .cons (.leaf _ _ _) h3, h4⟩
  | @leaf t ts k ds es r hk hf ih =>
    intro T' hp he
    have he1 := he.tail (exprLeaf_ne_eof hk)
    cases hp with
    | cons _ hk' hp =>
      obtain ⟨ds', es', r', h1, h2, h3, h4⟩ := ih hp he1
      exact ⟨_, _, _, .leaf (by rw [hk']; exact hk) h1, h2, .cons (.leaf _ _ _) h3, h4⟩
    | alone h => rw [h] at hk; cases hk
    | esc h => rw [h] at hk; cases hk
    | ins hs hk' hx hp =>
      obtain ⟨ds', es', r', h1, h2, h3, h4⟩ := ih hp he1
      obtain ⟨c, h5, h6⟩ := h1.blank hx
      have hk2 : k = .comma ∨ k = .whitespace := by
        rcases hkk : t.kind <;> rw [hkk] at hs <;> simp [TokKind.isSep] at hs <;> rw [hkk] at hk <;> simp [exprLeaf] at hk <;>
          subst hk <;> simp
      exact ⟨_, _, _, .leaf (by rw [hk']; exact hk) h6, h2, .ins hk2 h5 h3, h4⟩
  | esc ht hu _ ih =>
    intro T' hp he
    obtain ⟨t', u', us', rfl, ht', hk, hp⟩ := hp.unesc ht
    obtain ⟨ds', es', r', h1, h2, h3, h4⟩ := ih hp ((he.tail (by simp [ht])).tail (escapable_ne_eof hu))
    exact ⟨_, _, _, .esc ht' (by rw [hk]; exact hu) h1, h2, .cons (.leaf _ _ _) h3, h4⟩
  | escN ht hu _ ih =>
    intro T' hp he
    obtain ⟨t', u', us', rfl, ht', hk, hp⟩ := hp.unesc ht
    obtain ⟨ds', es', r', h1, h2, h3, h4⟩ := ih (.cons (escapable_backSlash hu) hk hp) (he.tail (by simp [ht]))
    exact ⟨_, _, _, .escN ht' (by rw [hk]; exact hu) h1, h2, .cons (.leaf _ _ _) h3, by simp⟩
  | @bclosed t ts b ds es u us ds1 es1 r ht hf hu _ ih1 ih2 =>
    intro T' hp he
    have he1 := he.tail (by simp [ht])
    obtain ⟨t', ts', rfl, hk, hp⟩ := hp.uncons (by rw [ht]; rfl) (by simp [ht])
    obtain ⟨ds', es', r', h1, h2, h3, h4⟩ := ih1 hp he1
    obtain ⟨u', us', rfl, hk2, hp2⟩ := h2.uncons (by rw [hu]; rfl) (by simp [hu])
    obtain ⟨ds2, es2, r2, k1, k2, k3, k4⟩ := ih2 hp2 ((hf.suffix he1).tail (by simp [hu]))
    have h5 : SpacedKids (ds ++ [.leaf (.bclose b) u.loc]) (ds' ++ [.leaf (.bclose b) u'.loc]) :=
      h3.append (.cons (.leaf _ _ _) .nil)
    have h6 := SpacedKids.cons (Twin.leaf (.bopen b) t.loc t'.loc) h5
    exact ⟨_, _, _, .bclosed (by rw [hk, ht]) h1 (by rw [hk2, hu]) k1, k2, .cons (h6.bracketKids.twin _ _ _) k3,
      nil_iff_append (nil_iff_append h4 (h5.bracketErrs (Twin.leaf (.bopen b) t.loc t'.loc))) k4⟩
  | @bunclosed t ts b ds es u us ds1 es1 r ht hf hu _ ih1 ih2 =>
    intro T' hp he
    have he1 := he.tail (by simp [ht])
    obtain ⟨t', ts', rfl, hk, hp⟩ := hp.uncons (by rw [ht]; rfl) (by simp [ht])
    obtain ⟨ds', es', r', h1, h2, h3, h4⟩ := ih1 hp he1
    obtain ⟨ds2, es2, r2, k1, k2, k3, k4⟩ := ih2 h2 (hf.suffix he1)
    have hh := h2.head
    rcases r' with _ | ⟨u', us'⟩
    · simp [SameHead] at hh
    · simp only [SameHead, List.head?_cons, Option.map_some, Option.some.injEq] at hh
      have h6 := SpacedKids.cons (Twin.leaf (.bopen b) t.loc t'.loc) h3
      exact ⟨_, _, _, .bunclosed (by rw [hk, ht]) h1 (by rw [hh]; exact hu) k1, k2, .cons (h6.bracketKids.twin _ _ _) k3,
        by simp⟩

theorem BI.spaced {T cs r} (h : BI T cs r) {T'} (hp : Spaced T T') (he : HasEof T) :
    ∃ cs' r', BI T' cs' r' ∧ Spaced r r' ∧
      ∃ ds es ds' es', XB cs ds es ∧ XB cs' ds' es' ∧ SpacedKids ds ds' ∧ (es = [] ↔ es' = []) := by
  obtain ⟨ds, es, h1, h2⟩ := h.flat
  obtain ⟨ds', es', r', h3, h4, h5, h6⟩ := h2.spaced hp he
  obtain ⟨cs', h7, h8⟩ := h3.body
  exact ⟨cs', r', h7, h4, ds, es, ds', es', h1, h8, h5, h6⟩

/-! ### lines and documents -/

/-- No dot, comma or space stands outside all brackets. -/
def NoLoose (T : List Token) : Prop := (trace [] T).any Event.looseSeparator = false

theorem NoLoose.rest {T T' evs} (h : NoLoose T) (ht : trace [] T = evs ++ trace [] T') : NoLoose T' := by
  unfold NoLoose at h ⊢
  rw [ht, List.any_append] at h
  simp only [Bool.or_eq_false_iff] at h
  exact h.2

theorem EI.spaced {T cs r} : EI T cs r → ∀ {T'}, Spaced T T' → HasEof T → NoLoose T →
    ∃ cs' r', EI T' cs' r' ∧ Spaced r r' ∧ ItemsAlike cs cs'
  | .stop hs, T', hp, he, _ => ⟨[], T', .stop (hs.spaced hp he), hp, [], [], [], [], .nil, .nil, .nil, Iff.rfl⟩
  | .leaf (t := t) (ts := ts) hk h, T', hp, he, hl => by
    have he1 := he.tail (exprLeaf_ne_eof hk)
    have hn : t.kind.isSep = false := by
      rw [NoLoose, trace_leaf hk, List.any_append] at hl
      simp only [Bool.or_eq_false_iff] at hl
      have hl := hl.1
      obtain ⟨tk, l⟩ := t
      cases tk <;> simp [exprLeaf] at hk <;> subst hk <;>
        simp_all [CST.evs, leafEvs, LKind.tokKind, TokKind.isSep, Event.looseSeparator]
    obtain ⟨t', ts', hT, hk', hp⟩ := hp.uncons hn (by rintro e; rw [e] at hk; cases hk)
    obtain ⟨cs', r', h1, h2, h3⟩ := h.spaced hp he1 (hl.rest (trace_leaf hk []))
    have := (exprLeaf_tok hk).2
    subst hT
    exact ⟨_, _, .leaf (by rw [hk']; exact hk) h1, h2, .cons (.leaf this) (.leaf this) (.leaf _ _ _) Iff.rfl h3⟩
  | .esc ht hu h, T', hp, he, hl => by
    obtain ⟨t', u', us', hT, ht', hk, hp⟩ := hp.unesc ht
    obtain ⟨cs', r', h1, h2, h3⟩ := h.spaced hp ((he.tail (by simp [ht])).tail (escapable_ne_eof hu)) (hl.rest (trace_esc ht hu []))
    obtain ⟨c, hv, hm, _⟩ := escapable_tok hu
    subst hv
    subst hT
    exact ⟨_, _, .esc ht' (by rw [hk]; exact hu) h1, h2, .cons (.escaped hm) (.escaped hm) (.leaf _ _ _) Iff.rfl h3⟩
  | .escN ht hu h, T', hp, he, hl => by
    obtain ⟨t', u', us', hT, ht', hk, hp⟩ := hp.unesc ht
    obtain ⟨cs', r', h1, h2, h3⟩ := h.spaced (.cons (escapable_backSlash hu) hk hp) (he.tail (by simp [ht]))
      (hl.rest (trace_escN ht hu []))
    subst hT
    exact ⟨_, _, .escN ht' (by rw [hk]; exact hu) h1, h2, .cons .stray .stray (.leaf _ _ _) (by simp) h3⟩
  | .bclosed (t := t) (b := b) (u := u) (us := us) ht hb hu h, T', hp, he, hl => by
    have he1 := he.tail (by simp [ht])
    have hl2 : NoLoose us := hl.rest (by rw [trace_open ht, hb.trace he1, trace_close ht hu, List.append_cons])
    obtain ⟨t', ts', hT, hk, hp⟩ := hp.uncons (by rw [ht]; rfl) (by simp [ht])
    obtain ⟨cs', r', h1, h2, ds, es, ds', es', h3, h4, h5, h6⟩ := hb.spaced hp he1
    obtain ⟨u', us', hr, hk2, hp2⟩ := h2.uncons (by rw [hu]; rfl) (by simp [hu])
    subst hr
    obtain ⟨ds2, r2, k1, k2, k3⟩ := h.spaced hp2 ((hb.suffix.1.mp he1).tail (by simp [hu])) hl2
    have hu' : u'.kind = .bclose b := by rw [hk2, hu]
    subst hT
    refine ⟨_, _, .bclosed (by rw [hk, ht]) h1 hu' k1, k2, ?_⟩
    rw [bracketNode_closed hu, bracketNode_closed hu']
    have h7 : SpacedKids (ds ++ [.leaf (.bclose b) u.loc]) (ds' ++ [.leaf (.bclose b) u'.loc]) :=
      h5.append (.cons (.leaf _ _ _) .nil)
    have h8 := SpacedKids.cons (Twin.leaf (.bopen b) t.loc t'.loc) h7
    exact .cons (.closed h3) (.closed h4) (h8.bracketKids.twin _ _ _)
      (nil_iff_append h6 (h7.bracketErrs (Twin.leaf (.bopen b) t.loc t'.loc))) k3
  | .bunclosed (t := t) (b := b) (u := u) (us := us) ht hb hu h, T', hp, he, hl => by
    have he1 := he.tail (by simp [ht])
    have he2 := hb.suffix.1.mp he1
    have hl2 : NoLoose (u :: us) := hl.rest (by
      rw [trace_open ht, hb.trace he1, trace_stop ht (hb.rest_stop.1.stop he2) (hb.rest_stop.2 _ rfl) hu, List.append_cons])
    obtain ⟨t', ts', hT, hk, hp⟩ := hp.uncons (by rw [ht]; rfl) (by simp [ht])
    obtain ⟨cs', r', h1, h2, ds, es, ds', es', h3, h4, h5, h6⟩ := hb.spaced hp he1
    obtain ⟨ds2, r2, k1, k2, k3⟩ := h.spaced h2 he2 hl2
    have hh := h2.head
    rcases r' with _ | ⟨u', us'⟩
    · simp [SameHead] at hh
    · simp only [SameHead, List.head?_cons, Option.map_some, Option.some.injEq] at hh
      have hu' : u'.kind ≠ .bclose b := by rw [hh]; exact hu
      subst hT
      refine ⟨_, _, .bunclosed (by rw [hk, ht]) h1 hu' k1, k2, ?_⟩
      rw [bracketNode_unclosed hu, bracketNode_unclosed hu']
      have h8 := SpacedKids.cons (Twin.leaf (.bopen b) t.loc t'.loc) h5
      exact .cons (.unclosed h3) (.unclosed h4) (h8.bracketKids.twin _ _ _) (by simp) k3

theorem LI.spaced {T c r} (h : LI T c r) {T'} (hp : Spaced T T') (he : HasEof T) (hl : NoLoose T) :
    ∃ c' r', LI T' c' r' ∧ Spaced r r' ∧ ∀ {cs cs'}, LinesAlike cs cs' → LinesAlike (c :: cs) (c' :: cs') := by
  cases h with
  | expr h =>
    obtain ⟨cs', r', h1, h2, ds, es, ds', es', h3, h4, h5, h6⟩ := h.spaced hp he hl
    cases h3 with
    | cons h3 h3' =>
      cases h5 with
      | cons h5 h5' =>
        cases h4 with
        | cons h4 h4' =>
          refine ⟨_, _, .expr h1, h2, ?_⟩
          rintro cs cs' ⟨ds, es, ds', es', k1, k2, k3, k4⟩
          exact ⟨_, _, _, _, .cons (.expr (by simp) (.cons h3 h3')) k1, .cons (.expr (by simp) (.cons h4 h4')) k2,
            .cons ((EachTree.cons h5 h5').twin _ _ _) k3, nil_iff_append h6 k4⟩
  | close ht =>
    obtain ⟨t', ts', rfl, hk, hp⟩ := hp.uncons (by rw [ht]; rfl) (by simp [ht])
    refine ⟨_, _, .close (by rw [hk, ht]), hp, ?_⟩
    rintro cs cs' ⟨ds, es, ds', es', k1, k2, k3, k4⟩
    exact ⟨_, _, _, _, .cons .close k1, .cons .close k2, k3, k4⟩

theorem SI.spaced : ∀ {T cs r}, SI T cs r → ∀ {T'}, Spaced T T' → HasEof T → NoLoose T →
    ∃ cs' r', SI T' cs' r' ∧ Spaced r r' ∧ LinesAlike cs cs'
  | _, _, _, .stop hs, T', hp, he, _ => by
    refine ⟨[], T', .stop ?_, hp, [], [], [], [], .nil, .nil, .nil, Iff.rfl⟩
    intro t ts1 h1 h2
    subst h1
    cases hp with
    | cons _ hk hp =>
      rw [hk] at h2
      exact (hs _ _ rfl h2).spaced hp (he.tail (by simp [h2]))
    | alone _ h => rw [h] at h2; cases h2
    | esc _ h => rw [h] at h2; cases h2
    | ins h hk => rw [hk] at h2; rw [h2] at h; cases h
  | _, _, _, .more ht hl h, T', hp, he, hn => by
    have he1 := he.tail (by simp [ht])
    have hn1 : NoLoose _ := hn.rest (evs := [_]) (trace_newline ht [])
    obtain ⟨t', ts', rfl, hk, hp⟩ := hp.uncons (by rw [ht]; rfl) (by simp [ht])
    obtain ⟨c', r1, h1, h2, h3⟩ := hl.spaced hp he1 hn1
    obtain ⟨cs', r2, h4, h5, h6⟩ := h.spaced h2 (hl.hasEof.mp he1) (hn1.rest (hl.trace he1))
    obtain ⟨ds, es, ds', es', k1, k2, k3, k4⟩ := h3 h6
    exact ⟨_, _, .more (by rw [hk, ht]) h1 h4, h5, _, _, _, _, .cons .newline k1, .cons .newline k2, k3, k4⟩

theorem TI.spaced {T c r} (h : TI T c r) {T'} (hp : Spaced T T') (he : HasEof T) (hn : NoLoose T) :
    ∃ c' r', TI T' c' r' ∧ Spaced r r' ∧ ChildAlike c c' := by
  cases h with
  | @mk c r cs r' hl hs =>
    obtain ⟨c', r1, h1, h2, h3⟩ := hl.spaced hp he hn
    obtain ⟨cs', r2, h4, h5, h6⟩ := hs.spaced h2 (hl.hasEof.mp he) (hn.rest (hl.trace he))
    refine ⟨_, _, .mk h1 h4, h5, ?_⟩
    obtain ⟨ds, es, ds', es', k1, k2, k3, k4⟩ := h3 h6
    obtain ⟨l, e1⟩ := foldl_add_new .stmt (c :: cs)
    obtain ⟨l', e2⟩ := foldl_add_new .stmt (c' :: cs')
    rw [e1, e2]
    exact ⟨_, _, _, _, .stmt k1, .stmt k2, .cons (k3.twin _ _ _) .nil, k4⟩

theorem NI.spaced : ∀ {T ns r}, NI T ns r → ∀ {T'}, Spaced T T' → ∃ ns' r', NI T' ns' r' ∧ Spaced r r'
  | _, _, _, .stop hn, T', hp => ⟨[], T', .stop (hp.head.all (p := (· ≠ .newLine)) hn), hp⟩
  | _, _, _, .more ht h, T', hp => by
    obtain ⟨t', ts', hT, hk, hp⟩ := hp.uncons (by rw [ht]; rfl) (by simp [ht])
    obtain ⟨ns', r', h1, h2⟩ := h.spaced hp
    subst hT
    exact ⟨_, r', .more (by rw [hk, ht]) h1, h2⟩

theorem DI.spaced : ∀ {T cs r}, DI T cs r → ∀ {T'}, Spaced T T' → HasEof T → NoLoose T →
    ∃ cs' r', DI T' cs' r' ∧ Spaced r r' ∧ DocsAlike cs cs'
  | T, _, _, .noStmt hn, T', hp, he, _ => ⟨_, _, .noStmt (hn.spaced hp he), hp, .nil⟩
  | T, _, _, .lastStmt hs hr, T', hp, he, hn => by
    obtain ⟨c', r', h1, h2, h3⟩ := hs.spaced hp he hn
    exact ⟨_, _, .lastStmt h1 (h2.head.all (p := (· ≠ .newLine)) hr), hp, .nil⟩
  | T, _, _, .more (s := s) (t := t) (r := r) (ns := ms) (r1 := r1) hs ht hm h, T', hp, he, hn => by
    have he1 := hs.hasEof.mp he
    have he2 := he1.tail (by simp [ht])
    have hn1 : NoLoose (t :: r) := hn.rest (hs.trace he)
    have hn2 : NoLoose r := hn1.rest (evs := [_]) (trace_newline ht [])
    obtain ⟨s', r', h1, h2, h3⟩ := hs.spaced hp he hn
    obtain ⟨t', ts', hr, hk, h2⟩ := h2.uncons (by rw [ht]; rfl) (by simp [ht])
    obtain ⟨ms', r1', k1, k2⟩ := hm.spaced h2
    obtain ⟨cs', r'', k3, k4, k5⟩ := h.spaced k2 (hm.hasEof.mp he2) (hn2.rest hm.trace)
    subst hr
    refine ⟨_, _, .more h1 (by rw [hk, ht]) k1 k3, k4, ?_⟩
    have hg : GNewlines (.leaf .newline t.loc :: ms) := by
      intro c hc
      rcases List.mem_cons.mp hc with rfl | hc
      · exact ⟨_, rfl⟩
      · exact hm.grammar c hc
    have hg' : GNewlines (.leaf .newline t'.loc :: ms') := by
      intro c hc
      rcases List.mem_cons.mp hc with rfl | hc
      · exact ⟨_, rfl⟩
      · exact k1.grammar c hc
    simpa using (DocsAlike.one h3).append ((DocsAlike.newlines hg hg').append k5)

theorem OI.spaced {T cs r} (h : OI T cs r) {T'} (hp : Spaced T T') (he : HasEof T) (hn : NoLoose T) :
    ∃ cs' r', OI T' cs' r' ∧ Spaced r r' ∧ DocsAlike cs cs' := by
  cases h with
  | none h => exact ⟨_, _, .none (h.spaced hp he), hp, .nil⟩
  | some h =>
    obtain ⟨c', r', h1, h2, h3⟩ := h.spaced hp he hn
    exact ⟨_, _, .some h1, h2, .one h3⟩

/-- Parsing lists that differ in such blanks, if no separator stands outside all brackets. -/
theorem parse_spaced {T T'} (hp : Spaced T T') (he : HasEof T) (hl : NoLoose T) :
    (∃ m m', parse T = .err m ∧ parse T' = .err m') ∨
    ∃ cs l cs' l' ds es ds' es', parse T = .ok (.node .document cs l) ∧ parse T' = .ok (.node .document cs' l') ∧
      XDoc cs ds es ∧ XDoc cs' ds' es' ∧ EachTree Twin ds ds' ∧ (es = [] ↔ es' = []) := by
  have he' := hp.hasEof he
  have key : ∀ {cs r cs2 r2 ns r3}, DI T cs r → OI r cs2 r2 → NI r2 ns r3 → ∃ cs' r' cs2' r2' ns' r3', DI T' cs' r' ∧
      OI r' cs2' r2' ∧ NI r2' ns' r3' ∧ SameHead r3 r3' ∧ DocsAlike (cs ++ cs2 ++ ns) (cs' ++ cs2' ++ ns') := by
    intro cs r cs2 r2 ns r3 hD hO hN
    obtain ⟨cs', r', h1, h2, h3⟩ := hD.spaced hp he hl
    have he1 := hD.hasEof.mp he
    have hl1 : NoLoose r := hl.rest (hD.trace he)
    obtain ⟨cs2', r2', h4, h5, h6⟩ := hO.spaced h2 he1 hl1
    obtain ⟨ns', r3', h7, h8⟩ := hN.spaced h5
    exact ⟨_, _, _, _, _, _, h1, h4, h7, h8.head, (h3.append h6).append (.newlines hN.grammar h7.grammar)⟩
  rcases parse_spec (.inl he) with ⟨c, rest, h1, h2⟩ | ⟨m, cs, r, cs2, r2, ns, r3, h1, hD, hO, hN, hne⟩
  · right
    cases h2 with
    | @mk cs r cs2 r2 ns t rest hD hO hN ht =>
      obtain ⟨cs', r', cs2', r2', ns', r3', k1, k2, k3, k5, k6⟩ := key hD hO hN
      rcases r3' with _ | ⟨t', rest'⟩
      · simp [SameHead] at k5
      simp only [SameHead, List.head?_cons, Option.map_some, Option.some.injEq] at k5
      have h3 := (PI.mk k1 k2 k3 (by rw [k5, ht])).parse
      obtain ⟨l, e1⟩ := foldl_add_new .document (cs ++ cs2 ++ ns ++ [CST.leaf .eof t.loc])
      obtain ⟨l', e2⟩ := foldl_add_new .document (cs' ++ cs2' ++ ns' ++ [CST.leaf .eof t'.loc])
      rw [e1] at h1
      rw [e2] at h3
      obtain ⟨ds, es, ds', es', q1, q2, q3, q4⟩ := k6.append
        (.one (c := .leaf .eof t.loc) (c' := .leaf .eof t'.loc) ⟨_, _, _, _, .eof, .eof, .nil, Iff.rfl⟩)
      exact ⟨_, l, _, l', ds, es, ds', es', h1, h3, q1, q2, q3, q4⟩
  · left
    obtain ⟨cs', r', cs2', r2', ns', r3', k1, k2, k3, k5, k6⟩ := key hD hO hN
    have hne' := k5.all (p := (· ≠ .eof)) hne
    rcases parse_spec (.inl he') with ⟨c, rest, h3, h4⟩ | ⟨m', _, _, _, _, _, _, h3, _⟩
    · exfalso
      cases h4 with
      | mk hD2 hO2 hN2 ht2 =>
        obtain ⟨rfl, rfl⟩ := k1.det hD2 he'
        obtain ⟨rfl, rfl⟩ := k2.det hO2 (k1.hasEof.mp he')
        obtain ⟨rfl, rfl⟩ := k3.det hN2
        exact hne' _ rfl ht2
    · exact ⟨m, m', h1, h3⟩

end Brack
