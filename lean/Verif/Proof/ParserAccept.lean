import Verif.Proof.ParserDet

/-
Helper lemmas: the parser accepts exactly the language of `accepts`.
-/

namespace Brack

/-- Acceptance on tokens. -/
abbrev acc (st : List Bracket) (q : LineState) (ts : List Token) : Bool :=
  accepts st q (ts.map (·.kind))

theorem escapable_mem {k v} (h : escapable k = some v) : k ∈ escapes.map (·.2) := by
  obtain ⟨c, _, hm, _⟩ := escapable_tok h
  exact List.mem_map.mpr ⟨_, hm, rfl⟩

theorem escapable_not_mem {k} (h : escapable k = none) : k ∉ escapes.map (·.2) := by
  cases k <;> simp [escapable] at h <;> try decide
  case bopen b => cases b <;> simp at h
  case bclose b => cases b <;> simp at h
  all_goals simp [escapes]

theorem acc_leaf_in {t : Token} {ts k b st q} (h : exprLeaf t.kind = some k) :
    acc (b :: st) q (t :: ts) = acc (b :: st) q ts := by
  obtain ⟨tk, l⟩ := t
  cases tk <;> simp [exprLeaf] at h <;> simp [acc, accepts]

theorem acc_leaf_top {t : Token} {ts k q} (h : exprLeaf t.kind = some k) :
    acc [] q (t :: ts) = (q.allowsItem && acc [] .items ts) := by
  obtain ⟨tk, l⟩ := t
  cases tk <;> simp [exprLeaf] at h <;> simp [acc, accepts]

theorem acc_stop {u : Token} {us b st q} (h : itemStop u.kind = true) (hn : u.kind ≠ .newLine)
    (hb : u.kind ≠ .bclose b) : acc (b :: st) q (u :: us) = acc st q (u :: us) := by
  obtain ⟨tk, l⟩ := u
  cases tk <;> simp [itemStop] at h hn
  · simp [acc, accepts]
  · rename_i b'
    have : b ≠ b' := by rintro rfl; simp at hb
    simp [acc, accepts, this]
  · simp [acc, accepts]

theorem StopAt.stop {u : Token} {us} (h : StopAt (u :: us)) (he : HasEof (u :: us)) :
    itemStop u.kind = true := by
  rcases h u rfl with h | ⟨_, h⟩
  · exact h
  · exact absurd he h

mutual

theorem EI.acc_in : ∀ {ts cs r}, EI ts cs r → HasEof ts → ∀ b st q,
    acc (b :: st) q ts = acc (b :: st) q r
  | _, _, _, .stop _ => fun _ _ _ _ => rfl
  | _, _, _, .leaf hk h => fun he b st q => by
    rw [acc_leaf_in hk, h.acc_in (he.tail (exprLeaf_ne_eof hk))]
  | _, _, _, .esc ht hv h => fun he b st q => by
    rw [← h.acc_in ((he.tail (by simp [ht])).tail (escapable_ne_eof hv))]
    simp only [acc, List.map_cons, ht, accepts]
    rw [if_pos (escapable_mem hv)]
  | _, _, _, .escN ht hv h => fun he b st q => by
    rw [← h.acc_in (he.tail (by simp [ht]))]
    simp only [acc, List.map_cons, ht, accepts]
    rw [if_neg (escapable_not_mem hv)]
  | _, _, _, @EI.bclosed _ _ b0 _ _ _ _ _ ht hb hu h => fun he b st q => by
    have he1 := he.tail (by simp [ht])
    have he2 := (hb.suffix.1.mp he1).tail (by simp [hu])
    rw [← h.acc_in he2]
    have := hb.acc_in he1 b0 (b :: st) q
    simp only [acc, List.map_cons, ht, accepts] at this ⊢
    rw [this]
    simp [hu, accepts]
  | _, _, _, @EI.bunclosed _ _ b0 _ _ _ _ _ ht hb hu h => fun he b st q => by
    have he1 := he.tail (by simp [ht])
    have he2 := hb.suffix.1.mp he1
    rw [← h.acc_in he2]
    have := hb.acc_in he1 b0 (b :: st) q
    rw [acc_stop (hb.rest_stop.1.stop he2) (hb.rest_stop.2 _ rfl) hu] at this
    rw [← this]
    simp only [acc, List.map_cons, ht, accepts]

theorem BI.acc_in : ∀ {ts cs r}, BI ts cs r → HasEof ts → ∀ b st q,
    acc (b :: st) q ts = acc (b :: st) q r
  | _, _, _, .stop _ _ => fun _ _ _ _ => rfl
  | _, _, _, .expr he hb => fun h b st q => by
    rw [he.acc_in h, hb.acc_in (he.suffix.1.mp h)]
  | _, _, _, .newline ht h => fun he b st q => by
    rw [← h.acc_in (he.tail (by simp [ht]))]
    simp [acc, ht, accepts]

end

theorem EI.acc_items : ∀ {ts cs r}, EI ts cs r → HasEof ts → acc [] .items ts = acc [] .items r
  | _, _, _, .stop _ => fun _ => rfl
  | _, _, _, .leaf hk h => fun he => by
    rw [acc_leaf_top hk, h.acc_items (he.tail (exprLeaf_ne_eof hk))]
    simp [LineState.allowsItem]
  | _, _, _, .esc ht hv h => fun he => by
    rw [← h.acc_items ((he.tail (by simp [ht])).tail (escapable_ne_eof hv))]
    simp only [acc, List.map_cons, ht, accepts]
    rw [if_pos (escapable_mem hv)]
    simp [LineState.allowsItem]
  | _, _, _, .escN ht hv h => fun he => by
    rw [← h.acc_items (he.tail (by simp [ht]))]
    simp only [acc, List.map_cons, ht, accepts]
    rw [if_neg (escapable_not_mem hv)]
    simp [LineState.allowsItem]
  | _, _, _, @EI.bclosed _ _ b0 _ _ _ _ _ ht hb hu h => fun he => by
    have he1 := he.tail (by simp [ht])
    have he2 := (hb.suffix.1.mp he1).tail (by simp [hu])
    rw [← h.acc_items he2]
    have := hb.acc_in he1 b0 [] .items
    simp only [acc, List.map_cons, ht, accepts, LineState.allowsItem, Bool.true_and] at this ⊢
    rw [this]
    simp [hu, accepts]
  | _, _, _, @EI.bunclosed _ _ b0 _ _ _ _ _ ht hb hu h => fun he => by
    have he1 := he.tail (by simp [ht])
    have he2 := hb.suffix.1.mp he1
    rw [← h.acc_items he2]
    have := hb.acc_in he1 b0 [] .items
    rw [acc_stop (hb.rest_stop.1.stop he2) (hb.rest_stop.2 _ rfl) hu] at this
    rw [← this]
    simp only [acc, List.map_cons, ht, accepts, LineState.allowsItem, Bool.true_and]

/-- Acceptance of an expression at the start of a line. -/
theorem EI.acc_line {ts c cs r q} (h : EI ts (c :: cs) r) (he : HasEof ts)
    (hq : q.allowsItem = true) : acc [] q ts = acc [] .items r := by
  rw [← h.acc_items he]
  cases h with
  | leaf hk h => rw [acc_leaf_top hk, acc_leaf_top hk, hq]; rfl
  | esc ht hv h => simp only [acc, List.map_cons, ht, accepts, hq]; rfl
  | escN ht hv h => simp only [acc, List.map_cons, ht, accepts, hq]; rfl
  | bclosed ht hb hu h => simp only [acc, List.map_cons, ht, accepts, hq]; rfl
  | bunclosed ht hb hu h => simp only [acc, List.map_cons, ht, accepts, hq]; rfl

/-- What can follow a line. -/
def afterLine : List Token → Bool
  | [] => false
  | t :: ts => t.kind = .eof || (t.kind = .newLine && acc [] .fresh ts)

theorem LI.acc {ts c r q} (h : LI ts c r) (he : HasEof ts) (hq : q = .start ∨ q = .fresh) :
    acc [] q ts = afterLine r := by
  have hr := h.hasEof.mp he
  cases h with
  | expr h =>
    rw [h.acc_line he (by rcases hq with rfl | rfl <;> rfl)]
    rcases r with _ | ⟨u, us⟩
    · exact absurd hr not_hasEof_nil
    · have hs := h.rest_stop.stop hr
      obtain ⟨k, l⟩ := u
      cases k <;> simp [itemStop] at hs <;>
        simp [Brack.acc, accepts, afterLine, LineState.newline, LineState.allowsClose]
  | @close t _ b ht =>
    have h1 : Brack.acc [] q (t :: r) = Brack.acc [] .closed r := by
      simp only [Brack.acc, List.map_cons, ht, accepts, List.dropWhile_nil]
      rcases hq with rfl | rfl <;> rfl
    rw [h1]
    rcases r with _ | ⟨u, us⟩
    · exact absurd hr not_hasEof_nil
    · obtain ⟨k, l⟩ := u
      have hmore : ∀ k', k' ≠ .eof → k' ≠ .newLine →
          accepts [] .closed (k' :: us.map (·.kind)) = false := by
        intro k' h1 h2
        cases k' <;> simp at h1 h2 <;>
          try simp [accepts, LineState.allowsItem, LineState.allowsClose]
        rcases us with _ | ⟨v, vs⟩ <;> simp [accepts, LineState.allowsItem]
      by_cases he : k = .eof
      · subst he; simp [Brack.acc, accepts, afterLine]
      · by_cases hn : k = .newLine
        · subst hn; simp [Brack.acc, accepts, afterLine, LineState.newline]
        · simp [Brack.acc, afterLine, he, hn, hmore k he hn]

theorem SI.acc : ∀ {ts cs r}, SI ts cs r → HasEof ts → afterLine ts = afterLine r
  | _, _, _, .stop _ => fun _ => rfl
  | _, _, _, .more ht hl h => fun he => by
    have he1 := he.tail (by simp [ht])
    rw [← h.acc (hl.hasEof.mp he1), ← hl.acc he1 (.inr rfl)]
    simp [afterLine, ht]

theorem TI.acc {ts c r q} (h : TI ts c r) (he : HasEof ts) (hq : q = .start ∨ q = .fresh) :
    acc [] q ts = afterLine r := by
  cases h with
  | mk h1 h2 => rw [h1.acc he hq, h2.acc (h1.hasEof.mp he)]

theorem NI.acc_fresh : ∀ {ts cs r}, NI ts cs r → acc [] .fresh ts = acc [] .fresh r
  | _, _, _, .stop _ => rfl
  | _, _, _, .more ht h => by
    rw [← h.acc_fresh]
    simp [acc, ht, accepts, LineState.newline]

theorem acc_fresh_start {ts : List Token} (h : ∀ t ∈ ts.head?, t.kind ≠ .newLine) :
    acc [] .fresh ts = acc [] .start ts := by
  rcases ts with _ | ⟨⟨k, l⟩, ts⟩
  · rfl
  · have := h _ rfl
    cases k
    case newLine => exact absurd rfl this
    case backSlash => rcases ts with _ | ⟨u, us⟩ <;> rfl
    all_goals rfl

theorem DI.acc : ∀ {ts cs r}, DI ts cs r → HasEof ts → acc [] .start ts = acc [] .start r
  | _, _, _, .noStmt _ => fun _ => rfl
  | _, _, _, .lastStmt _ _ => fun _ => rfl
  | _, _, _, .more hs ht hN h => fun he => by
    have he1 := (hs.hasEof.mp he).tail (by simp [ht])
    have he2 := hN.hasEof.mp he1
    rw [← h.acc he2, hs.acc he (.inl rfl), ← acc_fresh_start hN.head, ← hN.acc_fresh]
    simp [afterLine, ht]

/-- After the loop of `parse`, a statement is not followed by a newline. -/
theorem DI.rest {ts cs r} (h : DI ts cs r) :
    NoLine r ∨ ∃ s r', TI r s r' ∧ ∀ t ∈ r'.head?, t.kind ≠ .newLine := by
  induction h with
  | noStmt h => exact .inl h
  | lastStmt h h' => exact .inr ⟨_, _, h, h'⟩
  | more _ _ _ _ ih => exact ih

theorem acc_start_noLine {ts : List Token} (he : HasEof ts) (hn : NoLine ts) {ns r}
    (h : NI ts ns r) (q) (hq : q = .start ∨ q = .blank) :
    (acc [] q ts = true → ∃ t ∈ r.head?, t.kind = .eof) := by
  induction h generalizing q with
  | @stop ts hst =>
    rcases ts with _ | ⟨⟨k, l⟩, ts⟩
    · exact absurd he not_hasEof_nil
    · have h1 := hn he _ rfl
      have h2 := hst _ rfl
      simp only at h1 h2
      rcases h1 with h1 | h1 | h1
      · exact absurd h1 h2
      · intro _; exact ⟨_, rfl, h1⟩
      · intro h; subst h1; simp [acc, accepts] at h
  | @more t ts cs r ht h ih =>
    intro hacc
    have he1 := he.tail (by simp [ht])
    have hq' : q.newline = .blank := by rcases hq with rfl | rfl <;> rfl
    have hacc' : acc [] .blank ts = true := by
      rw [← hq']
      simpa [acc, ht, accepts] using hacc
    refine ih he1 ?_ _ (.inr rfl) hacc'
    intro _ u hu
    rcases ts with _ | ⟨⟨k, l⟩, ts⟩
    · simp at hu
    · simp only [List.head?_cons, Option.mem_def, Option.some.injEq] at hu
      subst hu
      cases k <;> simp [acc, accepts, LineState.allowsItem, LineState.allowsClose] at hacc' ⊢
      rcases ts with _ | ⟨v, vs⟩ <;> simp [accepts, LineState.allowsItem] at hacc'

theorem acc_newlines_eof {ts : List Token} {ns r} (h : NI ts ns r)
    (hr : ∃ t ∈ r.head?, t.kind = .eof) (q) : acc [] q ts = true := by
  induction h generalizing q with
  | @stop ts hst =>
    obtain ⟨t, ht, hk⟩ := hr
    rcases ts with _ | ⟨u, ts⟩
    · simp at ht
    · simp only [List.head?_cons, Option.mem_def, Option.some.injEq] at ht
      subst ht
      simp [acc, hk, accepts]
  | @more t ts cs r ht h ih =>
    have := ih hr q.newline
    simpa [acc, ht, accepts] using this

/-- Successful parses are accepted. -/
theorem PI.accepts {ts c rest} (h : PI ts c rest) : acc [] .start ts = true := by
  have he := h.hasEof
  cases h with
  | mk hD hO hN ht =>
    rw [hD.acc he]
    have he1 := hD.hasEof.mp he
    cases hO with
    | none hn => exact acc_newlines_eof hN ⟨_, rfl, ht⟩ _
    | some hT =>
      rw [hT.acc he1 (.inl rfl)]
      cases hN with
      | stop _ => simp [afterLine, ht]
      | more hnl hN' =>
        have := acc_newlines_eof hN' ⟨_, rfl, ht⟩ .fresh
        simp [afterLine, hnl, this]

/-- Accepted lists contain EOF. -/
theorem accepts_hasEof (ks : List TokKind) : ∀ st q, accepts st q ks = true → .eof ∈ ks := by
  induction hn : ks.length using Nat.strongRecOn generalizing ks with
  | _ n ih =>
    intro st q h
    subst hn
    unfold accepts at h
    split at h
    all_goals try simp at h
    all_goals try (simp; done)
    all_goals first
      | (exact List.mem_cons_of_mem _ (ih _ (by simp) _ rfl _ _ h))
      | (exact List.mem_cons_of_mem _ (ih _ (by simp) _ rfl _ _ h.2))
      | skip
    · split at h
      · exact List.mem_cons_of_mem _ (ih _ (by simp) _ rfl _ _ h)
      · simp at h
        exact List.mem_cons_of_mem _ (ih _ (by simp) _ rfl _ _ h.2)
    · obtain ⟨_, h⟩ := h
      split at h
      · exact List.mem_cons_of_mem _ (List.mem_cons_of_mem _ (ih _ (by simp; omega) _ rfl _ _ h))
      · exact List.mem_cons_of_mem _ (ih _ (by simp) _ rfl _ _ h)
    · split at h
      · exact List.mem_cons_of_mem _ (List.mem_cons_of_mem _ (ih _ (by simp; omega) _ rfl _ _ h))
      · exact List.mem_cons_of_mem _ (ih _ (by simp) _ rfl _ _ h)

/-- The parser succeeds exactly on the accepted lists. -/
theorem parse_iff_accepts (ts : List Token) :
    (∃ c, parse ts = .ok c) ↔ accepts [] .start (ts.map (·.kind)) = true := by
  constructor
  · rintro ⟨c, h⟩
    obtain ⟨rest, hP⟩ := parse_ok h
    exact hP.accepts
  · intro hacc
    have he : HasEof ts := by
      have := accepts_hasEof _ _ _ hacc
      obtain ⟨t, ht, hk⟩ := List.mem_map.mp this
      exact ⟨t, ht, hk⟩
    rcases parse_spec (.inl he) with ⟨c, rest, h1, _⟩ | ⟨m, cs, r, cs2, r2, ns, r3, h1, hD, hO, hN, hne⟩
    · exact ⟨c, h1⟩
    · exfalso
      have hacc' : acc [] .start ts = true := hacc
      rw [hD.acc he] at hacc'
      have he1 := hD.hasEof.mp he
      have hfin : ∃ t ∈ r3.head?, t.kind = .eof := by
        cases hO with
        | none hn => exact acc_start_noLine he1 hn hN _ (.inl rfl) hacc'
        | some hT =>
          rw [hT.acc he1 (.inl rfl)] at hacc'
          have hnl : ∀ t ∈ r2.head?, t.kind ≠ .newLine := by
            rcases hD.rest with hno | ⟨s, r', hT', hh⟩
            · exact absurd hno (hT.not_noLine he1)
            · rw [(hT.det hT' he1).2]; exact hh
          cases hN with
          | stop _ =>
            rcases r2 with _ | ⟨u, us⟩
            · simp [afterLine] at hacc'
            · have := hnl _ rfl
              simp [afterLine, this] at hacc'
              exact ⟨u, rfl, hacc'⟩
          | more h _ => exact absurd h (hnl _ rfl)
      obtain ⟨t, ht, hk⟩ := hfin
      exact hne t ht hk

/-- Acceptance of lists without closing brackets and Empty tokens. -/
theorem accepts_no_close (ks : List TokKind) (hc : ∀ b, .bclose b ∉ ks) (hE : .empty ∉ ks)
    (he : .eof ∈ ks) : ∀ st q, (q = .fresh ∨ q = .items) → accepts st q ks = true := by
  induction hn : ks.length using Nat.strongRecOn generalizing ks with
  | _ n ih =>
    subst hn
    intro st q hq
    rcases ks with _ | ⟨k, ks⟩
    · simp at he
    · by_cases hk : k = .eof
      · subst hk; simp [accepts]
      · have he' : .eof ∈ ks := by
          rcases List.mem_cons.mp he with h | h
          · exact absurd h.symm hk
          · exact h
        have hc' : ∀ b, .bclose b ∉ ks := fun b h => hc b (List.mem_cons_of_mem _ h)
        have hE' : .empty ∉ ks := fun h => hE (List.mem_cons_of_mem _ h)
        have rec' := ih _ (by simp) ks hc' hE' he' rfl
        have hI : q.allowsItem = true := by rcases hq with rfl | rfl <;> rfl
        have hN : q.newline = .fresh := by rcases hq with rfl | rfl <;> rfl
        cases k
        case eof => exact absurd rfl hk
        case bclose b => exact absurd List.mem_cons_self (hc b)
        case empty => exact absurd List.mem_cons_self hE
        case backSlash =>
          rcases ks with _ | ⟨k2, ks⟩
          · simp at he'
          · have hrec2 : k2 ≠ .eof → ∀ st q, (q = .fresh ∨ q = .items) →
                accepts st q ks = true := by
              intro hk2
              have he2 : .eof ∈ ks := by
                rcases List.mem_cons.mp he' with h | h
                · exact absurd h.symm hk2
                · exact h
              exact ih _ (by simp; omega) ks (fun b h => hc' b (List.mem_cons_of_mem _ h))
                (fun h => hE' (List.mem_cons_of_mem _ h)) he2 rfl
            have hne : k2 ∈ escapes.map (·.2) → k2 ≠ .eof := by
              rintro h rfl
              exact absurd h (by decide)
            rcases st with _ | ⟨b, st⟩
            · simp only [accepts, hI, Bool.true_and]
              split
              · rename_i h; exact hrec2 (hne h) _ _ (.inr rfl)
              · exact rec' _ _ (.inr rfl)
            · simp only [accepts]
              split
              · rename_i h; exact hrec2 (hne h) _ _ hq
              · exact rec' _ _ hq
        all_goals
          rcases st with _ | ⟨b, st⟩ <;>
            simp only [accepts, hI, hN, Bool.true_and] <;>
            first
              | exact rec' _ _ (.inl rfl)
              | exact rec' _ _ (.inr rfl)
              | exact rec' _ _ hq

theorem accepts_no_close_start (ks : List TokKind) (hc : ∀ b, .bclose b ∉ ks) (hE : .empty ∉ ks)
    (he : .eof ∈ ks) (hh : ks.head? ≠ some .newLine) : accepts [] .start ks = true := by
  rw [← accepts_no_close ks hc hE he [] .fresh (.inl rfl)]
  rcases ks with _ | ⟨k, ks⟩
  · rfl
  · cases k
    case newLine => simp at hh
    case backSlash => rcases ks with _ | ⟨u, us⟩ <;> rfl
    all_goals rfl

end Brack
