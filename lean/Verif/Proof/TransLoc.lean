import Verif.Proof.TransErrs
import Verif.Proof.TokTiles

/-
Helper lemmas: the ranges of transform errors lie in the document.
-/

namespace Brack

/-- The range starts where a token starts, ends where a token ends, and is not reversed. -/
def RangeIn (ts : List Token) (l : Loc) : Prop :=
  (∃ t ∈ ts, l.start = t.loc.start) ∧ (∃ u ∈ ts, l.stop = u.loc.stop) ∧ l.start.le l.stop

theorem RangeIn.merge {ts a b} (ha : RangeIn ts a) (hb : RangeIn ts b) (h : a.start.le b.start) :
    RangeIn ts (mergeLocation a b) := by
  obtain ⟨⟨t, ht, e1⟩, ⟨u, hu, e2⟩, h1⟩ := ha
  obtain ⟨_, ⟨u', hu', e2'⟩, h1'⟩ := hb
  have hs := merge_start_left h
  refine ⟨⟨t, ht, by rw [hs, e1]⟩, ?_, ?_⟩
  · rcases merge_stop_facts a b with e | e
    · exact ⟨u, hu, by rw [e, e2]⟩
    · exact ⟨u', hu', by rw [e, e2']⟩
  · rw [hs]
    rcases merge_stop_facts a b with e | e <;> rw [e]
    · exact h1
    · exact Pos.le_trans h h1'

theorem RangeIn.token {ts : List Token} (ho : Ordered ts) {t} (h : t ∈ ts) : RangeIn ts t.loc :=
  ⟨⟨t, h, rfl⟩, ⟨t, h, rfl⟩, ho.proper t h⟩

/-- A list of trees in a document with tokens `ts`. -/
structure Placed (ts : List Token) (cs : List CST) : Prop where
  ranges : ∀ c ∈ cs, ∀ b ds l, CST.NodeOf (.node (.bracket b) ds l) c → RangeIn ts l
  starts : ∀ c ∈ cs, BracketStarts c
  sub : ∀ t ∈ CST.tokensL cs, t ∈ ts
  ord : Ordered (CST.tokensL cs)

theorem Placed.append {ts cs ds} (h : Placed ts (cs ++ ds)) : Placed ts cs ∧ Placed ts ds := by
  obtain ⟨h1, h2, h3, h4⟩ := h
  rw [tokensL_append] at h3 h4
  exact ⟨⟨fun c hc => h1 c (by simp [hc]), fun c hc => h2 c (by simp [hc]),
      fun t ht => h3 t (by simp [ht]), h4.append.1⟩,
    ⟨fun c hc => h1 c (by simp [hc]), fun c hc => h2 c (by simp [hc]),
      fun t ht => h3 t (by simp [ht]), h4.append.2⟩⟩

theorem Placed.cons {ts c cs} (h : Placed ts (c :: cs)) : Placed ts [c] ∧ Placed ts cs :=
  Placed.append (cs := [c]) h

theorem Placed.children {ts k cs l} (h : Placed ts [.node k cs l]) (hk : k ≠ .backSlash) :
    Placed ts cs := by
  have ht : CST.tokensL [CST.node k cs l] = CST.tokensL cs := by
    cases k <;> simp [CST.tokensL, CST.tokens] at hk ⊢
  exact ⟨fun c hc b ds l' hn => h.ranges _ List.mem_cons_self b ds l' (.child hc hn),
    fun c hc => (h.starts _ List.mem_cons_self).child c hc,
    fun t h' => h.sub t (by rw [ht]; exact h'), by rw [← ht]; exact h.ord⟩

/-- All errors and the results are well placed. -/
def ErrsIn (ts : List Token) (ds : List CST) (es : List TErr) : Prop :=
  (∀ d ∈ ds, RangeIn ts d.loc) ∧ ∀ e ∈ es, RangeIn ts e.loc

theorem ErrsIn.append {ts ds es ds' es'} (h : ErrsIn ts ds es) (h' : ErrsIn ts ds' es') :
    ErrsIn ts (ds ++ ds') (es ++ es') := by
  constructor
  · intro d hd; rcases List.mem_append.mp hd with hd | hd
    · exact h.1 d hd
    · exact h'.1 d hd
  · intro d hd; rcases List.mem_append.mp hd with hd | hd
    · exact h.2 d hd
    · exact h'.2 d hd

mutual

theorem XI.errsIn {ts} (ho : Ordered ts) : ∀ {c d es}, XI c d es → Placed ts [c] → ErrsIn ts [d] es
  | _, _, _, @XI.leaf k l h, hp => by
    refine ⟨?_, by simp⟩
    simp only [List.mem_singleton, forall_eq]
    exact RangeIn.token ho (hp.sub ⟨k.tokKind, l⟩ (by simp [CST.tokensL, CST.tokens]))
  | _, _, _, @XI.escaped c k l l' h, hp => by
    have : ∃ k', escapes.lookup c = some k' := by
      simp only [escapes, List.mem_cons, Prod.mk.injEq, List.not_mem_nil, or_false] at h
      rcases h with ⟨rfl, _⟩ | ⟨rfl, _⟩ | ⟨rfl, _⟩ | ⟨rfl, _⟩ | ⟨rfl, _⟩ | ⟨rfl, _⟩ | ⟨rfl, _⟩ |
        ⟨rfl, _⟩ | ⟨rfl, _⟩ <;> exact ⟨_, rfl⟩
    obtain ⟨k', hk'⟩ := this
    refine ⟨?_, by simp⟩
    simp only [List.mem_singleton, forall_eq]
    exact RangeIn.token ho (hp.sub ⟨k', l'⟩ (by simp [CST.tokensL, CST.tokens, hk']))
  | _, _, _, @XI.stray l, hp => by
    have : RangeIn ts l :=
      RangeIn.token ho (hp.sub ⟨.backSlash, l⟩ (by simp [CST.tokensL, CST.tokens]))
    exact ⟨by simpa [CST.loc] using this, by simpa using this⟩
  | _, _, _, @XI.closed b cs l l1 l2 ds es h, hp => by
    have hl : RangeIn ts l := hp.ranges _ List.mem_cons_self b _ l .self
    have hc := hp.children (by simp)
    rw [List.cons_append] at hc
    have h0 := hc.cons
    have h1 := h0.2.append
    have hB := h.errsIn ho h1.1
    have hopen : RangeIn ts l1 :=
      RangeIn.token ho (h0.1.sub ⟨.bopen b, l1⟩ (by simp [CST.tokensL, CST.tokens, LKind.tokKind]))
    have hclose : RangeIn ts l2 :=
      RangeIn.token ho (h1.2.sub ⟨.bclose b, l2⟩ (by simp [CST.tokensL, CST.tokens, LKind.tokKind]))
    refine ⟨by simpa [CST.loc] using hl, ?_⟩
    intro e he
    rcases List.mem_append.mp he with he | he
    · exact hB.2 e he
    · obtain ⟨_, d, hd, e⟩ := bracketErrs_err he
      rw [e]
      simp only [List.cons_append, List.mem_cons, List.mem_append, List.not_mem_nil, or_false] at hd
      rcases hd with rfl | hd | rfl
      · exact hopen
      · exact hB.1 d hd
      · exact hclose
  | _, _, _, @XI.unclosed b cs l l1 ds es h, hp => by
    have hl : RangeIn ts l := hp.ranges _ List.mem_cons_self b _ l .self
    have hc := hp.children (by simp)
    have h0 := hc.cons
    have hB := h.errsIn ho h0.2
    have hopen : RangeIn ts l1 :=
      RangeIn.token ho (h0.1.sub ⟨.bopen b, l1⟩ (by simp [CST.tokensL, CST.tokens, LKind.tokKind]))
    refine ⟨by simpa [CST.loc] using hl, ?_⟩
    have hall : ∀ d ∈ CST.leaf (.bopen b) l1 :: ds, RangeIn ts d.loc := by
      intro d hd
      rcases List.mem_cons.mp hd with rfl | hd
      · exact hopen
      · exact hB.1 d hd
    intro e he
    simp only [List.mem_append, List.mem_singleton] at he
    rcases he with (he | rfl) | he
    · exact hB.2 e he
    · refine RangeIn.merge hopen (hall _ (List.getLast_mem _)) ?_
      have := hc.ord
      rw [CST.tokensL, CST.tokens] at this
      exact notClosed_start h h0.2.starts this
    · obtain ⟨_, d, hd, e⟩ := bracketErrs_err he
      rw [e]
      exact hall d hd

theorem XL.errsIn {ts} (ho : Ordered ts) : ∀ {cs ds es}, XL cs ds es → Placed ts cs →
    ErrsIn ts ds es
  | _, _, _, .nil, _ => ⟨by simp, by simp⟩
  | _, _, _, .cons h hs, hp => (h.errsIn ho hp.cons.1).append (hs.errsIn ho hp.cons.2)

theorem XB.errsIn {ts} (ho : Ordered ts) : ∀ {cs ds es}, XB cs ds es → Placed ts cs →
    ErrsIn ts ds es
  | _, _, _, .nil, _ => ⟨by simp, by simp⟩
  | _, _, _, .expr _ h hs, hp =>
    (h.errsIn ho (hp.cons.1.children (by simp))).append (hs.errsIn ho hp.cons.2)
  | _, _, _, @XB.newline l _ ds es hs, hp => by
    have := (hs.errsIn ho hp.cons.2)
    refine ⟨?_, this.2⟩
    intro d hd
    rcases List.mem_cons.mp hd with rfl | hd
    · exact RangeIn.token ho (hp.sub ⟨.newLine, l⟩ (by simp [CST.tokensL, CST.tokens, LKind.tokKind]))
    · exact this.1 d hd

end

theorem XLines.errsIn {ts} (ho : Ordered ts) {cs ds es} (h : XLines cs ds es) (hp : Placed ts cs) :
    ∀ e ∈ es, RangeIn ts e.loc := by
  induction h with
  | nil => simp
  | cons h _ ih =>
    intro e he
    rcases List.mem_append.mp he with he | he
    · cases h with
      | close => simp at he
      | newline => simp at he
      | expr _ h => exact (h.errsIn ho (hp.cons.1.children (by simp))).2 e he
    · exact ih hp.cons.2 e he

theorem XDoc.errsIn {ts} (ho : Ordered ts) {cs ds es} (h : XDoc cs ds es) (hp : Placed ts cs) :
    ∀ e ∈ es, RangeIn ts e.loc := by
  induction h with
  | nil => simp
  | cons h _ ih =>
    intro e he
    rcases List.mem_append.mp he with he | he
    · cases h with
      | newline => simp at he
      | eof => simp at he
      | stmt h => exact h.errsIn ho (hp.cons.1.children (by simp)) e he
    · exact ih hp.cons.2 e he

/-! ### tokenizer output is ordered, parsed trees are placed -/

theorem tiles_ordered (S : Segmenter) : ∀ (ts : List Token) (p : Pos), Tiles S p ts →
    Ordered ts ∧ ∀ t ∈ ts, p.le t.loc.start := by
  intro ts
  induction ts with
  | nil => intro p _; exact ⟨⟨by simp, by simp⟩, by simp⟩
  | cons t ts ih =>
    intro p h
    obtain ⟨h1, h2, h3⟩ := h
    obtain ⟨ih1, ih2⟩ := ih _ h3
    have hle : p.le t.loc.stop := by rw [h2]; simp [Pos.le]
    have hnext : p.le (if t.kind = .newLine then ⟨p.line + 1, 0⟩ else t.loc.stop) := by
      split
      · simp [Pos.le]
      · exact hle
    have hall : ∀ u ∈ ts, p.le u.loc.start := fun u hu => Pos.le_trans hnext (ih2 u hu)
    refine ⟨⟨?_, ?_⟩, ?_⟩
    · rw [List.pairwise_cons]
      exact ⟨fun u hu => by rw [h1]; exact hall u hu, ih1.sorted⟩
    · intro u hu
      rcases List.mem_cons.mp hu with rfl | hu
      · rw [h1]; exact hle
      · exact ih1.proper u hu
    · intro u hu
      rcases List.mem_cons.mp hu with rfl | hu
      · rw [h1]; exact Pos.le_refl _
      · exact hall u hu

theorem ordered_before {a b : List Token} {t u : Token} (h : Ordered (a ++ b)) (ht : t ∈ a)
    (hu : u ∈ b) : t.loc.start.le u.loc.start :=
  (List.pairwise_append.mp h.sorted).2.2 t ht u hu

theorem ordered_head {a : List Token} {t u : Token} (h : Ordered a) (ht : a.head? = some t)
    (hu : u ∈ a) : t.loc.start.le u.loc.start := by
  rcases a with _ | ⟨x, a⟩
  · simp at ht
  · simp only [List.head?_cons, Option.some.injEq] at ht
    subst ht
    rcases List.mem_cons.mp hu with rfl | hu
    · exact Pos.le_refl _
    · exact List.rel_of_pairwise_cons h.sorted hu

theorem parse_placed {ts c} (ho : Ordered ts) (h : parse ts = .ok c) : Placed ts [c] := by
  obtain ⟨rest, hP⟩ := parse_ok h
  have hg := hP.nodes_good
  have ht := hP.tokens
  refine ⟨?_, ?_, ?_, ?_⟩
  · intro c' hc b ds l hn
    simp only [List.mem_singleton] at hc
    subst hc
    obtain ⟨pre, post, e, h1⟩ := hg c' (by simp) _ hn (by simp [isRanged])
    obtain ⟨t, ht, e1⟩ := h1.start
    simp only [Option.mem_def] at ht
    have htm := List.mem_of_mem_head? (Option.mem_def.mpr ht)
    rw [e] at ho
    have hin : ∀ u, u ∈ (CST.node (.bracket b) ds l).tokens ∨ u ∈ post → u ∈ ts := by
      intro u hu; rw [e]; rcases hu with hu | hu <;> simp [hu]
    by_cases hc : (CST.node (.bracket b) ds l).isClosed = true
    · obtain ⟨u, hu, e2⟩ := h1.stop hc
      have hum := List.mem_of_mem_getLast? hu
      refine ⟨⟨t, hin t (.inl htm), e1⟩, ⟨u, hin u (.inl hum), e2⟩, ?_⟩
      change l.start = _ at e1
      change l.stop = _ at e2
      rw [e1, e2]
      exact Pos.le_trans (ordered_head ho.append.1.append.2 ht hum) (ho.proper u (by simp [hum]))
    · obtain ⟨u, hu, e2⟩ := h1.unclosed b ds l rfl (by simpa using hc)
      have hum := List.mem_of_mem_head? hu
      refine ⟨⟨t, hin t (.inl htm), e1⟩, ⟨u, hin u (.inr hum), e2⟩, ?_⟩
      change l.start = _ at e1
      change l.stop = _ at e2
      rw [e1, e2]
      exact Pos.le_trans (ordered_before ho (by simp [htm]) hum) (ho.proper u (by simp [hum]))
  · intro c' hc b ds l hn
    simp only [List.mem_singleton] at hc
    subst hc
    obtain ⟨pre, post, e, h1⟩ := hg c' (by simp) _ hn (by simp [isRanged])
    exact h1.start
  · intro t h'
    rw [ht]
    simp only [CST.tokensL, List.append_nil] at h'
    simp [h']
  · rw [ht] at ho
    simpa [CST.tokensL] using ho.append.1

end Brack
