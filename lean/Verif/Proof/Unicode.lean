import Verif.Spec.Unicode
import Verif.Proof.Uax29

/-
The segmentation of `Model/Uax29.lean` puts boundaries exactly where UAX #29 does.
-/

namespace Brack.UTable

variable {T : UTable}

/-- The context agrees with the text before it. -/
structure Ctx (T : UTable) (s : SegSt) (text : Str) : Prop where
  prev : ∀ x p, text = x ++ [p] → s.prev = T.gcb p
  odd : s.odd = true ↔ T.flags text % 2 = 1
  seen : s.pict = .seen ↔ ∃ x k ms, text = x ++ k :: ms ∧ T.pict k = true ∧ ∀ m ∈ ms, T.gcb m = .extend
  zwj : s.pict = .zwj ↔ T.EndsJoined text
  conj : s.conj ≠ .no ↔ ∃ x k ms, text = x ++ k :: ms ∧ T.incb k = .consonant ∧
    ∀ m ∈ ms, T.incb m = .extend ∨ T.incb m = .linker
  linked : s.conj = .linked ↔ T.EndsLinked text

theorem append_singleton_cases {x ms text : Str} {k p : Char} (h : text ++ [p] = x ++ k :: ms) :
    (ms = [] ∧ k = p ∧ x = text) ∨ ∃ ms', ms = ms' ++ [p] ∧ text = x ++ k :: ms' := by
  rcases List.eq_nil_or_concat ms with rfl | ⟨ms', q, rfl⟩
  · obtain ⟨h1, h2⟩ := List.append_inj' h rfl
    injection h2 with h2
    exact .inl ⟨rfl, h2.symm, h1.symm⟩
  · rw [List.concat_eq_append, ← List.cons_append, ← List.append_assoc] at h
    obtain ⟨h1, h2⟩ := List.append_inj' h rfl
    injection h2 with h2
    exact .inr ⟨ms', by rw [h2, List.concat_eq_append], h1⟩

theorem flags_append (text : Str) (c : Char) :
    T.flags (text ++ [c]) = if T.gcb c = .regional then T.flags text + 1 else 0 := by
  unfold flags
  rw [List.reverse_append, List.reverse_singleton, List.singleton_append]
  by_cases h : T.gcb c = .regional
  · rw [if_pos h, List.takeWhile_cons_of_pos (by simpa using h)]; rfl
  · rw [if_neg h, List.takeWhile_cons_of_neg (by simpa using h)]; rfl

theorem seen_append {text : Str} {c : Char} :
    (∃ x k ms, text ++ [c] = x ++ k :: ms ∧ T.pict k = true ∧ ∀ m ∈ ms, T.gcb m = .extend) ↔
    T.pict c = true ∨ (T.gcb c = .extend ∧ ∃ x k ms, text = x ++ k :: ms ∧ T.pict k = true ∧ ∀ m ∈ ms, T.gcb m = .extend) := by
  constructor
  · rintro ⟨x, k, ms, h, h1, h2⟩
    rcases append_singleton_cases h with ⟨_, rfl, _⟩ | ⟨ms', rfl, h3⟩
    · exact .inl h1
    · exact .inr ⟨h2 c (by simp), x, k, ms', h3, h1, fun m hm => h2 m (by simp [hm])⟩
  · rintro (h | ⟨h, x, k, ms, h1, h2, h3⟩)
    · exact ⟨text, c, [], rfl, h, by simp⟩
    · refine ⟨x, k, ms ++ [c], by rw [h1]; simp, h2, ?_⟩
      intro m hm
      rcases List.mem_append.mp hm with hm | hm
      · exact h3 m hm
      · rw [List.mem_singleton.mp hm]; exact h

theorem joined_append {text : Str} {c : Char} :
    T.EndsJoined (text ++ [c]) ↔
    T.gcb c = .zwj ∧ ∃ x k ms, text = x ++ k :: ms ∧ T.pict k = true ∧ ∀ m ∈ ms, T.gcb m = .extend := by
  constructor
  · rintro ⟨x, k, ms, z, h, h1, h2, h3⟩
    obtain ⟨h4, h5⟩ := List.append_inj' h rfl
    injection h5 with h5
    rw [h5]
    exact ⟨h3, x, k, ms, h4, h1, h2⟩
  · rintro ⟨h, x, k, ms, h1, h2, h3⟩
    exact ⟨x, k, ms, c, by rw [h1], h2, h3, h⟩

theorem conj_append {text : Str} {c : Char} :
    (∃ x k ms, text ++ [c] = x ++ k :: ms ∧ T.incb k = .consonant ∧ ∀ m ∈ ms, T.incb m = .extend ∨ T.incb m = .linker) ↔
    T.incb c = .consonant ∨ ((T.incb c = .extend ∨ T.incb c = .linker) ∧
      ∃ x k ms, text = x ++ k :: ms ∧ T.incb k = .consonant ∧ ∀ m ∈ ms, T.incb m = .extend ∨ T.incb m = .linker) := by
  constructor
  · rintro ⟨x, k, ms, h, h1, h2⟩
    rcases append_singleton_cases h with ⟨_, rfl, _⟩ | ⟨ms', rfl, h3⟩
    · exact .inl h1
    · exact .inr ⟨h2 c (by simp), x, k, ms', h3, h1, fun m hm => h2 m (by simp [hm])⟩
  · rintro (h | ⟨h, x, k, ms, h1, h2, h3⟩)
    · exact ⟨text, c, [], rfl, h, by simp⟩
    · refine ⟨x, k, ms ++ [c], by rw [h1]; simp, h2, ?_⟩
      intro m hm
      rcases List.mem_append.mp hm with hm | hm
      · exact h3 m hm
      · rw [List.mem_singleton.mp hm]; exact h

theorem linked_append {text : Str} {c : Char} :
    T.EndsLinked (text ++ [c]) ↔
    (T.incb c = .linker ∧ ∃ x k ms, text = x ++ k :: ms ∧ T.incb k = .consonant ∧
      ∀ m ∈ ms, T.incb m = .extend ∨ T.incb m = .linker) ∨
    (T.incb c = .extend ∧ T.EndsLinked text) := by
  constructor
  · rintro ⟨x, k, ms, h, h1, h2, l, hl, h3⟩
    rcases append_singleton_cases h with ⟨rfl, _, _⟩ | ⟨ms', rfl, h4⟩
    · cases hl
    · have hms : ∀ m ∈ ms', T.incb m = .extend ∨ T.incb m = .linker := fun m hm => h2 m (by simp [hm])
      rcases h2 c (by simp) with hc | hc
      · refine .inr ⟨hc, x, k, ms', h4, h1, hms, l, ?_, h3⟩
        rcases List.mem_append.mp hl with hl | hl
        · exact hl
        · rw [List.mem_singleton.mp hl, hc] at h3; cases h3
      · exact .inl ⟨hc, x, k, ms', h4, h1, hms⟩
  · have hall : ∀ (ms : Str), (∀ m ∈ ms, T.incb m = .extend ∨ T.incb m = .linker) → (T.incb c = .extend ∨ T.incb c = .linker) →
        ∀ m ∈ ms ++ [c], T.incb m = .extend ∨ T.incb m = .linker := by
      intro ms h1 h2 m hm
      rcases List.mem_append.mp hm with hm | hm
      · exact h1 m hm
      · rw [List.mem_singleton.mp hm]; exact h2
    rintro (⟨h, x, k, ms, h1, h2, h3⟩ | ⟨h, x, k, ms, h1, h2, h3, l, hl, h4⟩)
    · exact ⟨x, k, ms ++ [c], by rw [h1]; simp, h2, hall ms h3 (.inr h), c, by simp, h⟩
    · exact ⟨x, k, ms ++ [c], by rw [h1]; simp, h2, hall ms h3 (.inl h), l, by simp [hl], h4⟩

theorem ctx_start (hT : T.Coherent) (c : Char) : Ctx T (T.start c) [c] := by
  have he : ∀ {x ms : Str} {k : Char}, ¬ (([] : Str) = x ++ k :: ms) := by intro x ms k h; simp at h
  refine ⟨?_, ?_, ?_, ?_, ?_, ?_⟩
  · intro x p h
    obtain ⟨_, h⟩ := List.append_inj' (s₁ := []) h rfl
    injection h with h
    rw [← h]; rfl
  · have := flags_append (T := T) [] c
    rw [List.nil_append] at this
    rw [this, start]
    by_cases h : T.gcb c = .regional <;> simp [h, flags]
  · have := seen_append (T := T) (text := []) (c := c)
    rw [List.nil_append] at this
    rw [this, start]
    by_cases h : T.pict c = true
    · simp [h]
    · simp only [h]
      simp
  · have := joined_append (T := T) (text := []) (c := c)
    rw [List.nil_append] at this
    rw [this, start]
    by_cases h : T.pict c = true <;> simp [h]
  · have := conj_append (T := T) (text := []) (c := c)
    rw [List.nil_append] at this
    rw [this, start]
    by_cases h : T.incb c = .consonant <;> simp [h]
  · have := linked_append (T := T) (text := []) (c := c)
    rw [List.nil_append] at this
    rw [this, start]
    have h' : ¬ T.EndsLinked [] := fun ⟨_, _, _, h, _⟩ => he h
    by_cases h : T.incb c = .consonant <;> simp [h, h']

theorem ctx_next (hT : T.Coherent) {s : SegSt} {text : Str} (h : Ctx T s text) (c : Char) :
    Ctx T (T.next s c) (text ++ [c]) := by
  refine ⟨?_, ?_, ?_, ?_, ?_, ?_⟩
  · intro x p hp
    obtain ⟨_, hp⟩ := List.append_inj' hp rfl
    injection hp with hp
    rw [← hp]; rfl
  · rw [flags_append, next]
    by_cases hc : T.gcb c = .regional
    · rw [if_pos hc]
      have := h.odd
      rcases ho : s.odd <;> rw [ho] at this <;> simp only [hc] <;> simp at this ⊢ <;> omega
    · simp [hc]
  · rw [seen_append, ← h.seen, next]
    by_cases hp : T.pict c = true
    · simp [hp]
    · by_cases h1 : s.pict = .seen
      · by_cases h2 : T.gcb c = .extend
        · simp [hp, h1, h2]
        · by_cases h3 : T.gcb c = .zwj <;> simp [hp, h1, h2, h3]
      · simp [hp, h1]
  · rw [joined_append, ← h.seen, next]
    by_cases hp : T.pict c = true
    · simp [hp, hT.pict c hp]
    · by_cases h1 : s.pict = .seen
      · by_cases h2 : T.gcb c = .extend
        · simp [hp, h1, h2]
        · by_cases h3 : T.gcb c = .zwj <;> simp [hp, h1, h2, h3]
      · simp [hp, h1]
  · rw [conj_append, ← h.conj, next]
    rcases hi : T.incb c with _ | _ | _ | _ <;> simp
  · rw [linked_append, ← h.linked, ← h.conj, next]
    rcases hi : T.incb c with _ | _ | _ | _ <;> simp

theorem ctx_after (hT : T.Coherent) (cs : Str) : ∀ {s : SegSt} {text : Str}, Ctx T s text → Ctx T (T.after s cs) (text ++ cs) := by
  induction cs with
  | nil => intro s text h; simpa [after] using h
  | cons c cs ih =>
    intro s text h
    have := ih (ctx_next hT h c)
    rw [List.append_assoc, List.singleton_append] at this
    exact this

/-- `join` decides the rules. -/
theorem join_iff {s : SegSt} {x : Str} {p n : Char} (h : Ctx T s (x ++ [p])) :
    T.join s n = true ↔ T.Forbidden (x ++ [p]) p n := by
  have h1 := h.prev x p rfl
  have h2 := h.odd
  have h3 := h.zwj
  have h4 := h.linked
  unfold Forbidden IsControl
  rw [← h2, ← h3, ← h4, ← h1]
  have h5 : s.odd = true → s.prev = .regional := by
    intro ho
    rw [h1]
    by_cases hr : T.gcb p = .regional
    · exact hr
    · rw [h2, flags_append, if_neg hr] at ho
      cases ho
  unfold join
  clear h h1 h2 h3 h4
  simp only
  generalize s.prev = sp at *
  generalize T.gcb n = sn at *
  by_cases a1 : s.conj = .linked ∧ T.incb n = .consonant
  · rcases sp <;> rcases sn <;> simp [a1]
  · by_cases a2 : s.pict = .zwj ∧ T.pict n = true
    · rcases sp <;> rcases sn <;> simp [a2]
    · rcases ho : s.odd with _ | _
      · rcases sp <;> rcases sn <;> simp [a1, a2]
      · have := h5 ho
        subst this
        rcases sn <;> simp [a1, a2]

/-- After a boundary the context is that of a fresh start. -/
theorem start_eq_next (hT : T.Coherent) {s : SegSt} {x : Str} {p c : Char} (h : Ctx T s (x ++ [p])) (hj : T.join s c = false) :
    T.start c = T.next s c := by
  have hp := h.prev x p rfl
  have hn : ∀ {q : Prop}, T.Forbidden (x ++ [p]) p c → q := by
    intro q hf
    rw [← join_iff h, hj] at hf
    cases hf
  unfold start next
  congr 1
  · by_cases hr : T.gcb c = .regional
    · rcases ho : s.odd with _ | _
      · simp
      · refine hn (.inr ⟨?_, ?_, ?_⟩)
        · intro hc
          have := h.odd.mp ho
          rw [flags_append] at this
          by_cases hr' : T.gcb p = .regional
          · rcases hc with hc | hc | hc <;> rw [hr'] at hc <;> cases hc
          · rw [if_neg hr'] at this; cases this
        · intro hc
          rcases hc with hc | hc | hc <;> rw [hr] at hc <;> cases hc
        · iterate 9 apply Or.inr
          exact ⟨h.odd.mp ho, hr⟩
    · simp [hr]
  · by_cases hpc : T.pict c = true
    · simp [hpc]
    · have hmark : s.pict = .seen → (T.gcb c = .extend ∨ T.gcb c = .zwj) → False := by
        intro hs hc
        refine hn (.inr ⟨?_, ?_, ?_⟩)
        · rcases seen_append.mp (h.seen.mp hs) with hk | ⟨hk, _⟩
          · intro hc'
            rw [IsControl, hT.pict _ hk] at hc'
            rcases hc' with hc' | hc' | hc' <;> cases hc'
          · intro hc'
            rw [IsControl, hk] at hc'
            rcases hc' with hc' | hc' | hc' <;> cases hc'
        · rintro (hc' | hc' | hc') <;> rcases hc with hc | hc <;> rw [hc] at hc' <;> cases hc'
        · rcases hc with hc | hc
          · exact .inr (.inr (.inr (.inl hc)))
          · exact .inr (.inr (.inr (.inr (.inl hc))))
      rw [if_neg hpc, if_neg hpc, if_neg fun hc => hmark hc.1 (.inl hc.2), if_neg fun hc => hmark hc.1 (.inr hc.2)]
  · have hmark : s.conj ≠ .no → (T.incb c = .extend ∨ T.incb c = .linker) → False := by
      intro hs hi
      have hc := hT.mark c hi
      refine hn (.inr ⟨?_, ?_, ?_⟩)
      · rcases conj_append.mp (h.conj.mp hs) with hk | ⟨hk, _⟩
        · intro hc'
          rw [IsControl, hT.consonant _ hk] at hc'
          rcases hc' with hc' | hc' | hc' <;> cases hc'
        · rintro (hc' | hc' | hc') <;> rcases hT.mark p hk with hk | hk <;> rw [hk] at hc' <;> cases hc'
      · rintro (hc' | hc' | hc') <;> rcases hc with hc | hc <;> rw [hc] at hc' <;> cases hc'
      · rcases hc with hc | hc
        · exact .inr (.inr (.inr (.inl hc)))
        · exact .inr (.inr (.inr (.inr (.inl hc))))
    rcases hi : T.incb c with _ | _ | _ | _
    · simp
    · simp
    · by_cases hs : s.conj = .no
      · simp [hs]
      · exact (hmark hs (.inl hi)).elim
    · by_cases hs : s.conj = .no
      · simp [hs]
      · exact (hmark hs (.inr hi)).elim

theorem go_head (cs : Str) : ∀ s cur, ∃ r gs, T.go s cur cs = (cur ++ r) :: gs := by
  induction cs with
  | nil => intro s cur; exact ⟨[], [], by simp [go]⟩
  | cons c cs ih =>
    intro s cur
    rw [go]
    by_cases hj : T.join s c = true
    · rw [if_pos hj]
      obtain ⟨r, gs, h⟩ := ih (T.next s c) (cur ++ [c])
      exact ⟨c :: r, gs, by rw [h]; simp⟩
    · rw [if_neg hj]
      exact ⟨[], _, by rw [List.append_nil]⟩

theorem go_boundary (hT : T.Coherent) (a : Str) (n : Char) (b : Str) : ∀ s cur x p, Ctx T s (x ++ [p]) → cur ≠ [] →
    ((∃ as bs, T.go s cur (a ++ n :: b) = as ++ bs ∧ as.flatten = cur ++ a) ↔ T.join (T.after s a) n = false) := by
  induction a with
  | nil =>
    intro s cur x p h hc
    rw [List.nil_append, List.append_nil, go, after]
    by_cases hj : T.join s n = true
    · rw [if_pos hj, hj]
      refine ⟨?_, fun h => by cases h⟩
      rintro ⟨as, bs, h1, h2⟩
      obtain ⟨r, gs, h3⟩ := go_head (T := T) b (T.next s n) (cur ++ [n])
      rw [h3] at h1
      rcases as with _ | ⟨g, as⟩
      · exact absurd h2.symm hc
      · simp only [List.cons_append, List.cons.injEq] at h1
        rw [← h1.1, List.flatten_cons] at h2
        have := congrArg List.length h2
        simp at this
    · rw [if_neg hj]
      refine ⟨fun _ => by simpa using hj, fun _ => ⟨[cur], _, rfl, by simp⟩⟩
  | cons c a ih =>
    intro s cur x p h hc
    rw [List.cons_append, go, after]
    by_cases hj : T.join s c = true
    · rw [if_pos hj]
      have := ih (T.next s c) (cur ++ [c]) (x ++ [p]) c (ctx_next hT h c) (by simp)
      rw [List.append_assoc, List.singleton_append] at this
      exact this
    · rw [if_neg hj]
      have hs := start_eq_next hT h (by simpa using hj)
      rw [← hs]
      have := ih (T.start c) [c] [] c (ctx_start hT c) (by simp)
      rw [← this]
      constructor
      · rintro ⟨as, bs, h1, h2⟩
        rcases as with _ | ⟨g, as⟩
        · rw [List.flatten_nil] at h2
          have := congrArg List.length h2
          simp at this
        · simp only [List.cons_append, List.cons.injEq] at h1
          refine ⟨as, bs, h1.2, ?_⟩
          rw [← h1.1, List.flatten_cons] at h2
          exact List.append_cancel_left h2
      · rintro ⟨as, bs, h1, h2⟩
        exact ⟨cur :: as, bs, by rw [h1]; rfl, by rw [List.flatten_cons, h2]; rfl⟩

/-- A text is cut exactly where the rules put a boundary. -/
theorem clusters_boundary (hT : T.Coherent) (before rest : Str) :
    (∃ as bs, T.clusters (before ++ rest) = as ++ bs ∧ as.flatten = before) ↔ T.Boundary before rest := by
  rcases rest with _ | ⟨n, rest⟩
  · refine ⟨fun _ x p n y _ h => (by cases h), fun _ => ⟨T.clusters before, [], by simp, T.clusters_flatten before⟩⟩
  · rcases before with _ | ⟨c, a⟩
    · refine ⟨fun _ x p n y h _ => by simp at h, fun _ => ⟨[], _, rfl, rfl⟩⟩
    · rw [List.cons_append, clusters]
      have h := go_boundary hT a n rest (T.start c) [c] [] c (ctx_start hT c) (by simp)
      rw [List.singleton_append] at h
      rw [h]
      have hctx := ctx_after hT a (ctx_start hT c)
      rw [List.singleton_append] at hctx
      obtain ⟨x, p, hx⟩ : ∃ x p, c :: a = x ++ [p] := ⟨(c :: a).dropLast, (c :: a).getLast (by simp),
        (List.dropLast_concat_getLast (by simp)).symm⟩
      have hji := join_iff (n := n) (hx ▸ hctx)
      constructor
      · intro hj x' p' n' y h1 h2 hf
        injection h2 with h2 _
        subst h2
        obtain ⟨h3, h4⟩ := List.append_inj' (h1.symm.trans hx) rfl
        injection h4 with h4
        subst h4
        rw [hx, ← hji, hj] at hf
        cases hf
      · intro hb
        have := hb x p n rest hx rfl
        rw [hx, ← hji] at this
        simpa using this

end Brack.UTable
