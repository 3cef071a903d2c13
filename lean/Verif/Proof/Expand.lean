import Verif.Proof.PMLemmas
import Verif.Proof.TransFinal

/-
Helper lemmas on the macro expander.
-/

namespace Brack

variable {W : Wasm}

theorem macroNames_ok : ∀ (cs : List AST) (m i m' i' : Str), macroNames m i cs = .ok (m', i') →
    m' = ((cs.filterMap AST.moduleName?).getLast?).getD m ∧
    i' = ((cs.filterMap AST.identName?).getLast?).getD i := by
  intro cs
  induction cs with
  | nil => intro m i m' i' h; simp [macroNames] at h; simp [h]
  | cons c cs ih =>
    intro m i m' i' h
    have hother : ∀ m i, macroNames m i cs = .ok (m', i') →
        m' = ((cs.filterMap AST.moduleName?).getLast?).getD m ∧
        i' = ((cs.filterMap AST.identName?).getLast?).getD i := fun m i => ih m i m' i'
    rcases c with ⟨k, j, v, l⟩ | ⟨k, j, ds, l⟩
    · rcases k
      · rcases v with _ | v
        · simp [macroNames] at h
        · simp only [macroNames] at h
          obtain ⟨h1, h2⟩ := hother _ _ h
          refine ⟨by simpa [AST.moduleName?] using h1, ?_⟩
          rw [h2]
          simp only [List.filterMap_cons, AST.identName?, List.getLast?_cons, Option.getD_some]
      · rcases v with _ | v
        · simp [macroNames] at h
        · simp only [macroNames] at h
          obtain ⟨h1, h2⟩ := hother _ _ h
          refine ⟨?_, by simpa [AST.identName?] using h2⟩
          rw [h1]
          simp only [List.filterMap_cons, AST.moduleName?, List.getLast?_cons, Option.getD_some]
      all_goals
        simp only [macroNames] at h
        simpa [AST.moduleName?, AST.identName?] using hother _ _ h
    · simp only [macroNames] at h
      simpa [AST.moduleName?, AST.identName?] using hother _ _ h

theorem macroNames_no_panic : ∀ (cs : List AST) (m i : Str), macroNames m i cs ≠ .panic := by
  intro cs
  induction cs with
  | nil => intro m i; simp [macroNames]
  | cons c cs ih =>
    intro m i
    rcases c with ⟨k, j, v, l⟩ | ⟨k, j, ds, l⟩
    · rcases k <;> rcases v with _ | v <;> simp [macroNames, ih]
    · simp [macroNames, ih]

theorem macroNames_err : ∀ (cs : List AST) (m i : Str) (e : String), macroNames m i cs = .err e →
    ∃ c ∈ cs, ∃ k' i' l', c = .leaf k' i' none l' ∧ (k' = .module ∨ k' = .ident) := by
  intro cs
  induction cs with
  | nil => intro m i e h; simp [macroNames] at h
  | cons c cs ih =>
    intro m i e h
    have hr : ∀ m i, macroNames m i cs = .err e →
        ∃ d ∈ c :: cs, ∃ k' i' l', d = .leaf k' i' none l' ∧ (k' = .module ∨ k' = .ident) := by
      intro m i h
      obtain ⟨d, hd, h'⟩ := ih m i e h
      exact ⟨d, by simp [hd], h'⟩
    rcases c with ⟨k, j, v, l⟩ | ⟨k, j, ds, l⟩
    · rcases k
      · rcases v with _ | v
        · exact ⟨_, List.mem_cons_self .., _, _, _, rfl, by simp⟩
        · exact hr _ _ h
      · rcases v with _ | v
        · exact ⟨_, List.mem_cons_self .., _, _, _, rfl, by simp⟩
        · exact hr _ _ h
      all_goals exact hr _ _ h
    · exact hr _ _ h

theorem Unavailable_same {ps ps' : Plugins W} (h : Same ps ps') {m : AST} (hm : m.Unavailable ps') :
    m.Unavailable ps := by
  rcases hm with hm | hm
  · exact .inl hm
  · exact .inr (by rw [← h.sigs]; exact hm)

/-- What is known about a run of the expander over trees with these macros. -/
structure Expands (overall : AST) (ms : List AST) (leaves : List Content) (ps : Plugins W) (res : Res α)
    (ps' : Plugins W) : Prop where
  run : ∃ calls, Ran ps ps' calls res.isOk ∧
    calls.map (fun c => c.2.request) <+: ms.map (AST.macroRequest overall) ∧
    (res.isOk = true → calls.map (fun c => c.2.request) = ms.map (AST.macroRequest overall)) ∧
    (res.isErr = true → (∃ c, calls.getLast? = some c ∧ c.2.isFailed = true) ∨
      ∃ m, ms[calls.length]? = some m ∧ m.Unavailable ps)
  err : res.isErr = true → ms ≠ []
  panic : res.isPanic = true → ∃ x ∈ leaves, x.kind = .invalid ∨ x.kind = .ignored

theorem expandAngle_spec (overall : AST) (i : Str) (cs : List AST) (l : Loc) (ps : Plugins W) :
    Expands overall [.node (.bracket .angle) i cs l] [] ps (expandAngle overall i cs ps).1
      (expandAngle overall i cs ps).2 := by
  rw [expandAngle, PM.bind_run, PM.lift_run]
  rcases hm : macroNames [] [] cs with ⟨m, j⟩ | e | _
  · simp only []
    obtain ⟨calls, h1, h2, h4, h3⟩ := callMacro_cases m j overall i ps .command
    obtain ⟨rfl, rfl⟩ := macroNames_ok _ _ _ _ _ hm
    refine ⟨⟨calls, h1, ?_, ?_, ?_⟩, ?_, ?_⟩
    · rcases h2 with h2 | ⟨h2, _⟩
      · rw [h2]; exact List.prefix_refl _
      · rw [h2]; exact List.nil_prefix
    · intro hok
      rcases h2 with h2 | ⟨_, h2⟩
      · rw [h2]; rfl
      · rw [h2.1] at hok; cases hok
    · intro he
      rcases h4 he with h | ⟨h, h'⟩
      · exact .inl h
      · exact .inr ⟨.node (.bracket .angle) i cs l, by rw [h]; rfl, .inr h'⟩
    · intro _; simp
    · intro h
      revert h h3
      generalize (Plugins.callMacro (W := W) _ _ overall i ps).1 = r
      intro h3 h
      rcases r with _ | _ | _
      · cases h
      · cases h
      · exact absurd rfl h3
  · refine ⟨⟨[], Ran.nil ps _, List.nil_prefix, (by intro h; cases h), fun _ => .inr ⟨_, rfl, .inl ?_⟩⟩,
      fun _ => (by simp), fun h => (by cases h)⟩
    exact ⟨_, _, _, _, rfl, macroNames_err _ _ _ _ hm⟩
  · exact absurd hm (macroNames_no_panic _ _ _)

theorem Expands.weaken {overall : AST} {ms xs ys} {ps ps' : Plugins W} {res : Res α}
    (h : Expands overall ms xs ps res ps') (hs : ∀ x ∈ xs, x ∈ ys) : Expands overall ms ys ps res ps' :=
  ⟨h.run, h.err, fun hp => let ⟨x, hx, hk⟩ := h.panic hp; ⟨x, hs x hx, hk⟩⟩

/-- The expansion of a child. -/
def expandChild (overall : AST) : AST → PM W AST
  | .node (.bracket .angle) i ds _ => expandAngle overall i ds
  | c => expandOther overall c

theorem expandChildren_cons (overall c : AST) (cs : List AST) :
    (expandChildren overall (c :: cs) : PM W _) =
      (expandChild overall c >>= fun d => expandChildren overall cs >>= fun ds => pure (d :: ds)) := by
  rcases c with ⟨k, i, v, l⟩ | ⟨k, i, ds, l⟩
  · rw [expandChildren, expandChild] <;> simp
  · rcases k with _ | _ | _ | _ | _ | _ <;> rw [expandChildren, expandChild] <;> simp

mutual

theorem expandOther_spec (overall : AST) : ∀ (a : AST) (ps : Plugins W),
    (∀ i cs l, a ≠ .node (.bracket .angle) i cs l) →
    Expands overall a.macros a.contents ps (expandOther overall a ps).1 (expandOther overall a ps).2
  | .leaf k i v l, ps, _ => by
    rcases k <;> rw [expandOther]
    · exact ⟨⟨[], Ran.nil ps _, List.nil_prefix, fun _ => rfl, fun h => (by cases h)⟩, fun h => (by cases h), fun h => (by cases h)⟩
    · exact ⟨⟨[], Ran.nil ps _, List.nil_prefix, fun _ => rfl, fun h => (by cases h)⟩, fun h => (by cases h), fun h => (by cases h)⟩
    · exact ⟨⟨[], Ran.nil ps _, List.nil_prefix, fun _ => rfl, fun h => (by cases h)⟩, fun h => (by cases h), fun h => (by cases h)⟩
    · exact ⟨⟨[], Ran.nil ps _, List.nil_prefix, fun h => (by cases h), fun h => (by cases h)⟩, fun h => (by cases h),
        fun _ => ⟨_, List.mem_singleton.mpr rfl, by simp⟩⟩
    · exact ⟨⟨[], Ran.nil ps _, List.nil_prefix, fun h => (by cases h), fun h => (by cases h)⟩, fun h => (by cases h),
        fun _ => ⟨_, List.mem_singleton.mpr rfl, by simp⟩⟩
  | .node k i cs l, ps, hna => by
    have h := expandChildren_spec overall cs ps
    have hm : AST.macros (.node k i cs l) = AST.macrosL cs := by
      rcases k with _ | _ | _ | b <;> try rfl
      rcases b <;> try rfl
      exact absurd rfl (hna i cs l)
    rw [hm]
    simp only [AST.contents]
    rw [expandOther, PM.bind_run]
    rcases hr : expandChildren overall cs ps with ⟨r | e | _, ps'⟩
    · rw [hr] at h
      exact ⟨h.run, h.err, fun hp => (by cases hp)⟩
    · rw [hr] at h
      exact ⟨h.run, h.err, fun hp => (by cases hp)⟩
    · rw [hr] at h
      exact ⟨h.run, h.err, h.panic⟩

theorem expandChild_spec (overall : AST) : ∀ (a : AST) (ps : Plugins W),
    Expands overall a.macros a.contents ps
      ((expandChild overall a) ps).1 ((expandChild overall a) ps).2
  | .leaf k i v l, ps => expandOther_spec overall (.leaf k i v l) ps (by simp)
  | .node .document i cs l, ps => expandOther_spec overall (.node .document i cs l) ps (by simp)
  | .node .stmt i cs l, ps => expandOther_spec overall (.node .stmt i cs l) ps (by simp)
  | .node .expr i cs l, ps => expandOther_spec overall (.node .expr i cs l) ps (by simp)
  | .node (.bracket .square) i cs l, ps => expandOther_spec overall (.node (.bracket .square) i cs l) ps (by simp)
  | .node (.bracket .curly) i cs l, ps => expandOther_spec overall (.node (.bracket .curly) i cs l) ps (by simp)
  | .node (.bracket .angle) i cs l, ps => (expandAngle_spec overall i cs l ps).weaken (by simp)

theorem expandChildren_spec (overall : AST) : ∀ (cs : List AST) (ps : Plugins W),
    Expands overall (AST.macrosL cs) (AST.contentsL cs) ps (expandChildren overall cs ps).1
      (expandChildren overall cs ps).2
  | [], ps => by
    rw [expandChildren]
    exact ⟨⟨[], Ran.nil ps _, List.nil_prefix, fun _ => rfl, fun h => (by cases h)⟩, fun h => (by cases h), fun h => (by cases h)⟩
  | c :: cs, ps => by
    have h1 := expandChild_spec overall c ps
    have h2 := fun ps' => expandChildren_spec overall cs ps'
    simp only [AST.macrosL, AST.contentsL]
    rw [expandChildren_cons, PM.bind_run]
    revert h1
    generalize expandChild overall c ps = x
    intro h1
    rcases x with ⟨r | e | _, ps1⟩
    · simp only []
      rw [PM.bind_run]
      have h2 := h2 ps1
      obtain ⟨calls1, r1, _, e1, _⟩ := h1.run
      have e1 := e1 rfl
      have hlen : calls1.length = c.macros.length := by simpa using congrArg List.length e1
      rcases hr : expandChildren overall cs ps1 with ⟨rs | e | _, ps2⟩
      · rw [hr] at h2
        obtain ⟨calls2, r2, p2, e2, _⟩ := h2.run
        refine ⟨⟨calls1 ++ calls2, r1.append r2, ?_, ?_, fun h => (by cases h)⟩, fun h => (by cases h),
          fun h => (by cases h)⟩
        · simp only [List.map_append, e1]
          exact (List.prefix_append_right_inj _).mpr p2
        · intro _
          simp only [List.map_append, e1, e2 rfl]
      · rw [hr] at h2
        obtain ⟨calls2, r2, p2, e2, f2⟩ := h2.run
        refine ⟨⟨calls1 ++ calls2, r1.append r2, ?_, fun h => (by cases h), fun _ => ?_⟩,
          fun h => (by simp [h2.err h]), fun h => (by cases h)⟩
        · simp only [List.map_append, e1]
          exact (List.prefix_append_right_inj _).mpr p2
        · rcases f2 rfl with ⟨x, hx, hf⟩ | ⟨m, hm, hu⟩
          · exact .inl ⟨x, by rw [List.getLast?_append, hx]; rfl, hf⟩
          · refine .inr ⟨m, ?_, Unavailable_same r1.same hu⟩
            rw [List.length_append, hlen, List.getElem?_append_right (by omega), Nat.add_sub_cancel_left]
            exact hm
      · rw [hr] at h2
        obtain ⟨calls2, r2, p2, e2, _⟩ := h2.run
        refine ⟨⟨calls1 ++ calls2, r1.append r2, ?_, fun h => (by cases h), fun h => (by cases h)⟩,
          fun h => (by cases h), ?_⟩
        · simp only [List.map_append, e1]
          exact (List.prefix_append_right_inj _).mpr p2
        · intro h
          obtain ⟨x, hx, hk⟩ := h2.panic h
          exact ⟨x, by simp [hx], hk⟩
    · obtain ⟨calls1, r1, p1, e1, f1⟩ := h1.run
      refine ⟨⟨calls1, r1, ?_, fun h => (by cases h), fun _ => ?_⟩, fun h => (by simp [h1.err h]),
        fun h => (by cases h)⟩
      · rw [List.map_append]
        exact p1.trans (List.prefix_append _ _)
      · rcases f1 rfl with h | ⟨m, hm, hu⟩
        · exact .inl h
        · refine .inr ⟨m, ?_, hu⟩
          have := (List.getElem?_eq_some_iff.mp hm).1
          rw [List.getElem?_append_left this]
          exact hm
    · obtain ⟨calls1, r1, p1, e1, _⟩ := h1.run
      refine ⟨⟨calls1, r1, ?_, fun h => (by cases h), fun h => (by cases h)⟩, fun h => (by cases h), ?_⟩
      · rw [List.map_append]
        exact p1.trans (List.prefix_append _ _)
      · intro h
        obtain ⟨x, hx, hk⟩ := h1.panic h
        exact ⟨x, by simp [hx], hk⟩

end

/-- The expander returns its argument. -/
theorem expandOther_result (overall a : AST) (ps : Plugins W) (b : AST)
    (h : (expandOther overall a ps).1 = .ok b) : b = a := by
  rcases a with ⟨k, i, v, l⟩ | ⟨k, i, cs, l⟩
  · rcases k <;> rw [expandOther] at h <;> first
      | (injection h with h; exact h.symm)
      | cases h
  · rw [expandOther, PM.bind_run] at h
    rcases hr : expandChildren overall cs ps with ⟨r | e | _, ps'⟩
    · rw [hr] at h; injection h with h; exact h.symm
    · rw [hr] at h; cases h
    · rw [hr] at h; cases h

mutual

/-- A tree without macros makes the expander panic if it contains an invalid node. -/
theorem expandOther_panic (overall : AST) : ∀ (a : AST) (ps : Plugins W), a.macros = [] →
    (∃ x ∈ a.contents, x.kind = .invalid ∨ x.kind = .ignored) → (expandOther overall a ps).1 = .panic
  | .leaf k i v l, ps, _, ⟨x, hx, hk⟩ => by
    simp only [AST.contents, List.mem_singleton] at hx
    subst hx
    rcases k <;> simp at hk <;> rfl
  | .node k i cs l, ps, hm, hx => by
    have hm' : AST.macrosL cs = [] := by
      rcases k with _ | _ | _ | b <;> try exact hm
      rcases b <;> try exact hm
      simp [AST.macros] at hm
    have := expandChildren_panic overall cs ps hm' hx
    rw [expandOther, PM.bind_run]
    rcases hr : expandChildren overall cs ps with ⟨r | e | _, ps'⟩ <;> rw [hr] at this <;>
      first | rfl | cases this

theorem expandChild_panic (overall : AST) : ∀ (a : AST) (ps : Plugins W), a.macros = [] →
    (∃ x ∈ a.contents, x.kind = .invalid ∨ x.kind = .ignored) →
      (expandChild overall a ps).1 = .panic
  | .leaf k i v l, ps, hm, hx => expandOther_panic overall (.leaf k i v l) ps hm hx
  | .node .document i cs l, ps, hm, hx => expandOther_panic overall (.node .document i cs l) ps hm hx
  | .node .stmt i cs l, ps, hm, hx => expandOther_panic overall (.node .stmt i cs l) ps hm hx
  | .node .expr i cs l, ps, hm, hx => expandOther_panic overall (.node .expr i cs l) ps hm hx
  | .node (.bracket .square) i cs l, ps, hm, hx => expandOther_panic overall (.node (.bracket .square) i cs l) ps hm hx
  | .node (.bracket .curly) i cs l, ps, hm, hx => expandOther_panic overall (.node (.bracket .curly) i cs l) ps hm hx
  | .node (.bracket .angle) i cs l, ps, hm, _ => by simp [AST.macros] at hm

theorem expandChildren_panic (overall : AST) : ∀ (cs : List AST) (ps : Plugins W), AST.macrosL cs = [] →
    (∃ x ∈ AST.contentsL cs, x.kind = .invalid ∨ x.kind = .ignored) → (expandChildren overall cs ps).1 = .panic
  | [], ps, _, ⟨x, hx, _⟩ => by simp [AST.contentsL] at hx
  | c :: cs, ps, hm, ⟨x, hx, hk⟩ => by
    simp only [AST.macrosL, List.append_eq_nil_iff] at hm
    have h1 := fun hx => expandChild_panic overall c ps hm.1 hx
    have h2 := fun ps' => expandChildren_panic overall cs ps' hm.2
    have h3 := expandChild_spec overall c ps
    simp only [AST.contentsL, List.mem_append] at hx
    rw [expandChildren_cons, PM.bind_run]
    revert h1 h3
    generalize expandChild overall c ps = y
    intro h1 h3
    rcases y with ⟨r | e | _, ps1⟩
    · rcases hx with hx | hx
      · exact absurd (h1 ⟨x, hx, hk⟩) (by simp)
      · have := h2 ps1 ⟨x, hx, hk⟩
        simp only [PM.bind_run]
        rcases hr : expandChildren overall cs ps1 with ⟨r | e | _, ps'⟩ <;> rw [hr] at this <;>
          first | rfl | cases this
    · exact absurd hm.1 (h3.err rfl)
    · rfl

end

mutual

theorem replaced_self : ∀ (a : AST), Replaced a a.macros a
  | .leaf k i v l => .leaf
  | .node .document i cs l => .node (by simp) (replacedAll_self cs)
  | .node .stmt i cs l => .node (by simp) (replacedAll_self cs)
  | .node .expr i cs l => .node (by simp) (replacedAll_self cs)
  | .node (.bracket .square) i cs l => .node (by simp) (replacedAll_self cs)
  | .node (.bracket .curly) i cs l => .node (by simp) (replacedAll_self cs)
  | .node (.bracket .angle) i cs l => .angle

theorem replacedAll_self : ∀ (cs : List AST), ReplacedAll cs (AST.macrosL cs) cs
  | [] => .nil
  | c :: cs => .cons (replaced_self c) (replacedAll_self cs)

end

mutual

theorem Replaced.macros : ∀ {a : AST} {rs : List AST} {b : AST}, Replaced a rs b → b.macros = rs.flatMap AST.macros
  | _, _, _, .angle => by simp
  | _, _, _, .leaf => by simp [AST.macros]
  | _, _, _, .node (k := k) hk h => by
    have := ReplacedAll.macros h
    rcases k with _ | _ | _ | b <;> try exact this
    rcases b <;> try exact this
    exact absurd rfl hk

theorem ReplacedAll.macros : ∀ {as rs bs : List AST}, ReplacedAll as rs bs →
    AST.macrosL bs = rs.flatMap AST.macros
  | _, _, _, .nil => rfl
  | _, _, _, .cons h h' => by
    have h1 := Replaced.macros h
    have h2 := ReplacedAll.macros h'
    simp only [AST.macrosL, h1, h2, List.flatMap_append]

end

theorem expander_panic_invalid {a : AST} {ps : Plugins W} (h : (expander a ps).1 = .panic) :
    ∃ x ∈ a.contents, x.kind = .invalid ∨ x.kind = .ignored := by
  rcases a with ⟨k, i, v, l⟩ | ⟨k, i, cs, l⟩
  · exact (expandOther_spec _ (.leaf k i v l) ps (by simp)).panic
      (by rw [show (expandOther _ _ ps).1 = .panic from h]; rfl)
  · have h2 := expandChildren_spec (W := W) (.node k i cs l) cs ps
    rw [expander, expandOther, PM.bind_run] at h
    rcases hr : expandChildren (.node k i cs l) cs ps with ⟨r | e | _, ps'⟩
    · rw [hr] at h; cases h
    · rw [hr] at h; cases h
    · rw [hr] at h2; exact h2.panic rfl

theorem content_invalid {ts : List Token} {c : CST} {ids a es} (hp : parse ts = .ok c)
    (hx : transform ids c = .ok (a, es)) {x : Content} (h : x ∈ a.contents)
    (hk : x.kind = .invalid ∨ x.kind = .ignored) : ∃ l, l ∈ (trace [] ts).filterMap Event.stray? := by
  obtain ⟨_, _, _, _, hT⟩ := transform_trans hp hx
  rw [hT.contents] at h
  obtain ⟨e, he, h'⟩ := List.mem_filterMap.mp h
  rcases e with ⟨st, k, l⟩ | _ | _ | _ | _ | _ <;> try (simp [Event.content?] at h'; done)
  · rcases k <;> simp [Event.content?] at h' <;> subst h' <;> simp at hk
  · simp [Event.content?] at h'; subst h'; simp at hk
  · exact ⟨_, List.mem_filterMap.mpr ⟨_, he, rfl⟩⟩

end Brack
