import Verif.Spec.Words
import Verif.Proof.ParaTokens

/-
Documents that differ in their words only have the same tokens but for the texts.
-/

namespace Brack

/-- The same kind of token, with the same name if it is a name; texts may differ. -/
def TokKind.Like (k k' : TokKind) : Prop := k = k' ∨ ∃ s s', k = .text s ∧ k' = .text s'

/-- Tokens alike one by one. -/
def TokensLike : List Token → List Token → Prop
  | [], [] => True
  | t :: ts, u :: us => t.kind.Like u.kind ∧ TokensLike ts us
  | _, _ => False

theorem TokKind.Like.refl (k : TokKind) : k.Like k := .inl rfl

theorem TokensLike.append : ∀ {a a' b b' : List Token}, TokensLike a a' → TokensLike b b' → TokensLike (a ++ b) (a' ++ b')
  | [], [], _, _, _, h => h
  | _ :: _, _ :: _, _, _, h, h' => ⟨h.1, h.2.append h'⟩
  | [], _ :: _, _, _, h, _ => h.elim
  | _ :: _, [], _, _, h, _ => h.elim

theorem TokensLike.refl : ∀ ts : List Token, TokensLike ts ts
  | [] => trivial
  | _ :: ts => ⟨.refl _, TokensLike.refl ts⟩

theorem TokensLike.length : ∀ {a b : List Token}, TokensLike a b → a.length = b.length
  | [], [], _ => rfl
  | _ :: _, _ :: _, h => by simp [h.2.length]
  | [], _ :: _, h => h.elim
  | _ :: _, [], h => h.elim

/-- Two states between which only texts and positions differ. -/
structure M.Kin (m m' : M) : Prop where
  angle : m.angle = m'.angle
  square : m.square = m'.square
  curly : m.curly = m'.curly
  look : m.look = m'.look
  pool : m.look = true → m.pool = m'.pool

theorem M.Kin.nested {m m' : M} (h : M.Kin m m') : m.nested = m'.nested := by
  simp only [M.nested, h.angle, h.square, h.curly]

theorem actionC_named (c d : Cl) (look nested : Bool) (a : Action) (ha : a = .identifier ∨ a = .module)
    (h : actionC c d look nested = a) : look = true := by
  subst h
  revert c d look nested; decide

theorem emit_kin {m m' : M} (h : M.Kin m m') (a : Action) (ha : a = .identifier ∨ a = .module → m.look = true) (g : Str) :
    TokensLike (emit a g m).1 (emit a g m').1 ∧ M.Kin (emit a g m).2 (emit a g m').2 := by
  obtain ⟨h1, h2, h3, h4, h5⟩ := h
  rcases a with _ | _ | b | b | _ | _ | _ | _ | _ | _ | _
  · exact ⟨⟨.refl _, trivial⟩, h1, h2, h3, h4, h5⟩
  · exact ⟨⟨.inl (by simp only [M.pooled, h5 (ha (.inl rfl))]), trivial⟩, h1, h2, h3, rfl, fun _ => rfl⟩
  · refine ⟨⟨.refl _, trivial⟩, ?_⟩
    cases b <;> constructor <;> simp [emit, M.adv, M.addCount, h1, h2, h3]
  · refine ⟨⟨.refl _, trivial⟩, ?_⟩
    cases b <;> constructor <;> simp [emit, M.adv, M.addCount, h1, h2, h3, h4]
  · exact ⟨⟨.refl _, trivial⟩, h1, h2, h3, h4, fun _ => rfl⟩
  · exact ⟨⟨.refl _, trivial⟩, h1, h2, h3, h4, fun _ => rfl⟩
  · exact ⟨⟨.refl _, trivial⟩, h1, h2, h3, h4, fun _ => rfl⟩
  · exact ⟨⟨.refl _, trivial⟩, h1, h2, h3, h4, fun _ => rfl⟩
  · exact ⟨⟨.inl (by simp only [M.pooled, h5 (ha (.inr rfl))]), trivial⟩, h1, h2, h3, h4, fun _ => rfl⟩
  · exact ⟨⟨.inr ⟨_, _, rfl, rfl⟩, trivial⟩, h1, h2, h3, h4, fun _ => rfl⟩
  · exact ⟨trivial, h1, h2, h3, h4, fun hl => by simp only [emit, h5 hl]⟩

/-- From such states on the same tokens follow, but for the texts. -/
theorem run_kin : ∀ (gs : List Str) {m m' : M}, M.Kin m m' → TokensLike (run gs m) (run gs m')
  | [], _, _, _ => ⟨.refl _, trivial⟩
  | g :: gs, m, m', h => by
    rw [run, run]
    by_cases hg : g = NUL
    · rw [if_pos hg, if_pos hg]
      exact ⟨.refl _, trivial⟩
    · rw [if_neg hg, if_neg hg]
      have ha : act g gs m' = act g gs m := by unfold act; rw [h.look, h.nested]
      rw [ha]
      have h1 := emit_kin h (act g gs m) (fun h' => by
        unfold act at h'
        rw [action_eq] at h'
        exact actionC_named _ _ _ _ _ h' rfl) g
      exact h1.1.append (run_kin gs h1.2)

/-! ### The text before the words -/

theorem actionC_word (c d : Cl) (n : Bool) (hc : stopC n c = false) :
    actionC c d false n = if stopC n d then .text else .pool := by
  revert c d n; decide

theorem actionC_special (c d : Cl) (n : Bool) (hn : c ≠ .nul) (hc : stopC n c = true) :
    actionC c d false n = actionC c .nul false n := by
  revert c d n; decide

theorem actionC_nul (c : Cl) (l n : Bool) : actionC c .nul l n ≠ .identifier := by
  revert c l n; decide

theorem emit_looks {a : Action} {g : Str} {m : M} (h : (emit a g m).2.look = false) : m.look = false ∨ a = .identifier := by
  rcases a with _ | _ | b | b | _ | _ | _ | _ | _ | _ | _ <;> simp only [emit, M.adv] at h <;>
    first | exact .inr rfl | exact .inl h | skip
  · cases b <;> simp [M.addCount] at h
  · cases b <;> exact .inl h

theorem M.nested_nest (m : M) : m.nested = decide (0 < m.nest) := by
  unfold M.nested M.nest
  rfl

theorem run_not_nil : ∀ (gs : List Str) (m : M), run gs m ≠ []
  | [], _ => by simp [run]
  | g :: gs, m => by
    rw [run]
    by_cases h : g = NUL
    · simp [h]
    · rw [if_neg h]
      simp [run_not_nil gs]

theorem run_reaches : ∀ (gs : List Str) (m : M) (ts : List Token) (e : Token), (∀ g ∈ gs, g ≠ NUL) → run gs m = ts ++ [e] →
    nameDue m.look ts = false → ∃ ts1 m1, m1.look = false ∧ m1.nest = m.nest + depth ts ∧
      ∀ r rest, stopC m1.nested (cls r) = false → run (gs ++ r :: rest) m = ts1 ++ run (r :: rest) m1
  | [], m, ts, e, _, h, hl => by
    have : ts = [] := by
      rcases ts with _ | ⟨t, ts⟩
      · rfl
      · have := congrArg List.length h
        simp [run] at this
    subst this
    exact ⟨[], m, hl, by simp [depth], fun r rest _ => rfl⟩
  | [g], m, ts, e, hn, h, hl => by
    have hg : g ≠ NUL := hn g (by simp)
    rw [run, if_neg hg, run] at h
    have h1 := List.append_inj' h rfl
    have hts := h1.1
    have hact : act g [] m = actionC (cls g) .nul m.look m.nested := by
      unfold act
      rw [action_eq]
      rfl
    have hlook : m.look = false := by
      have h2 : (emit (act g [] m) g m).2.look = false := by rw [emit_look, hts]; exact hl
      rcases emit_looks h2 with h3 | h3
      · exact h3
      · rw [hact] at h3
        exact absurd h3 (actionC_nul _ _ _)
    by_cases hc : stopC m.nested (cls g) = true
    · refine ⟨ts, (emit (act g [] m) g m).2, by rw [emit_look, hts]; exact hl, by rw [emit_nest, hts], fun r rest _ => ?_⟩
      have ha : act g (r :: rest) m = act g [] m := by
        rw [hact]
        unfold act
        rw [action_eq, hlook]
        exact actionC_special _ _ _ (fun h => hg ((cls_nul _).mp h)) hc
      show run (g :: r :: rest) m = _
      rw [run, if_neg hg, ha, hts]
    · have hc : stopC m.nested (cls g) = false := by simpa using hc
      have hte : ts = [m.pooled .text g] := by
        rw [← hts, hact, hlook, actionC_word _ _ _ hc]
        rfl
      refine ⟨[], { m with col := m.col + 1, pool := m.pool ++ g }, hlook, ?_, fun r rest hr => ?_⟩
      · rw [hte]
        simp [depth, M.pooled, M.nest]
      · have ha : act g (r :: rest) m = .pool := by
          unfold act
          rw [action_eq, hlook, actionC_word _ _ _ hc]
          have : stopC m.nested (cls r) = false := hr
          simp [this]
        show run (g :: r :: rest) m = _
        rw [run, if_neg hg, ha]
        rfl
  | g :: g2 :: gs, m, ts, e, hn, h, hl => by
    have hg : g ≠ NUL := hn g (by simp)
    rw [run, if_neg hg] at h
    have hne := run_not_nil (g2 :: gs) (emit (act g (g2 :: gs) m) g m).2
    obtain ⟨ts', e', h'⟩ : ∃ ts' e', run (g2 :: gs) (emit (act g (g2 :: gs) m) g m).2 = ts' ++ [e'] :=
      ⟨_, _, (List.dropLast_concat_getLast hne).symm⟩
    rw [h', ← List.append_assoc] at h
    have h1 := List.append_inj' h rfl
    have hts := h1.1
    have hl' : nameDue (emit (act g (g2 :: gs) m) g m).2.look ts' = false := by
      rw [emit_look, ← nameDue_append, hts]
      exact hl
    obtain ⟨ts1, m1, k1, k2, k3⟩ := run_reaches (g2 :: gs) _ ts' e' (fun g' h => hn g' (List.mem_cons_of_mem _ h)) h' hl'
    refine ⟨(emit (act g (g2 :: gs) m) g m).1 ++ ts1, m1, k1, ?_, fun r rest hr => ?_⟩
    · rw [k2, emit_nest, ← hts, depth_append]
      omega
    · have ha : act g (g2 :: gs ++ r :: rest) m = act g (g2 :: gs) m := rfl
      show run (g :: (g2 :: gs ++ r :: rest)) m = _
      rw [run, if_neg hg, ha, k3 r rest hr, List.append_assoc]

/-! ### The words -/

/-- The state after some words. -/
def M.past (m : M) (gs : List Str) : M := { m with col := m.col + gs.length, pool := m.pool ++ gs.flatten }

theorem run_words : ∀ (gs : List Str) (m : M) (g : Str) (rest : List Str), m.look = false →
    (∀ g' ∈ gs ++ [g], stopC m.nested (cls g') = false) → run (gs ++ g :: rest) m = run (g :: rest) (m.past gs)
  | [], m, g, rest, _, _ => by simp [M.past]
  | g' :: gs, m, g, rest, hl, h => by
    have hg' : stopC m.nested (cls g') = false := h g' (by simp)
    have hne : g' ≠ NUL := by
      rintro rfl
      rw [cls_NUL] at hg'
      cases hg'
    have ha : act g' (gs ++ g :: rest) m = .pool := by
      unfold act
      rw [action_eq, hl, actionC_word _ _ _ hg']
      have : stopC m.nested (cls ((gs ++ g :: rest).headD NUL)) = false := by
        rcases gs with _ | ⟨g2, gs⟩
        · exact h g (by simp)
        · exact h g2 (by simp)
      simp only [this]
      rfl
    have ih := run_words gs (emit .pool g' m).2 g rest hl (fun x hx => h x (by
      rw [List.cons_append]
      exact List.mem_cons_of_mem _ hx))
    show run (g' :: (gs ++ g :: rest)) m = _
    rw [run, if_neg hne, ha]
    show [] ++ _ = _
    rw [List.nil_append, ih]
    congr 1
    simp only [emit, M.past, List.length_cons, List.flatten_cons, List.append_assoc, M.mk.injEq, and_true, true_and]
    omega

theorem run_reworded (gs gs' v : List Str) (m : M) (hl : m.look = false) (h0 : gs ≠ []) (h0' : gs' ≠ [])
    (h : ∀ g ∈ gs, stopC m.nested (cls g) = false) (h' : ∀ g ∈ gs', stopC m.nested (cls g) = false) :
    TokensLike (run (gs ++ v) m) (run (gs' ++ v) m) := by
  obtain ⟨a, g, rfl⟩ : ∃ a g, gs = a ++ [g] := ⟨_, _, (List.dropLast_concat_getLast h0).symm⟩
  obtain ⟨a', g', rfl⟩ : ∃ a g, gs' = a ++ [g] := ⟨_, _, (List.dropLast_concat_getLast h0').symm⟩
  rw [List.append_assoc, List.append_assoc]
  show TokensLike (run (a ++ g :: v) m) (run (a' ++ g' :: v) m)
  rw [run_words a m g v hl h, run_words a' m g' v hl h']
  have hg := h g (by simp)
  have hg' := h' g' (by simp)
  have hne : ∀ {g}, stopC m.nested (cls g) = false → g ≠ NUL := by
    rintro g hg rfl
    rw [cls_NUL] at hg
    cases hg
  rw [run, run, if_neg (hne hg), if_neg (hne hg')]
  have ha : ∀ {g a}, stopC m.nested (cls g) = false → act g v (m.past a) =
      if stopC m.nested (cls (v.headD NUL)) then .text else .pool := by
    intro g a hg
    unfold act
    rw [action_eq]
    show actionC _ _ m.look m.nested = _
    rw [hl, actionC_word _ _ _ hg]
  rw [ha hg, ha hg']
  by_cases hs : stopC m.nested (cls (v.headD NUL)) = true
  · rw [if_pos hs]
    exact TokensLike.append ⟨.inr ⟨_, _, rfl, rfl⟩, trivial⟩ (run_kin v ⟨rfl, rfl, rfl, rfl, fun _ => rfl⟩)
  · rw [if_neg hs]
    refine TokensLike.append trivial (run_kin v ⟨rfl, rfl, rfl, rfl, fun h => ?_⟩)
    have : m.look = true := h
    rw [hl] at this
    cases this

/-! ### Documents -/

theorem stop_words {inside : Bool} {x g : Str} (hg : ∀ c ∈ g, c ∈ x) (hx : PlainWords inside x) :
    stopC inside (cls g) = false := by
  have key : ∀ c : Char, (c ∈ specialChars ∨ (inside = true ∧ c ∈ [' ', '.', ','])) → g ≠ [c] := by
    rintro c hc rfl
    have := hx.2 c (hg c (by simp))
    rcases hc with hc | ⟨h1, h2⟩
    · exact this.1 hc
    · exact this.2 h1 h2
  rcases hc : cls g
  · exact absurd ((cls_bs _).mp hc) (key _ (.inl (by decide)))
  · exact absurd ((cls_lt _).mp hc) (key _ (.inl (by decide)))
  · exact absurd ((cls_gt _).mp hc) (key _ (.inl (by decide)))
  · exact absurd ((cls_lc _).mp hc) (key _ (.inl (by decide)))
  · exact absurd ((cls_rc _).mp hc) (key _ (.inl (by decide)))
  · exact absurd ((cls_lb _).mp hc) (key _ (.inl (by decide)))
  · exact absurd ((cls_rb _).mp hc) (key _ (.inl (by decide)))
  · cases inside
    · rfl
    · exact absurd ((cls_dot _).mp hc) (key _ (.inr ⟨rfl, by decide⟩))
  · cases inside
    · rfl
    · exact absurd ((cls_comma _).mp hc) (key _ (.inr ⟨rfl, by decide⟩))
  · cases inside
    · rfl
    · exact absurd ((cls_sp _).mp hc) (key _ (.inr ⟨rfl, by decide⟩))
  · exact absurd ((cls_nl _).mp hc) (key _ (.inl (by decide)))
  · exact absurd ((cls_nul _).mp hc) (key _ (.inl (by decide)))
  · rfl

theorem tokens_reworded {S : Segmenter} {inside : Bool} {u x x' v : Str} (hu : WordPlace S inside u) (hx : PlainWords inside x)
    (hx' : PlainWords inside x') (ha : Apart S u x v) (ha' : Apart S u x' v) :
    ∃ ts ts', tokenizeStr S (u ++ x ++ v) = .ok ts ∧ tokenizeStr S (u ++ x' ++ v) = .ok ts' ∧ TokensLike ts ts' := by
  refine ⟨_, _, tokenizeStr_eq S _, tokenizeStr_eq S _, ?_⟩
  obtain ⟨ts, e, h1, h2, h3⟩ := hu.tokens
  rw [tokenizeStr_eq] at h1
  injection h1 with h1
  have hnul : ∀ g ∈ S.graphemes u, g ≠ NUL := by
    rintro g hg rfl
    refine hu.noNul ?_
    rw [← S.flatten u]
    exact List.mem_flatten.mpr ⟨_, hg, by simp [NUL]⟩
  obtain ⟨ts1, m1, k1, k2, k3⟩ := run_reaches (S.graphemes u) M.init ts e hnul h1 h2
  have hin : m1.nested = inside := by
    rw [M.nested_nest, k2, h3]
    congr 1
    simp [M.nest, M.init]
  have hw : ∀ {x}, PlainWords inside x → S.graphemes x ≠ [] ∧ ∀ g ∈ S.graphemes x, stopC m1.nested (cls g) = false := by
    intro x hx
    refine ⟨fun h => hx.1 ?_, fun g hg => ?_⟩
    · rw [← S.flatten x, h]
      rfl
    · rw [hin]
      refine stop_words (x := x) (fun c hc => ?_) hx
      rw [← S.flatten x]
      exact List.mem_flatten.mpr ⟨g, hg, hc⟩
  have hr : ∀ {x}, PlainWords inside x → run (S.graphemes u ++ S.graphemes x ++ S.graphemes v) M.init =
      ts1 ++ run (S.graphemes x ++ S.graphemes v) m1 := by
    intro x hx
    obtain ⟨h4, h5⟩ := hw hx
    rcases hgx : S.graphemes x with _ | ⟨g, gs⟩
    · exact absurd hgx h4
    · rw [List.append_assoc]
      exact k3 g _ (h5 g (by rw [hgx]; simp))
  unfold Apart at ha ha'
  rw [ha, ha', hr hx, hr hx']
  exact (TokensLike.refl ts1).append
    (run_reworded _ _ _ m1 k1 (hw hx).1 (hw hx').1 (hw hx).2 (hw hx').2)

end Brack
