import Verif.Spec.Parts
import Verif.Spec.Calls
import Verif.Proof.GenMore

/-
Commands of documents that compile begin with names that a plugin offers.
-/

namespace Brack

variable {W : Wasm}

/-- Each command is followed by a module and an identifier that a plugin offers. -/
def AllOffered (ps : Plugins W) (L : List (Around × Part)) : Prop :=
  ∀ pre x b p rest, L = pre ++ (x, .command b p) :: rest → ∃ y m l z n l' rest' typ sig,
    rest = (y, .leaf ⟨.module, some m, l⟩) :: (z, .leaf ⟨.ident, some n, l'⟩) :: rest' ∧
    b.commandType = some typ ∧ ps.signature m n typ = some sig

theorem AllOffered.nil (ps : Plugins W) : AllOffered ps [] := by
  intro pre x b p rest h
  rcases pre with _ | ⟨_, _⟩ <;> cases h

theorem AllOffered.leaf {ps : Plugins W} {x : Around} {c : Content} {L} (h : AllOffered ps L) :
    AllOffered ps ((x, .leaf c) :: L) := by
  intro pre y b p rest he
  rcases pre with _ | ⟨q, pre⟩
  · cases he
  · injection he with _ he
    exact h pre y b p rest he

theorem AllOffered.append {ps : Plugins W} {L M} (h : AllOffered ps L) (h' : AllOffered ps M) : AllOffered ps (L ++ M) := by
  intro pre x b p rest he
  rcases List.append_eq_append_iff.mp he with ⟨as, h1, h2⟩ | ⟨bs, h1, h2⟩
  · exact h' as x b p rest h2
  · rcases bs with _ | ⟨q, bs⟩
    · exact h' [] x b p rest (by simpa using h2.symm)
    · injection h2 with h2 h3
      subst h2
      obtain ⟨y, m, l, z, n, l', rest', typ, sig, k1, k2, k3⟩ := h pre x b p bs h1
      exact ⟨y, m, l, z, n, l', rest' ++ M, typ, sig, by rw [h3, k1]; rfl, k2, k3⟩

mutual

theorem parts_offered {ps : Plugins W} : ∀ (a : AST) (around : Around), (∀ n, AST.NodeOf n a → n.CommandOk ps) →
    AllOffered ps (a.parts around)
  | .leaf _ _ _ _, _, _ => (AllOffered.nil ps).leaf
  | .node .document _ cs _, around, h => by
    simpa only [AST.parts] using partsL_offered cs around fun c hc n hn => h n (.child hc hn)
  | .node .stmt _ cs _, around, h => by
    simpa only [AST.parts] using partsL_offered cs around fun c hc n hn => h n (.child hc hn)
  | .node .expr _ cs _, around, h => by
    simpa only [AST.parts] using partsL_offered cs around fun c hc n hn => h n (.child hc hn)
  | .node (.bracket b) i cs l, around, h => by
    have hl := partsL_offered cs ((b, l.start) :: around) fun c hc n hn => h n (.child hc hn)
    obtain ⟨typ, m, c, args, ts, i1, i2, l1, l2, h1, h2, h3, -⟩ := h _ .self b i cs l rfl
    simp only [AST.parts]
    intro pre x b' p rest he
    rcases pre with _ | ⟨q, pre⟩
    · injection he with he he'
      injection he with _ he
      injection he with hb _
      subst hb
      rw [h2] at he'
      exact ⟨_, m, l1, _, c, l2, _, typ, ts, he'.symm, h1, h3⟩
    · injection he with _ he
      exact hl pre x b' p rest he

theorem partsL_offered {ps : Plugins W} : ∀ (cs : List AST) (around : Around),
    (∀ c ∈ cs, ∀ n, AST.NodeOf n c → n.CommandOk ps) → AllOffered ps (AST.partsL around cs)
  | [], _, _ => AllOffered.nil ps
  | c :: cs, around, h => by
    simp only [AST.partsL]
    exact (parts_offered c around (h c (by simp))).append (partsL_offered cs around fun d hd => h d (by simp [hd]))

end

/-- An opening bracket that does not come after a backslash begins a command. -/
theorem tokenParts_open (b : Bracket) (l : Loc) (post : List Token) : ∀ (k : Nat) (pre : List Token) (around : Around),
    pre.length ≤ k → (∀ t ∈ pre, t.kind ≠ .eof ∧ t.kind ≠ .empty) → (∀ t, pre.getLast? = some t → t.kind ≠ .backSlash) →
    ∃ X around' around'', tokenParts around (pre ++ ⟨.bopen b, l⟩ :: post) =
      X ++ (around', .command b l.start) :: tokenParts around'' post := by
  intro k
  induction k with
  | zero =>
    intro pre around hk _ _
    have : pre = [] := List.length_eq_zero_iff.mp (by omega)
    subst this
    exact ⟨[], around, (b, l.start) :: around, by simp only [List.nil_append, tokenParts]⟩
  | succ k ih =>
    intro pre around hk he hl
    rcases pre with _ | ⟨t, pre⟩
    · exact ⟨[], around, (b, l.start) :: around, by simp only [List.nil_append, tokenParts]⟩
    simp only [List.length_cons] at hk
    have hp : ∀ u ∈ pre, u.kind ≠ .eof ∧ u.kind ≠ .empty := fun u hu => he u (by simp [hu])
    have hl' : ∀ u, pre.getLast? = some u → u.kind ≠ .backSlash := by
      intro u hu
      refine hl u ?_
      rcases pre with _ | ⟨v, pre⟩
      · cases hu
      · rw [List.getLast?_cons_cons]; exact hu
    have step : ∀ around, ∃ X around' around'', tokenParts around (pre ++ ⟨.bopen b, l⟩ :: post) =
        X ++ (around', .command b l.start) :: tokenParts around'' post := fun around => ih pre around (by omega) hp hl'
    have more : ∀ (Y : List (Around × Part)) around, (∃ X around' around'',
        Y ++ tokenParts around (pre ++ ⟨.bopen b, l⟩ :: post) =
        X ++ (around', .command b l.start) :: tokenParts around'' post) := by
      intro Y around
      obtain ⟨X, a1, a2, hX⟩ := step around
      exact ⟨Y ++ X, a1, a2, by rw [hX, List.append_assoc]⟩
    obtain ⟨kind, loc⟩ := t
    rw [List.cons_append]
    cases kind with
    | empty => exact absurd rfl (he _ List.mem_cons_self).2
    | eof => exact absurd rfl (he _ List.mem_cons_self).1
    | text v => simpa only [tokenParts, List.singleton_append] using more [_] around
    | module v => simpa only [tokenParts, List.singleton_append] using more [_] around
    | ident v => simpa only [tokenParts, List.singleton_append] using more [_] around
    | newLine => simpa only [tokenParts] using step around
    | whiteSpace => simpa only [tokenParts] using step around
    | dot => simpa only [tokenParts] using step around
    | comma => simpa only [tokenParts] using step around
    | bopen b' => simpa only [tokenParts, List.singleton_append] using more [_] _
    | bclose b' => simpa only [tokenParts] using step _
    | backSlash =>
      rcases pre with _ | ⟨u, us⟩
      · exact absurd rfl (hl _ rfl)
      · rcases hu : escapedChar u.kind with _ | c
        · have := more [(around, .leaf ⟨.invalid, none, loc⟩)] around
          simpa only [tokenParts, List.cons_append, hu, List.nil_append] using this
        · simp only [List.length_cons] at hk
          have hlu : ∀ v, us.getLast? = some v → v.kind ≠ .backSlash := by
            intro v hv
            refine hl' v ?_
            rcases us with _ | ⟨w, us⟩
            · cases hv
            · rw [List.getLast?_cons_cons]; exact hv
          obtain ⟨X, a1, a2, hX⟩ := ih us around (by omega) (fun v hv => hp v (by simp [hv])) hlu
          refine ⟨(around, .leaf ⟨.text, some [c], u.loc⟩) :: X, a1, a2, ?_⟩
          simp only [tokenParts, List.cons_append, hu, hX]

end Brack
