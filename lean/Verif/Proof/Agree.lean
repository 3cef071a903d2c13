import Verif.Proof.Cli
import Verif.Proof.Registry
import Verif.Proof.Relational
import Verif.Proof.Macros
import Verif.Props.Plugins

/-
Helper lemmas on comparing `brack build` and `brack compile`.
-/

namespace Brack

variable {W : Wasm} {R : W.State → W.State → Prop}

theorem Plugins.Related.refl (h : ∀ s, R s s) (ps : Plugins W) : Plugins.Related R ps ps where
  documentHook := rfl
  stmtHook := rfl
  exprHook := rfl
  textHook := rfl
  plugins n := by
    rcases hp : ps.nameToPlugin.get n with _ | p
    · exact .inl ⟨rfl, rfl⟩
    · exact .inr ⟨p, p, rfl, rfl, rfl, h _⟩

theorem Plugins.Related.symm (h : ∀ s t, R s t → R t s) {ps qs : Plugins W} (hp : Plugins.Related R ps qs) :
    Plugins.Related R qs ps where
  documentHook := hp.documentHook.symm
  stmtHook := hp.stmtHook.symm
  exprHook := hp.exprHook.symm
  textHook := hp.textHook.symm
  plugins n := by
    rcases hp.plugins n with ⟨h1, h2⟩ | ⟨p, q, h1, h2, h3, h4⟩
    · exact .inl ⟨h2, h1⟩
    · exact .inr ⟨q, p, h2, h1, h3.symm, h _ _ h4⟩

theorem Plugins.Related.trans (h : ∀ s t u, R s t → R t u → R s u) {ps qs rs : Plugins W}
    (hp : Plugins.Related R ps qs) (hq : Plugins.Related R qs rs) : Plugins.Related R ps rs where
  documentHook := hp.documentHook.trans hq.documentHook
  stmtHook := hp.stmtHook.trans hq.stmtHook
  exprHook := hp.exprHook.trans hq.exprHook
  textHook := hp.textHook.trans hq.textHook
  plugins n := by
    rcases hp.plugins n with ⟨h1, h2⟩ | ⟨p, q, h1, h2, h3, h4⟩
    · rcases hq.plugins n with ⟨k1, k2⟩ | ⟨p', q', k1, k2, k3, k4⟩
      · exact .inl ⟨h1, k2⟩
      · rw [h2] at k1; exact absurd k1 (by simp)
    · rcases hq.plugins n with ⟨k1, k2⟩ | ⟨p', q', k1, k2, k3, k4⟩
      · rw [h2] at k1; exact absurd k1 (by simp)
      · rw [h2] at k1
        injection k1 with k1
        subst k1
        exact .inr ⟨p, q', h1, k2, h3.trans k3, h _ _ _ h4 k4⟩

theorem Alike.related (h : ∀ s, R s s) {ps qs : Plugins W} (ha : Alike ps qs) : Plugins.Related R ps qs where
  documentHook := ha.hook .document
  stmtHook := ha.hook .stmt
  exprHook := ha.hook .expr
  textHook := ha.hook .text
  plugins n := by
    have hn := ha.plugin n
    rcases hp : ps.nameToPlugin.get n with _ | p
    · rw [hp] at hn; exact .inl ⟨rfl, hn.symm⟩
    · rw [hp] at hn; exact .inr ⟨p, p, rfl, hn.symm, rfl, h _⟩

/-- The plugins are left as they have been found. -/
def Leaves (R : W.State → W.State → Prop) {α : Type} (x : PM W α) : Prop := ∀ ps, Plugins.Related R ps (x ps).2

theorem Plugins.Related.insert (h : ∀ s, R s s) {ps : Plugins W} {n : Str} {p : Plugin W} {st : W.State} {log : List Call}
    (hp : ps.nameToPlugin.get n = some p) (hst : R p.extism st) :
    Plugins.Related R ps { ps with nameToPlugin := ps.nameToPlugin.insert n { p with extism := st }, log := log } where
  documentHook := rfl
  stmtHook := rfl
  exprHook := rfl
  textHook := rfl
  plugins m := by
    simp only [HMap.get_insert]
    by_cases hm : m = n
    · subst hm
      rw [if_pos rfl]
      exact .inr ⟨p, _, hp, rfl, rfl, hst⟩
    · rw [if_neg hm]
      exact (Plugins.Related.refl h ps).plugins m

theorem Leaves.callText (hR : W.Traceless R) (n c : Str) (t : PType) (vs : List Value) :
    Leaves R (Plugins.callText n c t vs : PM W Str) := by
  intro ps
  have hr := hR.equivalence.refl
  simp only [Plugins.callText]
  rcases hp : ps.nameToPlugin.get n with _ | p
  · exact Plugins.Related.refl hr ps
  · simp only
    rcases hm : p.signatures.get (c, t) with _ | m
    · exact Plugins.Related.refl hr ps
    · simp only
      have hx := hR.text p.extism m.callName vs
      rcases hw : W.callText p.extism m.callName vs with ⟨_ | s, st⟩
      · rw [hw] at hx; exact Plugins.Related.insert hr hp hx
      · rw [hw] at hx; exact Plugins.Related.insert hr hp hx

theorem Leaves.bind (hR : W.Traceless R) {α β : Type} {x : PM W α} {f : α → PM W β} (hx : Leaves R x)
    (hf : ∀ a, Leaves R (f a)) : Leaves R (x >>= f) := by
  intro ps
  rw [PM.bind_run]
  have h1 := hx ps
  rcases h3 : x ps with ⟨a | m | _, ps'⟩
  · rw [h3] at h1
    exact Plugins.Related.trans (R := R) (fun _ _ _ h h' => hR.equivalence.trans h h') h1 (hf a ps')
  · rw [h3] at h1; exact h1
  · rw [h3] at h1; exact h1

theorem leaves_closed (hR : W.Traceless R) : ClosedText W (fun x => Leaves R x) where
  pure _ := fun ps => Plugins.Related.refl hR.equivalence.refl ps
  lift _ := fun ps => Plugins.Related.refl hR.equivalence.refl ps
  bail _ := fun ps => Plugins.Related.refl hR.equivalence.refl ps
  bind := Leaves.bind hR
  callText := Leaves.callText hR
  argumentTypes := by
    intro n c t ps
    have hr := Plugins.Related.refl hR.equivalence.refl ps
    simp only [Plugins.argumentTypes]
    rcases ps.nameToPlugin.get n with _ | p
    · exact hr
    · simp only
      rcases p.signatures.get (c, t) with _ | m
      · exact hr
      · exact hr
  hook := by
    intro k vs ps
    have hr := Plugins.Related.refl hR.equivalence.refl ps
    have hcall : ∀ p c t, Leaves R (do return some (← Plugins.callText p c t vs) : PM W (Option Str)) := fun p c t =>
      Leaves.bind hR (Leaves.callText hR p c t vs) fun _ ps => Plugins.Related.refl hR.equivalence.refl ps
    rcases k
    all_goals
      simp only [Hook.call, Plugins.callDocumentHook, Plugins.callStmtHook, Plugins.callExprHook,
        Plugins.callTextHook]
    · rcases ps.documentHook with _ | p
      · exact hr
      · exact hcall _ _ _ ps
    · rcases ps.stmtHook with _ | p
      · exact hr
      · exact hcall _ _ _ ps
    · rcases ps.exprHook with _ | p
      · exact hr
      · exact hcall _ _ _ ps
    · rcases ps.textHook with _ | p
      · exact hr
      · exact hcall _ _ _ ps

theorem compileText_leaves (hR : W.Traceless R) {S : Segmenter} {ids : Nat → Str} {checks : Bool} {text gen : Str}
    {ps ps' : Plugins W} (h : compileText S ids checks text ps = (.ok gen, ps')) : Plugins.Related R ps ps' := by
  obtain ⟨_, _, a, _, _, _, _, _, hg⟩ := compileText_ok h
  have := (leaves_closed hR).generate checks a ps
  rw [hg] at this
  exact this

/-- Every document is compiled with plugins as good as those at the beginning. -/
theorem CompiledInTurn.traceless (hR : W.Traceless R) {E : Env} {i : Nat} {ds : List Compiled} {ps ps' : Plugins W}
    (h : CompiledInTurn E i ds ps ps') : ∀ d ∈ ds, ∃ j qs qs', Plugins.Related R ps qs ∧
      compileText E.S (E.ids j) E.checks d.text qs = (.ok d.result, qs') := by
  induction h with
  | nil => intro d hd; simp at hd
  | @cons i d ds ps ps1 ps2 hc _ ih =>
    intro d' hd
    rcases List.mem_cons.mp hd with rfl | hd
    · exact ⟨i, ps, ps1, Plugins.Related.refl hR.equivalence.refl ps, hc⟩
    · obtain ⟨j, qs, qs', h1, h2⟩ := ih d' hd
      have h0 := compileText_leaves hR hc
      exact ⟨j, qs, qs', Plugins.Related.trans (R := R) (fun _ _ _ h h' => hR.equivalence.trans h h') h0 h1, h2⟩

/-- The first document meets the plugins as they were loaded. -/
theorem CompiledInTurn.first {E : Env} {i : Nat} {d : Compiled} {ps ps' : Plugins W}
    (h : CompiledInTurn E i [d] ps ps') : compileText E.S (E.ids i) E.checks d.text ps = (.ok d.result, ps') := by
  cases h with
  | cons hc t => cases t; exact hc

/-- The output of a document that compiles does not depend on the identifiers. -/
theorem compileText_same (hT : W.SameTexts R) {S : Segmenter} {ids ids' : Nat → Str} {checks : Bool} {text gen : Str}
    {ps ps' qs : Plugins W} (hrel : Plugins.Related R ps qs)
    (h : compileText S ids checks text ps = (.ok gen, ps')) : (compileText S ids' checks text qs).1 = .ok gen := by
  obtain ⟨ts, c, a, es, h1, h2, h3, hm, _⟩ := compileText_ok h
  have hsame := (compileText_rel (R := R) hT S (ids := ids) (ids' := ids') checks text (by
    intro ts' c' a' es' k1 k2 k3 k4
    rw [h1] at k1
    injection k1 with k1
    subst k1
    rw [h2] at k2
    injection k2 with k2
    subst k2
    rw [h3] at k3
    injection k3 with k3
    injection k3 with k3 _
    subst k3
    exact absurd hm k4) ps qs hrel).1
  rw [h] at hsame
  generalize (compileText S ids' checks text qs).1 = o at *
  rcases o with gen2 | m | _
  · exact congrArg Res.ok (show gen = gen2 from hsame).symm
  · exact False.elim hsame
  · exact False.elim hsame

/-- Level 5 in a directory whose plugins are related to those of the build. -/
theorem compile_agrees {E2 : Env} {F : Formats} {envDir : Option Str} {dir stem text gen : Str} {w2 : World}
    {plugins2 : List (Plugin W)} {qs qs2 qs' : Plugins W} {b : Bytes} {ids : Nat → Str}
    (hT : W.SameTexts R) (hw : w2.Healthy) (hl : (compilePlugins W dir w2).1 = .ok plugins2) (hps : Plugins.new plugins2 = .ok qs2)
    (hrel : Plugins.Related R qs qs2) (hb : w2.files.get (chars! "docs/" ++ stem ++ chars! ".[]") = some b)
    (ht : fromUtf8 b = some text) (hc : compileText E2.S ids E2.checks text qs = (.ok gen, qs')) :
    (runCompile W E2 F envDir ⟨some dir, chars! "docs/" ++ stem ++ chars! ".[]", 5, false⟩ w2).1 = .ok () ∧
    (runCompile W E2 F envDir ⟨some dir, chars! "docs/" ++ stem ++ chars! ".[]", 5, false⟩ w2).2.lines =
      w2.lines ++ [gen] := by
  have hq := compilePlugins_quiet W dir w2
  have hg := compilePlugins_goes W dir w2
  rcases hr : compilePlugins W dir w2 with ⟨o, w3⟩
  rw [hr] at hl hq hg
  simp only at hl hq hg
  subst hl
  rw [runCompile_run (plugins := plugins2) (ps := qs2) (w1 := w3) (by exact hr) hps]
  have hc2 := compileText_same hT (ids' := E2.ids 0) hrel hc
  · rw [runStage_run (b := b) (text := text) (healthy_of_goes hw hg _ (Nat.le_refl _))
      (endsWith_iff.mpr ⟨_, rfl⟩) (by rw [hq.1]; exact hb) ht ⟨by simp, by simp⟩ (fun _ => rfl)]
    simp only [stageLines, hc2]
    refine ⟨rfl, ?_⟩
    show World.lines { w3 with clock := w3.clock + 1, log := w3.log ++ [gen].map .printed } = _
    have := lines_printed { w3 with clock := w3.clock + 1 } [gen]
    rw [this]
    simp only [World.lines]
    rw [hq.2.2]

theorem nameOf_renamed {r : Str → Str → Prop} (k : ALKind) {a b : AST} (h : a.Renamed r b) :
    (nameOf k a : PM W Str) = nameOf k b := by
  rcases a with ⟨k1, j, v, l⟩ | ⟨k1, j, es, l⟩ <;> rcases b with ⟨k', j', v', l'⟩ | ⟨k', j', es', l'⟩ <;>
    simp only [AST.Renamed] at h
  · obtain ⟨rfl, _, rfl, rfl⟩ := h
    rfl
  · rfl

theorem bailWith_renamed {r : Str → Str → Prop} {a b : AST} (h : a.Renamed r b) : (bailWith a : PM W Str) = bailWith b := by
  unfold bailWith
  rw [display_renamed a b h 0]

mutual

theorem genChild_renamed {r : Str → Str → Prop} (checks : Bool) : (a b : AST) → a.Renamed r b → ∀ d,
    (genChild checks d a : PM W Str) = genChild checks d b
  | .leaf k i v l, .leaf k' i' v' l', h, d => by
    have h0 := h
    simp only [AST.Renamed] at h
    obtain ⟨rfl, _, rfl, _⟩ := h
    rcases k <;> simp only [genChild] <;> first | exact bailWith_renamed h0 | rfl
  | .node k i cs l, .node k' i' cs' l', h, d => by
    have h0 := h
    simp only [AST.Renamed] at h
    obtain ⟨rfl, _, rfl, h⟩ := h
    rcases k with _ | _ | _ | b
    · simp only [genChild]; exact bailWith_renamed h0
    · simp only [genChild, genChildren_renamed checks cs cs' h false, bailWith_renamed h0]
    · simp only [genChild, genChildren_renamed checks cs cs' h false]
    · rcases cs with _ | ⟨m, _ | ⟨e, cs⟩⟩ <;> rcases cs' with _ | ⟨m', _ | ⟨e', cs'⟩⟩ <;>
        simp only [AST.RenamedL, and_false] at h
      · rcases b <;> simp only [genChild]
      · rcases b <;> simp only [genChild]
      · have hg := genChildren_renamed checks cs cs' h.2.2 false
        rcases b <;> simp only [genChild, hg, commandGenerate, nameOf_renamed _ h.1, nameOf_renamed _ h.2.1]
  | .leaf .., .node .., h, _ => by simp [AST.Renamed] at h
  | .node .., .leaf .., h, _ => by simp [AST.Renamed] at h

theorem genChildren_renamed {r : Str → Str → Prop} (checks : Bool) : (as bs : List AST) → AST.RenamedL r as bs → ∀ d,
    (genChildren checks d as : PM W (List Str)) = genChildren checks d bs
  | [], [], _, _ => rfl
  | a :: as, b :: bs, h, d => by
    rw [AST.RenamedL] at h
    simp only [genChildren, genChild_renamed checks a b h.1 d, genChildren_renamed checks as bs h.2 d]
  | [], _ :: _, h, _ => by simp [AST.RenamedL] at h
  | _ :: _, [], h, _ => by simp [AST.RenamedL] at h

end

theorem generate_renamed {r : Str → Str → Prop} (checks : Bool) {a b : AST} (h : a.Renamed r b) :
    (generate checks a : PM W Str) = generate checks b := by
  rcases a with ⟨k, j, v, l⟩ | ⟨k, j, cs, l⟩ <;> rcases b with ⟨k', j', v', l'⟩ | ⟨k', j', cs', l'⟩ <;>
    simp only [AST.Renamed] at h
  · rfl
  · obtain ⟨rfl, _, rfl, h⟩ := h
    rcases k <;> simp only [generate, genChildren_renamed checks cs cs' h true]

theorem sameTexts_eq : W.SameTexts Eq := by
  intro s t f vs hst
  subst hst
  exact ⟨rfl, rfl⟩

mutual

theorem macros_renamed {r : Str → Str → Prop} : (a b : AST) → a.Renamed r b → (a.macros = [] ↔ b.macros = [])
  | .leaf .., .leaf .., _ => by simp only [AST.macros]
  | .node k i cs l, .node k' i' cs' l', h => by
    simp only [AST.Renamed] at h
    obtain ⟨rfl, _, rfl, h⟩ := h
    have := macrosL_renamed cs cs' h
    rcases k with _ | _ | _ | _ | _ | _ <;> simp only [AST.macros] <;> first | exact this | simp
  | .leaf .., .node .., h => by simp [AST.Renamed] at h
  | .node .., .leaf .., h => by simp [AST.Renamed] at h

theorem macrosL_renamed {r : Str → Str → Prop} : (as bs : List AST) → AST.RenamedL r as bs →
    (AST.macrosL as = [] ↔ AST.macrosL bs = [])
  | [], [], _ => Iff.rfl
  | a :: as, b :: bs, h => by
    rw [AST.RenamedL] at h
    simp only [AST.macrosL, List.append_eq_nil_iff, macros_renamed a b h.1, macrosL_renamed as bs h.2]
  | [], _ :: _, h => by simp [AST.RenamedL] at h
  | _ :: _, [], h => by simp [AST.RenamedL] at h

end

/-- It suffices to look at the tree with some identifiers. -/
theorem macroFree_of {S : Segmenter} {text : Str} {ids : Nat → Str} {a : AST} {es : List TErr}
    (h : HasAST S ids text a es) (hm : a.macros = []) : MacroFree S text := by
  intro ids' b es' h'
  obtain ⟨c, ⟨ts, h1, h2⟩, h3⟩ := h
  obtain ⟨c', ⟨ts', k1, k2⟩, k3⟩ := h'
  rw [HasTokens] at h1 k1
  rw [h1] at k1
  injection k1 with k1
  subst k1
  rw [h2] at k2
  injection k2 with k2
  subst k2
  have ht := transform_renamed ids ids' c
  rw [h3, k3] at ht
  exact (macros_renamed a b ht.1).mp hm

end Brack
