import Verif.Model.TransformSteps
import Verif.Proof.Nesting
import Verif.Proof.ParserSteps

/-
Bounds for the steps the transformer takes.
-/

namespace Brack

theorem length_le_sizeL (cs : List CST) : cs.length ≤ CST.sizeL cs := by
  induction cs with
  | nil => simp
  | cons c cs ih =>
    have := c.size_pos
    simp only [List.length_cons, CST.sizeL]; omega

theorem keepSteps_le (p : CST → Bool) (cs : List CST) : keepSteps p cs ≤ 1 + 2 * CST.sizeL cs := by
  have h1 := sizeL_filter p cs
  have h2 := length_le_sizeL cs
  rw [keepSteps]; omega

theorem copyAt_le : ∀ (i : Nat) (cs : List CST), copyAt i cs ≤ CST.sizeL cs
  | i, [] => by simp [copyAt]
  | 0, c :: cs => by simp [copyAt, CST.sizeL]
  | i + 1, c :: cs => by
    have := copyAt_le i cs
    simp only [copyAt, List.getElem?_cons_succ, CST.sizeL] at this ⊢; omega

theorem spliceSteps_le (c : CST) : spliceSteps c ≤ 2 * CST.sizeL (spliceExpr c) := by
  rcases c with ⟨k, l⟩ | ⟨k, cs, l⟩
  · simp [spliceSteps, spliceExpr, CST.sizeL, CST.size]
  · cases k <;> simp [spliceSteps, spliceExpr, CST.sizeL] <;> omega

theorem spliceSteps_sum_le (cs : List CST) : (cs.map spliceSteps).sum ≤ 2 * CST.sizeL (cs.flatMap spliceExpr) := by
  induction cs with
  | nil => simp
  | cons c cs ih =>
    have := spliceSteps_le c
    rw [List.flatMap_cons, CST.sizeL_append, List.map_cons, List.sum_cons]; omega

theorem add_size_le (e c : CST) : (e.add c).size ≤ e.size + c.size := by
  rcases e with ⟨k, l⟩ | ⟨k, cs, l⟩
  · simp [CST.add]
  · simp only [CST.add, CST.size, CST.sizeL_append, CST.sizeL]; omega

theorem argSteps_le : ∀ (cs : List CST) (e : CST), argSteps e cs ≤ e.size + 5 * CST.sizeL cs
  | [], e => by simp [argSteps]
  | c :: cs, e => by
    have hn := argSteps_le cs (CST.new .expr)
    have he := argSteps_le cs e
    have ha := argSteps_le cs (e.add c)
    have hs := add_size_le e c
    have h1 : (CST.new .expr).size = 1 := rfl
    have h2 := e.size_pos
    have h3 := c.size_pos
    rcases c with ⟨k, l⟩ | ⟨k, ds, l⟩
    · cases k <;> simp only [argSteps, CST.sizeL, CST.size] at * <;> (repeat' split) <;> omega
    · simp only [argSteps, CST.sizeL] at *; omega

theorem checkArgumentsSteps_le (cs : List CST) : checkArgumentsSteps cs ≤ 2 + 5 * CST.sizeL cs := by
  rcases cs with _ | ⟨c0, _ | ⟨c1, _ | ⟨c2, _ | ⟨c3, rest⟩⟩⟩⟩ <;> simp only [checkArgumentsSteps, CST.sizeL]
  · omega
  · omega
  · omega
  · omega
  · have := argSteps_le rest (CST.new .expr)
    have h1 : (CST.new .expr).size = 1 := rfl
    omega

/-- The arguments contain the elements, and a node more for each of them at most. -/
theorem argLoop_nodes : ∀ (cs : List CST) (prev xs l comma),
    CST.sizeL (argLoop prev (.node .expr xs l) comma cs).1 ≤
      CST.sizeL xs + (if xs = [] then 0 else 1) + CST.sizeL cs + cs.length
  | [], prev, xs, l, comma => by
    rcases xs with _ | ⟨x, xs⟩ <;> simp [argLoop, CST.children, CST.sizeL, CST.size]
  | c :: cs, prev, xs, l, comma => by
    have hn := argLoop_nodes cs c [] ⟨⟨0, 0⟩, ⟨0, 0⟩⟩ true
    have he := argLoop_nodes cs c xs l comma
    have ha := argLoop_nodes cs c (xs ++ [c]) (mergeLocation l c.loc) false
    change CST.sizeL (argLoop c (CST.new .expr) true cs).1 ≤ _ at hn
    rw [CST.sizeL_append, if_neg (by simp)] at ha
    have h3 := c.size_pos
    rcases c with ⟨k, l'⟩ | ⟨k, ds, l'⟩
    · by_cases hx : xs = []
      · subst hx
        cases k <;> simp [argLoop, CST.children, CST.sizeL, CST.size, CST.add] at * <;> (repeat' split) <;>
          (try simp [CST.sizeL, CST.size]) <;> omega
      · have hx' : xs.isEmpty = false := by cases xs <;> simp_all
        cases k <;> simp [argLoop, CST.children, CST.sizeL, CST.size, CST.add, hx, hx'] at * <;> omega
    · simp only [argLoop, CST.add, CST.sizeL, List.length_cons] at *
      split <;> omega

theorem checkValidArguments_nodes (cs : List CST) :
    CST.sizeL (checkValidArguments cs).1 ≤ CST.sizeL cs + cs.length := by
  rcases cs with _ | ⟨c0, _ | ⟨c1, _ | ⟨c2, _ | ⟨c3, rest⟩⟩⟩⟩ <;> simp only [checkValidArguments, CST.sizeL]
  · omega
  · omega
  · omega
  · omega
  · have := argLoop_nodes rest c3 [] ⟨⟨0, 0⟩, ⟨0, 0⟩⟩ false
    change CST.sizeL (argLoop c3 (CST.new .expr) false rest).1 ≤ _ at this
    simp only [CST.sizeL, if_true, List.length_cons] at this ⊢
    omega

theorem removeBlanks_nodes (cs : List CST) :
    CST.sizeL (removeBlanks cs) ≤ CST.sizeL cs ∧ (removeBlanks cs).length ≤ cs.length :=
  ⟨sizeL_filter _ cs, List.length_filter_le _ cs⟩

theorem finishBracketSteps_le (cs : List CST) : finishBracketSteps cs ≤ 9 + 17 * CST.sizeL cs := by
  have h0 := copyAt_le 0 cs
  have h1 := copyAt_le 1 cs
  have h2 := copyAt_le 2 cs
  have h3 := copyAt_le 3 cs
  have h4 := copyAt_le (cs.length - 1) cs
  have h5 := length_le_sizeL cs
  have h6 := keepSteps_le (fun c => !c.isBlank) cs
  have h7 := checkArgumentsSteps_le (removeBlanks cs)
  have h8 := keepSteps_le (fun c => !c.notInAst) (checkValidArguments (removeBlanks cs)).1
  have h9 := checkValidArguments_nodes (removeBlanks cs)
  have h10 := removeBlanks_nodes cs
  rw [finishBracketSteps]
  omega

/-- Simplifying does not add more than a node for each node. -/
def Slim (c d : CST) : Prop :=
  d.size + 1 ≤ 2 * c.size ∧ CST.sizeL (spliceExpr d) + (spliceExpr d).length ≤ 2 * c.size

/-- The same for several trees. -/
def SlimL (cs ds : List CST) : Prop :=
  CST.sizeL ds + ds.length ≤ 2 * CST.sizeL cs ∧
    CST.sizeL (ds.flatMap spliceExpr) + (ds.flatMap spliceExpr).length ≤ 2 * CST.sizeL cs

theorem slim_self (c : CST) : Slim c c := by
  rcases c with ⟨k, l⟩ | ⟨k, cs, l⟩
  · simp [Slim, CST.size, spliceExpr, CST.sizeL]
  · have := length_le_sizeL cs
    cases k <;> simp [Slim, CST.size, spliceExpr, CST.sizeL] <;> omega

theorem slim_finish {k l cs ds es d fs} (h : SlimL cs ds) (hf : finishNode k l ds es = .ok (d, fs)) :
    Slim (.node k cs l) d := by
  obtain ⟨h1, h2⟩ := h
  have hr := sizeL_filter (fun c => !c.notInAst) ds
  change CST.sizeL (removeElements ds) ≤ _ at hr
  cases k with
  | document =>
    simp only [finishNode, Res.ok.injEq, Prod.mk.injEq] at hf
    obtain ⟨rfl, -⟩ := hf
    simp only [Slim, CST.size, spliceExpr, CST.sizeL, List.length_singleton]; omega
  | stmt =>
    simp only [finishNode, Res.ok.injEq, Prod.mk.injEq] at hf
    obtain ⟨rfl, -⟩ := hf
    simp only [Slim, CST.size, spliceExpr, CST.sizeL, List.length_singleton]; omega
  | expr =>
    simp only [finishNode, Res.ok.injEq, Prod.mk.injEq] at hf
    obtain ⟨rfl, -⟩ := hf
    simp only [Slim, CST.size, spliceExpr]; omega
  | bracket b =>
    rw [finishNode, finishBracket] at hf
    rcases hc : checkEnds b (ds.flatMap spliceExpr) with ends | m | _ <;> rw [hc] at hf <;> simp only [] at hf
    · cases hf
      have h3 := sizeL_filter (fun c => !c.notInAst) (checkValidArguments (removeBlanks (ds.flatMap spliceExpr))).1
      have h4 := checkValidArguments_nodes (removeBlanks (ds.flatMap spliceExpr))
      have h5 := removeBlanks_nodes (ds.flatMap spliceExpr)
      simp only [Slim, CST.size, spliceExpr, CST.sizeL, List.length_singleton, removeElements]; omega
    · cases hf
    · cases hf
  | backSlash => simp [finishNode] at hf

mutual

theorem simplify_slim : ∀ (c : CST) {d es}, simplify c = .ok (d, es) → Slim c d
  | .leaf k l, d, es, h => by
    rw [simplify] at h; cases h; exact slim_self _
  | .node k cs l, d, es, h => by
    by_cases hk : k = .backSlash
    · subst hk
      rcases cs with _ | ⟨c, cs⟩
      · rw [simplify] at h; cases h
        simp [Slim, CST.size, spliceExpr, CST.sizeL]
      · rw [simplify] at h; cases h
        have := slim_self d
        simp only [Slim, CST.size, CST.sizeL] at this ⊢; omega
    · rw [simplify] at h
      · rcases hL : simplifyL cs with ⟨ds, es'⟩ | m | _ <;> rw [hL] at h <;> simp only [] at h
        · exact slim_finish (simplifyL_slim cs hL) h
        · cases h
        · cases h
      · rintro rfl; exact absurd rfl hk
      · rintro _ _ rfl; exact absurd rfl hk

theorem simplifyL_slim : ∀ (cs : List CST) {ds es}, simplifyL cs = .ok (ds, es) → SlimL cs ds
  | [], ds, es, h => by
    rw [simplifyL] at h; cases h
    simp [SlimL, CST.sizeL]
  | c :: cs, ds, es, h => by
    rw [simplifyL] at h
    rcases h1 : simplify c with ⟨d, e1⟩ | m | _ <;> rw [h1] at h <;> simp only [] at h
    · rcases h2 : simplifyL cs with ⟨ds', e2⟩ | m | _ <;> rw [h2] at h <;> simp only [] at h
      · cases h
        obtain ⟨k1, k2⟩ := simplify_slim c h1
        obtain ⟨k3, k4⟩ := simplifyL_slim cs h2
        simp only [SlimL, CST.sizeL, List.length_cons, List.flatMap_cons, CST.sizeL_append, List.length_append]
        omega
      · cases h
      · cases h
    · cases h
    · cases h

end

/-- What is done at a node, apart from its children. -/
theorem finishSteps_le {k cs ds es} (h : simplifyL cs = .ok (ds, es)) : finishSteps k ds ≤ 9 + 38 * CST.sizeL cs := by
  obtain ⟨h1, h2⟩ := simplifyL_slim cs h
  have h3 := keepSteps_le (fun c => !c.notInAst) ds
  have h4 := spliceSteps_sum_le ds
  have h5 := finishBracketSteps_le (ds.flatMap spliceExpr)
  cases k <;> simp only [finishSteps] <;> omega

mutual

theorem simplifySteps_le : ∀ c : CST, simplifySteps c ≤ 40 * (c.height * c.size)
  | .leaf k l => by simp [simplifySteps, CST.height, CST.size]
  | .node k cs l => by
    have hL := simplifyStepsL_le cs
    have hx : (CST.heightL cs + 1) * (CST.sizeL cs + 1) =
        CST.heightL cs * CST.sizeL cs + CST.heightL cs + CST.sizeL cs + 1 := by
      rw [Nat.add_mul, Nat.mul_add]; omega
    rw [CST.height, CST.size, hx]
    by_cases hk : k = .backSlash
    · subst hk
      rcases cs with _ | ⟨c, cs⟩
      · simp only [simplifySteps]; omega
      · simp only [simplifySteps, CST.sizeL]; omega
    · rw [simplifySteps]
      · rcases hs : simplifyL cs with ⟨ds, es⟩ | m | _ <;> simp only []
        · have := finishSteps_le (k := k) hs
          omega
        · omega
        · omega
      · rintro rfl; exact absurd rfl hk
      · rintro _ _ rfl; exact absurd rfl hk

theorem simplifyStepsL_le : ∀ cs : List CST, simplifyStepsL cs ≤ 40 * (CST.heightL cs * CST.sizeL cs)
  | [] => by simp [simplifyStepsL]
  | c :: cs => by
    have h1 := simplifySteps_le c
    have h2 := simplifyStepsL_le cs
    have h4 : c.height * c.size ≤ max c.height (CST.heightL cs) * c.size := Nat.mul_le_mul_right _ (Nat.le_max_left _ _)
    have h5 : CST.heightL cs * CST.sizeL cs ≤ max c.height (CST.heightL cs) * CST.sizeL cs :=
      Nat.mul_le_mul_right _ (Nat.le_max_right _ _)
    simp only [simplifyStepsL, CST.heightL, CST.sizeL, Nat.mul_add]
    omega

end

mutual

theorem auxSteps_le : ∀ c : CST, auxSteps c ≤ c.height * c.size
  | .leaf k l => by simp [auxSteps, CST.height, CST.size]
  | .node k cs l => by
    have hL := auxStepsL_le cs
    have hx : (CST.heightL cs + 1) * (CST.sizeL cs + 1) =
        CST.heightL cs * CST.sizeL cs + CST.heightL cs + CST.sizeL cs + 1 := by
      rw [Nat.add_mul, Nat.mul_add]; omega
    rw [CST.height, CST.size, hx, auxSteps]
    omega

theorem auxStepsL_le : ∀ cs : List CST, auxStepsL cs ≤ CST.heightL cs * CST.sizeL cs
  | [] => by simp [auxStepsL]
  | c :: cs => by
    have h1 := auxSteps_le c
    have h2 := auxStepsL_le cs
    have h4 : c.height * c.size ≤ max c.height (CST.heightL cs) * c.size := Nat.mul_le_mul_right _ (Nat.le_max_left _ _)
    have h5 : CST.heightL cs * CST.sizeL cs ≤ max c.height (CST.heightL cs) * CST.sizeL cs :=
      Nat.mul_le_mul_right _ (Nat.le_max_right _ _)
    simp only [auxStepsL, CST.heightL, CST.sizeL, Nat.mul_add]
    omega

end

theorem parts_depth : ∀ (ts : List Token) (st : Around) (x : Around × Part), x ∈ tokenParts st ts →
    openAt x ≤ st.length + ts.length := by
  intro ts st
  fun_induction tokenParts st ts with
  | case1 => simp
  | case2 => simp
  | case3 => simp
  | case4 st t ts b hk ih =>
    intro x hx
    rcases List.mem_cons.mp hx with rfl | hx
    · simp only [openAt, List.length_cons]; omega
    · have := ih x hx
      simp only [List.length_cons] at this ⊢; omega
  | case5 st t ts b hk ih =>
    intro x hx
    have := ih x hx
    have h2 := (List.dropWhile_sublist (fun o : Bracket × Pos => decide (o.1 ≠ b)) (l := st)).length_le
    simp only [List.length_drop, List.length_cons] at this h2 ⊢; omega
  | case6 =>
    intro x hx
    rw [List.mem_singleton] at hx; subst hx
    simp only [openAt, List.length_cons]; omega
  | case7 st t hk u us c hc ih =>
    intro x hx
    rcases List.mem_cons.mp hx with rfl | hx
    · simp only [openAt]; omega
    · have := ih x hx
      simp only [List.length_cons] at this ⊢; omega
  | _ =>
    rename_i ih
    intro x hx
    first
    | (have := ih x hx
       simp only [List.length_cons] at this ⊢; omega)
    | (rcases List.mem_cons.mp hx with rfl | hx
       · simp only [openAt]; omega
       · have := ih x hx
         simp only [List.length_cons] at this ⊢; omega)

/-- No more commands are open at once than there are tokens. -/
theorem openMost_tokens (ts : List Token) : openMost ts ≤ ts.length := by
  rw [openMost_le]
  intro x hx
  simpa using parts_depth ts [] x hx

theorem simplify_measure {ts : List Token} {c : CST} (hp : parse ts = .ok c) :
    ∃ d es, simplify c = .ok (d, es) ∧ d.height ≤ 2 * openMost ts + 4 ∧ d.size ≤ 4 * ts.length + 1 := by
  obtain ⟨rest, hP⟩ := parse_ok hp
  have hG := parse_grammar hp
  have htok := hP.tokens
  have hne : ∀ cs l, c = .node .document cs l → ∀ d ∈ cs, d.tokens ≠ [] := by
    rintro cs l rfl
    cases hG with
    | mk h => exact h.tokens_ne
  obtain ⟨cs, l, ds, es', rfl, hd⟩ := hG.xdoc
  have hs := hd.simplify_document (l := l)
  have hl : ∀ x ∈ CST.layL [] ds, openAt x ≤ openMost ts := by
    have := (openMost_le ts _).1 (Nat.le_refl _)
    rw [hP.parts] at this
    simpa [CST.lay, hd.lay] using this
  have h1 := (heightL_le _ _).2 (hd.height _ hl).1
  have h2 := (hd.size (hne cs l rfl)).1
  have h3 := congrArg List.length htok
  simp only [CST.tokens, List.length_append] at h3
  refine ⟨_, _, hs, ?_, ?_⟩
  · simp only [CST.height]; omega
  · simp only [CST.size]; omega

/-! ### from below -/

theorem simplifyStepsL_append (cs ds : List CST) :
    simplifyStepsL (cs ++ ds) = simplifyStepsL cs + simplifyStepsL ds := by
  induction cs with
  | nil => simp [simplifyStepsL]
  | cons c cs ih => simp only [List.cons_append, simplifyStepsL, ih]; omega

theorem node_copied_le {k cs l} (hk : k ≠ .backSlash) (h : CST.copiedL cs ≤ CST.sizeL cs + simplifyStepsL cs) :
    (CST.node k cs l).copied ≤ simplifySteps (.node k cs l) := by
  rw [simplifySteps, CST.copied]
  · omega
  · rintro rfl; exact absurd rfl hk
  · rintro _ _ rfl; exact absurd rfl hk

theorem copiedL_le_of_forall : ∀ cs : List CST, (∀ c ∈ cs, c.copied ≤ simplifySteps c) →
    CST.copiedL cs ≤ CST.sizeL cs + simplifyStepsL cs
  | [], _ => by simp [CST.copiedL]
  | c :: cs, h => by
    have h1 := h c (by simp)
    have h2 := copiedL_le_of_forall cs (fun d hd => h d (by simp [hd]))
    simp only [CST.copiedL, CST.sizeL, simplifyStepsL]; omega

theorem leaf_copied_le (k l) : (CST.leaf k l).copied ≤ simplifySteps (.leaf k l) := by simp [CST.copied]

mutual

theorem GItem.copied_le : ∀ {c : CST}, GItem c → c.copied ≤ simplifySteps c
  | _, .leaf _ => leaf_copied_le _ _
  | _, .escaped _ => by simp [CST.copied, CST.copiedL, simplifySteps, CST.size]
  | _, .backslash => by simp [CST.copied, CST.copiedL]
  | _, .closed h => by
    refine node_copied_le (by simp) (copiedL_le_of_forall _ ?_)
    intro c hc
    simp only [List.cons_append, List.mem_cons, List.mem_append, List.not_mem_nil, or_false] at hc
    rcases hc with rfl | hc | rfl
    · exact leaf_copied_le _ _
    · exact h.copied_le c hc
    · exact leaf_copied_le _ _
  | _, .unclosed h => by
    refine node_copied_le (by simp) (copiedL_le_of_forall _ ?_)
    intro c hc
    rcases List.mem_cons.mp hc with rfl | hc
    · exact leaf_copied_le _ _
    · exact h.copied_le c hc

theorem GBody.copied_le : ∀ {cs : List CST}, GBody cs → ∀ c ∈ cs, c.copied ≤ simplifySteps c
  | _, .nil, c, hc => by simp at hc
  | _, .expr _ hi hb, c, hc => by
    rcases List.mem_cons.mp hc with rfl | hc
    · exact node_copied_le (by simp) (copiedL_le_of_forall _ (fun d hd => (hi d hd).copied_le))
    · exact hb.copied_le c hc
  | _, .newline hb, c, hc => by
    rcases List.mem_cons.mp hc with rfl | hc
    · exact leaf_copied_le _ _
    · exact hb.copied_le c hc

end

theorem GLine.copied_le {c : CST} (h : GLine c) : c.copied ≤ simplifySteps c := by
  cases h with
  | close => exact leaf_copied_le _ _
  | expr _ hi => exact node_copied_le (by simp) (copiedL_le_of_forall _ (fun d hd => (hi d hd).copied_le))

theorem GLines.copied_le {cs : List CST} (h : GLines cs) : ∀ c ∈ cs, c.copied ≤ simplifySteps c := by
  induction h with
  | one h =>
    intro c hc
    rw [List.mem_singleton] at hc; subst hc; exact h.copied_le
  | more h _ ih =>
    intro c hc
    rcases List.mem_cons.mp hc with rfl | hc
    · exact h.copied_le
    · rcases List.mem_cons.mp hc with rfl | hc
      · exact leaf_copied_le _ _
      · exact ih c hc

theorem GStmt.copied_le {c : CST} (h : GStmt c) : c.copied ≤ simplifySteps c := by
  cases h with
  | mk h => exact node_copied_le (by simp) (copiedL_le_of_forall _ h.copied_le)

theorem GNewlines.copied_le {cs : List CST} (h : GNewlines cs) : ∀ c ∈ cs, c.copied ≤ simplifySteps c := by
  intro c hc
  obtain ⟨l, rfl⟩ := h c hc
  exact leaf_copied_le _ _

theorem GChildren.copied_le {cs : List CST} (h : GChildren cs) : ∀ c ∈ cs, c.copied ≤ simplifySteps c := by
  induction h with
  | more hs hn _ ih =>
    intro c hc
    simp only [List.cons_append, List.mem_cons, List.mem_append] at hc
    rcases hc with rfl | rfl | rfl | hc | hc
    · exact hs.copied_le
    · exact leaf_copied_le _ _
    · exact leaf_copied_le _ _
    · exact hn.copied_le c hc
    · exact ih c hc
  | last hs hn =>
    intro c hc
    simp only [List.cons_append, List.mem_cons, List.mem_append, List.not_mem_nil, or_false] at hc
    rcases hc with rfl | hc | rfl
    · exact hs.copied_le
    · exact hn.copied_le c hc
    · exact leaf_copied_le _ _
  | empty hn =>
    intro c hc
    simp only [List.mem_append, List.mem_singleton] at hc
    rcases hc with hc | rfl
    · exact hn.copied_le c hc
    · exact leaf_copied_le _ _

theorem GDocument.copied_le {c : CST} (h : GDocument c) : c.copied ≤ simplifySteps c := by
  cases h with
  | mk h => exact node_copied_le (by simp) (copiedL_le_of_forall _ h.copied_le)

end Brack
