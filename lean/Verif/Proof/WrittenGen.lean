import Verif.Spec.Written
import Verif.Spec.Calls
import Verif.Proof.Plain
import Verif.Proof.ParaGen
import Verif.Proof.Uax29

/-
Helper lemmas: expansion and code generation depend on the shape of the tree only; trees of written
documents; clusters of written documents.
-/

namespace Brack

variable {W : Wasm}

/-! ### Trees of the same shape -/

mutual

theorem tree_shape : ∀ s : Shape, s.tree.shape = s
  | .leaf k v => rfl
  | .node k cs => by rw [Shape.tree, AST.shape, treeL_shape]

theorem treeL_shape : ∀ ss : List Shape, AST.shapeL (Shape.treeL ss) = ss
  | [] => rfl
  | s :: ss => by rw [Shape.treeL, AST.shapeL, tree_shape, treeL_shape]

end

/-! ### Expansion -/

mutual

/-- Nothing to expand. -/
def Shape.calm : Shape → Bool
  | .leaf k _ => k == .text || k == .module || k == .ident
  | .node k cs => k != .bracket .angle && Shape.calmL cs

def Shape.calmL : List Shape → Bool
  | [] => true
  | s :: ss => s.calm && Shape.calmL ss

end

theorem calmL_append (as bs : List Shape) : Shape.calmL (as ++ bs) = (Shape.calmL as && Shape.calmL bs) := by
  induction as with
  | nil => rfl
  | cons a as ih => simp [Shape.calmL, ih, Bool.and_assoc]

mutual

theorem expandOther_calm (o : AST) (ps : Plugins W) : ∀ a : AST, a.shape.calm = true → expandOther o a ps = (.ok a, ps)
  | .leaf k i v l, h => by
    cases k <;> simp [AST.shape, Shape.calm] at h <;> rfl
  | .node k i cs l, h => by
    simp only [AST.shape, Shape.calm, Bool.and_eq_true] at h
    exact expandOther_node o (expandAll_calm o ps cs h.2)

theorem expandAll_calm (o : AST) (ps : Plugins W) : ∀ cs : List AST, Shape.calmL (AST.shapeL cs) = true →
    ∀ c ∈ cs, (∀ i es l, c ≠ .node (.bracket .angle) i es l) ∧ expandOther o c ps = (.ok c, ps)
  | [], _ => by simp
  | c :: cs, h => by
    simp only [AST.shapeL, Shape.calmL, Bool.and_eq_true] at h
    intro d hd
    have hc := expandOther_calm o ps c h.1
    rcases List.mem_cons.1 hd with hd | hd
    · rw [hd]
      refine ⟨?_, hc⟩
      rintro i es l rfl
      simp [AST.shape, Shape.calm] at h
    · exact expandAll_calm o ps cs h.2 d hd

end

mutual

theorem calm_item : ∀ i : Markup, i.hasMacro = false → Shape.calmL i.shape = true
  | .words s, _ => rfl
  | .escaped c, _ => rfl
  | .blank c, _ => rfl
  | .call b m n args, h => by
    simp only [Markup.hasMacro, Bool.or_eq_false_iff, beq_eq_false_iff_ne] at h
    have hc : Shape.calmL (if onlyBlanks args then [] else Markup.shapeArgs args) = true := by
      split
      · rfl
      · exact calm_args args h.2
    simp only [Markup.shape, Shape.calmL, Shape.calm, hc]
    cases b <;> simp at h <;> rfl

theorem calm_list : ∀ is : List Markup, Markup.hasMacroL is = false → Shape.calmL (Markup.shapeL is) = true
  | [], _ => rfl
  | i :: is, h => by
    simp only [Markup.hasMacroL, Bool.or_eq_false_iff] at h
    rw [Markup.shapeL, calmL_append, calm_item i h.1, calm_list is h.2]
    rfl

theorem calm_args : ∀ as : List (List Markup), Markup.hasMacroArgs as = false → Shape.calmL (Markup.shapeArgs as) = true
  | [], _ => rfl
  | a :: as, h => by
    simp only [Markup.hasMacroArgs, Bool.or_eq_false_iff] at h
    rw [Markup.shapeArgs, Shape.calmL, Shape.calm, calm_list a h.1, calm_args as h.2]
    rfl

end

theorem calmL_map {α} (f : α → Shape) (xs : List α) (h : ∀ x ∈ xs, (f x).calm = true) : Shape.calmL (xs.map f) = true := by
  induction xs with
  | nil => rfl
  | cons x xs ih =>
    rw [List.map_cons, Shape.calmL, h x (by simp), ih (fun y hy => h y (by simp [hy]))]
    rfl

theorem calm_document {d : List (List (List Markup))} (h : hasMacros d = false) : (documentShape d).calm = true := by
  simp only [hasMacros, List.any_eq_false] at h
  have e : (AKind.document != AKind.bracket .angle) = true := rfl
  have e1 : (AKind.stmt != AKind.bracket .angle) = true := rfl
  have e2 : (AKind.expr != AKind.bracket .angle) = true := rfl
  rw [documentShape, Shape.calm, e, Bool.true_and]
  refine calmL_map _ _ fun p hp => ?_
  rw [Shape.calm, e1, Bool.true_and]
  refine calmL_map _ _ fun line hl => ?_
  rw [Shape.calm, e2, Bool.true_and]
  have := h p hp
  simp only [List.any_eq_true, not_exists, not_and, Bool.not_eq_true] at this
  exact calm_list _ (this line hl)

/-- Compiling a text read without errors and without macros. -/
theorem compileText_calm {S : Segmenter} {ids : Nat → Str} {ck : Bool} {text : Str} {a : AST} {es} {s : Shape}
    (h : ∃ ts c, tokenizeStr S text = .ok ts ∧ parse ts = .ok c ∧ transform ids c = .ok (a, es))
    (hs : a.shape = s) (hc : s.calm = true) (ps : Plugins W) :
    compileText S ids ck text ps = generate ck s.tree ps := by
  obtain ⟨ts, c, h1, h2, h3⟩ := h
  rw [compileText_front h1 h2 h3, PM.bind_run, expander, expandOther_calm a ps a (hs ▸ hc)]
  simp only []
  rw [generate_shape ck (a := a) (b := s.tree) (by rw [tree_shape, hs])]

/-! ### Sizes -/

mutual

/-- No node has more than this many children. -/
def Shape.small (n : Nat) : Shape → Prop
  | .leaf _ _ => True
  | .node _ cs => cs.length ≤ n ∧ Shape.smallL n cs

def Shape.smallL (n : Nat) : List Shape → Prop
  | [] => True
  | s :: ss => s.small n ∧ Shape.smallL n ss

end

theorem smallL_append (n : Nat) (as bs : List Shape) : Shape.smallL n (as ++ bs) ↔ Shape.smallL n as ∧ Shape.smallL n bs := by
  induction as with
  | nil => simp [Shape.smallL]
  | cons a as ih => simp [Shape.smallL, ih, and_assoc]

theorem smallL_map {α} {n : Nat} (f : α → Shape) (xs : List α) (h : ∀ x ∈ xs, (f x).small n) : Shape.smallL n (xs.map f) := by
  induction xs with
  | nil => trivial
  | cons x xs ih => exact ⟨h x (by simp), ih (fun y hy => h y (by simp [hy]))⟩

theorem treeL_length (ss : List Shape) : (Shape.treeL ss).length = ss.length := by
  induction ss with
  | nil => rfl
  | cons s ss ih => simp [Shape.treeL, ih]

mutual

theorem small_nodes (n : Nat) : ∀ s : Shape, s.small n → ∀ k i cs l, AST.NodeOf (.node k i cs l) s.tree → cs.length ≤ n
  | .leaf k v, _, k', i, cs, l, h => by
    simp only [Shape.tree] at h
    cases h
  | .node k ss, hs, k', i, cs, l, h => by
    simp only [Shape.tree] at h
    cases h with
    | self => rw [treeL_length]; exact hs.1
    | child hm hn => exact small_nodesL n ss hs.2 _ hm _ _ _ _ hn

theorem small_nodesL (n : Nat) : ∀ ss : List Shape, Shape.smallL n ss → ∀ a ∈ Shape.treeL ss, ∀ k i cs l,
    AST.NodeOf (.node k i cs l) a → cs.length ≤ n
  | [], _, a, ha, _, _, _, _, _ => by simp [Shape.treeL] at ha
  | s :: ss, h, a, ha, k, i, cs, l, hn => by
    simp only [Shape.treeL, List.mem_cons] at ha
    rcases ha with rfl | ha
    · exact small_nodes n s h.1 k i cs l hn
    · exact small_nodesL n ss h.2 a ha k i cs l hn

end

theorem plainBut_length {cs : List Char} {s : Str} (h : plainBut cs s = true) : 1 ≤ s.length := by
  rcases s with _ | ⟨c, s⟩
  · simp [plainBut] at h
  · simp

theorem shape_le (i : Markup) (inside : Bool) (h : i.ok inside = true) : i.shape.length ≤ i.write.length ∧ 1 ≤ i.write.length := by
  rcases i with s | c | c | ⟨b, m, n, args⟩
  · exact ⟨plainBut_length h, plainBut_length h⟩
  · simp [Markup.shape, Markup.write]
  · simp [Markup.shape, Markup.write]
  · simp only [Markup.shape, Markup.write, List.length_cons, List.length_append, List.length_nil]
    omega

theorem shapeL_le : ∀ (is : List Markup) (inside : Bool), Markup.okL inside is = true →
    (Markup.shapeL is).length ≤ (Markup.writeL is).length ∧ is.length ≤ (Markup.writeL is).length
  | [], _, _ => by simp [Markup.shapeL, Markup.writeL]
  | i :: is, inside, h => by
    simp only [Markup.okL, Bool.and_eq_true] at h
    have h1 := shape_le i inside h.1.1
    have h2 := shapeL_le is inside h.1.2
    simp only [Markup.shapeL, Markup.writeL, List.length_append, List.length_cons]
    omega

theorem shapeArgs_le : ∀ (as : List (List Markup)), Markup.okArgs as = true →
    (Markup.shapeArgs as).length ≤ (Markup.writeArgs as).length + 1
  | [], _ => by simp [Markup.shapeArgs, Markup.writeArgs]
  | a :: as, h => by
    simp only [Markup.okArgs, Bool.and_eq_true] at h
    have h1 := shapeArgs_le as h.2
    simp only [Markup.shapeArgs, Markup.writeArgs, List.length_cons, List.length_append]
    rcases as with _ | ⟨b, as⟩
    · simp [Markup.shapeArgs]
    · simp only [List.isEmpty_cons, Bool.false_eq_true, if_false, List.length_cons]; omega

mutual

theorem small_item (N : Nat) : ∀ (i : Markup) (inside : Bool), i.ok inside = true → i.write.length ≤ N → Shape.smallL N i.shape
  | .words s, _, _, _ => ⟨trivial, trivial⟩
  | .escaped c, _, _, _ => ⟨trivial, trivial⟩
  | .blank c, _, _, _ => trivial
  | .call b m n args, _, h, hN => by
    simp only [Markup.ok, Bool.and_eq_true] at h
    have h1 := plainBut_length h.1.1
    have h2 := plainBut_length h.1.2
    have h3 := shapeArgs_le args h.2.1
    simp only [Markup.write, List.length_cons, List.length_append, List.length_nil] at hN
    have h4 : (Markup.writeArgs args).length ≤ N := by
      rcases args with _ | ⟨a, as⟩
      · simp [Markup.writeArgs]
      · simp only [List.isEmpty_cons, Bool.false_eq_true, if_false, List.length_cons] at hN
        omega
    have h5 : (Markup.shapeArgs args).length + 2 ≤ N := by
      rcases args with _ | ⟨a, as⟩
      · simp only [Markup.shapeArgs, List.length_nil]; omega
      · simp only [List.isEmpty_cons, Bool.false_eq_true, if_false, List.length_cons] at hN
        omega
    simp only [Markup.shape, Shape.smallL, Shape.small, List.length_cons]
    have h6 : (if onlyBlanks args then [] else Markup.shapeArgs args).length ≤ (Markup.shapeArgs args).length := by
      split <;> simp
    refine ⟨⟨by omega, trivial, trivial, ?_⟩, trivial⟩
    split
    · trivial
    · exact small_args N args h.2.1 h4

theorem small_list (N : Nat) : ∀ (is : List Markup) (inside : Bool), Markup.okL inside is = true →
    (Markup.writeL is).length ≤ N → Shape.smallL N (Markup.shapeL is)
  | [], _, _, _ => trivial
  | i :: is, inside, h, hN => by
    simp only [Markup.okL, Bool.and_eq_true] at h
    simp only [Markup.writeL, List.length_append] at hN
    rw [Markup.shapeL, smallL_append]
    exact ⟨small_item N i inside h.1.1 (by omega), small_list N is inside h.1.2 (by omega)⟩

theorem small_args (N : Nat) : ∀ (as : List (List Markup)), Markup.okArgs as = true →
    (Markup.writeArgs as).length ≤ N → Shape.smallL N (Markup.shapeArgs as)
  | [], _, _ => trivial
  | a :: as, h, hN => by
    simp only [Markup.okArgs, Bool.and_eq_true] at h
    simp only [Markup.writeArgs, List.length_append] at hN
    have h1 := (shapeL_le a true h.1).1
    rw [Markup.shapeArgs, Shape.smallL, Shape.small]
    refine ⟨⟨by omega, small_list N a true h.1 (by omega)⟩, small_args N as h.2 ?_⟩
    rcases as with _ | ⟨b, as⟩
    · simp [Markup.writeArgs]
    · simp only [List.isEmpty_cons, Bool.false_eq_true, if_false, List.length_cons] at hN
      omega

end

theorem small_para {N : Nat} : ∀ (p : List (List Markup)), (∀ line ∈ p, line ≠ [] ∧ Markup.okL false line = true) →
    (writeLines p).length ≤ N → p.length ≤ (writeLines p).length ∧
      Shape.smallL N (p.map (fun line => .node .expr (Markup.shapeL line)))
  | [], _, _ => ⟨by simp, trivial⟩
  | line :: lines, h, hN => by
    have h0 := h line (by simp)
    have h1 := shapeL_le line false h0.2
    have h2 : 1 ≤ line.length := by
      rcases line with _ | ⟨i, line⟩
      · exact absurd rfl h0.1
      · simp
    have h3 : (writeLines lines).length ≤ (writeLines (line :: lines)).length - (Markup.writeL line).length := by
      simp only [writeLines, List.length_append]
      rcases lines with _ | ⟨l, lines⟩
      · simp [writeLines]
      · simp
    have h4 : (Markup.writeL line).length ≤ (writeLines (line :: lines)).length := by
      simp [writeLines]
    obtain ⟨h5, h6⟩ := small_para (N := N) lines (fun l hl => h l (by simp [hl])) (by omega)
    refine ⟨by simp only [List.length_cons]; omega, ⟨⟨by omega, small_list N line false h0.2 (by omega)⟩, h6⟩⟩

theorem paragraph_lines {p : List (List Markup)} (hp : paragraphOk p = true) :
    p ≠ [] ∧ ∀ line ∈ p, line ≠ [] ∧ Markup.okL false line = true := by
  simpa [paragraphOk, Bool.and_eq_true, List.all_eq_true] using hp

theorem small_document {N : Nat} {d : List (List (List Markup))} {text : Str} (h : WrittenAs d text) (hN : text.length ≤ N) :
    d.length ≤ text.length ∧
      Shape.smallL N (d.map (fun p => .node .stmt (p.map (fun line => .node .expr (Markup.shapeL line))))) := by
  induction h with
  | empty n => exact ⟨by simp, trivial⟩
  | last p n hp =>
    obtain ⟨h1, h2⟩ := paragraph_lines hp
    simp only [List.length_append] at hN
    obtain ⟨h3, h4⟩ := small_para p h2 (N := N) (by omega)
    have h5 : 1 ≤ p.length := List.length_pos_iff.2 h1
    refine ⟨by simp only [List.length_append, List.length_cons, List.length_nil]; omega, ⟨?_, h4⟩, trivial⟩
    rw [List.length_map]
    omega
  | more p n d s hp hn hd _ ih =>
    obtain ⟨h1, h2⟩ := paragraph_lines hp
    simp only [List.length_append] at hN
    obtain ⟨h3, h4⟩ := small_para p h2 (N := N) (by omega)
    obtain ⟨h6, h7⟩ := ih (by omega)
    have h5 : 1 ≤ p.length := List.length_pos_iff.2 h1
    refine ⟨by simp only [List.length_append, List.length_cons]; omega, ⟨?_, h4⟩, h7⟩
    rw [List.length_map]
    omega

/-- No list of children is longer than the text. -/
theorem written_fits {d : List (List (List Markup))} {text : Str} (h : WrittenAs d text) (hN : text.length ≤ usizeMax) :
    (documentShape d).tree.Fits := by
  obtain ⟨h1, h2⟩ := small_document h hN
  intro k i cs l hn
  refine small_nodes usizeMax _ ?_ k i cs l hn
  rw [documentShape, Shape.small, List.length_map]
  exact ⟨by omega, h2⟩

/-! ### Nodes of the tree -/

theorem mem_treeL {a : AST} : ∀ {ss : List Shape}, a ∈ Shape.treeL ss → ∃ s ∈ ss, a = s.tree
  | [], h => by simp [Shape.treeL] at h
  | s :: ss, h => by
    simp only [Shape.treeL, List.mem_cons] at h
    rcases h with rfl | h
    · exact ⟨s, by simp, rfl⟩
    · obtain ⟨t, ht, rfl⟩ := mem_treeL h
      exact ⟨t, by simp [ht], rfl⟩

theorem mem_shapeL {s : Shape} : ∀ {is : List Markup}, s ∈ Markup.shapeL is → ∃ i ∈ is, s ∈ i.shape
  | [], h => by simp [Markup.shapeL] at h
  | i :: is, h => by
    simp only [Markup.shapeL, List.mem_append] at h
    rcases h with h | h
    · exact ⟨i, by simp, h⟩
    · obtain ⟨j, hj, hs⟩ := mem_shapeL h
      exact ⟨j, by simp [hj], hs⟩

theorem mem_shapeArgs {s : Shape} : ∀ {as : List (List Markup)}, s ∈ Markup.shapeArgs as →
    ∃ a ∈ as, s = .node .expr (Markup.shapeL a)
  | [], h => by simp [Markup.shapeArgs] at h
  | a :: as, h => by
    simp only [Markup.shapeArgs, List.mem_cons] at h
    rcases h with rfl | h
    · exact ⟨a, by simp, rfl⟩
    · obtain ⟨b, hb, e⟩ := mem_shapeArgs h
      exact ⟨b, by simp [hb], e⟩

theorem shapeArgs_length (as : List (List Markup)) : (Markup.shapeArgs as).length = as.length := by
  induction as with
  | nil => rfl
  | cons a as ih => simp [Markup.shapeArgs, ih]

/-- A node in order for generation. -/
def AST.Fine {W : Wasm} (ps : Plugins W) (n : AST) : Prop := n.nodeGenerable = true ∧ n.CommandOk ps

theorem fine_leaf (ps : Plugins W) (k : ALKind) (v : Str) (h : k = .text ∨ k = .module ∨ k = .ident) :
    ∀ n, AST.NodeOf n (Shape.leaf k (some v)).tree → n.Fine ps := by
  intro n hn
  simp only [Shape.tree] at hn
  cases hn
  refine ⟨?_, ?_⟩
  · rcases h with rfl | rfl | rfl <;> rfl
  · intro b i cs l e
    cases e

theorem shape_isPart {is : List Markup} (h : ∀ b m n args, CallIn b m n args is → b ≠ .angle) :
    (Shape.treeL (Markup.shapeL is)).all AST.isPart = true := by
  rw [List.all_eq_true]
  intro a ha
  obtain ⟨s, hs, rfl⟩ := mem_treeL ha
  obtain ⟨i, hi, hs⟩ := mem_shapeL hs
  rcases i with t | c | c | ⟨b, m, n, args⟩ <;> simp only [Markup.shape, List.mem_cons, List.not_mem_nil, or_false] at hs
  · subst hs; rfl
  · subst hs; rfl
  · subst hs
    have := h b m n args (.here hi)
    cases b
    · exact absurd rfl this
    · rfl
    · rfl

theorem fine_expr {ps : Plugins W} {ss : List Shape} (hp : (Shape.treeL ss).all AST.isPart = true)
    (h : ∀ s ∈ ss, ∀ n, AST.NodeOf n s.tree → n.Fine ps) :
    ∀ n, AST.NodeOf n (Shape.node .expr ss).tree → n.Fine ps := by
  intro n hn
  simp only [Shape.tree] at hn
  cases hn with
  | self => exact ⟨hp, by intro b i cs l e; cases e⟩
  | child hm hn =>
    obtain ⟨s, hs, rfl⟩ := mem_treeL hm
    exact h s hs n hn

mutual

theorem fine_item (ps : Plugins W) : ∀ (i : Markup), (∀ b m n args, CallIn b m n args [i] →
      ∃ typ ts, b.commandType = some typ ∧ ps.signature m n typ = some ts ∧ Admissible ts (argCount args)) →
    ∀ s ∈ i.shape, ∀ x, AST.NodeOf x s.tree → x.Fine ps
  | .words s, _ => by
    intro t ht
    simp only [Markup.shape, List.mem_cons, List.not_mem_nil, or_false] at ht
    subst ht
    exact fine_leaf ps .text s (.inl rfl)
  | .escaped c, _ => by
    intro t ht
    simp only [Markup.shape, List.mem_cons, List.not_mem_nil, or_false] at ht
    subst ht
    exact fine_leaf ps .text [c] (.inl rfl)
  | .blank c, _ => by
    intro t ht
    simp [Markup.shape] at ht
  | .call b m n args, h => by
    intro t ht x hx
    simp only [Markup.shape, List.mem_cons, List.not_mem_nil, or_false] at ht
    subst ht
    obtain ⟨typ, ts, h1, h2, h3⟩ := h b m n args (.here (by simp))
    have hargs := fine_args ps args (fun b' m' n' args' a ha hc => h b' m' n' args' (.deeper (List.mem_singleton.2 rfl) ha hc))
    have hsub : ∀ s ∈ (if onlyBlanks args then [] else Markup.shapeArgs args), s ∈ Markup.shapeArgs args := by
      split <;> simp
    have hlen : (Shape.treeL (if onlyBlanks args then [] else Markup.shapeArgs args)).length = argCount args := by
      rw [treeL_length, argCount]
      split
      · rfl
      · rw [shapeArgs_length]
    have hpart : (Shape.treeL (if onlyBlanks args then [] else Markup.shapeArgs args)).all AST.isPart = true := by
      rw [List.all_eq_true]
      intro a ha
      obtain ⟨s, hs, rfl⟩ := mem_treeL ha
      obtain ⟨a, _, rfl⟩ := mem_shapeArgs (hsub s hs)
      rfl
    simp only [Shape.tree, Shape.treeL] at hx
    cases hx with
    | self =>
      refine ⟨?_, ?_⟩
      · cases b
        · simp [Bracket.commandType] at h1
        · exact hpart
        · exact hpart
      · intro b' i' cs' l' e
        cases e
        exact ⟨typ, m, n, _, ts, _, _, _, _, h1, rfl, h2, by rw [hlen]; exact h3⟩
    | child hm hn =>
      rcases List.mem_cons.1 hm with rfl | hm
      · exact fine_leaf ps .module m (.inr (.inl rfl)) x hn
      · rcases List.mem_cons.1 hm with rfl | hm
        · exact fine_leaf ps .ident n (.inr (.inr rfl)) x hn
        · obtain ⟨s, hs, rfl⟩ := mem_treeL hm
          exact hargs s (hsub s hs) x hn

theorem fine_list (ps : Plugins W) : ∀ (is : List Markup), (∀ b m n args, CallIn b m n args is →
      ∃ typ ts, b.commandType = some typ ∧ ps.signature m n typ = some ts ∧ Admissible ts (argCount args)) →
    ∀ s ∈ Markup.shapeL is, ∀ x, AST.NodeOf x s.tree → x.Fine ps
  | [], _ => by
    intro s hs
    simp [Markup.shapeL] at hs
  | i :: is, h => by
    have lift : ∀ {js b m n args}, (∀ j ∈ js, j ∈ i :: is) → CallIn b m n args js → CallIn b m n args (i :: is) := by
      intro js b m n args hj hc
      cases hc with
      | here hm => exact .here (hj _ hm)
      | deeper hm ha hc => exact .deeper (hj _ hm) ha hc
    intro s hs
    simp only [Markup.shapeL, List.mem_append] at hs
    rcases hs with hs | hs
    · exact fine_item ps i (fun b m n args hc => h b m n args (lift (by simp) hc)) s hs
    · exact fine_list ps is (fun b m n args hc => h b m n args (lift (fun j hj => List.mem_cons_of_mem _ hj) hc)) s hs

theorem fine_args (ps : Plugins W) : ∀ (as : List (List Markup)), (∀ b m n args, ∀ a ∈ as, CallIn b m n args a →
      ∃ typ ts, b.commandType = some typ ∧ ps.signature m n typ = some ts ∧ Admissible ts (argCount args)) →
    ∀ s ∈ Markup.shapeArgs as, ∀ x, AST.NodeOf x s.tree → x.Fine ps
  | [], _ => by
    intro s hs
    simp [Markup.shapeArgs] at hs
  | a :: as, h => by
    intro s hs
    simp only [Markup.shapeArgs, List.mem_cons] at hs
    rcases hs with rfl | hs
    · refine fine_expr (shape_isPart ?_) (fine_list ps a (fun b m n args hc => h b m n args a (by simp) hc))
      rintro b m n args hc rfl
      obtain ⟨typ, ts, h1, _⟩ := h _ m n args a (by simp) hc
      simp [Bracket.commandType] at h1
    · exact fine_args ps as (fun b m n args a' ha hc => h b m n args a' (by simp [ha]) hc) s hs

end

/-- All nodes of the tree of a document are in order. -/
theorem fine_document {ps : Plugins W} {d : List (List (List Markup))}
    (h : ∀ p ∈ d, ∀ line ∈ p, ∀ b m n args, CallIn b m n args line →
      ∃ typ ts, b.commandType = some typ ∧ ps.signature m n typ = some ts ∧ Admissible ts (argCount args)) :
    ∀ x, AST.NodeOf x (documentShape d).tree → x.Fine ps := by
  have hline : ∀ p ∈ d, ∀ line ∈ p, ∀ x, AST.NodeOf x (Shape.node .expr (Markup.shapeL line)).tree → x.Fine ps := by
    intro p hp line hl
    refine fine_expr (shape_isPart ?_) (fine_list ps line (h p hp line hl))
    rintro b m n args hc rfl
    obtain ⟨typ, ts, h1, _⟩ := h p hp line hl _ m n args hc
    simp [Bracket.commandType] at h1
  intro x hx
  simp only [documentShape, Shape.tree] at hx
  cases hx with
  | self =>
    refine ⟨?_, by intro b i cs l e; cases e⟩
    simp only [AST.nodeGenerable, List.all_eq_true]
    intro a ha
    obtain ⟨s, hs, rfl⟩ := mem_treeL ha
    obtain ⟨p, _, rfl⟩ := List.mem_map.1 hs
    rfl
  | child hm hn =>
    obtain ⟨s, hs, rfl⟩ := mem_treeL hm
    obtain ⟨p, hp, rfl⟩ := List.mem_map.1 hs
    simp only [Shape.tree] at hn
    cases hn with
    | self =>
      refine ⟨?_, by intro b i cs l e; cases e⟩
      simp only [AST.nodeGenerable, List.all_eq_true]
      intro a ha
      obtain ⟨s, hs, rfl⟩ := mem_treeL ha
      obtain ⟨line, _, rfl⟩ := List.mem_map.1 hs
      rfl
    | child hm hn =>
      obtain ⟨s, hs, rfl⟩ := mem_treeL hm
      obtain ⟨line, hl, rfl⟩ := List.mem_map.1 hs
      exact hline p hp line hl x hn

mutual

theorem noMacro_item : ∀ (i : Markup), (∀ m n args, ¬ CallIn .angle m n args [i]) → i.hasMacro = false
  | .words _, _ => rfl
  | .escaped _, _ => rfl
  | .blank _, _ => rfl
  | .call b m n args, h => by
    simp only [Markup.hasMacro, Bool.or_eq_false_iff, beq_eq_false_iff_ne]
    refine ⟨?_, noMacro_args args fun m' n' args' a ha hc => h m' n' args' (.deeper (List.mem_singleton.2 rfl) ha hc)⟩
    rintro rfl
    exact h m n args (.here (by simp))

theorem noMacro_list : ∀ (is : List Markup), (∀ m n args, ¬ CallIn .angle m n args is) → Markup.hasMacroL is = false
  | [], _ => rfl
  | i :: is, h => by
    have lift : ∀ {js b m n args}, (∀ j ∈ js, j ∈ i :: is) → CallIn b m n args js → CallIn b m n args (i :: is) := by
      intro js b m n args hj hc
      cases hc with
      | here hm => exact .here (hj _ hm)
      | deeper hm ha hc => exact .deeper (hj _ hm) ha hc
    simp only [Markup.hasMacroL, Bool.or_eq_false_iff]
    exact ⟨noMacro_item i (fun m n args hc => h m n args (lift (by simp) hc)),
      noMacro_list is (fun m n args hc => h m n args (lift (fun j hj => List.mem_cons_of_mem _ hj) hc))⟩

theorem noMacro_args : ∀ (as : List (List Markup)), (∀ m n args, ∀ a ∈ as, ¬ CallIn .angle m n args a) →
    Markup.hasMacroArgs as = false
  | [], _ => rfl
  | a :: as, h => by
    simp only [Markup.hasMacroArgs, Bool.or_eq_false_iff]
    exact ⟨noMacro_list a (fun m n args => h m n args a (by simp)),
      noMacro_args as (fun m n args a' ha => h m n args a' (by simp [ha]))⟩

end

/-! ### Clusters -/

/-- Characters with a meaning are ASCII. -/
theorem mark_ascii {c : Char} (h : c ∈ markChars) : c.toNat < 128 ∧ c ≠ '\r' := by
  simp only [markChars, specialChars, List.mem_append, List.mem_cons, List.not_mem_nil, or_false] at h
  rcases h with (rfl | rfl | rfl) | (rfl | rfl | rfl | rfl | rfl | rfl | rfl | rfl | rfl) <;> decide

namespace UTable

variable (T : UTable)

/-- After a character with a meaning only combining characters continue the cluster. -/
theorem join_after_mark {s : SegSt} {c : Char} (hp : s.prev = .other ∨ s.prev = .control ∨ s.prev = .lf)
    (hpict : s.pict = .no) (hconj : s.conj = .no)
    (hc : T.gcb c ≠ .extend ∧ T.gcb c ≠ .zwj ∧ T.gcb c ≠ .spacing) : T.join s c = false := by
  unfold join
  rcases hp with h | h | h <;> simp [h, hpict, hconj, hc.1, hc.2.1, hc.2.2]

/-- Before a character with a meaning only prepended characters (and CR before LF) join. -/
theorem join_mark {s : SegSt} {c : Char} (hc : c.toNat < 128) (hcr : c ≠ '\r') (hp : s.prev ≠ .prepend)
    (hlf : c = '\n' → s.prev ≠ .cr) : T.join s c = false := by
  have hpict := T.asciiPict c hc
  have hincb := T.asciiIncb c hc
  by_cases hn : c = '\n'
  · have h1 := (T.lf c).2 hn
    have h2 := hlf hn
    unfold join
    simp [h1, h2]
  · rcases T.ascii c hc hcr hn with h1 | h1 <;> unfold join <;> simp [h1, hpict, hincb, hp]

theorem cluster_mark {g : Str} (hg : T.IsCluster g) (hu : Uncombined T g) {c : Char} (hc : c ∈ g) (hm : c ∈ markChars) :
    g = [c] := by
  obtain ⟨c0, cs, rfl, hch⟩ := hg
  have key : ∀ (cs : Str) (c0 : Char) (s : SegSt), s.prev = T.gcb c0 → T.Chain s cs → Uncombined T (c0 :: cs) →
      c ∈ cs → False := by
    intro cs
    induction cs with
    | nil => intro _ _ _ _ _ h; simp at h
    | cons d cs ih =>
      intro c0 s hs hch hu hc
      have hpair := hu [] c0 d cs rfl
      rcases List.mem_cons.1 hc with rfl | hc
      · have := hch.1
        rw [T.join_mark (mark_ascii hm).1 (mark_ascii hm).2 (by rw [hs]; exact hpair.2.1 hm) (by
          intro hn hcr
          rw [hs, T.cr] at hcr
          exact hpair.2.2 ⟨hcr, hn⟩)] at this
        cases this
      · refine ih d (T.next s d) rfl hch.2 ?_ hc
        intro pre x y post e
        exact hu (c0 :: pre) x y post (by rw [e]; rfl)
  rcases List.mem_cons.1 hc with rfl | hc
  · rcases cs with _ | ⟨d, cs⟩
    · rfl
    · exfalso
      have ha := mark_ascii hm
      have := hch.1
      rw [T.join_after_mark (s := T.start c) (by rw [start_prev]; exact T.ascii_prev c ha.1 ha.2)
        (by simp [start, T.asciiPict c ha.1]) (by simp [start, T.asciiIncb c ha.1]) ((hu [] c d cs rfl).1 hm)] at this
      cases this
  · exact absurd hc (fun hc => key cs c0 _ rfl hch hu hc)

end UTable

/-- Uncombined characters are clusters of their own. -/
theorem own_uncombined {T : UTable} {text : Str} (h : Uncombined T text) : OwnClusters T.segmenter text := by
  intro g hg c hc hm
  have hg' : g ∈ T.clusters text := hg
  refine T.cluster_mark (T.clusters_cluster text g hg') ?_ hc hm
  intro pre x y post e
  have hf := T.clusters_flatten text
  obtain ⟨as, bs, hs⟩ := List.append_of_mem hg'
  rw [hs] at hf
  refine h (as.flatten ++ pre) x y (post ++ bs.flatten) ?_
  rw [← hf, e]
  simp

/-- In ASCII texts without carriage returns all characters are clusters of their own. -/
theorem own_ascii (S : Segmenter) {text : Str} (h : ∀ c ∈ text, c.toNat < 128 ∧ c ≠ '\r') : OwnClusters S text := by
  intro g hg c hc _
  rw [S.ascii text h] at hg
  obtain ⟨d, _, rfl⟩ := List.mem_map.1 hg
  rw [List.mem_singleton.1 hc]

/-! ### Escaped characters as plain text -/

theorem Markup.unescape_blank (i : Markup) : i.unescape.isBlank = i.isBlank := by
  cases i <;> rfl

theorem Markup.unescapeL_blank : ∀ is : List Markup, (Markup.unescapeL is).all Markup.isBlank = is.all Markup.isBlank
  | [] => rfl
  | i :: is => by rw [Markup.unescapeL, List.all_cons, List.all_cons, i.unescape_blank, Markup.unescapeL_blank is]

theorem Markup.unescapeArgs_blank : ∀ as : List (List Markup), onlyBlanks (Markup.unescapeArgs as) = onlyBlanks as
  | [] => rfl
  | [a] => by simp [Markup.unescapeArgs, onlyBlanks, Markup.unescapeL_blank]
  | _ :: _ :: _ => rfl

mutual

theorem Markup.unescape_shape : ∀ i : Markup, i.unescape.shape = i.shape
  | .words _ | .escaped _ | .blank _ => rfl
  | .call b m n args => by
    rw [Markup.unescape, Markup.shape, Markup.shape, Markup.unescapeArgs_blank, Markup.unescapeArgs_shape args]

theorem Markup.unescapeL_shape : ∀ is : List Markup, Markup.shapeL (Markup.unescapeL is) = Markup.shapeL is
  | [] => rfl
  | i :: is => by rw [Markup.unescapeL, Markup.shapeL, Markup.shapeL, Markup.unescape_shape i, Markup.unescapeL_shape is]

theorem Markup.unescapeArgs_shape : ∀ as : List (List Markup), Markup.shapeArgs (Markup.unescapeArgs as) = Markup.shapeArgs as
  | [] => rfl
  | a :: as => by
    rw [Markup.unescapeArgs, Markup.shapeArgs, Markup.shapeArgs, Markup.unescapeL_shape a, Markup.unescapeArgs_shape as]

end

theorem unescape_document (d : List (List (List Markup))) :
    documentShape (d.map fun p => p.map Markup.unescapeL) = documentShape d := by
  simp [documentShape, List.map_map, Function.comp_def, Markup.unescapeL_shape]

end Brack
