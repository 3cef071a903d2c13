import Verif.Proof.TransFinal
import Verif.Spec.WellFormed

/-
Helper lemmas: `simplify` reports no error exactly on well-formed trees.
-/

namespace Brack

/-- The element a simplified tree is. -/
def CST.selem : CST → Elem
  | .leaf .whitespace _ | .leaf .newline _ => .blank
  | .leaf .comma _ => .comma
  | .leaf .dot _ => .dot
  | .leaf (.module _) _ => .module
  | .leaf (.ident _) _ => .ident
  | .node (.bracket .angle) _ _ => .angle
  | _ => .other

theorem wellFormed_leaf (k l) : (CST.leaf k l).WellFormed := by
  intro n hn
  cases hn
  rfl

theorem wellFormed_node (k cs l) : (CST.node k cs l).WellFormed ↔
    (CST.node k cs l).nodeOk = true ∧ ∀ c ∈ cs, c.WellFormed := by
  constructor
  · intro h
    exact ⟨h _ .self, fun c hc n hn => h n (.child hc hn)⟩
  · rintro ⟨h1, h2⟩ n hn
    cases hn with
    | self => exact h1
    | child hc hn => exact h2 _ hc n hn

theorem selem_blank (c : CST) : (c.selem = .blank) ↔ c.isBlank = true := by
  rcases c with ⟨k, l⟩ | ⟨k, cs, l⟩
  · cases k <;> simp [CST.selem, CST.isBlank]
  · rcases k with _ | _ | _ | (_ | _ | _) | _ <;> simp [CST.selem, CST.isBlank]

theorem selem_dot (c : CST) : (c.selem = .dot) ↔ c.isDot = true := by
  rcases c with ⟨k, l⟩ | ⟨k, cs, l⟩
  · cases k <;> simp [CST.selem, CST.isDot]
  · rcases k with _ | _ | _ | (_ | _ | _) | _ <;> simp [CST.selem, CST.isDot]

theorem selem_module (c : CST) : (c.selem = .module ∨ c.selem = .angle) ↔
    c.isModuleOrAngle = true := by
  rcases c with ⟨k, l⟩ | ⟨k, cs, l⟩
  · cases k <;> simp [CST.selem, CST.isModuleOrAngle]
  · rcases k with _ | _ | _ | (_ | _ | _) | _ <;> simp [CST.selem, CST.isModuleOrAngle]

theorem selem_ident (c : CST) : (c.selem = .ident ∨ c.selem = .angle) ↔
    c.isIdentOrAngle = true := by
  rcases c with ⟨k, l⟩ | ⟨k, cs, l⟩
  · cases k <;> simp [CST.selem, CST.isIdentOrAngle]
  · rcases k with _ | _ | _ | (_ | _ | _) | _ <;> simp [CST.selem, CST.isIdentOrAngle]

theorem selem_item {c : CST} (h : c.isArgItem = true) : c.selem ≠ .comma ∧ c.selem ≠ .dot := by
  rcases c with ⟨k, l⟩ | ⟨k, cs, l⟩
  · cases k <;> simp_all [CST.selem, CST.isArgItem]
  · rcases k with _ | _ | _ | (_ | _ | _) | _ <;> simp [CST.selem]

theorem splitCommas_ne (es) : splitCommas es ≠ [] := by
  rcases es with _ | ⟨e, es⟩
  · simp [splitCommas]
  · cases e <;> simp [splitCommas] <;> split <;> simp

theorem splitCommas_cons {e : Elem} (he : e ≠ .comma) (es) :
    ∃ g gs, splitCommas es = g :: gs ∧ splitCommas (e :: es) = (e :: g) :: gs := by
  rcases h : splitCommas es with _ | ⟨g, gs⟩
  · exact absurd h (splitCommas_ne _)
  · refine ⟨g, gs, rfl, ?_⟩
    cases e <;> simp_all [splitCommas]

/-- Groups after removal of the blanks. -/
theorem splitCommas_filter (es : List Elem) :
    splitCommas (es.filter (· ≠ .blank)) = (splitCommas es).map (·.filter (· ≠ .blank)) := by
  induction es with
  | nil => rfl
  | cons e es ih =>
    by_cases hc : e = .comma
    · subst hc
      simpa [splitCommas] using ih
    · obtain ⟨g, gs, h1, h2⟩ := splitCommas_cons hc es
      rw [h2]
      by_cases hb : e = .blank
      · subst hb
        rw [List.filter_cons]
        simp only [ne_eq, not_true_eq_false, decide_false, Bool.false_eq_true, if_false]
        simp only [ne_eq] at ih
        rw [ih, h1]
        simp
      · rw [List.filter_cons]
        simp only [ne_eq, hb, not_false_eq_true, decide_true, if_true]
        obtain ⟨g', gs', h3, h4⟩ := splitCommas_cons hc (es.filter (· ≠ .blank))
        simp only [ne_eq] at ih h3 h4
        rw [h4]
        rw [ih, h1] at h3
        simp only [List.map_cons, List.cons.injEq] at h3
        rw [← h3.1, ← h3.2]
        simp [hb]

/-- The argument loop reports nothing exactly when there are no dots and no empty groups. -/
theorem argLoop_errs {b lc} (cs : List CST) (hs : ∀ c ∈ cs, c.simple = true) :
    ∀ prev xs l comma,
      ((argLoop prev (.node .expr xs l) comma (cs ++ [.leaf (.bclose b) lc])).2 = [] ↔
        (.dot ∉ cs.map CST.selem) ∧
        if xs = [] then (cs = [] ∧ comma = false) ∨
          (cs ≠ [] ∧ ∀ g ∈ splitCommas (cs.map CST.selem), g ≠ [])
        else ∀ g ∈ (splitCommas (cs.map CST.selem)).tail, g ≠ []) := by
  induction cs with
  | nil =>
    intro prev xs l comma
    rcases xs with _ | ⟨x, xs⟩
    · cases comma <;> simp [argLoop, CST.children]
    · simp [argLoop, CST.children, splitCommas]
  | cons c cs ih =>
    intro prev xs l comma
    have ih := ih (fun c hc => hs c (by simp [hc]))
    rcases simple_cases (hs c (by simp)) with ⟨l', rfl⟩ | ⟨l', rfl⟩ | hc
    · have hsel : (CST.leaf .comma l').selem = .comma := rfl
      rcases xs with _ | ⟨x, xs⟩
      · rw [List.cons_append, argLoop_comma_nil]
        simp [hsel, splitCommas]
      · rw [List.cons_append, argLoop_comma_cons]
        simp only [CST.new]
        rw [ih]
        rcases cs with _ | ⟨d, cs⟩
        · simp [hsel, splitCommas]
        · simp [hsel, splitCommas]
    · rw [List.cons_append, argLoop_dot]
      have hsel : (CST.leaf .dot l').selem = .dot := rfl
      simp [hsel]
    · rw [List.cons_append, argLoop_item hc, ih]
      obtain ⟨h1, h2⟩ := selem_item hc
      obtain ⟨g, gs, h3, h4⟩ := splitCommas_cons h1 (cs.map CST.selem)
      rw [List.map_cons, h4, h3]
      have : xs ++ [c] ≠ [] := by simp
      rw [if_neg this]
      simp only [List.tail_cons, List.mem_cons, List.cons_ne_nil, false_and, false_or, ne_eq,
        not_false_eq_true, true_and, forall_eq_or_imp, not_or, List.mem_map]
      have hne : ¬ Elem.dot = c.selem := fun h => h2 h.symm
      by_cases hx : xs = []
      · simp [hx, hne]
      · simp [hx, hne]

/-- The errors of a closed bracket. -/
theorem bracketErrs_iff {b l1 l2} {ds : List CST} (hs : ∀ d ∈ ds, d.simple = true) :
    bracketErrs (.leaf (.bopen b) l1 :: ds ++ [.leaf (.bclose b) l2]) = [] ↔
      commandOk (ds.map CST.selem) = true := by
  have at_iff : ∀ {i good kind csts c}, csts[i]? = some c →
      (checkAt i good kind csts = [] ↔ good c = true) := by
    intro i good kind csts c hc
    rw [checkAt, hc]
    simp only []
    split <;> simp_all
  simp only [bracketErrs, List.append_eq_nil_iff]
  rcases ds with _ | ⟨m, _ | ⟨d, _ | ⟨i, rest⟩⟩⟩
  · rw [checkModule, at_iff (c := .leaf (.bclose b) l2) rfl]
    simp [CST.isModuleOrAngle, commandOk]
  · rw [checkDot, at_iff (c := .leaf (.bclose b) l2) rfl]
    simp [CST.isDot, commandOk]
  · rw [checkIdent, at_iff (c := .leaf (.bclose b) l2) rfl]
    simp [CST.isIdentOrAngle, commandOk]
  rw [checkModule, at_iff (c := m) rfl, checkDot, at_iff (c := d) rfl, checkIdent,
    at_iff (c := i) rfl]
  by_cases hm : m.isModuleOrAngle = true
  rotate_left
  · have := mt (selem_module m).mp hm
    rw [not_or] at this
    simp only [hm, false_and, false_iff, List.map_cons]
    rcases hd : d.selem <;> simp [commandOk, this.1, this.2]
  by_cases hd : d.isDot = true
  rotate_left
  · have := mt (selem_dot d).mp hd
    simp only [hd, false_and, and_false, false_iff, List.map_cons]
    rcases hd : d.selem <;> simp_all [commandOk]
  by_cases hi : i.isIdentOrAngle = true
  rotate_left
  · have := mt (selem_ident i).mp hi
    rw [not_or] at this
    simp only [hi, false_and, and_false, false_iff, List.map_cons, (selem_dot d).mpr hd]
    simp [commandOk, this.1, this.2]
  have hd' : ∃ ld, d = .leaf .dot ld := by
    rcases d with ⟨k, l⟩ | ⟨k, cs, l⟩
    · cases k <;> simp [CST.isDot] at hd
      exact ⟨_, rfl⟩
    · simp [CST.isDot] at hd
  obtain ⟨ld, rfl⟩ := hd'
  have hmb : m.isBlank = false := by
    rcases m with ⟨k, l⟩ | ⟨k, cs, l⟩
    · cases k <;> simp_all [CST.isModuleOrAngle, CST.isBlank]
    · rfl
  have hib : i.isBlank = false := by
    rcases i with ⟨k, l⟩ | ⟨k, cs, l⟩
    · cases k <;> simp_all [CST.isIdentOrAngle, CST.isBlank]
    · rfl
  have hidot : i.isDot = false := by
    rcases i with ⟨k, l⟩ | ⟨k, cs, l⟩
    · cases k <;> simp_all [CST.isIdentOrAngle, CST.isDot]
    · rfl
  have hrb : removeBlanks (.leaf (.bopen b) l1 :: (m :: .leaf .dot ld :: i :: rest) ++
      [.leaf (.bclose b) l2]) =
      .leaf (.bopen b) l1 :: m :: .leaf .dot ld :: i :: (removeBlanks rest ++ [.leaf (.bclose b) l2]) := by
    have f1 : (CST.leaf (.bopen b) l1).isBlank = false := rfl
    have f2 : (CST.leaf .dot ld).isBlank = false := rfl
    have f3 : (CST.leaf (.bclose b) l2).isBlank = false := rfl
    simp [removeBlanks, hmb, hib, f1, f2, f3, List.filter_append]
  rw [hrb]
  have hsr : ∀ c ∈ removeBlanks rest, c.simple = true := fun c hc =>
    hs c (by simp [(mem_removeBlanks hc).1])
  have h5 := argLoop_errs (b := b) (lc := l2) (removeBlanks rest) hsr i [] mockLocation false
  simp only [checkValidArguments, CST.new, h5, hm, hd, hi, true_and, if_true, and_true]
  have hmap : (removeBlanks rest).map CST.selem = (rest.map CST.selem).filter (· ≠ .blank) := by
    rw [removeBlanks, List.filter_map]
    congr 1
    apply List.filter_congr
    intro c _
    have := selem_blank c
    rcases hb : c.isBlank <;> simp_all
  have hdots : checkUnexpectedDot (.leaf (.bopen b) l1 :: (m :: .leaf .dot ld :: i :: rest) ++
      [.leaf (.bclose b) l2]) = [] ↔ .dot ∉ rest.map CST.selem := by
    have f3 : (CST.leaf (.bclose b) l2).isDot = false := rfl
    simp only [checkUnexpectedDot, List.cons_append, List.drop_succ_cons, List.drop_zero,
      List.map_eq_nil_iff, List.filter_eq_nil_iff, List.mem_cons, List.mem_append, List.mem_map,
      List.not_mem_nil, or_false]
    constructor
    · intro h hh
      obtain ⟨c, hc, he⟩ := hh
      exact h c (.inr (.inl hc)) ((selem_dot c).mp he)
    · rintro h c (rfl | hc | rfl)
      · simp [hidot]
      · intro hd
        exact h ⟨c, hc, (selem_dot c).mpr hd⟩
      · simp [f3]
  rw [hdots, hmap, splitCommas_filter]
  have hcmd : commandOk ((m :: .leaf .dot ld :: i :: rest).map CST.selem) =
      argumentsOk (rest.map CST.selem) := by
    have h1 := (selem_module m).mpr hm
    have h2 := (selem_ident i).mpr hi
    have h3 : (CST.leaf .dot ld).selem = .dot := rfl
    simp only [List.map_cons, h3, commandOk]
    rcases h1 with h1 | h1 <;> rcases h2 with h2 | h2 <;> simp [h1, h2]
  rw [hcmd, argumentsOk]
  have hnil : removeBlanks rest = [] ↔ (rest.map CST.selem).all (· = .blank) = true := by
    rw [removeBlanks, List.filter_eq_nil_iff, List.all_map, List.all_eq_true]
    refine forall_congr' fun c => ?_
    refine imp_congr_right fun _ => ?_
    simp [selem_blank]
  have hgrp : (∀ g ∈ (splitCommas (rest.map CST.selem)).map (·.filter (· ≠ .blank)), g ≠ []) ↔
      (splitCommas (rest.map CST.selem)).all (fun g => g.any (· ≠ .blank)) = true := by
    simp [List.filter_eq_nil_iff]
  rw [hgrp]
  simp only [List.mem_filter, Bool.and_eq_true, Bool.or_eq_true, Bool.not_eq_true', ← hnil]
  by_cases hdot : .dot ∈ rest.map CST.selem
  · simp [hdot]
  · by_cases hn : removeBlanks rest = []
    · simp [hdot, hn]
    · simp [hdot, hn]

theorem elemsL_append (cs ds : List CST) : CST.elemsL (cs ++ ds) = CST.elemsL cs ++ CST.elemsL ds := by
  induction cs with
  | nil => simp [CST.elemsL]
  | cons c cs ih => simp [CST.elemsL, ih]

theorem elems_bracket (b cs l) : (CST.node (.bracket b) cs l).elems =
    [if b = .angle then .angle else .other] := by
  cases b <;> simp [CST.elems]

theorem selem_bracket (b cs l) : (CST.node (.bracket b) cs l).selem =
    if b = .angle then .angle else .other := by
  cases b <;> simp [CST.selem]

theorem XI.elem {c d es} (h : XI c d es) : c.elems = [d.selem] := by
  cases h with
  | @leaf k l h => cases k <;> simp [LKind.inExpr] at h <;> simp [CST.elems, CST.selem]
  | escaped h => simp [CST.elems, CST.selem]
  | stray => simp [CST.elems, CST.selem]
  | closed h => rw [elems_bracket, selem_bracket]
  | unclosed h => rw [elems_bracket, selem_bracket]

theorem XL.elem {cs ds es} (h : XL cs ds es) : CST.elemsL cs = ds.map CST.selem := by
  induction cs generalizing ds es with
  | nil => cases h; simp [CST.elemsL]
  | cons c cs ih =>
    cases h with
    | cons h hs => simp [CST.elemsL, h.elem, ih hs]

theorem XB.elem {cs ds es} (h : XB cs ds es) : CST.elemsL cs = ds.map CST.selem := by
  induction cs generalizing ds es with
  | nil => cases h; simp [CST.elemsL]
  | cons c cs ih =>
    cases h with
    | expr hne h hs => simp [CST.elemsL, CST.elems, h.elem, ih hs]
    | newline hs => simp [CST.elemsL, CST.elems, CST.selem, ih hs]

mutual

theorem XI.wellFormed : ∀ {c d es}, XI c d es → (es = [] ↔ c.WellFormed)
  | _, _, _, @XI.leaf k l h => by simpa using wellFormed_leaf k l
  | _, _, _, @XI.escaped c k l l' h => by
    rw [wellFormed_node]
    simpa [CST.nodeOk] using wellFormed_leaf _ _
  | _, _, _, .stray => by
    rw [wellFormed_node]
    simp [CST.nodeOk]
  | _, _, _, @XI.closed b cs l l1 l2 ds es h => by
    have h1 := h.wellFormed
    have h2 := bracketErrs_iff (b := b) (l1 := l1) (l2 := l2) h.simple
    have hc : CST.isClosed (.node (.bracket b) (.leaf (.bopen b) l1 :: cs ++ [.leaf (.bclose b) l2]) l) =
        true := by simp [CST.isClosed, List.getLast?_cons, List.getLast?_append]
    have he : CST.elemsL (.leaf (.bopen b) l1 :: cs ++ [.leaf (.bclose b) l2]) = CST.elemsL cs := by
      rw [List.cons_append, CST.elemsL, elemsL_append]
      simp [CST.elems, CST.elemsL]
    rw [List.append_eq_nil_iff, h1, h2, wellFormed_node, CST.nodeOk, hc, he, h.elem]
    constructor
    · rintro ⟨h3, h4⟩
      refine ⟨by simpa using h4, ?_⟩
      intro c hc
      simp only [List.cons_append, List.mem_cons, List.mem_append, List.not_mem_nil, or_false] at hc
      rcases hc with rfl | hc | rfl
      · exact wellFormed_leaf _ _
      · exact h3 c hc
      · exact wellFormed_leaf _ _
    · rintro ⟨h3, h4⟩
      exact ⟨fun c hc => h4 c (by simp [hc]), by simpa using h3⟩
  | _, _, _, @XI.unclosed b cs l l1 ds es h => by
    have hc := isClosed_body (b := b) (l := l) (l1 := l1) h.grammar
    rw [wellFormed_node, CST.nodeOk, hc]
    simp

theorem XL.wellFormed : ∀ {cs ds es}, XL cs ds es → (es = [] ↔ ∀ c ∈ cs, c.WellFormed)
  | _, _, _, .nil => by simp
  | _, _, _, .cons h hs => by
    have h1 := h.wellFormed
    have h2 := hs.wellFormed
    rw [List.append_eq_nil_iff, h1, h2]
    simp

theorem XB.wellFormed : ∀ {cs ds es}, XB cs ds es → (es = [] ↔ ∀ c ∈ cs, c.WellFormed)
  | _, _, _, .nil => by simp
  | _, _, _, .expr _ h hs => by
    have h1 := h.wellFormed
    have h2 := hs.wellFormed
    rw [List.append_eq_nil_iff, h1, h2]
    simp [wellFormed_node, CST.nodeOk]
  | _, _, _, .newline hs => by
    have h2 := hs.wellFormed
    rw [h2]
    simp [wellFormed_leaf]

end

theorem XLines.wellFormed {cs ds es} (h : XLines cs ds es) : es = [] ↔ ∀ c ∈ cs, c.WellFormed := by
  induction h with
  | nil => simp
  | cons h _ ih =>
    rw [List.append_eq_nil_iff, ih]
    cases h with
    | close => simp [wellFormed_leaf]
    | newline => simp [wellFormed_leaf]
    | expr _ h => simp [wellFormed_node, CST.nodeOk, h.wellFormed]

theorem XDoc.wellFormed {cs ds es} (h : XDoc cs ds es) : es = [] ↔ ∀ c ∈ cs, c.WellFormed := by
  induction h with
  | nil => simp
  | cons h _ ih =>
    rw [List.append_eq_nil_iff, ih]
    cases h with
    | eof => simp [wellFormed_leaf]
    | newline => simp [wellFormed_leaf]
    | stmt h => simp [wellFormed_node, CST.nodeOk, h.wellFormed]

theorem Trans.wellFormed {ids ts c a es cs ds l m} (h : Trans ids ts c a es cs ds l m) :
    es = [] ↔ c.WellFormed := by
  rw [h.rel.wellFormed, h.doc, wellFormed_node]
  simp [CST.nodeOk]

end Brack
