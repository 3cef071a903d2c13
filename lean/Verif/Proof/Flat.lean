import Verif.Proof.PlainText
import Verif.Proof.Macros
import Verif.Proof.GenMore

/-
Helper lemmas: documents in which nothing but texts, escapes, newlines and stray closing brackets is
read compile to their texts.
-/

namespace Brack

variable {W : Wasm}

/-- The children of a backslash node are leaves. -/
def BackNode (n : CST) : Prop := ∀ cs l, n = .node .backSlash cs l → ∀ x ∈ cs, ∃ k l', x = .leaf k l'

theorem BackNode.leaf {k l} : BackNode (.leaf k l) := by intro cs l' h; cases h

mutual

theorem GItem.backs : ∀ {c}, GItem c → ∀ {n}, CST.NodeOf n c → BackNode n
  | _, .leaf _, _, .self => .leaf
  | _, .escaped _, _, .self => by
    intro cs l h x hx; cases h
    simp only [List.mem_singleton] at hx
    exact ⟨_, _, hx⟩
  | _, .escaped _, _, .child hc hn => by
    simp only [List.mem_singleton] at hc
    subst hc
    cases hn
    exact .leaf
  | _, .backslash, _, .self => by intro cs l h x hx; cases h; simp at hx
  | _, .closed _, _, .self => by intro cs l h; cases h
  | _, .closed hb, _, .child hc hn => by
    simp only [List.cons_append, List.mem_cons, List.mem_append, List.not_mem_nil, or_false] at hc
    rcases hc with rfl | hc | rfl
    · cases hn; exact .leaf
    · exact hb.backs hc hn
    · cases hn; exact .leaf
  | _, .unclosed _, _, .self => by intro cs l h; cases h
  | _, .unclosed hb, _, .child hc hn => by
    simp only [List.mem_cons] at hc
    rcases hc with rfl | hc
    · cases hn; exact .leaf
    · exact hb.backs hc hn

theorem GBody.backs : ∀ {cs}, GBody cs → ∀ {c}, c ∈ cs → ∀ {n}, CST.NodeOf n c → BackNode n
  | _, .nil, _, hc, _, _ => by simp at hc
  | _, .expr _ hg hb, _, hc, _, hn => by
    rcases List.mem_cons.mp hc with rfl | hc
    · cases hn with
      | self => intro cs l h; cases h
      | child hc hn => exact (hg _ hc).backs hn
    · exact hb.backs hc hn
  | _, .newline hb, _, hc, _, hn => by
    rcases List.mem_cons.mp hc with rfl | hc
    · cases hn; exact .leaf
    · exact hb.backs hc hn

end

theorem GLine.backs {c} (h : GLine c) {n} (hn : CST.NodeOf n c) : BackNode n := by
  cases h with
  | close => cases hn; exact .leaf
  | expr _ hg =>
    cases hn with
    | self => intro cs l h; cases h
    | child hc hn => exact (hg _ hc).backs hn

theorem GLines.backs {cs} (h : GLines cs) {c} (hc : c ∈ cs) {n} (hn : CST.NodeOf n c) : BackNode n := by
  induction h with
  | one h => simp only [List.mem_singleton] at hc; subst hc; exact h.backs hn
  | more h _ ih =>
    simp only [List.mem_cons] at hc
    rcases hc with rfl | rfl | hc
    · exact h.backs hn
    · cases hn; exact .leaf
    · exact ih hc

theorem GStmt.backs {s} (h : GStmt s) {n} (hn : CST.NodeOf n s) : BackNode n := by
  cases h with
  | mk hl =>
    cases hn with
    | self => intro cs l h; cases h
    | child hc hn => exact hl.backs hc hn

theorem GNewlines.backs {cs} (h : GNewlines cs) {c} (hc : c ∈ cs) {n} (hn : CST.NodeOf n c) : BackNode n := by
  obtain ⟨l, rfl⟩ := h c hc
  cases hn; exact .leaf

theorem GChildren.backs {cs} (h : GChildren cs) {c} (hc : c ∈ cs) {n} (hn : CST.NodeOf n c) : BackNode n := by
  induction h with
  | more hs hnl _ ih =>
    simp only [List.cons_append, List.mem_cons, List.mem_append] at hc
    rcases hc with rfl | rfl | rfl | hc | hc
    · exact hs.backs hn
    · cases hn; exact .leaf
    · cases hn; exact .leaf
    · exact hnl.backs hc hn
    · exact ih hc
  | last hs hnl =>
    simp only [List.cons_append, List.mem_cons, List.mem_append, List.not_mem_nil, or_false] at hc
    rcases hc with rfl | hc | rfl
    · exact hs.backs hn
    · exact hnl.backs hc hn
    · cases hn; exact .leaf
  | empty hnl =>
    simp only [List.mem_append, List.mem_cons, List.not_mem_nil, or_false] at hc
    rcases hc with hc | rfl
    · exact hnl.backs hc hn
    · cases hn; exact .leaf

theorem GDocument.backs {c} (h : GDocument c) {n} (hn : CST.NodeOf n c) : BackNode n := by
  cases h with
  | mk hl =>
    cases hn with
    | self => intro cs l h; cases h
    | child hc hn => exact hl.backs hc hn

/-- Texts and newlines outside brackets, escapes and stray closing brackets. -/
def Event.flat : Event → Bool
  | .plain [] ⟨.text _, _⟩ | .plain [] ⟨.newLine, _⟩ | .escape _ _ _ _ | .unopened _ => true
  | _ => false

theorem evsL_mem {cs : List CST} {c : CST} (hc : c ∈ cs) {st : List Token} {e : Event} (he : e ∈ c.evs st) :
    e ∈ CST.evsL st cs := by
  induction cs with
  | nil => simp at hc
  | cons d cs ih =>
    simp only [CST.evsL, List.mem_append]
    rcases List.mem_cons.mp hc with rfl | hc
    · exact .inl he
    · exact .inr (ih hc)

/-- A node that is a bracket or an empty backslash node shows in the events. -/
theorem evs_of_node {c n : CST} (hn : CST.NodeOf n c) (hback : ∀ m, CST.NodeOf m c → BackNode m)
    (h : (∃ b cs l, n = .node (.bracket b) cs l) ∨ ∃ l, n = .node .backSlash [] l) :
    ∀ st, ∃ e ∈ c.evs st, e.flat = false := by
  induction hn with
  | self =>
    intro st
    rcases h with ⟨b, cs, l, rfl⟩ | ⟨l, rfl⟩
    · simp only [CST.evs]
      by_cases hcl : CST.isClosed (.node (.bracket b) cs l) = true
      · rw [CST.isClosed] at hcl
        rcases hl : cs.getLast? with _ | x
        · rw [hl] at hcl; simp at hcl
        · rw [hl] at hcl
          have hm := List.mem_of_getLast? hl
          rcases x with ⟨k, l'⟩ | _
          · rcases k <;> simp at hcl
            subst hcl
            refine ⟨.closed (openTok b cs) ⟨.bclose b, l'⟩, ?_, rfl⟩
            simp only [List.mem_append]
            exact .inl (evsL_mem hm (by simp [CST.evs, leafEvs]))
          · simp at hcl
      · refine ⟨.unclosed (openTok b cs), ?_, rfl⟩
        simp [hcl]
    · exact ⟨.stray st ⟨.backSlash, l⟩, by simp [CST.evs, escEvs], rfl⟩
  | @child k cs l d hd hn ih =>
    intro st
    have ih := ih (fun m hm => hback m (.child hd hm))
    rcases k
    case backSlash =>
      obtain ⟨k', l', rfl⟩ := hback _ .self cs l rfl d hd
      cases hn
      rcases h with ⟨_, _, _, h⟩ | ⟨_, h⟩ <;> cases h
    case bracket b =>
      obtain ⟨e, he, hf⟩ := ih (openTok b cs :: st)
      exact ⟨e, by simp only [CST.evs, List.mem_append]; exact .inl (evsL_mem hd he), hf⟩
    all_goals
      obtain ⟨e, he, hf⟩ := ih st
      exact ⟨e, by simp only [CST.evs]; exact evsL_mem hd he, hf⟩

theorem contentsL_mem {cs : List AST} {c : AST} (hc : c ∈ cs) {x : Content} (hx : x ∈ c.contents) :
    x ∈ AST.contentsL cs := by
  induction cs with
  | nil => simp at hc
  | cons d cs ih =>
    simp only [AST.contentsL, List.mem_append]
    rcases List.mem_cons.mp hc with rfl | hc
    · exact .inl hx
    · exact .inr (ih hc)

theorem node_contents {k i v l} {a : AST} (hn : AST.NodeOf (.leaf k i v l) a) : (⟨k, v, l⟩ : Content) ∈ a.contents := by
  generalize hm : AST.leaf k i v l = n at hn
  induction hn with
  | self => subst hm; simp [AST.contents]
  | child hc _ ih => rw [AST.contents]; exact contentsL_mem hc ih

/-- A document without brackets whose leaves are texts. -/
theorem textDoc_of_texts {c : CST} {a : AST} (hb : ∀ b ds l, ¬ CST.NodeOf (.node (.bracket b) ds l) c)
    (hs : a.shape = c.docShape) (hf : ∀ x ∈ a.contents, ∃ v l, x = ⟨.text, some v, l⟩) : TextDoc a := by
  rcases a with ⟨k, i, v, l⟩ | ⟨k, i, cs, l⟩
  · simp [AST.shape, CST.docShape] at hs
  · have hs' := hs
    simp only [AST.shape, CST.docShape, Shape.node.injEq] at hs
    obtain ⟨rfl, hs⟩ := hs
    refine ⟨i, cs, l, rfl, ?_⟩
    intro s hsm
    have h0 := shapeL_mem hsm
    rw [hs] at h0
    obtain ⟨cs', hcs', h1⟩ := List.mem_flatMap.mp h0
    clear h0
    have hcc : ∀ n, CST.NodeOf n cs' → CST.NodeOf n c := by
      intro n hn
      rcases c with _ | ⟨k, ds, l'⟩
      · simp [CST.children] at hcs'
      · exact .child hcs' hn
    rcases cs' with _ | ⟨k', ds, l'⟩
    · simp [CST.stmtShape] at h1
    · rcases k' <;> simp only [CST.stmtShape, List.mem_singleton, List.not_mem_nil] at h1
      rcases s with ⟨k, i', v, l''⟩ | ⟨k, i', es, l''⟩
      · simp [AST.shape] at h1
      · simp only [AST.shape, Shape.node.injEq] at h1
        obtain ⟨rfl, h1⟩ := h1
        refine ⟨_, _, _, rfl, ?_⟩
        intro e he
        have h0 := shapeL_mem he
        rw [h1] at h0
        obtain ⟨e', he', h2⟩ := List.mem_flatMap.mp h0
        clear h0
        rcases e' with _ | ⟨k'', fs, l3⟩
        · simp [CST.lineShape] at h2
        · rcases k'' <;> simp only [CST.lineShape, List.mem_singleton, List.not_mem_nil] at h2
          rcases e with ⟨k, i3, v, l4⟩ | ⟨k, i3, ts, l4⟩
          · simp [AST.shape] at h2
          · simp only [AST.shape, Shape.node.injEq] at h2
            obtain ⟨rfl, h2⟩ := h2
            refine ⟨_, _, _, rfl, ?_⟩
            intro t ht
            have h3 := shapeL_mem ht
            rw [h2] at h3
            have hleaf := piecesL_leaves (fun d hd b ds' l5 hn =>
              hb b ds' l5 (hcc _ (.child he' (.child hd hn)))) _ (mem_partsOf h3)
            rcases t with ⟨k, i5, v, l6⟩ | ⟨k, i5, us, l6⟩
            · have hx := node_contents (AST.NodeOf.child hsm (.child he (.child ht .self)) :
                AST.NodeOf (.leaf k i5 v l6) (.node .document i cs l))
              obtain ⟨v', l7, hx⟩ := hf _ hx
              cases hx
              exact ⟨_, _, _, rfl⟩
            · simp [AST.shape, Shape.isLeaf] at hleaf

/-- A document in which only texts, newlines, escapes and stray closing brackets are read compiles to its texts. -/
theorem compile_flat (S : Segmenter) (ids : Nat → Str) (checks : Bool) {ps : Plugins W} (h : NoHooks ps)
    {text : Str} {ts : List Token} {c : CST} (ht : tokenizeStr S text = .ok ts) (hp : parse ts = .ok c)
    (htr : ∀ e ∈ trace [] ts, e.flat = true) :
    compileText S ids checks text ps =
      (.ok (((trace [] ts).filterMap Event.content?).filterMap (·.value)).flatten, ps) := by
  obtain ⟨a, es, hx⟩ : ∃ a es, transform ids c = .ok (a, es) := by
    refine (C17_panic_iff ts c ids hp).2 (fun hpan => ?_)
    obtain ⟨e, hem, hl⟩ := (C17_panic_iff ts c ids hp).1.mp hpan
    have hf := htr e hem
    rcases e with ⟨st, k, lc⟩ | _ | _ | _ | _ | _ <;> try (simp [Event.looseSeparator] at hl; done)
    rcases st <;> rcases k <;> simp_all [Event.looseSeparator, Event.flat]
  have hg := C12_grammar ts c hp
  obtain ⟨cs, ds, l, m, hT⟩ := transform_trans hp hx
  have hno : ∀ n, CST.NodeOf n c → ¬ ((∃ b cs l, n = .node (.bracket b) cs l) ∨ ∃ l, n = .node .backSlash [] l) := by
    intro n hn hh
    obtain ⟨e, he, hf⟩ := evs_of_node hn (fun m hm => hg.backs hm) hh []
    rw [hT.doc, CST.evs] at he
    · rw [← hT.evs] at he
      rw [htr e he] at hf; cases hf
    all_goals simp
  have hnb : ∀ b ds l, ¬ CST.NodeOf (.node (.bracket b) ds l) c :=
    fun b ds l hn => hno _ hn (.inl ⟨b, ds, l, rfl⟩)
  have hwf : c.WellFormed := by
    intro n hn
    rcases n with _ | ⟨k, cs, l⟩
    · rfl
    · rcases k
      case bracket b => exact absurd hn (hnb b cs l)
      case backSlash =>
        rcases cs with _ | _
        · exact absurd (.inr ⟨l, rfl⟩) (hno _ hn)
        · rfl
      all_goals rfl
  have hes : es = [] := (C59_clean_iff ts c ids a es hp hx).mpr hwf
  subst hes
  have hcont := C22_content ts c ids a [] hp hx
  rw [compile_textDoc ht hp hx h (textDoc_of_texts hnb (C23_arguments ts c ids a hp hx) ?_), AST.textOf, hcont]
  intro x hxm
  rw [hcont] at hxm
  obtain ⟨e, he, hc⟩ := List.mem_filterMap.mp hxm
  have hf := htr e he
  rcases e with ⟨st, k, lc⟩ | ⟨st, bs, ch, t⟩ | _ | _ | _ | _ <;>
    try (simp [Event.flat] at hf; done)
  · rcases st <;> rcases k <;> simp [Event.flat] at hf <;> simp [Event.content?] at hc
    exact ⟨_, _, hc.symm⟩
  · simp [Event.content?] at hc
    exact ⟨_, _, hc.symm⟩
  · simp [Event.content?] at hc

mutual

theorem genChild_bare (ck : Bool) {ps : Plugins W} (hh : NoHooks ps) : ∀ (d : Bool) (a : AST),
    (∀ b i cs l, ¬ AST.NodeOf (.node (.bracket b) i cs l) a) → ∀ r, (genChild ck d a ps).1 = .ok r →
    genChild ck d a ps = (.ok a.textOf, ps) ∧ ∀ x ∈ a.contents, x.kind = .text
  | d, .leaf k i v l, _, r, h => by
    rcases k
    case text =>
      rcases v with _ | v
      · simp only [genChild, textGenerate, PM.bail_run] at h; cases h
      · exact ⟨genText ck d hh ⟨i, v, l, rfl⟩, by simp [AST.contents]⟩
    all_goals
      simp only [genChild] at h
      exact (bailWith_never h).elim
  | d, .node .document i cs l, _, r, h => by
    simp only [genChild] at h
    exact (bailWith_never h).elim
  | d, .node .stmt i cs l, hb, r, h => by
    rcases d
    · simp only [genChild, Bool.false_eq_true, if_false] at h
      exact (bailWith_never h).elim
    · have h0 := h
      simp only [genChild, if_true] at h0
      obtain ⟨rs, h1, _⟩ := PM.bind_fst_ok h0
      obtain ⟨h2, h5⟩ := genChildren_bare ck hh false cs (fun c hc b j ds m hn => hb b j ds m (.child hc hn)) rs h1
      refine ⟨?_, by rw [AST.contents]; exact h5⟩
      rw [genChild_stmt_run, h2]
      simp only [afterAll, hh.stmt, hookBy]
      rw [AST.textOf, AST.contents, contentsL_text]
  | d, .node .expr i cs l, hb, r, h => by
    have h0 := h
    simp only [genChild] at h0
    obtain ⟨rs, h1, _⟩ := PM.bind_fst_ok h0
    obtain ⟨h2, h5⟩ := genChildren_bare ck hh false cs (fun c hc b j ds m hn => hb b j ds m (.child hc hn)) rs h1
    refine ⟨?_, by rw [AST.contents]; exact h5⟩
    rw [genChild_expr_run, h2]
    simp only [afterAll, hh.expr, hookBy]
    rw [AST.textOf, AST.contents, contentsL_text]
  | d, .node (.bracket b) i cs l, hb, r, h => absurd .self (hb b i cs l)

theorem genChildren_bare (ck : Bool) {ps : Plugins W} (hh : NoHooks ps) : ∀ (d : Bool) (cs : List AST),
    (∀ c ∈ cs, ∀ b i ds l, ¬ AST.NodeOf (.node (.bracket b) i ds l) c) → ∀ rs, (genChildren ck d cs ps).1 = .ok rs →
    genChildren ck d cs ps = (.ok (cs.map AST.textOf), ps) ∧ ∀ x ∈ AST.contentsL cs, x.kind = .text
  | _, [], _, _, _ => ⟨rfl, by simp [AST.contentsL]⟩
  | d, c :: cs, hb, rs, h => by
    have h0 := h
    simp only [genChildren] at h0
    obtain ⟨x, h1, h2⟩ := PM.bind_fst_ok h0
    obtain ⟨hc, hk⟩ := genChild_bare ck hh d c (hb c (by simp)) x h1
    obtain ⟨xs, h3, _⟩ := PM.bind_fst_ok h2
    rw [hc] at h3
    obtain ⟨hcs, hks⟩ := genChildren_bare ck hh d cs (fun c hc => hb c (by simp [hc])) xs h3
    refine ⟨?_, ?_⟩
    · rw [genChildren_cons_run, hc]
      simp only []
      rw [hcs]
      rfl
    · intro y hy
      rw [AST.contentsL, List.mem_append] at hy
      rcases hy with hy | hy
      · exact hk y hy
      · exact hks y hy

end

/-- Without plugins the output consists of the texts of the document. -/
theorem compile_bare {S : Segmenter} {ids : Nat → Str} {checks : Bool} {ps ps' : Plugins W} (h : NoHooks ps)
    (hps : ps.nameToPlugin = []) {text out : Str}
    (hc : compileText S ids checks text ps = (.ok out, ps')) :
    ∃ ts c a es, tokenizeStr S text = .ok ts ∧ parse ts = .ok c ∧ transform ids c = .ok (a, es) ∧ out = a.textOf ∧
      ∀ x ∈ a.contents, x.kind = .text := by
  obtain ⟨ts, c, a, es, h1, h2, h3, _, hg⟩ := compileText_ok hc
  refine ⟨ts, c, a, es, h1, h2, h3, ?_⟩
  obtain ⟨⟨i, cs, l, rfl⟩, hfine⟩ := generate_fine (by rw [hg])
  have hb : ∀ b j ds m, ¬ AST.NodeOf (.node (.bracket b) j ds m) (.node .document i cs l) := by
    intro b j ds m hn
    obtain ⟨typ, m, c, args, ts, i1, i2, l1, l2, _, _, hs, _⟩ := (hfine _ hn).2 b j ds m rfl
    rw [Plugins.signature, hps] at hs
    cases hs
  have h0 : (generate checks (.node .document i cs l) ps).1 = .ok out := by rw [hg]
  simp only [generate] at h0
  obtain ⟨rs, h4, _⟩ := PM.bind_fst_ok h0
  obtain ⟨h5, h6⟩ := genChildren_bare checks h true cs (fun c hc b j ds m hn => hb b j ds m (.child hc hn)) rs h4
  rw [generate_run, h5] at hg
  simp only [afterAll, h.document, hookBy] at hg
  injection hg with hg _
  injection hg with hg
  exact ⟨by rw [← hg, AST.textOf, AST.contents, contentsL_text], by rw [AST.contents]; exact h6⟩

end Brack
