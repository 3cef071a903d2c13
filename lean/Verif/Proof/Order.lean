import Verif.Spec.Order
import Verif.Proof.Parts
import Verif.Proof.TransOnce
import Verif.Proof.TransLoc
import Verif.Proof.TransMain
import Verif.Props.Tokenizer

/-
Helper lemmas: in which order errors are reported.
-/

namespace Brack

/-- Each token starts before all later ones. -/
def Strict (ts : List Token) : Prop := ts.Pairwise (fun a b => a.loc.start.lt b.loc.start)

theorem Pos.lt.le {a b : Pos} (h : a.lt b) : a.le b := by
  rcases h with h | ⟨h, h'⟩
  · exact .inl h
  · exact .inr ⟨h, Nat.le_of_lt h'⟩

theorem Pos.lt_of_le_of_lt {a b c : Pos} (h : a.le b) (h' : b.lt c) : a.lt c := by
  unfold Pos.le at h
  unfold Pos.lt at h' ⊢
  omega

/-- The position is the start of one of the tokens. -/
def StartOf (ts : List Token) (p : Pos) : Prop := ∃ t ∈ ts, p = t.loc.start

/-- Errors of a piece with the tokens `ts` and the parts `ps`: they start at its tokens; those before and those after a
part outside of all brackets are reported in this order. -/
structure Cut (ts : List Token) (es : List TErr) (ps : List (Around × Part)) : Prop where
  errs : ∀ e ∈ es, StartOf ts e.loc.start
  parts : ∀ x, ([], x) ∈ ps → StartOf ts x.start
  cut : ∀ x, ([], x) ∈ ps → ∃ fs gs, es = fs ++ gs ∧ (∀ e ∈ fs, e.loc.start.lt x.start) ∧
    ∀ e ∈ gs, x.start.le e.loc.start

theorem Cut.append {ts es ps us fs qs} (h : Cut ts es ps) (h' : Cut us fs qs) (hs : Strict (ts ++ us)) :
    Cut (ts ++ us) (es ++ fs) (ps ++ qs) := by
  have hlt : ∀ {p q}, StartOf ts p → StartOf us q → p.lt q := by
    rintro p q ⟨t, ht, rfl⟩ ⟨u, hu, rfl⟩
    exact (List.pairwise_append.mp hs).2.2 t ht u hu
  refine ⟨?_, ?_, ?_⟩
  · intro e he
    rcases List.mem_append.mp he with he | he
    · obtain ⟨t, ht, e⟩ := h.errs e he; exact ⟨t, by simp [ht], e⟩
    · obtain ⟨t, ht, e⟩ := h'.errs e he; exact ⟨t, by simp [ht], e⟩
  · intro x hx
    rcases List.mem_append.mp hx with hx | hx
    · obtain ⟨t, ht, e⟩ := h.parts x hx; exact ⟨t, by simp [ht], e⟩
    · obtain ⟨t, ht, e⟩ := h'.parts x hx; exact ⟨t, by simp [ht], e⟩
  · intro x hx
    rcases List.mem_append.mp hx with hx | hx
    · obtain ⟨as, bs, rfl, h1, h2⟩ := h.cut x hx
      refine ⟨as, bs ++ fs, by simp, h1, fun e he => ?_⟩
      rcases List.mem_append.mp he with he | he
      · exact h2 e he
      · exact (hlt (h.parts x hx) (h'.errs e he)).le
    · obtain ⟨as, bs, rfl, h1, h2⟩ := h'.cut x hx
      refine ⟨es ++ as, bs, by simp, fun e he => ?_, h2⟩
      rcases List.mem_append.mp he with he | he
      · exact hlt (h.errs e he) (h'.parts x hx)
      · exact h1 e he

theorem Cut.nil : Cut [] [] [] := ⟨by simp, by simp, by simp⟩

/-- A piece without errors and parts. -/
theorem Cut.none (ts) : Cut ts [] [] := ⟨by simp, by simp, by simp⟩

mutual

theorem lay_around : ∀ (c : CST) (st x), x ∈ c.lay st → ∃ a, x.1 = a ++ st
  | .leaf k l, st, x, h => by
    simp only [CST.lay, List.mem_map] at h
    obtain ⟨_, _, rfl⟩ := h
    exact ⟨[], rfl⟩
  | .node (.bracket b) cs l, st, x, h => by
    rw [CST.lay] at h
    rcases List.mem_cons.mp h with rfl | h
    · exact ⟨[], rfl⟩
    · obtain ⟨a, e⟩ := layL_around cs _ x h
      exact ⟨a ++ [(b, l.start)], by rw [e]; simp⟩
  | .node .backSlash [] l, st, x, h => by
    simp only [CST.lay, List.mem_singleton] at h
    subst h
    exact ⟨[], rfl⟩
  | .node .backSlash (c :: _) _, st, x, h => by
    rw [CST.lay] at h
    exact lay_around c st x h
  | .node .document cs _, st, x, h => by
    rw [CST.lay] at h
    exact layL_around cs st x h
    all_goals simp
  | .node .stmt cs _, st, x, h => by
    rw [CST.lay] at h
    exact layL_around cs st x h
    all_goals simp
  | .node .expr cs _, st, x, h => by
    rw [CST.lay] at h
    exact layL_around cs st x h
    all_goals simp

theorem layL_around : ∀ (cs : List CST) (st x), x ∈ CST.layL st cs → ∃ a, x.1 = a ++ st
  | [], _, _, h => by simp [CST.layL] at h
  | c :: cs, st, x, h => by
    rw [CST.layL] at h
    rcases List.mem_append.mp h with h | h
    · exact lay_around c st x h
    · exact layL_around cs st x h

end

mutual

theorem XI.errStarts : ∀ {c d es}, XI c d es → BracketStarts c → Ordered c.tokens →
    ∀ e ∈ es, StartOf c.tokens e.loc.start
  | _, _, _, .leaf _, _, _ => by simp
  | _, _, _, .escaped _, _, _ => by simp
  | _, _, _, @XI.stray l, _, _ => by
    simp only [List.mem_singleton, forall_eq]
    exact ⟨_, by rw [CST.tokens]; exact List.mem_cons_self, rfl⟩
  | _, _, _, @XI.closed b cs l l1 l2 ds es h, hb, ho => by
    have hb' : ∀ c ∈ cs, BracketStarts c := fun c hc => hb.child c (by simp [hc])
    have htok : (CST.node (.bracket b) (.leaf (.bopen b) l1 :: cs ++ [.leaf (.bclose b) l2]) l).tokens =
        ⟨.bopen b, l1⟩ :: (CST.tokensL cs ++ [⟨.bclose b, l2⟩]) := by
      simp [CST.tokens, CST.tokensL, tokensL_append, LKind.tokKind]
    rw [htok] at ho ⊢
    have ho' : Ordered (CST.tokensL cs) := (Ordered.append (ts := [_]) ho).2.append.1
    have hin := h.errStarts hb' ho'
    intro e he
    rcases List.mem_append.mp he with he | he
    · obtain ⟨t, ht, e⟩ := hin e he
      exact ⟨t, by simp [ht], e⟩
    · obtain ⟨_, d, hd, e⟩ := bracketErrs_err he
      rw [e]
      simp only [List.cons_append, List.mem_cons, List.mem_append, List.not_mem_nil, or_false] at hd
      rcases hd with rfl | hd | rfl
      · exact ⟨_, List.mem_cons_self, rfl⟩
      · obtain ⟨x, hx, e⟩ := h.start hb' d hd
        exact ⟨x, by simp [hx], e⟩
      · exact ⟨⟨.bclose b, l2⟩, by simp, rfl⟩
  | _, _, _, @XI.unclosed b cs l l1 ds es h, hb, ho => by
    have hb' : ∀ c ∈ cs, BracketStarts c := fun c hc => hb.child c (by simp [hc])
    have htok : (CST.node (.bracket b) (.leaf (.bopen b) l1 :: cs) l).tokens =
        ⟨.bopen b, l1⟩ :: CST.tokensL cs := by
      simp [CST.tokens, CST.tokensL, LKind.tokKind]
    rw [htok] at ho ⊢
    have ho' : Ordered (CST.tokensL cs) := (Ordered.append (ts := [_]) ho).2
    have hin := h.errStarts hb' ho'
    intro e he
    simp only [List.mem_append, List.mem_singleton] at he
    rcases he with (he | rfl) | he
    · obtain ⟨t, ht, e⟩ := hin e he
      exact ⟨t, by simp [ht], e⟩
    · exact ⟨_, List.mem_cons_self, merge_start_left (notClosed_start h hb' ho)⟩
    · obtain ⟨_, d, hd, e⟩ := bracketErrs_err he
      rw [e]
      rcases List.mem_cons.mp hd with rfl | hd
      · exact ⟨_, List.mem_cons_self, rfl⟩
      · obtain ⟨x, hx, e⟩ := h.start hb' d hd
        exact ⟨x, by simp [hx], e⟩

theorem XL.errStarts : ∀ {cs ds es}, XL cs ds es → (∀ c ∈ cs, BracketStarts c) → Ordered (CST.tokensL cs) →
    ∀ e ∈ es, StartOf (CST.tokensL cs) e.loc.start
  | _, _, _, .nil, _, _ => by simp
  | _, _, _, .cons h hs, hb, ho => by
    rw [CST.tokensL] at ho ⊢
    intro e he
    rcases List.mem_append.mp he with he | he
    · obtain ⟨t, ht, e⟩ := h.errStarts (hb _ (by simp)) ho.append.1 e he
      exact ⟨t, by simp [ht], e⟩
    · obtain ⟨t, ht, e⟩ := hs.errStarts (fun c hc => hb c (by simp [hc])) ho.append.2 e he
      exact ⟨t, by simp [ht], e⟩

theorem XB.errStarts : ∀ {cs ds es}, XB cs ds es → (∀ c ∈ cs, BracketStarts c) → Ordered (CST.tokensL cs) →
    ∀ e ∈ es, StartOf (CST.tokensL cs) e.loc.start
  | _, _, _, .nil, _, _ => by simp
  | _, _, _, .expr _ h hs, hb, ho => by
    rw [CST.tokensL, tokens_expr] at ho ⊢
    intro e he
    rcases List.mem_append.mp he with he | he
    · obtain ⟨t, ht, e⟩ := h.errStarts (hb _ List.mem_cons_self).child ho.append.1 e he
      exact ⟨t, by simp [ht], e⟩
    · obtain ⟨t, ht, e⟩ := hs.errStarts (fun c hc => hb c (by simp [hc])) ho.append.2 e he
      exact ⟨t, by simp [ht], e⟩
  | _, _, _, .newline hs, hb, ho => by
    rw [CST.tokensL] at ho ⊢
    intro e he
    obtain ⟨t, ht, e⟩ := hs.errStarts (fun c hc => hb c (by simp [hc])) ho.append.2 e he
    exact ⟨t, by simp [ht], e⟩

end

theorem strict_ordered {ts us : List Token} (h : Strict us) (hs : ∀ t ∈ us, t ∈ ts) (ho : Ordered ts) : Ordered us :=
  ⟨h.imp Pos.lt.le, fun t ht => ho.proper t (hs t ht)⟩

theorem startOf_head {ts : List Token} {t p} (hs : Strict ts) (ht : t ∈ ts.head?) (h : StartOf ts p) :
    t.loc.start.le p := by
  obtain ⟨u, hu, rfl⟩ := h
  rcases ts with _ | ⟨v, ts⟩
  · simp at hu
  · simp only [List.head?_cons, Option.mem_def, Option.some.injEq] at ht
    subst ht
    rcases List.mem_cons.mp hu with rfl | hu
    · simp [Pos.le]
    · exact ((List.pairwise_cons.mp hs).1 u hu).le

/-- A bracket is a piece that holds one part outside of all brackets, itself. -/
theorem bracket_cut {b cs l es} (hb : BracketStarts (.node (.bracket b) cs l))
    (hs : Strict (CST.node (.bracket b) cs l).tokens)
    (he : ∀ e ∈ es, StartOf (CST.node (.bracket b) cs l).tokens e.loc.start) :
    Cut (CST.node (.bracket b) cs l).tokens es (CST.lay [] (.node (.bracket b) cs l)) := by
  obtain ⟨t, ht, e⟩ := hb _ _ _ .self
  have hx : ∀ x, ([], x) ∈ CST.lay [] (.node (.bracket b) cs l) → x.start = t.loc.start := by
    intro x hx
    rw [CST.lay] at hx
    rcases List.mem_cons.mp hx with hx | hx
    · cases hx; exact e
    · obtain ⟨a, h⟩ := layL_around _ _ _ hx
      simp at h
  refine ⟨he, fun x h => ⟨t, List.mem_of_mem_head? ht, hx x h⟩, fun x h => ⟨[], es, rfl, by simp, fun e' he' => ?_⟩⟩
  rw [hx x h]
  exact startOf_head hs ht (he e' he')

theorem XI.cut {c d es} (h : XI c d es) (hb : BracketStarts c) (hs : Strict c.tokens) (ho : Ordered c.tokens) :
    Cut c.tokens es (c.lay []) := by
  have he := h.errStarts hb ho
  cases h with
  | @leaf k l hk =>
    refine ⟨by simp, ?_, fun x _ => ⟨[], [], rfl, by simp, by simp⟩⟩
    intro x hx
    refine ⟨_, by rw [CST.tokens]; exact List.mem_cons_self, ?_⟩
    cases k <;> simp [LKind.inExpr] at hk <;> simp [CST.lay, LKind.content] at hx <;> subst hx <;> rfl
  | @escaped ch k l l' hk =>
    refine ⟨by simp, ?_, fun x _ => ⟨[], [], rfl, by simp, by simp⟩⟩
    intro x hx
    obtain ⟨y, hy, e⟩ := (XI.escaped (l := l) (l' := l') hk).start hb
    refine ⟨y, hy, ?_⟩
    simp [CST.lay, LKind.content] at hx
    subst hx
    exact e
  | @stray l =>
    refine ⟨he, ?_, ?_⟩
    · intro x hx
      simp [CST.lay] at hx
      subst hx
      exact ⟨_, by rw [CST.tokens]; exact List.mem_cons_self, rfl⟩
    · intro x hx
      simp [CST.lay] at hx
      subst hx
      exact ⟨[], _, rfl, by simp, by simp [Part.start, Pos.le]⟩
  | closed h => exact bracket_cut hb hs he
  | unclosed h => exact bracket_cut hb hs he

theorem Strict.append {ts us} (h : Strict (ts ++ us)) : Strict ts ∧ Strict us :=
  ⟨(List.pairwise_append.mp h).1, (List.pairwise_append.mp h).2.1⟩

theorem XL.cut : ∀ {cs ds es}, XL cs ds es → (∀ c ∈ cs, BracketStarts c) → Strict (CST.tokensL cs) →
    Ordered (CST.tokensL cs) → Cut (CST.tokensL cs) es (CST.layL [] cs)
  | _, _, _, .nil, _, _, _ => by simpa [CST.tokensL, CST.layL] using Cut.nil
  | _, _, _, .cons h hs, hb, hst, ho => by
    rw [CST.tokensL] at hst ho ⊢
    rw [CST.layL]
    exact (h.cut (hb _ (by simp)) hst.append.1 ho.append.1).append
      (hs.cut (fun c hc => hb c (by simp [hc])) hst.append.2 ho.append.2) hst

theorem XLine.cut {c ds es} (h : XLine c ds es) (hb : BracketStarts c) (hs : Strict c.tokens)
    (ho : Ordered c.tokens) : Cut c.tokens es (c.lay []) := by
  cases h with
  | close => simpa [CST.lay, LKind.content] using Cut.none _
  | newline => simpa [CST.lay, LKind.content] using Cut.none _
  | expr _ h =>
    rw [tokens_expr] at hs ho ⊢
    rw [lay_expr]
    exact h.cut hb.child hs ho

theorem XLines.cut {cs ds es} (h : XLines cs ds es) : (∀ c ∈ cs, BracketStarts c) → Strict (CST.tokensL cs) →
    Ordered (CST.tokensL cs) → Cut (CST.tokensL cs) es (CST.layL [] cs) := by
  induction h with
  | nil => intros; simpa [CST.tokensL, CST.layL] using Cut.nil
  | cons h _ ih =>
    intro hb hst ho
    rw [CST.tokensL] at hst ho ⊢
    rw [CST.layL]
    exact (h.cut (hb _ (by simp)) hst.append.1 ho.append.1).append
      (ih (fun c hc => hb c (by simp [hc])) hst.append.2 ho.append.2) hst

theorem XChild.cut {c ds es} (h : XChild c ds es) (hb : BracketStarts c) (hs : Strict c.tokens)
    (ho : Ordered c.tokens) : Cut c.tokens es (c.lay []) := by
  cases h with
  | newline => simpa [CST.lay, LKind.content] using Cut.none _
  | eof => simpa [CST.lay, LKind.content] using Cut.none _
  | stmt h =>
    rw [tokens_stmt] at hs ho ⊢
    have := h.cut hb.child hs ho
    simpa [CST.lay] using this

theorem XDoc.cut {cs ds es} (h : XDoc cs ds es) : (∀ c ∈ cs, BracketStarts c) → Strict (CST.tokensL cs) →
    Ordered (CST.tokensL cs) → Cut (CST.tokensL cs) es (CST.layL [] cs) := by
  induction h with
  | nil => intros; simpa [CST.tokensL, CST.layL] using Cut.nil
  | cons h _ ih =>
    intro hb hst ho
    rw [CST.tokensL] at hst ho ⊢
    rw [CST.layL]
    exact (h.cut (hb _ (by simp)) hst.append.1 ho.append.1).append
      (ih (fun c hc => hb c (by simp [hc])) hst.append.2 ho.append.2) hst

theorem tokens_strict (S : Segmenter) (text : Str) (ts : List Token)
    (h : tokenizeStr S text = .ok ts) : Strict ts := by
  rw [tokenizeStr_eq] at h
  injection h with h
  have ht : Tiles S ⟨0, 0⟩ ts := by rw [← h]; exact tokens_tile S text
  obtain ⟨body, eof, h1, h2, h3⟩ := run_shape (S.graphemes text) M.init
  rw [h] at h1
  subst h1
  refine (tiles_strict S body eof _ ht (fun t htm => ?_)).1
  refine run_spelling (S.graphemes text) (S.nonempty text) M.init t ?_ (h3 t htm).1
  rw [h]; simp [htm]

theorem transform_cut {S : Segmenter} {text : Str} {ts : List Token} {c : CST} {ids : Nat → Str} {a : AST}
    {es : List TErr} (ht : tokenizeStr S text = .ok ts) (hp : parse ts = .ok c) (hx : transform ids c = .ok (a, es)) :
    ∃ us, Cut us es (tokenParts [] ts) := by
  obtain ⟨cs, ds, l, m, hT⟩ := transform_trans hp hx
  obtain ⟨rest, hP⟩ := parse_ok hp
  have hst := tokens_strict S text ts ht
  have ho := (tiles_ordered S ts _ (C03_tiles S text ts ht)).1
  have htok := hP.tokens
  have hlay := hP.parts
  have hpl := parse_placed ho hp
  rw [hT.doc] at hpl htok hlay
  rw [tokens_document] at htok
  rw [htok] at hst
  have := hpl.children (by simp)
  refine ⟨CST.tokensL cs, ?_⟩
  rw [hlay]
  have hc := hT.rel.cut this.starts hst.append.1 this.ord
  simpa [CST.lay] using hc

end Brack
