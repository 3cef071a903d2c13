import Verif.Proof.Compose
import Verif.Proof.LayoutText

/-
Helper lemmas: the tokens of texts that differ in one command, and reading such texts.
-/

namespace Brack

/-! ### commands as tokens -/

theorem Token.IsWord.cases {t : Token} (h : t.IsWord) : t.kind = .newLine ∨ ∃ k, exprLeaf t.kind = some k := by
  obtain ⟨h1, h2, h3, h4⟩ := h
  rcases hk : t.kind with _ | _ | _ | _ | _ | _ | _ | _ | b | b | _ | _
  all_goals first
    | exact absurd hk h1 | exact absurd hk h2 | exact absurd hk h3 | exact absurd hk (h4 _).1 | exact absurd hk (h4 _).2
    | exact .inl rfl | exact .inr ⟨_, rfl⟩

theorem IsWord.of_escape {u : Token} (h1 : u.kind ≠ .eof) (h2 : u.kind ≠ .empty) (h : escapable u.kind = none) : u.IsWord := by
  refine ⟨?_, h1, h2, fun b => ⟨?_, ?_⟩⟩
  · intro e; rw [e] at h; cases h
  · intro e; rw [e] at h; cases b <;> cases h
  · intro e; rw [e] at h; cases b <;> cases h

theorem FI.word {t : Token} (h : t.IsWord) : ∃ c, ∀ {T ds es r}, FI T ds es r → FI (t :: T) (c :: ds) es r := by
  rcases h.cases with h | ⟨k, h⟩
  · exact ⟨_, fun hf => .newline h hf⟩
  · exact ⟨_, fun hf => .leaf h hf⟩

theorem FI.close {b : Bracket} {c : Token} (h : c.kind = .bclose b) (R : List Token) : FI (c :: R) [] [] (c :: R) := by
  refine .stop ?_ ?_
  · intro t ht
    obtain rfl : c = t := by simpa using ht
    left; rw [h]; rfl
  · intro t ht
    obtain rfl : c = t := by simpa using ht
    rw [h]; simp

/-- What is in a bracket does not depend on what follows. -/
theorem Nested.filled {body} (h : Nested body) : ∃ ds es, ∀ (b : Bracket) (c : Token) (R : List Token), c.kind = .bclose b →
    FI (body ++ c :: R) ds es (c :: R) := by
  induction h with
  | nil => exact ⟨[], [], fun b c R hc => .close hc R⟩
  | word hw _ ih =>
    obtain ⟨ds, es, ih⟩ := ih
    obtain ⟨d, hd⟩ := FI.word hw
    exact ⟨d :: ds, es, fun b c R hc => hd (ih b c R hc)⟩
  | @escape t u ts ht h1 h2 _ ih =>
    obtain ⟨ds, es, ih⟩ := ih
    rcases hu : escapable u.kind with _ | v
    · obtain ⟨d, hd⟩ := FI.word (IsWord.of_escape h1 h2 hu)
      exact ⟨_, _, fun b c R hc => .escN ht hu (hd (ih b c R hc))⟩
    · exact ⟨_, _, fun b c R hc => .esc ht hu (ih b c R hc)⟩
  | @group o c0 b0 inner ts ho _ hc0 _ ih1 ih2 =>
    obtain ⟨ds1, es1, ih1⟩ := ih1
    obtain ⟨ds2, es2, ih2⟩ := ih2
    refine ⟨.node (.bracket b0) (bracketKids (.leaf (.bopen b0) o.loc :: ds1 ++ [.leaf (.bclose b0) c0.loc])) ⟨o.loc.start, c0.loc.stop⟩ :: ds2,
      (es1 ++ bracketErrs (.leaf (.bopen b0) o.loc :: ds1 ++ [.leaf (.bclose b0) c0.loc])) ++ es2, fun b c R hc => ?_⟩
    have := FI.bclosed ho (ih1 b0 c0 (ts ++ c :: R) hc0) hc0 (ih2 b c R hc)
    simpa using this

theorem Nested.of_kinds {ts} (h : Nested ts) : ∀ {ts' : List Token}, ts'.map Token.kind = ts.map Token.kind → Nested ts' := by
  induction h with
  | nil =>
    intro ts' h
    have : ts' = [] := by simpa using h
    subst this; exact .nil
  | word hw _ ih =>
    intro ts' h
    rcases ts' with _ | ⟨t', ts'⟩ <;> simp at h
    exact .word (by unfold Token.IsWord at hw ⊢; rw [h.1]; exact hw) (ih h.2)
  | escape ht h1 h2 _ ih =>
    intro ts' h
    rcases ts' with _ | ⟨t', _ | ⟨u', ts'⟩⟩ <;> simp at h
    exact .escape (by rw [h.1, ht]) (by rw [h.2.1]; exact h1) (by rw [h.2.1]; exact h2) (ih h.2.2)
  | @group o c b inner ts ho _ hc _ ih1 ih2 =>
    intro ts' h
    rcases ts' with _ | ⟨o', ts'⟩
    · simp at h
    simp only [List.map_cons, List.cons_append, List.map_append, List.cons.injEq] at h
    obtain ⟨ho', h⟩ := h
    obtain ⟨i', r', rfl, hi, hr⟩ := List.map_eq_append_iff.mp h
    rcases r' with _ | ⟨c', r'⟩ <;> simp at hr
    exact .group (by rw [ho', ho]) (ih1 hi) (by rw [hr.1, hc]) (ih2 hr.2)

/-- A closed bracket is read in the same way, whatever follows. -/
theorem Nested.filling {b : Bracket} {o c : Token} {body} (ho : o.kind = .bopen b) (hc : c.kind = .bclose b) (h : Nested body) :
    ∃ B ex, Filling b (o :: body ++ [c]) B ex := by
  obtain ⟨ds, es, h⟩ := h.filled
  refine ⟨.node (.bracket b) (bracketKids (.leaf (.bopen b) o.loc :: ds ++ [.leaf (.bclose b) c.loc])) ⟨o.loc.start, c.loc.stop⟩,
    es ++ bracketErrs (.leaf (.bopen b) o.loc :: ds ++ [.leaf (.bclose b) c.loc]), ⟨o, body, c, rfl, ho, hc, fun R => ?_⟩, ?_⟩
  · obtain ⟨bs, h1, h2⟩ := (h b c R hc).body
    exact ⟨bs, h1, by rw [bracketNode_closed hc]; exact .closed h2⟩
  · rfl

theorem Filling.astable {b X B ex} (h : Filling b X B ex) : B.astable = true := by
  obtain ⟨o, body, c, _, _, _, h1⟩ := h.parsed
  obtain ⟨bs, _, hx⟩ := h1 []
  refine hx.astable ?_
  have := h.tag
  rcases B with ⟨k, l⟩ | ⟨k, cs, l⟩
  · cases this
  · rfl

theorem Filling.shape {b X B ex} (h : Filling b X B ex) : ∃ cs, B.sshape = .node (.bracket b) cs := by
  have := h.tag
  rcases B with ⟨k, l⟩ | ⟨k, cs, l⟩
  · cases this
  · simp only [CST.tag, Sum.inr.injEq] at this
    subst this
    exact ⟨_, rfl⟩

/-! ### the trees -/

mutual

theorem Sw.astable {B B' : CST} (hB : B.astable = true) (hB' : B'.astable = true) : ∀ {n c c'}, Sw B B' n c c' → c'.astable = c.astable
  | _, _, _, .leaf => rfl
  | _, _, _, .here => by rw [hB, hB']
  | _, _, _, .node h => by simp only [CST.astable, h.astable hB hB']

theorem SwL.astable {B B' : CST} (hB : B.astable = true) (hB' : B'.astable = true) : ∀ {n cs cs'}, SwL B B' n cs cs' →
    CST.astableL cs' = CST.astableL cs
  | _, _, _, .nil => rfl
  | _, _, _, .cons h hs => by simp only [CST.astableL, h.astable hB hB', hs.astable hB hB']

end

mutual

theorem Sw.zero {B B' : CST} : ∀ {n c c'}, Sw B B' n c c' → n = 0 → c'.sshape = c.sshape
  | _, _, _, .leaf, _ => rfl
  | _, _, _, .here, h => by cases h
  | _, _, _, .node h, hn => by simp only [CST.sshape, h.zero hn]

theorem SwL.zero {B B' : CST} : ∀ {n cs cs'}, SwL B B' n cs cs' → n = 0 → CST.sshapeL cs' = CST.sshapeL cs
  | _, _, _, .nil, _ => rfl
  | _, _, _, .cons h hs, hn => by simp only [CST.sshapeL, h.zero (by omega), hs.zero (by omega)]

end

mutual

theorem Sw.swapped {B B' : CST} : ∀ {n c c'}, Sw B B' n c c' → n = 1 → Shape.Swapped B.sshape B'.sshape c.sshape c'.sshape
  | _, _, _, .leaf, h => by cases h
  | _, _, _, .here, _ => .here
  | _, _, _, .node h, hn => by
    obtain ⟨as, t, t', bs, h1, h2, h3⟩ := h.swapped hn
    simp only [CST.sshape, h1, h2]
    exact .inside h3

theorem SwL.swapped {B B' : CST} : ∀ {n cs cs'}, SwL B B' n cs cs' → n = 1 → ∃ as t t' bs, CST.sshapeL cs = as ++ t :: bs ∧
    CST.sshapeL cs' = as ++ t' :: bs ∧ Shape.Swapped B.sshape B'.sshape t t'
  | _, _, _, .nil, h => by cases h
  | _, _, _, .cons (n := n) (m := m) (c := c) h hs, hn => by
    rcases n with _ | n
    · obtain ⟨as, t, t', bs, h1, h2, h3⟩ := hs.swapped (by omega)
      exact ⟨c.sshape :: as, t, t', bs, by simp [CST.sshapeL, h1], by simp [CST.sshapeL, h2, h.zero rfl], h3⟩
    · exact ⟨[], _, _, _, rfl, by simp only [CST.sshapeL, hs.zero (by omega)]; rfl, h.swapped (by omega)⟩

end

theorem XDoc.det {cs ds es ds' es'} (h : XDoc cs ds es) (h' : XDoc cs ds' es') : ds = ds' ∧ es = es' := by
  obtain ⟨ds0, h1, h2⟩ := h.simplify
  obtain ⟨ds1, h3, h4⟩ := h'.simplify
  rw [h1] at h3
  cases h3
  exact ⟨by rw [← h2, h4], rfl⟩

/-- A command alone is a document of one paragraph with one line. -/
theorem Filling.alone {b X B ex} (h : Filling b X B ex) {e : Token} (he : e.kind = .eof) : ∃ cs l l1 l2,
    parse (X ++ [e]) = .ok (.node .document cs l) ∧ XDoc cs [.node .stmt [.node .expr [B] l1] l2] ex := by
  obtain ⟨o, body, c, rfl, ho, hc, h1⟩ := h.parsed
  obtain ⟨bs, h2, h3⟩ := h1 [e]
  have hstop : EI [e] [] [e] := .stop (by
    intro t ht
    obtain rfl : e = t := by simpa using ht
    left; rw [he]; rfl)
  have h4 : EI (o :: (body ++ c :: [e])) [bracketNode b o bs c] [e] := .bclosed ho h2 hc hstop
  have hT : o :: body ++ [c] ++ [e] = o :: (body ++ c :: [e]) := by simp
  have hne : ∀ t ∈ ([e] : List Token).head?, t.kind ≠ .newLine := by
    intro t ht
    obtain rfl : e = t := by simpa using ht
    rw [he]; simp
  have hS : SI [e] [] [e] := .stop (by
    intro t ts1 e1 e2
    cases e1
    rw [he] at e2; cases e2)
  have hTI := TI.mk (LI.expr h4) hS
  have hPI := (PI.mk (.lastStmt hTI hne) (.some hTI) (.stop hne) he).parse
  obtain ⟨l, e1⟩ := foldl_add_new .document ([] ++ [List.foldl CST.add (CST.new IKind.stmt) [exprNode (bracketNode b o bs c) []]] ++ [] ++
    [CST.leaf LKind.eof e.loc])
  obtain ⟨l2, e2⟩ := foldl_add_new .stmt [exprNode (bracketNode b o bs c) []]
  rw [hT]
  rw [e1] at hPI
  refine ⟨_, _, (exprNode (bracketNode b o bs c) []).loc, l2, hPI, ?_⟩
  · rw [e2]
    have := XDoc.cons (XChild.stmt (l := l2) (XLines.cons (XLine.expr (l := (exprNode (bracketNode b o bs c) []).loc) (by simp) (.cons h3 .nil)) .nil))
      (.cons (.eof (l := e.loc)) .nil)
    simpa [exprNode, CST.loc] using this

/-! ### holes in token lists -/

theorem Hole.of_kinds {X X' : List Token} : ∀ {R R' : List Token}, R'.map Token.kind = R.map Token.kind → Hole X X' 0 R R'
  | [], R', h => by
    have : R' = [] := by simpa using h
    subst this; exact .nil
  | [t], R', h => by
    rcases R' with _ | ⟨t', _ | ⟨u', us'⟩⟩ <;> simp at h
    by_cases hb : t.kind = .backSlash
    · exact .alone hb (by rw [h, hb])
    · exact .cons hb h (fun _ => rfl) .nil
  | t :: u :: us, R', h => by
    rcases R' with _ | ⟨t', _ | ⟨u', us'⟩⟩ <;> simp at h
    by_cases hb : t.kind = .backSlash
    · exact .esc hb (by rw [h.1, hb]) h.2.1 (fun _ => rfl) (Hole.of_kinds h.2.2)
    · exact .cons hb h.1 (fun _ => rfl) (Hole.of_kinds (R := u :: us) (R' := u' :: us') (by simp [h.2]))

theorem Hole.after {X X' : List Token} {n R R'} (h : Hole X X' n R R') : ∀ ts : List Token, (∀ p ∈ ts.getLast?, p.kind ≠ .backSlash) →
    (∀ t ∈ ts, t.kind ≠ .eof) → Hole X X' n (ts ++ R) (ts ++ R')
  | [], _, _ => h
  | [t], ht, he => .cons (ht t (by simp)) rfl (fun e => absurd e (he t (by simp))) h
  | t :: u :: us, ht, he => by
    by_cases hb : t.kind = .backSlash
    · refine .esc hb hb rfl (fun e => absurd e (he u (by simp))) (Hole.after h us ?_ (fun t ht => he t (by simp [ht])))
      intro p hp
      refine ht p ?_
      rcases us with _ | ⟨v, vs⟩
      · simp at hp
      · simpa [List.getLast?_cons_cons] using hp
    · exact .cons hb rfl (fun e => absurd e (he t (by simp)))
        (Hole.after h (u :: us) (by simpa [List.getLast?_cons_cons] using ht) (fun t ht => he t (by simp [ht])))

/-! ### the tokenizer -/

theorem cls_open (b : Bracket) : cls [b.openChar] = .lt ∨ cls [b.openChar] = .lc ∨ cls [b.openChar] = .lb := by
  cases b <;> decide

theorem actionC_before (c d : Cl) (look nested : Bool) (h : d = .lt ∨ d = .lc ∨ d = .lb) :
    actionC c d look nested = actionC c .nul look nested := by
  revert c d look nested; decide

/-- Reading a text up to its end or up to an opening bracket, whatever follows. -/
theorem run_opening (b : Bracket) : ∀ (gs : List Str) (m : M), (∀ g ∈ gs, g ≠ NUL) → ∃ ts m',
    run gs m = ts ++ [m'.eof] ∧ m'.look = nameDue m.look ts ∧ m'.nest = m.nest + depth ts ∧
      ∀ r, run (gs ++ [b.openChar] :: r) m = ts ++ run ([b.openChar] :: r) m'
  | [], m, _ => ⟨[], m, by simp [run], rfl, by simp [depth], by simp⟩
  | g :: gs, m, h => by
    have hg : g ≠ NUL := h g (by simp)
    have ha : ∀ r, act g (gs ++ [b.openChar] :: r) m = act g gs m := by
      intro r
      unfold act
      rcases gs with _ | ⟨g2, gs⟩
      · simp only [List.nil_append, List.headD_cons, List.headD_nil, action_eq, cls_NUL]
        exact actionC_before _ _ _ _ (cls_open b)
      · simp
    obtain ⟨ts, m', h1, h2, h3, h4⟩ := run_opening b gs (emit (act g gs m) g m).2 (fun g' hg' => h g' (by simp [hg']))
    refine ⟨(emit (act g gs m) g m).1 ++ ts, m', ?_, ?_, ?_, ?_⟩
    · simp only [run, hg, if_false, h1, List.append_assoc]
    · rw [h2, emit_look, nameDue_append]
    · rw [h3, emit_nest, depth_append]; omega
    · intro r
      simp only [List.cons_append, run, hg, if_false, ha]
      rw [h4, List.append_assoc]
      rfl

theorem actionC_close (c d d' : Cl) (nested nested' : Bool) (b : Bracket) (h : actionC c d false nested = .bclose b) :
    actionC c d' false nested' = .bclose b := by
  cases b <;> revert c d d' nested nested' <;> decide

theorem emit_bclose {a g m t b} (h : (emit a g m).1 = [t]) (hs : t.kind = .bclose b) : a = .bclose b := by
  cases a <;> simp [emit] at h ⊢ <;> subst h <;> simp [M.single, M.pooled] at hs <;> exact hs

/-- States that differ in positions and in how deep the brackets are. -/
structure M.Deeper (k : Int) (m m' : M) : Prop where
  pool : m'.pool = m.pool
  look : m'.look = m.look
  nest : m'.nest = m.nest + k

theorem M.Deeper.act {k m m'} (h : M.Deeper k m m') (hk : 0 ≤ k) (hm : 0 < m.nest) (g gs) : act g gs m' = act g gs m := by
  have h1 := h.nest
  unfold M.nest at h1 hm
  unfold Brack.act M.nested
  rw [h.look, decide_eq_true (show m'.angle + m'.curly + m'.square > 0 by omega),
    decide_eq_true (show m.angle + m.curly + m.square > 0 by omega)]

theorem M.Deeper.emit {k m m'} (h : M.Deeper k m m') (a : Action) (g : Str) : M.Deeper k (emit a g m).2 (emit a g m').2 ∧
    (Brack.emit a g m').1.map Token.kind = (Brack.emit a g m).1.map Token.kind := by
  obtain ⟨h5, h6, h7⟩ := h
  unfold M.nest at h7
  refine ⟨?_, ?_⟩
  · rcases a with _ | _ | b | b | _ | _ | _ | _ | _ | _ | _
    case bopen | bclose =>
      cases b <;> constructor <;>
        simp only [Brack.emit, M.adv, M.addCount, M.nest, h5, h6] <;> omega
    all_goals
      constructor <;> simp only [Brack.emit, M.adv, M.nest, h5, h6] <;> omega
  · rcases a with _ | _ | _ | _ | _ | _ | _ | _ | _ | _ | _ <;>
      simp [Brack.emit, M.single, M.pooled, h5]

/-- Reading the rest of a command deeper inside other brackets, whatever follows. -/
theorem run_inside (k : Int) (hk : 0 ≤ k) (b : Bracket) : ∀ (gs : List Str) (m m' : M) (ts : List Token) (t e : Token),
    M.Deeper k m m' → run gs m = ts ++ [t, e] → t.kind = .bclose b → NUL ∉ gs → nameDue m.look ts = false →
    (∀ p, p <+: ts → 0 < m.nest + depth p) → ∃ ts' t' m1, ts'.map Token.kind = ts.map Token.kind ∧ t'.kind = .bclose b ∧
      m1.look = false ∧ m1.pool = [] ∧ m1.nest = m'.nest + depth ts - 1 ∧ ∀ r, run (gs ++ r) m' = ts' ++ t' :: run r m1
  | [], m, m', ts, t, e, _, h, _, _, _, _ => by
    rcases ts with _ | ⟨x, ts⟩ <;> simp [run] at h
  | [g], m, m', ts, t, e, hd, h, hs, hn, hl, hp => by
    have hg : g ≠ NUL := fun e => hn (by simp [e])
    simp only [run, hg, if_false] at h
    rcases emit_le (act g [] m) g m with h1 | ⟨x, h1⟩
    · rw [h1] at h
      rcases ts with _ | ⟨x, ts⟩ <;> simp at h
    · rw [h1] at h
      rcases ts with _ | ⟨y, ts⟩
      · simp only [List.nil_append, List.singleton_append, List.cons.injEq] at h
        obtain ⟨rfl, _⟩ := h
        have h2 := emit_bclose h1 hs
        have hlook : m.look = false := hl
        have ha : ∀ r, act g r m' = .bclose b := by
          intro r
          unfold act at h2 ⊢
          rw [hlook, action_eq] at h2
          rw [hd.look, hlook, action_eq]
          exact actionC_close _ _ _ _ _ _ h2
        refine ⟨[], m'.single (.bclose b), (emit (.bclose b) g m').2, rfl, rfl, ?_, ?_, ?_, fun r => ?_⟩
        · rw [emit_look]; show m'.look = false; rw [hd.look, hlook]
        · cases b <;> rfl
        · rw [emit_nest]; simp [emit, depth, M.single]; omega
        · simp only [List.singleton_append, run, hg, if_false, ha, List.nil_append]
          rfl
      · rcases ts with _ | ⟨z, ts⟩ <;> simp at h
  | g :: g2 :: gs, m, m', ts, t, e, hd, h, hs, hn, hl, hp => by
    have hg : g ≠ NUL := fun e => hn (by simp [e])
    have hn2 : NUL ∉ g2 :: gs := fun h => hn (List.mem_cons_of_mem _ h)
    rw [run, if_neg hg] at h
    have h0 : 0 < m.nest := by simpa [depth] using hp [] List.nil_prefix
    have ha : ∀ r, act g (g2 :: (gs ++ r)) m' = act g (g2 :: gs) m := fun r => hd.act hk h0 g (g2 :: gs)
    obtain ⟨hd2, hkinds⟩ := hd.emit (act g (g2 :: gs) m) g
    have hnest := emit_nest (act g (g2 :: gs) m) g m
    have hnest' := emit_nest (act g (g2 :: gs) m) g m'
    rcases emit_le (act g (g2 :: gs) m) g m with h1 | ⟨x, h1⟩
    · rw [h1, List.nil_append] at h
      rw [h1] at hnest hkinds
      have h1' : (emit (act g (g2 :: gs) m) g m').1 = [] := by simpa using hkinds
      rw [h1'] at hnest'
      obtain ⟨ts', t', m1, k1, k2, k3, k4, k5, k6⟩ := run_inside k hk b (g2 :: gs) _ _ ts t e hd2 h hs hn2 (by
        have := emit_look (act g (g2 :: gs) m) g m
        rw [h1] at this
        rw [this]; exact hl) (by
        intro p hpp
        have := hp p hpp
        rw [hnest]; simpa [depth] using this)
      refine ⟨ts', t', m1, k1, k2, k3, k4, ?_, fun r => ?_⟩
      · rw [k5, hnest']; simp [depth]
      · have := k6 r
        simp only [List.cons_append] at this ⊢
        rw [run, if_neg hg, ha, h1', List.nil_append, this]
    · rw [h1, List.singleton_append] at h
      rw [h1] at hnest hkinds
      obtain ⟨x', h1', hx'⟩ : ∃ x', (emit (act g (g2 :: gs) m) g m').1 = [x'] ∧ x'.kind = x.kind := by
        rcases emit_le (act g (g2 :: gs) m) g m' with h2 | ⟨y, h2⟩
        · rw [h2] at hkinds; simp at hkinds
        · rw [h2] at hkinds; exact ⟨y, h2, by simpa using hkinds⟩
      rw [h1'] at hnest'
      have hdx : depth [x'] = depth [x] := by simp [depth, hx']
      obtain ⟨a, b', r0, h0'⟩ := run_some (g2 :: gs) (emit (act g (g2 :: gs) m) g m).2 (by simp) hn2
      rcases ts with _ | ⟨y, ts⟩
      · rw [h0'] at h
        simp at h
      · simp only [List.cons_append, List.cons.injEq] at h
        obtain ⟨rfl, h⟩ := h
        obtain ⟨ts', t', m1, k1, k2, k3, k4, k5, k6⟩ := run_inside k hk b (g2 :: gs) _ _ ts t e hd2 h hs hn2 (by
          rw [emit_look, h1, ← nameDue_append]; exact hl) (by
          intro p hpp
          have := hp (x :: p) ((List.prefix_cons_inj x).mpr hpp)
          rw [depth_cons] at this
          rw [hnest]; omega)
        refine ⟨x' :: ts', t', m1, by simp [hx', k1], k2, k3, k4, ?_, fun r => ?_⟩
        · rw [k5, hnest', depth_cons x ts]; omega
        · have := k6 r
          simp only [List.cons_append] at this ⊢
          rw [run, if_neg hg, ha, h1', this, List.singleton_append]

theorem actionC_open (b : Bracket) (d : Cl) (nested : Bool) : actionC (cls [b.openChar]) d false nested = .bopen b := by
  cases b <;> revert d nested <;> decide

theorem act_open (b : Bracket) (r) {m : M} (h : m.look = false) : act [b.openChar] r m = .bopen b := by
  unfold act
  rw [h, action_eq]
  exact actionC_open _ _ _

theorem no_NUL {S : Segmenter} {x : Str} (h : Char.ofNat 0 ∉ x) : NUL ∉ S.graphemes x := by
  intro hn
  have hf := S.flatten x
  apply h
  rw [← hf]
  exact List.mem_flatten.mpr ⟨_, hn, by simp [NUL]⟩

/-- Reading a command after another text. -/
theorem Command.run {S b x} (h : Command S b x) {o body c e} (ht : tokenizeStr S x = .ok (o :: body ++ [c, e])) {m : M}
    (hl : m.look = false) (hm : 0 ≤ m.nest) : ∃ o' body' c' m1, o'.kind = .bopen b ∧ body'.map Token.kind = body.map Token.kind ∧
      c'.kind = .bclose b ∧ m1.look = false ∧ m1.pool = [] ∧ m1.nest = m.nest ∧
      ∀ r, Brack.run (S.graphemes x ++ r) m = o' :: body' ++ c' :: Brack.run r m1 := by
  obtain ⟨o1, body1, c1, e1, k1, k2, k3, _, k4, k5, k6⟩ := h.tokens
  rw [ht] at k1
  simp only [Res.ok.injEq, List.cons_append, List.cons.injEq] at k1
  obtain ⟨rfl, k1⟩ := k1
  have hlen := (List.append_inj' k1 rfl)
  obtain ⟨rfl, e2⟩ := hlen
  cases e2
  obtain ⟨gs, hgs⟩ := h.starts
  have hnul := no_NUL (S := S) h.noNul
  rw [tokenizeStr_eq] at ht
  have ht : Brack.run (S.graphemes x) M.init = o :: body ++ [c, e] := by injection ht
  have hne : ([b.openChar] : Str) ≠ NUL := by cases b <;> decide
  rw [hgs] at ht hnul
  have hopen : ∀ (m : M) (r : List Str), m.look = false → Brack.run ([b.openChar] :: r) m =
      m.single (.bopen b) :: Brack.run r (emit (.bopen b) [b.openChar] m).2 := by
    intro m r hl
    rw [Brack.run, if_neg hne, act_open b r hl]
    rfl
  rw [hopen _ _ rfl] at ht
  simp only [List.cons_append, List.cons.injEq] at ht
  obtain ⟨ho, ht⟩ := ht
  have hd : M.Deeper m.nest (emit (.bopen b) [b.openChar] M.init).2 (emit (.bopen b) [b.openChar] m).2 := by
    refine ⟨?_, ?_, ?_⟩
    · cases b <;> rfl
    · cases b <;> rfl
    · rw [emit_nest, emit_nest]
      have : M.init.nest = 0 := rfl
      rw [this]
      simp [emit, depth, M.single]
      omega
  have hn1 : (emit (.bopen b) [b.openChar] M.init).2.nest = 1 := by cases b <;> rfl
  obtain ⟨ts', t', m1, q1, q2, q3, q4, q5, q6⟩ := run_inside m.nest hm b gs _ _ body c e hd ht k3 (fun h => hnul (List.mem_cons_of_mem _ h))
    (by
      rw [emit_look, ← nameDue_append]
      have : (emit (.bopen b) [b.openChar] M.init).1 = [o] := by rw [← ho]; rfl
      rw [this]; exact k6)
    (by
      intro p hp
      have := k5 p hp
      rw [hn1]; omega)
  refine ⟨m.single (.bopen b), ts', t', m1, rfl, q1, q2, q3, q4, ?_, fun r => ?_⟩
  · rw [q5, emit_nest, k4]; simp [emit, depth, M.single]
  · rw [hgs, List.cons_append, hopen _ _ hl, q6]
    rfl

/-! ### reading -/

theorem Filling.same {b X B ex X' B' ex'} (h : Filling b X B ex) (h' : Filling b X' B' ex')
    (hk : X'.map Token.kind = X.map Token.kind) : B'.sshape = B.sshape ∧ ex'.map TErr.kind = ex.map TErr.kind := by
  let e : Token := ⟨.eof, mockLocation⟩
  have he : HasEof (X ++ [e]) := ⟨e, by simp, rfl⟩
  have he' : HasEof (X' ++ [e]) := ⟨e, by simp, rfl⟩
  obtain ⟨cs, l, l1, l2, h1, h2⟩ := h.alone (e := e) rfl
  obtain ⟨cs', l', l1', l2', h1', h2'⟩ := h'.alone (e := e) rfl
  rcases parse_swap h h' (n := 0) (Hole.of_kinds (R := X ++ [e]) (R' := X' ++ [e]) (by simp [hk])) he he' with
    ⟨m, m', k1, k2⟩ | ⟨ds, m, ds', m', es, fs, es', fs', k1, k2, k3, k4, k5, k6⟩
  · rw [h1] at k1; cases k1
  · rw [h1] at k1; cases k1
    rw [h1'] at k2; cases k2
    obtain ⟨rfl, rfl⟩ := h2.det k3
    obtain ⟨rfl, rfl⟩ := h2'.det k4
    have := k5.zero rfl
    simp only [CST.sshapeL, CST.sshape, List.cons.injEq, Shape.node.injEq, and_true, true_and] at this
    exact ⟨this, k6.zero rfl⟩

/-- A command is read alone. -/
theorem Filling.read {b X B ex} (h : Filling b X B ex) {S x} {e : Token} (ht : tokenizeStr S x = .ok (X ++ [e])) (he : e.kind = .eof)
    (ids : Nat → Str) : Alone S ids x B.sshape (ex.map TErr.kind) := by
  obtain ⟨cs, l, l1, l2, h1, h2⟩ := h.alone he
  obtain ⟨a, ha⟩ := reads_of_parsed ids ht h1 h2 (by simp [CST.astableL, CST.astable, h.astable, IKind.toAst])
  obtain ⟨_, _, hs, _⟩ := reads_parsed ht h1 h2 a _ ha
  exact ⟨a, ex, ha, by simpa [CST.sshapeL, CST.sshape, IKind.toAst] using hs, rfl⟩

theorem Command.filling {S b x} (h : Command S b x) : ∃ o body c e B ex, tokenizeStr S x = .ok (o :: body ++ [c, e]) ∧ Nested body ∧
    o.kind = .bopen b ∧ c.kind = .bclose b ∧ e.kind = .eof ∧ Filling b (o :: body ++ [c]) B ex := by
  obtain ⟨o, body, c, e, k1, k2, k3, k4, _⟩ := h.tokens
  obtain ⟨B, ex, hf⟩ := k4.filling k2 k3
  refine ⟨o, body, c, e, B, ex, k1, k4, k2, k3, ?_, hf⟩
  obtain ⟨pre, e', h1, h2, _⟩ := tokens_shape k1
  have : o :: body ++ [c, e] = (o :: body ++ [c]) ++ [e] := by simp
  rw [this] at h1
  have := (List.append_inj' h1 rfl).2
  cases this
  exact h2

/-- The tokens of a command in a document. -/
theorem Command.inside {S b x} (h : Command S b x) (ids : Nat → Str) {m : M} (hl : m.look = false) (hm : 0 ≤ m.nest) :
    ∃ X B ex m1, Filling b X B ex ∧ (∀ t ∈ X, t.kind ≠ .eof) ∧ Alone S ids x B.sshape (ex.map TErr.kind) ∧
      m1.look = false ∧ m1.pool = [] ∧ m1.nest = m.nest ∧ ∀ r, Brack.run (S.graphemes x ++ r) m = X ++ Brack.run r m1 := by
  obtain ⟨o, body, c, e, B, ex, h1, h2, h3, h4, h5, h6⟩ := h.filling
  obtain ⟨o', body', c', m1, k1, k2, k3, k4, k5, k6, k7⟩ := h.run h1 hl hm
  obtain ⟨B', ex', hf⟩ := (h2.of_kinds k2).filling k1 k3
  have hkinds : (o' :: body' ++ [c']).map Token.kind = (o :: body ++ [c]).map Token.kind := by simp [k1, k2, k3, h3, h4]
  obtain ⟨e1, e2⟩ := h6.same hf hkinds
  refine ⟨_, B', ex', m1, hf, ?_, ?_, k4, k5, k6, fun r => by rw [k7]; simp⟩
  · obtain ⟨pre, e', q1, q2, q3⟩ := tokens_shape h1
    have : o :: body ++ [c, e] = (o :: body ++ [c]) ++ [e] := by simp
    rw [this] at q1
    obtain ⟨rfl, _⟩ := List.append_inj' q1 rfl
    intro t ht
    have : t.kind ∈ (o' :: body' ++ [c']).map Token.kind := List.mem_map_of_mem ht
    rw [hkinds] at this
    obtain ⟨t0, ht0, e0⟩ := List.mem_map.mp this
    rw [← e0]
    exact (q3 t0 ht0).1
  · rw [e1, e2]
    exact h6.read (by rw [h1]; simp) h5 ids

theorem Alone.det {S ids x s ks s' ks'} (h : Alone S ids x s ks) (h' : Alone S ids x s' ks') : s = s' ∧ ks = ks' := by
  obtain ⟨a, es, h1, h2, rfl⟩ := h
  obtain ⟨a', es', h1', h2', rfl⟩ := h'
  obtain ⟨rfl, rfl⟩ := reads_det h1 h1'
  rw [h2] at h2'
  simp at h2'
  exact ⟨h2', rfl⟩

/-- Texts that differ in one command. -/
theorem reads_swapped {S : Segmenter} {b : Bracket} {u x x' v : Str} (hx : Command S b x) (hx' : Command S b x') (hu : Place S u)
    (ha : Apart S u x v) (ha' : Apart S u x' v) (ids : Nat → Str) :
    ((∃ a es, Reads S ids (u ++ x ++ v) a es) ↔ ∃ a es, Reads S ids (u ++ x' ++ v) a es) ∧
    ∀ a es a' es', Reads S ids (u ++ x ++ v) a es → Reads S ids (u ++ x' ++ v) a' es' →
      ∃ s ks s' ks', Alone S ids x s ks ∧ Alone S ids x' s' ks' ∧ ((∃ cs, s = .node (.bracket b) cs) ∧ ∃ cs, s' = .node (.bracket b) cs) ∧
        Shape.Swapped s s' a.shape a'.shape ∧ ∃ k1 k2, es.map TErr.kind = k1 ++ ks ++ k2 ∧ es'.map TErr.kind = k1 ++ ks' ++ k2 := by
  obtain ⟨ts, e, ht, hb, hn, hd⟩ := hu.tokens
  have hnul := no_NUL (S := S) hu.noNul
  obtain ⟨ts0, m, q1, q2, q3, q4⟩ := run_opening b (S.graphemes u) M.init (fun g hg e => hnul (e ▸ hg))
  obtain rfl : ts0 = ts := by
    rw [tokenizeStr_eq, q1] at ht
    have ht : ts0 ++ [m.eof] = ts ++ [e] := by injection ht
    exact (List.append_inj' ht rfl).1
  have hl : m.look = false := by rw [q2]; exact hn
  have hm : 0 ≤ m.nest := by rw [q3]; have : M.init.nest = 0 := rfl; omega
  obtain ⟨pre, e', p1, _, p2⟩ := tokens_shape ht
  obtain ⟨rfl, _⟩ := List.append_inj' p1 rfl
  obtain ⟨X, B, ex, m1, k1, k2, k3, k4, k5, k6, k7⟩ := hx.inside ids hl hm
  obtain ⟨X', B', ex', m1', k1', k2', k3', k4', k5', k6', k7'⟩ := hx'.inside ids hl hm
  have htok : ∀ {x} (_ : Command S b x) (_ : Apart S u x v) {X m1}
      (_ : ∀ r, Brack.run (S.graphemes x ++ r) m = X ++ Brack.run r m1), tokenizeStr S (u ++ x ++ v) = .ok (ts0 ++ (X ++ Brack.run (S.graphemes v) m1)) := by
    intro x hx ha X m1 hr
    obtain ⟨gs, hgs⟩ := hx.starts
    rw [tokenizeStr_eq, ha, List.append_assoc, ← hr, hgs, List.cons_append, q4]
  have ht1 := htok hx ha k7
  have ht2 := htok hx' ha' k7'
  have hv : Hole X X' 0 (Brack.run (S.graphemes v) m1) (Brack.run (S.graphemes v) m1') :=
    .of_kinds (run_kinds _ _ _ ⟨by rw [k5, k5'], by rw [k4, k4'], by rw [k6, k6']⟩)
  have hhole : Hole X X' 1 (ts0 ++ (X ++ Brack.run (S.graphemes v) m1)) (ts0 ++ (X' ++ Brack.run (S.graphemes v) m1')) :=
    (Hole.hole rfl rfl hv).after ts0 hb (fun t ht => (p2 t ht).1)
  have heof : ∀ {x T}, tokenizeStr S x = .ok T → HasEof T := by
    intro x T h
    obtain ⟨body, e, h1, h2, _⟩ := tokens_shape h
    exact ⟨e, by rw [h1]; simp, h2⟩
  rcases parse_swap k1 k1' hhole (heof ht1) (heof ht2) with
    ⟨n, n', h1, h2⟩ | ⟨cs, l, cs', l', ds, es, ds', es', h1, h2, h3, h4, h5, h6⟩
  · have hno : ∀ x fs, ¬ Reads S ids (u ++ x' ++ v) x fs := by
      rintro y fs ⟨ts, c, k1, k2, _⟩
      rw [ht2] at k1; cases k1
      rw [h2] at k2; cases k2
    refine ⟨⟨?_, ?_⟩, ?_⟩
    · rintro ⟨y, fs, ts, c, k1, k2, _⟩
      rw [ht1] at k1; cases k1
      rw [h1] at k2; cases k2
    · rintro ⟨y, fs, h⟩; exact absurd h (hno y fs)
    · intro a es a' es' _ h; exact absurd h (hno a' es')
  · have hst := h5.astable k1.astable k1'.astable
    refine ⟨⟨?_, ?_⟩, ?_⟩
    · rintro ⟨y, fs, h⟩
      have := (reads_parsed ht1 h1 h3 y fs h).1
      obtain ⟨z, hz⟩ := reads_of_parsed ids ht2 h2 h4 (by rw [hst, this])
      exact ⟨z, _, hz⟩
    · rintro ⟨y, fs, h⟩
      have := (reads_parsed ht2 h2 h4 y fs h).1
      obtain ⟨z, hz⟩ := reads_of_parsed ids ht1 h1 h3 (by rw [← hst, this])
      exact ⟨z, _, hz⟩
    · intro a fs a' fs' h h'
      obtain ⟨_, rfl, hs, _⟩ := reads_parsed ht1 h1 h3 a fs h
      obtain ⟨_, rfl, hs', _⟩ := reads_parsed ht2 h2 h4 a' fs' h'
      refine ⟨_, _, _, _, k3, k3', ⟨k1.shape, k1'.shape⟩, ?_, h6.one rfl⟩
      obtain ⟨as, t, t', bs, e1, e2, e3⟩ := h5.swapped rfl
      rw [hs, hs', e1, e2]
      exact .inside e3

end Brack
