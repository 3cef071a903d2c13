import Verif.Proof.ParaTokens
import Verif.Proof.ParaParse
import Verif.Proof.ParaDown
import Verif.Proof.ParaGen
import Verif.Proof.ParserAccept

/-
Helper lemmas for Props/Paragraphs: parsing and transforming two texts joined by a blank line.
-/

namespace Brack

theorem XDoc.split : ∀ {cs cs' ds es}, XDoc (cs ++ cs') ds es →
    ∃ ds1 es1 ds2 es2, XDoc cs ds1 es1 ∧ XDoc cs' ds2 es2 ∧ ds = ds1 ++ ds2 ∧ es = es1 ++ es2
  | [], _, _, _, h => ⟨[], [], _, _, .nil, h, rfl, rfl⟩
  | c :: cs, cs', _, _, .cons h1 h2 => by
    obtain ⟨ds1, es1, ds2, es2, h3, h4, rfl, rfl⟩ := h2.split
    exact ⟨_, _, ds2, es2, .cons h1 h3, h4, by simp, by simp⟩

/-- Leaves of a document leave nothing. -/
theorem XDoc.leaves {cs ds es} (h : XDoc cs ds es) (hl : ∀ c ∈ cs, ∃ k l, c = .leaf k l) : ds = [] ∧ es = [] := by
  induction h with
  | nil => exact ⟨rfl, rfl⟩
  | cons h1 _ ih =>
    obtain ⟨rfl, rfl⟩ := ih (fun c hc => hl c (List.mem_cons_of_mem _ hc))
    obtain ⟨k, l, rfl⟩ := hl _ List.mem_cons_self
    cases h1 <;> exact ⟨rfl, rfl⟩

theorem PI.at_eof {ts : List Token} {e : Token} (hts : ∀ t ∈ ts, t.kind ≠ .eof) {c rest}
    (h : PI (ts ++ [e]) c rest) : ∃ cs r cs2 r2 ns, DI (ts ++ [e]) cs r ∧ OI r cs2 r2 ∧ NI r2 ns [e] ∧ e.kind = .eof ∧
      c = (cs ++ cs2 ++ ns ++ [CST.leaf .eof e.loc]).foldl CST.add (CST.new .document) := by
  cases h with
  | @mk cs r cs2 r2 ns t rest hD hO hN ht =>
    obtain ⟨pre, hpre⟩ := hN.isSuffix.trans (hO.isSuffix.trans hD.isSuffix)
    have hr : rest = [] := by
      rcases List.eq_nil_or_concat rest with h | ⟨rest', x, h⟩
      · exact h
      · exfalso
        subst h
        have : pre ++ t :: rest' = ts := by
          have h1 : (pre ++ t :: rest') ++ [x] = ts ++ [e] := by simpa using hpre
          exact (List.append_inj' h1 rfl).1
        exact hts t (by rw [← this]; simp) ht
    subst hr
    have : t = e := by
      have h1 := (List.append_inj' hpre rfl).2
      simpa using h1
    subst this
    exact ⟨cs, r, cs2, r2, ns, hD, hO, hN, ht, rfl⟩

theorem hasEof_map_down {d us} (h : HasEof us) : HasEof (us.map (Token.down d)) := by
  obtain ⟨t, ht, he⟩ := h
  exact ⟨t.down d, List.mem_map_of_mem ht, he⟩

/-- Parsing two token lists joined by two line feeds. -/
theorem parse_join {ts us : List Token} {e n n2 : Token} {ca : CST} (d : Nat) (he : e.kind = .eof)
    (hts : ∀ t ∈ ts, t.kind ≠ .eof) (hn : n.kind = .newLine) (hn2 : n2.kind = .newLine)
    (hfirst : ∃ t ts', ts = t :: ts' ∧ t.kind ≠ .newLine) (hU : HasEof us)
    (hUh : ∀ t ∈ us.head?, t.kind ≠ .newLine) (hq : ∀ o, Event.unclosed o ∉ trace [] (ts ++ [e]))
    (hp : parse (ts ++ [e]) = .ok ca) :
    ∃ csA la, ca = .node .document (csA ++ [.leaf .eof e.loc]) la ∧
      ((∃ m m', parse us = .err m ∧ parse (ts ++ n :: n2 :: us.map (Token.down d)) = .err m') ∨
        ∃ csB lb csB' l, parse us = .ok (.node .document csB lb) ∧ ChildrenDown d csB csB' ∧
          parse (ts ++ n :: n2 :: us.map (Token.down d)) =
            .ok (.node .document (csA ++ [.leaf .newline n.loc, .leaf .newline n2.loc] ++ csB') l)) := by
  have htr := parse_trace hp
  obtain ⟨rest, hP⟩ := parse_ok hp
  obtain ⟨cs, r, cs2, r2, ns, hD, hO, hN, _, rfl⟩ := hP.at_eof hts
  obtain ⟨la, hla⟩ := foldl_add_new .document (cs ++ cs2 ++ ns ++ [CST.leaf .eof e.loc])
  rw [hla] at htr ⊢
  refine ⟨_, _, rfl, ?_⟩
  have hQ : NoUnclosed [] (cs ++ cs2) := by
    intro o ho
    refine hq o ?_
    rw [htr, evs_document, List.append_assoc _ ns, evsL_append]
    exact List.mem_append_left _ ho
  have hX : ∀ t ∈ (us.map (Token.down d)).head?, t.kind ≠ .newLine := by
    intro t ht
    rcases us with _ | ⟨u, us⟩
    · simp at ht
    · have : u.down d = t := by simpa using ht
      rw [← this]
      exact hUh u (by simp)
  have key : ∀ {ds s}, DI (us.map (Token.down d)) ds s → DI (ts ++ n :: n2 :: us.map (Token.down d))
      (cs ++ cs2 ++ ns ++ [.leaf .newline n.loc, .leaf .newline n2.loc] ++ ds) s :=
    fun hd => DI.join he hn hn2 hX hd hD ts cs2 r2 ns rfl hfirst hQ hO hN
  rcases parse_spec (.inl hU) with ⟨c, rest, h1, h2⟩ | ⟨m, cb, r, cb2, r2, nb, r3, h1, hD', hO', hN', hne⟩
  · right
    cases h2 with
    | @mk cb r cb2 r2 nb t rest hD' hO' hN' ht =>
      obtain ⟨cb', hD1, hc1⟩ := hD'.down d
      obtain ⟨cb2', hO1, hc2⟩ := hO'.down d
      obtain ⟨nb', hN1, hc3⟩ := hN'.down d
      have hPI := PI.mk (key hD1) hO1 (t := t.down d) (rest := rest.map (Token.down d)) hN1 ht
      have h3 := hPI.parse
      obtain ⟨lb, hlb⟩ := foldl_add_new .document (cb ++ cb2 ++ nb ++ [CST.leaf .eof t.loc])
      obtain ⟨l, hl⟩ := foldl_add_new .document (cs ++ cs2 ++ ns ++ [.leaf .newline n.loc, .leaf .newline n2.loc] ++
        cb' ++ cb2' ++ nb' ++ [CST.leaf .eof (t.down d).loc])
      rw [hl] at h3
      rw [hlb] at h1
      refine ⟨_, lb, cb' ++ cb2' ++ nb' ++ [CST.leaf .eof (t.down d).loc], l, h1, ?_, ?_⟩
      · exact ((hc1.append hc2).append hc3).append (.cons .leaf .nil)
      · rw [h3]; simp
  · left
    obtain ⟨cb', hD1, hc1⟩ := hD'.down d
    obtain ⟨cb2', hO1, hc2⟩ := hO'.down d
    obtain ⟨nb', hN1, hc3⟩ := hN'.down d
    have hW : HasEof (ts ++ n :: n2 :: us.map (Token.down d)) := by
      obtain ⟨t, ht, he⟩ := hasEof_map_down (d := d) hU
      exact ⟨t, by simp only [List.mem_append, List.mem_cons]; exact .inr (.inr (.inr ht)), he⟩
    rcases parse_spec (.inl hW) with ⟨c, rest, h3, h4⟩ | ⟨m', _, _, _, _, _, _, h3, _⟩
    · exfalso
      cases h4 with
      | mk hD2 hO2 hN2 ht2 =>
        have hD3 := key hD1
        obtain ⟨rfl, rfl⟩ := hD3.det hD2 hW
        obtain ⟨rfl, rfl⟩ := hO1.det hO2 (hD3.hasEof.mp hW)
        obtain ⟨rfl, e3⟩ := hN1.det hN2
        rcases r3 with _ | ⟨t3, r3⟩
        · simp at e3
        · simp only [List.map_cons, List.cons.injEq] at e3
          refine hne t3 (by simp) ?_
          rw [← ht2, ← e3.1]; rfl
    · exact ⟨m, m', h1, h3⟩


theorem first_not_newline {t : Token} {ts : List Token} {text : Str} (hs : spell (t :: ts) = text.takeWhile (· ≠ Char.ofNat 0))
    (h : text.head? ≠ some '\n') : t.kind ≠ .newLine := by
  intro hk
  have h1 : spell (t :: ts) = '\n' :: spell ts := by simp [spell, hk, TokKind.spelling]
  rw [h1] at hs
  rcases text with _ | ⟨x, xs⟩
  · simp at hs
  · rw [List.takeWhile_cons] at hs
    split at hs
    · simp only [List.cons.injEq] at hs
      exact h (by rw [← hs.1]; rfl)
    · simp at hs

theorem tokens_of {S : Segmenter} {text : Str} {ts : List Token} (h : tokenizeStr S text = .ok ts) :
    ts = run (S.graphemes text) M.init := by
  rw [tokenizeStr_eq] at h
  exact (Res.ok.inj h).symm

/-- Reading two texts joined by a blank line. -/
theorem front_join {S : Segmenter} {a b : Str} {ts us : List Token} {e : Token} {ca : List CST} {la : Loc}
    (hne : a ≠ []) (hnl : a.head? ≠ some '\n') (hnlb : b.head? ≠ some '\n')
    (hcr : ∀ a', a ≠ a' ++ ['\r']) (hnul : Char.ofNat 0 ∉ a)
    (ht : tokenizeStr S a = .ok (ts ++ [e])) (hd : depth ts = 0) (hn : nameDue false ts = false)
    (hq : ∀ o, Event.unclosed o ∉ trace [] (ts ++ [e]))
    (hu : tokenizeStr S b = .ok us) (hp : parse (ts ++ [e]) = .ok (.node .document ca la)) :
    ∃ ws dsA esA, tokenizeStr S (a ++ '\n' :: '\n' :: b) = .ok ws ∧ XDoc ca dsA esA ∧
      ((∃ m m', parse us = .err m ∧ parse ws = .err m') ∨
        ∃ cb lb cw lw dsB esB dsB' esB', parse us = .ok (.node .document cb lb) ∧ XDoc cb dsB esB ∧
          parse ws = .ok (.node .document cw lw) ∧ XDoc cw (dsA ++ dsB') (esA ++ esB') ∧
          EachTree (TreeAlike (e.loc.start.line + 2)) dsB dsB' ∧ TErrsDown (e.loc.start.line + 2) esB esB') := by
  obtain ⟨he, htw⟩ := tokens_join S a b hcr hnul ht hd hn hu
  have hts : ∀ t ∈ ts, t.kind ≠ .eof := by
    obtain ⟨body, eof, h1, h2, h3⟩ := run_shape (S.graphemes a) M.init
    rw [← tokens_of ht] at h1
    have := (List.append_inj' h1 rfl).1
    subst this
    exact fun t ht => (h3 t ht).1
  have hU : HasEof us := by
    obtain ⟨body, eof, h1, h2, h3⟩ := run_shape (S.graphemes b) M.init
    rw [← tokens_of hu] at h1
    exact ⟨eof, by rw [h1]; simp, h2⟩
  have hfirst : ∃ t ts', ts = t :: ts' ∧ t.kind ≠ .newLine := by
    have hs := tokens_spell S a
    rw [← tokens_of ht] at hs
    rcases ts with _ | ⟨t, ts'⟩
    · exfalso
      have hall : List.takeWhile (fun x => decide (x ≠ Char.ofNat 0)) a = a := by
        apply takeWhile_all
        intro c hc
        have : c ≠ Char.ofNat 0 := by rintro rfl; exact hnul hc
        simpa using this
      rw [hall] at hs
      apply hne
      rw [← hs]
      simp [spell, he, TokKind.spelling]
    · exact ⟨t, ts', rfl, first_not_newline hs hnl⟩
  have hUh : ∀ t ∈ us.head?, t.kind ≠ .newLine := by
    intro t ht
    have hs := tokens_spell S b
    rw [← tokens_of hu] at hs
    rcases us with _ | ⟨u, us⟩
    · simp at ht
    · have : u = t := by simpa using ht
      subst this
      exact first_not_newline hs hnlb
  obtain ⟨csA, la', hc, h⟩ := parse_join (e.loc.start.line + 2) he hts (n := ⟨.newLine, _⟩) (n2 := ⟨.newLine, _⟩) rfl rfl
    hfirst hU hUh hq hp
  cases hc
  obtain ⟨_, _, dsA, esA, hca, hxA⟩ := (parse_grammar hp).xdoc
  cases hca
  refine ⟨_, dsA, esA, htw, hxA, ?_⟩
  rcases h with h | ⟨csB, lb, csB', l, h1, h2, h3⟩
  · exact .inl h
  · right
    obtain ⟨_, _, dsB, esB, hcb, hxB⟩ := (parse_grammar h1).xdoc
    cases hcb
    obtain ⟨dsB', esB', hxB', hal, herr⟩ := hxB.down _ h2
    refine ⟨csB, lb, _, l, dsB, esB, dsB', esB', h1, hxB, h3, ?_, hal, herr⟩
    obtain ⟨d1, e1, d2, e2, hx1, hx2, rfl, rfl⟩ := hxA.split
    obtain ⟨rfl, rfl⟩ := hx2.leaves (by simp)
    have hx3 : ∀ l1 l2, XDoc (csA ++ [.leaf .newline l1, .leaf .newline l2]) (d1 ++ []) (e1 ++ []) :=
      fun l1 l2 => hx1.append (.cons .newline (.cons .newline .nil))
    exact (hx3 _ _).append hxB'


theorem shape_document {a : AST} {ss} (h : a.shape = .node .document ss) :
    ∃ i cs l, a = .node .document i cs l ∧ AST.shapeL cs = ss := by
  rcases a with ⟨k, i, v, l⟩ | ⟨k, i, cs, l⟩
  · cases h
  · simp only [AST.shape, Shape.node.injEq] at h
    exact ⟨i, cs, l, by rw [h.1], h.2⟩

theorem shapeL_append_inv {cs : List AST} {ss tt} (h : AST.shapeL cs = ss ++ tt) :
    ∃ as bs, cs = as ++ bs ∧ AST.shapeL as = ss ∧ AST.shapeL bs = tt := by
  induction ss generalizing cs with
  | nil => exact ⟨[], cs, rfl, rfl, h⟩
  | cons s ss ih =>
    rcases cs with _ | ⟨c, cs⟩
    · simp [AST.shapeL] at h
    · simp only [AST.shapeL, List.cons_append, List.cons.injEq] at h
      obtain ⟨as, bs, rfl, h1, h2⟩ := ih h.2
      exact ⟨c :: as, bs, rfl, by simp [AST.shapeL, h.1, h1], h2⟩

/-- The output of a document whose statements look like those of two others. -/
theorem generate_join {W : Wasm} (ck : Bool) {a b w : AST} {ss tt : List Shape} {ps : Plugins W} (hd : ps.documentHook = none)
    (ha : a.shape = .node .document ss) (hb : b.shape = .node .document tt) (hw : w.shape = .node .document (ss ++ tt))
    (r : Str) (ps2 : Plugins W) : generate ck w ps = (.ok r, ps2) ↔
      ∃ ra ps1 rb, generate ck a ps = (.ok ra, ps1) ∧ generate ck b ps1 = (.ok rb, ps2) ∧ r = ra ++ rb := by
  obtain ⟨i, cs, l, rfl, hcs⟩ := shape_document hw
  obtain ⟨as, bs, rfl, has, hbs⟩ := shapeL_append_inv hcs
  rw [generate_shape ck (a := a) (b := .node .document i as l) (by rw [ha, AST.shape, has]),
    generate_shape ck (a := b) (b := .node .document i bs l) (by rw [hb, AST.shape, hbs]),
    generate_statements ck hd, genChildren_append]
  have hs : ∀ ps1, (genChildren ck true as ps).2 = ps1 → ps1.documentHook = none := by
    rintro _ rfl
    have := Same.of_gens (genChildren_gens ck true as ps ps (Same.refl ps))
    rw [this.document]
    exact hd
  simp only [PM.bind_run, generate_statements ck hd]
  rcases hA : genChildren ck true as ps with ⟨x | m | _, ps1⟩ <;> simp only []
  · have hd1 := hs ps1 (by rw [hA])
    constructor
    · rintro ⟨rs, h, rfl⟩
      rcases hB : genChildren ck true bs ps1 with ⟨y | m | _, ps3⟩ <;> rw [hB] at h <;> cases h
      exact ⟨_, ps1, _, ⟨x, rfl, rfl⟩, (generate_statements ck hd1 _ _).mpr ⟨y, hB, rfl⟩, by simp⟩
    · rintro ⟨ra, ps1', rb, ⟨rs, h1, rfl⟩, h2, rfl⟩
      cases h1
      obtain ⟨ys, h3, rfl⟩ := (generate_statements ck hd1 _ _).mp h2
      rw [h3]
      exact ⟨_, rfl, by simp⟩
  · constructor
    · rintro ⟨rs, h, rfl⟩; cases h
    · rintro ⟨ra, ps1', rb, ⟨rs, h1, rfl⟩, h2, rfl⟩; cases h1
  · constructor
    · rintro ⟨rs, h, rfl⟩; cases h
    · rintro ⟨ra, ps1', rb, ⟨rs, h1, rfl⟩, h2, rfl⟩; cases h1


/-! ### the first part parses if the whole does -/

theorem accepts_prefix {X : List TokKind} : ∀ (n : Nat) (ts : List TokKind), ts.length ≤ n → ∀ (st : List Bracket) (q : LineState),
    (∀ t ∈ ts, t ≠ .eof ∧ t ≠ .empty) → accepts st q (ts ++ .newLine :: X) = true → accepts st q (ts ++ [.eof]) = true := by
  intro n
  induction n with
  | zero =>
    intro ts hl st q _ _
    have : ts = [] := List.length_eq_zero_iff.mp (by omega)
    subst this
    rfl
  | succ n ih =>
    intro ts hl st q hk h
    rcases ts with _ | ⟨t, ts⟩
    · rfl
    have hk' : ∀ t ∈ ts, t ≠ .eof ∧ t ≠ .empty := fun u hu => hk u (List.mem_cons_of_mem _ hu)
    have hl' : ts.length ≤ n := by simpa using hl
    have ih' := fun st q => ih ts hl' st q hk'
    cases t with
    | eof => exact absurd rfl (hk .eof List.mem_cons_self).1
    | empty => exact absurd rfl (hk .empty List.mem_cons_self).2
    | bclose b =>
      simp only [List.cons_append, accepts] at h ⊢
      rcases hd : st.dropWhile (· ≠ b) with _ | ⟨b', st'⟩ <;> rw [hd] at h <;> simp only [Bool.and_eq_true] at h ⊢
      · exact ⟨h.1, ih' _ _ h.2⟩
      · exact ih' _ _ h
    | backSlash =>
      rcases ts with _ | ⟨u, us⟩
      · rcases st with _ | ⟨b, st⟩
        · simp only [List.cons_append, List.nil_append, accepts, Bool.and_eq_true] at h ⊢
          exact ⟨h.1, by simp [escapes]⟩
        · simp [List.cons_append, List.nil_append, accepts, escapes] at h ⊢
      · have hl2 : us.length ≤ n := by simp at hl'; omega
        have ih2 := fun st q => ih us hl2 st q (fun v hv => hk' v (List.mem_cons_of_mem _ hv))
        rcases st with _ | ⟨b, st⟩
        · simp only [List.cons_append, accepts, Bool.and_eq_true] at h ⊢
          refine ⟨h.1, ?_⟩
          have h2 := h.2
          split at h2
          · next hm => rw [if_pos hm]; exact ih2 _ _ h2
          · next hm => rw [if_neg hm]; exact ih' _ _ h2
        · simp only [List.cons_append, accepts] at h ⊢
          split at h
          · next hm => rw [if_pos hm]; exact ih2 _ _ h
          · next hm => rw [if_neg hm]; exact ih' _ _ h
    | _ =>
      rcases st with _ | ⟨b', st⟩ <;> simp only [List.cons_append, accepts, Bool.and_eq_true] at h ⊢ <;>
        first
        | exact ih' _ _ h
        | exact ⟨h.1, ih' _ _ h.2⟩

theorem parse_prefix {ts us : List Token} {e n : Token} (he : e.kind = .eof) (hn : n.kind = .newLine)
    (hts : ∀ t ∈ ts, t.kind ≠ .eof ∧ t.kind ≠ .empty) {c} (h : parse (ts ++ n :: us) = .ok c) :
    ∃ c', parse (ts ++ [e]) = .ok c' := by
  rw [parse_iff_accepts]
  have h1 := (parse_iff_accepts _).mp ⟨c, h⟩
  simp only [List.map_append, List.map_cons, hn] at h1
  simp only [List.map_append, List.map_cons, List.map_nil, he]
  exact accepts_prefix _ _ (Nat.le_refl _) _ _ (by simpa using hts) h1


theorem depth_concat (ts : List Token) {e : Token} (he : e.kind = .eof) : depth (ts ++ [e]) = depth ts := by
  simp [depth, he]

theorem nameDue_concat {e : Token} (he : e.kind = .eof) : ∀ (ts : List Token) due, nameDue due (ts ++ [e]) = nameDue due ts
  | [], due => by simp [nameDue, he]
  | t :: ts, due => by
    simp only [List.cons_append, nameDue]
    split <;> exact nameDue_concat he ts _

theorem tokens_shape {S : Segmenter} {text : Str} {ts : List Token} (h : tokenizeStr S text = .ok ts) :
    ∃ body e, ts = body ++ [e] ∧ e.kind = .eof ∧ ∀ t ∈ body, t.kind ≠ .eof ∧ t.kind ≠ .empty := by
  obtain ⟨body, eof, h1, h2, h3⟩ := run_shape (S.graphemes text) M.init
  rw [← tokens_of h] at h1
  exact ⟨body, eof, h1, h2, h3⟩

/-- The tree and the errors of a parsed text. -/
theorem reads_parsed {S : Segmenter} {ids : Nat → Str} {text : Str} {ts cs l ds es} (ht : tokenizeStr S text = .ok ts)
    (hp : parse ts = .ok (.node .document cs l)) (hx : XDoc cs ds es) (x : AST) (fs : List TErr)
    (h : Reads S ids text x fs) : CST.astableL ds = true ∧ fs = es ∧ x.shape = .node .document (CST.sshapeL ds) ∧
      x.contents = CST.contL ds := by
  obtain ⟨ts', c', h1, h2, h3⟩ := h
  rw [ht] at h1; cases h1
  rw [hp] at h2; cases h2
  rcases transform_eq (ids := ids) (l := l) hx with ⟨ha, a, m, h4, h5⟩ | ⟨_, h4⟩
  · rw [h3] at h4
    cases h4
    exact ⟨ha, rfl, h5.shape, h5.contents⟩
  · rw [h3] at h4; cases h4

theorem reads_of_parsed {S : Segmenter} (ids : Nat → Str) {text : Str} {ts cs l ds es} (ht : tokenizeStr S text = .ok ts)
    (hp : parse ts = .ok (.node .document cs l)) (hx : XDoc cs ds es) (ha : CST.astableL ds = true) :
    ∃ x, Reads S ids text x es := by
  rcases transform_eq (ids := ids) (l := l) hx with ⟨_, a, m, h4, _⟩ | ⟨hb, _⟩
  · exact ⟨a, ts, _, ht, hp, h4⟩
  · rw [ha] at hb; cases hb

/-- Reading two texts joined by a blank line. -/
theorem reads_join {S : Segmenter} {a b : Str} {ta : List Token} (hpar : Paragraph a) (hb : b.head? ≠ some '\n')
    (ht : tokenizeStr S a = .ok ta) (hs : Settled ta) (ids ids' ids'' : Nat → Str) :
    ((∃ z gs, Reads S ids'' (a ++ '\n' :: '\n' :: b) z gs) ↔
      (∃ x es, Reads S ids a x es) ∧ ∃ y fs, Reads S ids' b y fs) ∧
    ∀ x es y fs z hs, Reads S ids a x es → Reads S ids' b y fs → Reads S ids'' (a ++ '\n' :: '\n' :: b) z hs →
      ∃ ss tt gs, x.shape = .node .document ss ∧ y.shape = .node .document tt ∧
        z.shape = .node .document (ss ++ tt) ∧
        z.contents = x.contents ++ y.contents.map (Content.down (nextLine ta)) ∧
        hs = es ++ gs ∧ TErrsDown (nextLine ta) fs gs := by
  obtain ⟨ts, e, rfl, he, hts⟩ := tokens_shape ht
  obtain ⟨body, e2, hu, _⟩ := tokens_shape (S := S) (text := b) (by rw [tokenizeStr_eq])
  have hline : nextLine (ts ++ [e]) = e.loc.start.line + 2 := by simp [nextLine]
  rw [hline]
  have hd : depth ts = 0 := by rw [← depth_concat ts he]; exact hs.balanced
  have hn : nameDue false ts = false := by rw [← nameDue_concat he]; exact hs.noName
  obtain ⟨_, htw⟩ := tokens_join S a b hpar.noCr hpar.noNul ht hd hn (tokenizeStr_eq S b)
  by_cases hp : ∃ c, parse (ts ++ [e]) = .ok c
  · obtain ⟨c, hp⟩ := hp
    obtain ⟨ca, la, _, _, hc, _⟩ := (parse_grammar hp).xdoc
    subst hc
    obtain ⟨ws, dsA, esA, h1, h2, h3⟩ := front_join hpar.notEmpty hpar.noLeadingLine hb hpar.noCr hpar.noNul ht hd hn
      hs.allClosed (tokenizeStr_eq S b) hp
    rcases h3 with ⟨m, m', h4, h5⟩ | ⟨cb, lb, cw, lw, dsB, esB, dsB', esB', h4, h5, h6, h7, h8, h9⟩
    · have hnb : ∀ y fs, ¬ Reads S ids' b y fs := by
        rintro y fs ⟨ts', c', k1, k2, k3⟩
        rw [tokenizeStr_eq] at k1; cases k1
        rw [h4] at k2; cases k2
      have hnw : ∀ z gs, ¬ Reads S ids'' (a ++ '\n' :: '\n' :: b) z gs := by
        rintro z gs ⟨ts', c', k1, k2, k3⟩
        rw [h1] at k1; cases k1
        rw [h5] at k2; cases k2
      refine ⟨⟨?_, ?_⟩, ?_⟩
      · rintro ⟨z, gs, h⟩; exact absurd h (hnw z gs)
      · rintro ⟨_, y, fs, h⟩; exact absurd h (hnb y fs)
      · intro x es y fs z hs _ h; exact absurd h (hnb y fs)
    · obtain ⟨k1, k2, k3⟩ := h8.alike
      refine ⟨⟨?_, ?_⟩, ?_⟩
      · rintro ⟨z, gs, h⟩
        have := (reads_parsed h1 h6 h7 z gs h).1
        rw [astableL_append, Bool.and_eq_true, k2] at this
        obtain ⟨x, hx⟩ := reads_of_parsed ids ht hp h2 this.1
        obtain ⟨y, hy⟩ := reads_of_parsed ids' (tokenizeStr_eq S b) h4 h5 this.2
        exact ⟨⟨x, _, hx⟩, y, _, hy⟩
      · rintro ⟨⟨x, es, hx⟩, y, fs, hy⟩
        have hx' := (reads_parsed ht hp h2 x es hx).1
        have hy' := (reads_parsed (tokenizeStr_eq S b) h4 h5 y fs hy).1
        obtain ⟨z, hz⟩ := reads_of_parsed ids'' h1 h6 h7 (by rw [astableL_append, k2, hx', hy']; rfl)
        exact ⟨z, _, hz⟩
      · intro x es y fs z hs hx hy hz
        obtain ⟨_, rfl, hx1, hx2⟩ := reads_parsed ht hp h2 x es hx
        obtain ⟨_, rfl, hy1, hy2⟩ := reads_parsed (tokenizeStr_eq S b) h4 h5 y fs hy
        obtain ⟨_, rfl, hz1, hz2⟩ := reads_parsed h1 h6 h7 z hs hz
        refine ⟨_, _, _, hx1, hy1, ?_, ?_, rfl, h9⟩
        · rw [hz1, sshapeL_eq, List.map_append, ← sshapeL_eq, ← sshapeL_eq, k1]
        · rw [hz2, contL_append, k3, hx2, hy2]
  · have hna : ∀ x es, ¬ Reads S ids a x es := by
      rintro x es ⟨ts', c', k1, k2, k3⟩
      rw [ht] at k1; cases k1
      exact hp ⟨c', k2⟩
    refine ⟨⟨?_, ?_⟩, ?_⟩
    · rintro ⟨z, gs, ts', c', k1, k2, k3⟩
      rw [htw] at k1; cases k1
      exact absurd (parse_prefix he rfl hts k2) hp
    · rintro ⟨⟨x, es, h⟩, _⟩; exact absurd h (hna x es)
    · intro x es y fs z hs h; exact absurd h (hna x es)

theorem compileText_iff {W : Wasm} {S : Segmenter} {ids : Nat → Str} {checks : Bool} {text gen : Str} {ps ps' : Plugins W} :
    compileText S ids checks text ps = (.ok gen, ps') ↔
      ∃ a es, Reads S ids text a es ∧ generate checks a ps = (.ok gen, ps') := by
  constructor
  · intro h
    obtain ⟨ts, c, a, es, h1, h2, h3, _, h4⟩ := compileText_ok h
    exact ⟨a, es, ⟨ts, c, h1, h2, h3⟩, h4⟩
  · rintro ⟨a, es, ⟨ts, c, h1, h2, h3⟩, h4⟩
    exact compileText_of_generate h1 h2 h3 h4

theorem reads_det {S : Segmenter} {ids : Nat → Str} {text : Str} {a b es fs} (h : Reads S ids text a es)
    (h' : Reads S ids text b fs) : a = b ∧ es = fs := by
  obtain ⟨ts, c, h1, h2, h3⟩ := h
  obtain ⟨ts', c', k1, k2, k3⟩ := h'
  rw [h1] at k1; cases k1
  rw [h2] at k2; cases k2
  rw [h3] at k3; cases k3
  exact ⟨rfl, rfl⟩

/-- Compiling two texts joined by a blank line. -/
theorem compile_join {W : Wasm} {S : Segmenter} {a b : Str} {ta : List Token} (hpar : Paragraph a) (hb : b.head? ≠ some '\n')
    (ht : tokenizeStr S a = .ok ta) (hs : Settled ta) (ids ids' ids'' : Nat → Str) (checks : Bool) (ps : Plugins W)
    (hd : ps.documentHook = none) (gen : Str) (ps2 : Plugins W) :
    compileText S ids'' checks (a ++ '\n' :: '\n' :: b) ps = (.ok gen, ps2) ↔
      ∃ g ps1 g', compileText S ids checks a ps = (.ok g, ps1) ∧ compileText S ids' checks b ps1 = (.ok g', ps2) ∧
        gen = g ++ g' := by
  obtain ⟨hiff, hrel⟩ := reads_join hpar hb ht hs ids ids' ids''
  simp only [compileText_iff]
  constructor
  · rintro ⟨z, gs, hz, hg⟩
    obtain ⟨⟨x, es, hx⟩, y, fs, hy⟩ := hiff.mp ⟨z, gs, hz⟩
    obtain ⟨ss, tt, _, h1, h2, h3, _⟩ := hrel x es y fs z gs hx hy hz
    obtain ⟨ra, ps1, rb, k1, k2, k3⟩ := (generate_join checks hd h1 h2 h3 gen ps2).mp hg
    exact ⟨ra, ps1, rb, ⟨x, es, hx, k1⟩, ⟨y, fs, hy, k2⟩, k3⟩
  · rintro ⟨ra, ps1, rb, ⟨x, es, hx, k1⟩, ⟨y, fs, hy, k2⟩, k3⟩
    obtain ⟨z, gs, hz⟩ := hiff.mpr ⟨⟨x, es, hx⟩, y, fs, hy⟩
    obtain ⟨ss, tt, _, h1, h2, h3, _⟩ := hrel x es y fs z gs hx hy hz
    exact ⟨z, gs, hz, (generate_join checks hd h1 h2 h3 gen ps2).mpr ⟨ra, ps1, rb, k1, k2, k3⟩⟩

theorem compileText_hooks {W : Wasm} {S : Segmenter} {ids : Nat → Str} {checks : Bool} {text gen : Str} {ps ps' : Plugins W}
    (h : compileText S ids checks text ps = (.ok gen, ps')) (hd : ps.documentHook = none) : ps'.documentHook = none := by
  obtain ⟨a, es, _, hg⟩ := compileText_iff.mp h
  have := Same.of_gens (generate_gens checks a ps)
  rw [hg] at this
  rw [this.document]
  exact hd

theorem join_head (hpar : ∀ p ∈ texts, Paragraph p) : (joinParagraphs texts).head? ≠ some '\n' := by
  rcases texts with _ | ⟨p, _ | ⟨q, texts⟩⟩
  · simp [joinParagraphs]
  · exact (hpar p (by simp)).noLeadingLine
  · have h1 := (hpar p (by simp)).noLeadingLine
    have h2 := (hpar p (by simp)).notEmpty
    rcases p with _ | ⟨x, p⟩
    · exact absurd rfl h2
    · simpa [joinParagraphs] using h1

end Brack
