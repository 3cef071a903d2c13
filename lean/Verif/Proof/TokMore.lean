import Verif.Proof.TokTiles

namespace Brack

/-! ### Facts about a single action -/

theorem emit_pool (a g m) : (emit a g m).2.pool =
    if a = .pool then m.pool ++ g else if a = .backslash then m.pool else [] := by
  rcases a with _ | _ | (_ | _ | _) | (_ | _ | _) | _ | _ | _ | _ | _ | _ | _ <;>
    simp [emit, M.adv, M.addCount]

theorem emit_kind (a g m t) (h : t ∈ (emit a g m).1) :
    (a = .text ∧ t = m.pooled .text g) ∨ (a = .identifier ∧ t = m.pooled .ident g) ∨
    (a = .module ∧ t = m.pooled .module g) ∨
    (∃ k, a.single = some k ∧ t = m.single k) := by
  rcases a <;> simp_all [emit, Action.single]

theorem emit_pool_nil (g gs m) (hp : PoolOK (g :: gs) m) (h : act g gs m ≠ .pool) :
    (emit (act g gs m) g m).2.pool = [] := by
  rw [emit_pool, if_neg h]
  split
  · rename_i hb; exact pool_nil g gs m hp (by rw [hb]; rfl)
  · rfl

theorem single_no_nl (a : Action) (k : TokKind) (h : a.single = some k) (hk : k ≠ .newLine) :
    '\n' ∉ k.spelling := by
  rcases a with _ | _ | (_ | _ | _) | (_ | _ | _) | _ | _ | _ | _ | _ | _ | _ <;>
    simp [Action.single] at h <;> subst h <;>
    first | decide | exact absurd rfl hk

theorem exists_concat (l : List α) (h : l ≠ []) : ∃ l' a, l = l' ++ [a] :=
  ⟨l.dropLast, l.getLast h, (List.dropLast_concat_getLast h).symm⟩

/-! ### Truncation at NUL -/

theorem takeWhile_flatten (gs : List Str) (h : ∀ g ∈ gs, Char.ofNat 0 ∈ g → g = NUL) :
    (gs.takeWhile (· ≠ NUL)).flatten = gs.flatten.takeWhile (· ≠ Char.ofNat 0) := by
  induction gs with
  | nil => simp
  | cons g gs ih =>
    have ih := ih (fun g' hg' => h g' (by simp [hg']))
    by_cases hg : g = NUL
    · subst hg
      simp [NUL]
    · have : ∀ c ∈ g, c ≠ Char.ofNat 0 := by
        intro c hc h0
        subst h0
        exact hg (h g (by simp) hc)
      rw [List.flatten_cons, List.takeWhile_append_of_pos (by simpa using this)]
      rw [← ih]
      simp [hg]

theorem takeWhile_all {p : α → Bool} (l : List α) (h : ∀ a ∈ l, p a = true) : l.takeWhile p = l := by
  induction l with
  | nil => rfl
  | cons a l ih => simp [h a (by simp), ih (fun b hb => h b (by simp [hb]))]

theorem tokens_spell (S : Segmenter) (text : Str) :
    spell (run (S.graphemes text) M.init) = text.takeWhile (· ≠ Char.ofNat 0) := by
  rw [run_spell _ _ (poolOK_init _), takeWhile_flatten _ (S.nul text), S.flatten]
  rfl

/-! ### Tokens are made of whole clusters -/

theorem run_chunks (S : Segmenter) (gs : List Str) : ∀ m poolG, Stable S (poolG ++ gs) →
    m.pool = poolG.flatten → PoolOK gs m →
    ∃ chunks : List (List Str), chunks.flatten = poolG ++ gs.takeWhile (· ≠ NUL) ∧
      (run gs m).map (fun t => t.kind.spelling) = chunks.map List.flatten := by
  induction gs with
  | nil =>
    intro m poolG hs hpool hp
    have hn := poolOK_end [] m hp rfl
    have : poolG = [] := hs.left.flatten_nil (by rw [← hpool, hn])
    subst this
    exact ⟨[[]], by simp, by simp [run, M.eof, TokKind.spelling]⟩
  | cons g gs ih =>
    intro m poolG hs hpool hp
    by_cases hg : g = NUL
    · have hn := poolOK_end (g :: gs) m hp (by simp [hg])
      have : poolG = [] := hs.left.flatten_nil (by rw [← hpool, hn])
      subst this
      exact ⟨[[]], by simp [hg], by simp [run, hg, M.eof, TokKind.spelling]⟩
    · have hsp := emit_spell g gs m hg hp
      have hok := emit_poolOK g gs m hg hp
      have hn := pool_nil g gs m hp
      have htail : Stable S gs := hs.right.tail
      have hlen : ((emit (act g gs m) g m).1 = [] ∧ (emit (act g gs m) g m).2.pool = m.pool ++ g) ∨
          (∃ t, (emit (act g gs m) g m).1 = [t] ∧ (emit (act g gs m) g m).2.pool = []) := by
        revert hn
        rcases act g gs m with _ | _ | (_ | _ | _) | (_ | _ | _) | _ | _ | _ | _ | _ | _ | _ <;>
          intro hn <;> simp [emit, M.adv, M.addCount]
        simpa [Action.pooling] using hn
      rcases hlen with ⟨h1, h2⟩ | ⟨t, h1, h2⟩
      · obtain ⟨chunks, hc1, hc2⟩ := ih (emit (act g gs m) g m).2 (poolG ++ [g])
          (by simpa using hs) (by simp [h2, hpool]) hok
        exact ⟨chunks, by simp [hc1, hg], by simp [run, hg, h1, hc2]⟩
      · obtain ⟨chunks, hc1, hc2⟩ := ih (emit (act g gs m) g m).2 [] (by simpa using htail)
          (by simp [h2]) hok
        refine ⟨(poolG ++ [g]) :: chunks, by simp [hc1, hg], ?_⟩
        rw [h1, h2] at hsp
        simp [spell] at hsp
        simp [run, hg, h1, hc2, hsp, hpool]

/-! ### Exact positions -/

/-- Text after the last line feed. -/
def trailing (s : Str) : Str := (s.reverse.takeWhile (· ≠ '\n')).reverse

theorem trailing_append_nl (s : Str) : trailing (s ++ ['\n']) = [] := by
  simp [trailing]

theorem trailing_append (s t : Str) (h : '\n' ∉ t) : trailing (s ++ t) = trailing s ++ t := by
  unfold trailing
  rw [List.reverse_append, List.takeWhile_append_of_pos]
  · simp
  · intro c hc
    simp at hc
    simp
    intro h0
    subst h0
    exact h hc

theorem pos_exact (S : Segmenter) (pre : List Token) :
    ∀ (t : Token) (post : List Token) (chunks : List (List Str)) (pos : Pos) (done : Str)
      (lineG : List Str),
    Tiles S pos (pre ++ t :: post) →
    (pre ++ t :: post).map (fun t => t.kind.spelling) = chunks.map List.flatten →
    Stable S (lineG ++ chunks.flatten) → trailing done = lineG.flatten →
    pos = posAfter S done →
    (∀ u ∈ pre, u.kind ≠ .newLine → '\n' ∉ u.kind.spelling) →
    t.loc.start = posAfter S (done ++ spell pre) := by
  induction pre with
  | nil =>
    intro t post chunks pos done lineG ht _ _ _ hpos _
    simp [Tiles] at ht
    simp [ht.1, hpos, spell]
  | cons u pre ih =>
    intro t post chunks pos done lineG ht hc hs htr hpos hnl
    rcases chunks with _ | ⟨ch, chunks⟩
    · simp at hc
    · simp only [List.cons_append, List.map_cons, List.cons.injEq] at hc
      simp only [List.cons_append, Tiles] at ht
      obtain ⟨h1, h2, h3⟩ := ht
      have hnl' : ∀ u ∈ pre, u.kind ≠ .newLine → '\n' ∉ u.kind.spelling :=
        fun u hu => hnl u (by simp [hu])
      have e : done ++ spell (u :: pre) = (done ++ u.kind.spelling) ++ spell pre := by
        simp [spell_cons]
      rw [e]
      by_cases hk : u.kind = .newLine
      · refine ih t post chunks _ _ [] h3 hc.2 ?_ ?_ ?_ hnl'
        · simpa using hs.right.right
        · simp [hk, TokKind.spelling, trailing_append_nl]
        · have := trailing_append_nl done
          unfold trailing at this
          simp [hk, posAfter, TokKind.spelling, hpos, graphemes_nil]
      · have hn := hnl u (by simp) hk
        have htr' : trailing (done ++ u.kind.spelling) = (lineG ++ ch).flatten := by
          rw [trailing_append _ _ hn, htr, hc.1]; simp
        have hs' : Stable S ((lineG ++ ch) ++ chunks.flatten) := by simpa using hs
        refine ih t post chunks _ _ (lineG ++ ch) h3 hc.2 hs' htr' ?_ hnl'
        have e1 : (S.graphemes u.kind.spelling).length = ch.length := by
          rw [hc.1, show S.graphemes ch.flatten = ch from hs'.left.right]
        have e2 : (S.graphemes (lineG ++ ch).flatten).length = lineG.length + ch.length := by
          rw [show S.graphemes (lineG ++ ch).flatten = _ from hs'.left]; simp
        have e3 : (S.graphemes lineG.flatten).length = lineG.length := by
          rw [show S.graphemes lineG.flatten = _ from hs'.left.left]
        have e4 : posAfter S done = ⟨done.count '\n', lineG.length⟩ := by
          simp only [posAfter]
          rw [show (List.takeWhile (fun x => decide (x ≠ '\n')) done.reverse).reverse
            = trailing done from rfl, htr, e3]
        have e5 : posAfter S (done ++ u.kind.spelling) =
            ⟨done.count '\n', lineG.length + ch.length⟩ := by
          simp only [posAfter]
          rw [show (List.takeWhile (fun x => decide (x ≠ '\n'))
            (done ++ u.kind.spelling).reverse).reverse
            = trailing (done ++ u.kind.spelling) from rfl, htr', e2]
          simp [List.count_append, List.count_eq_zero_of_not_mem hn]
        simp [hk, h2, e5, hpos, e4, e1]

theorem tokens_chunks (S : Segmenter) (text : Str) :
    ∃ chunks : List (List Str), Stable S chunks.flatten ∧
      (run (S.graphemes text) M.init).map (fun t => t.kind.spelling) = chunks.map List.flatten := by
  obtain ⟨chunks, h1, h2⟩ := run_chunks S (S.graphemes text) M.init []
    (by simpa using stable_graphemes S text) rfl (poolOK_init _)
  refine ⟨chunks, ?_, h2⟩
  rw [h1]
  have := List.takeWhile_append_dropWhile (p := fun g => decide (g ≠ NUL)) (l := S.graphemes text)
  have hst := stable_graphemes S text
  rw [← this] at hst
  simpa using hst.left

theorem tokens_pos (S : Segmenter) (text : Str) (pre : List Token) (t : Token) (post : List Token)
    (h : run (S.graphemes text) M.init = pre ++ t :: post)
    (hnl : ∀ u ∈ pre, u.kind ≠ .newLine → '\n' ∉ u.kind.spelling) :
    t.loc.start = posAfter S (spell pre) := by
  obtain ⟨chunks, h1, h2⟩ := tokens_chunks S text
  have ht := tokens_tile S text
  rw [h] at h2 ht
  have := pos_exact S pre t post chunks ⟨0, 0⟩ [] [] ht h2 (by simpa using h1) rfl
    (by simp [posAfter, graphemes_nil]) hnl
  simpa using this

/-- Lines are counted by NewLine tokens. -/
theorem tiles_line (S : Segmenter) : ∀ (pre : List Token) (t : Token) (post : List Token) (p : Pos), Tiles S p (pre ++ t :: post) →
    t.loc.start.line + ((pre.filter (·.kind ≠ .newLine)).map (·.kind.spelling.count '\n')).sum = p.line + (spell pre).count '\n'
  | [], t, post, p, h => by
    rw [h.1]
    rfl
  | u :: pre, t, post, p, h => by
    have hs : spell (u :: pre) = u.kind.spelling ++ spell pre := by simp [spell]
    rw [hs, List.count_append]
    obtain ⟨_, h2, h3⟩ := h
    by_cases hk : u.kind = .newLine
    · rw [if_pos hk] at h3
      have ih := tiles_line S pre t post _ h3
      rw [List.filter_cons_of_neg (by simp [hk])]
      have h1 : u.kind.spelling.count '\n' = 1 := by rw [hk]; rfl
      simp only at ih
      omega
    · rw [if_neg hk] at h3
      have ih := tiles_line S pre t post _ h3
      rw [List.filter_cons_of_pos (by simp [hk]), List.map_cons, List.sum_cons]
      rw [h2] at ih
      simp only at ih
      omega

/-! ### Where line feeds go -/

/-- No line feed cluster is directly followed by a closing bracket cluster. -/
def NoNlClose : List Str → Prop
  | [] => True
  | g :: gs => (g = ['\n'] → ∀ c ∈ closeChars, gs.headD NUL ≠ [c]) ∧ NoNlClose gs

theorem actionC_nl (d : Cl) (look nested : Bool) (h : d ≠ .gt ∧ d ≠ .rc ∧ d ≠ .rb) :
    actionC .nl d look nested = .newline := by
  revert d look nested; decide

theorem run_no_pooled_nl (gs : List Str) : ∀ m, (∀ g ∈ gs, '\n' ∈ g → g = ['\n']) →
    NoNlClose gs → '\n' ∉ m.pool →
    ∀ t ∈ run gs m, t.kind ≠ .newLine → '\n' ∉ t.kind.spelling := by
  induction gs with
  | nil => intro m _ _ _ t ht; simp [run, M.eof] at ht; simp [ht, TokKind.spelling]
  | cons g gs ih =>
    intro m hg1 hg2 hpool t ht
    by_cases hg : g = NUL
    · simp [run, hg, M.eof] at ht; simp [ht, TokKind.spelling]
    · simp only [run, hg, if_false, List.mem_append] at ht
      by_cases hn : g = ['\n']
      · have hd := hg2.1 hn
        simp [closeChars] at hd
        have ha : act g gs m = .newline := by
          unfold act
          rw [action_eq]
          have : cls g = .nl := by rw [cls_nl]; exact hn
          rw [this]
          apply actionC_nl
          rw [Ne, Ne, Ne, cls_gt, cls_rc, cls_rb]
          simpa using hd
        rw [ha] at ht
        rcases ht with ht | ht
        · simp [emit, M.single] at ht
          simp [ht]
        · refine ih _ (fun g' h' => hg1 g' (by simp [h'])) hg2.2 ?_ t ht
          simp [emit]
      · have hng : '\n' ∉ g := fun h => hn (hg1 g (by simp) h)
        rcases ht with ht | ht
        · intro hk
          rcases emit_kind _ _ _ _ ht with ⟨_, h⟩ | ⟨_, h⟩ | ⟨_, h⟩ | ⟨k, h1, h⟩
          · simp [h, M.pooled, TokKind.spelling, hng, hpool]
          · simp [h, M.pooled, TokKind.spelling, hng, hpool]
          · simp [h, M.pooled, TokKind.spelling, hng, hpool]
          · rw [h] at hk ⊢
            exact single_no_nl _ k h1 hk
        · refine ih _ (fun g' h' => hg1 g' (by simp [h'])) hg2.2 ?_ t ht
          rw [emit_pool]
          split
          · simp [hng, hpool]
          · split
            · exact hpool
            · simp

theorem noNlClose_of (gs : List Str)
    (h : ∀ a b, ∀ c ∈ closeChars, gs.flatten ≠ a ++ '\n' :: c :: b) : NoNlClose gs := by
  induction gs with
  | nil => trivial
  | cons g gs ih =>
    refine ⟨?_, ih ?_⟩
    · intro hg c hc hh
      rcases gs with _ | ⟨g2, gs⟩
      · simp at hh
        have : ∀ c ∈ closeChars, NUL ≠ [c] := by decide
        exact this c hc hh
      · simp at hh
        apply h [] gs.flatten c hc
        simp [hg, hh]
    · intro a b c hc hh
      apply h (g ++ a) b c hc
      simp [hh]

theorem tokens_no_pooled_nl (S : Segmenter) (text : Str) (hcr : '\r' ∉ text)
    (h : ∀ a b, ∀ c ∈ closeChars, text ≠ a ++ '\n' :: c :: b) :
    ∀ t ∈ run (S.graphemes text) M.init, t.kind ≠ .newLine → '\n' ∉ t.kind.spelling := by
  apply run_no_pooled_nl
  · intro g hg hn
    rcases S.lf text g hg hn with h1 | h1
    · exact h1
    · exfalso
      apply hcr
      rw [← S.flatten text]
      exact List.mem_flatten.2 ⟨g, hg, by simp [h1]⟩
  · apply noNlClose_of
    rw [S.flatten]; exact h
  · simp [M.init]

theorem count_nl (toks : List Token)
    (h : ∀ t ∈ toks, t.kind ≠ .newLine → '\n' ∉ t.kind.spelling) :
    (spell toks).count '\n' = toks.countP (fun t => t.kind = .newLine) := by
  induction toks with
  | nil => rfl
  | cons t toks ih =>
    rw [spell_cons, List.count_append, ih (fun u hu => h u (by simp [hu])), List.countP_cons]
    by_cases hk : t.kind = .newLine
    · simp [hk, TokKind.spelling]; omega
    · simp [hk, List.count_eq_zero_of_not_mem (h t (by simp) hk)]

/-! ### CRLF -/

theorem run_newline_mem (gs : List Str) : ∀ m t, t ∈ run gs m → t.kind = .newLine →
    ['\n'] ∈ gs := by
  induction gs with
  | nil => intro m t ht; simp [run, M.eof] at ht; simp [ht]
  | cons g gs ih =>
    intro m t ht hk
    by_cases hg : g = NUL
    · simp [run, hg, M.eof] at ht; simp [ht] at hk
    · simp only [run, hg, if_false, List.mem_append] at ht
      rcases ht with ht | ht
      · have h1 := act_ok g gs m hg
        revert ht h1
        rcases act g gs m <;> intro ht h1 <;> simp [emit, M.single, M.pooled] at ht <;>
          simp_all [actOK, cls_nl]
      · exact List.mem_cons_of_mem _ (ih _ t ht hk)

theorem crlf_no_lf_cluster (S : Segmenter) (text : Str)
    (h : ∀ a b, text = a ++ '\n' :: b → ∃ a', a = a' ++ ['\r']) : ['\n'] ∉ S.graphemes text := by
  intro hm
  obtain ⟨x, y, hxy⟩ := List.append_of_mem hm
  have hst := stable_graphemes S text
  have htext : text = x.flatten ++ '\n' :: y.flatten := by
    rw [← S.flatten text, hxy]; simp
  obtain ⟨a', ha'⟩ := h _ _ htext
  have hx : x ≠ [] := by rintro rfl; simp at ha'
  obtain ⟨x', g, rfl⟩ : ∃ x' g, x = x' ++ [g] := exists_concat x hx
  have hgm : g ∈ S.graphemes text := by rw [hxy]; simp
  have hgne := S.nonempty text g hgm
  obtain ⟨g', c, rfl⟩ : ∃ g' c, g = g' ++ [c] := exists_concat g hgne
  have hc : c = '\r' := by
    have e : (x'.flatten ++ g') ++ [c] = a' ++ ['\r'] := by simpa using ha'
    simpa using (List.append_inj' e rfl).2
  subst hc
  have hg := S.cr text _ hgm (by simp)
  have hg' : g' = [] := by
    rcases hg with hg | hg
    · rcases g' with _ | ⟨_, _ | _⟩ <;> simp_all
    · rcases g' with _ | ⟨_, _ | _⟩ <;> simp_all
  subst hg'
  rw [hxy] at hst
  have h3 : Stable S (['\r'] :: ['\n'] :: y) := by
    have : Stable S (x' ++ (['\r'] :: ['\n'] :: y)) := by simpa using hst
    exact this.right
  have h4 := S.crlf y.flatten
  unfold Stable at h3
  simp at h3
  rw [h4] at h3
  simp at h3

/-! ### Nesting -/

theorem depth_cons (t : Token) (ts : List Token) : depth (t :: ts) = depth [t] + depth ts := by
  simp [depth]

def M.nest (m : M) : Int := m.angle + m.curly + m.square

theorem emit_nest (a g m) : (emit a g m).2.nest = m.nest + depth (emit a g m).1 := by
  rcases a with _ | _ | (_ | _ | _) | (_ | _ | _) | _ | _ | _ | _ | _ | _ | _ <;>
    simp [emit, M.nest, M.adv, M.addCount, depth, M.single, M.pooled] <;> omega

theorem depth_append (a b : List Token) : depth (a ++ b) = depth a + depth b := by
  simp [depth]

theorem emit_le_one (a g m) : (emit a g m).1 = [] ∨ ∃ t, (emit a g m).1 = [t] := by
  cases a <;> simp [emit]

/-- Decomposition of a run at a token: the state in which it was emitted. -/
theorem run_split (gs : List Str) : ∀ m pre t post, run gs m = pre ++ t :: post →
    (t = (M.eof m) ∧ pre = [] ∧ post = []) ∨
    (∃ g gs' m', (g ≠ NUL ∧ (emit (act g gs' m') g m').1 = [t]) ∧
      m'.nest = m.nest + depth pre ∧ post = run gs' (emit (act g gs' m') g m').2) ∨
    t.kind = .eof := by
  induction gs with
  | nil =>
    intro m pre t post h
    rcases pre with _ | ⟨p, pre⟩ <;> simp [run] at h
    exact .inl ⟨h.1.symm, rfl, h.2⟩
  | cons g gs ih =>
    intro m pre t post h
    by_cases hg : g = NUL
    · rcases pre with _ | ⟨p, pre⟩ <;> simp [run, hg] at h
      exact .inl ⟨h.1.symm, rfl, h.2⟩
    · simp only [run, hg, if_false] at h
      rcases emit_le_one (act g gs m) g m with he | ⟨u, he⟩
      · rw [he] at h
        rcases ih _ pre t post h with ⟨h1, h2, h3⟩ | ⟨g', gs', m', h1, h2, h3⟩ | h1
        · exact .inr (.inr (by simp [h1, M.eof]))
        · refine .inr (.inl ⟨g', gs', m', h1, ?_, h3⟩)
          rw [h2, emit_nest, he]; simp [depth]
        · exact .inr (.inr h1)
      · rw [he] at h
        rcases pre with _ | ⟨p, pre⟩
        · simp at h
          exact .inr (.inl ⟨g, gs, m, ⟨hg, by rw [he, h.1]⟩, by simp [depth], h.2.symm⟩)
        · simp at h
          rcases ih _ pre t post h.2 with ⟨h1, h2, h3⟩ | ⟨g', gs', m', h1, h2, h3⟩ | h1
          · exact .inr (.inr (by simp [h1, M.eof]))
          · refine .inr (.inl ⟨g', gs', m', h1, ?_, h3⟩)
            rw [h2, emit_nest, he, ← h.1, depth_cons u pre]; omega
          · exact .inr (.inr h1)

theorem tokens_sep_nested (gs : List Str) (pre t post)
    (h : run gs M.init = pre ++ t :: post)
    (hk : t.kind = .dot ∨ t.kind = .comma ∨ t.kind = .whiteSpace) : 0 < depth pre := by
  rcases run_split gs M.init pre t post h with ⟨h1, _⟩ | ⟨g, gs', m', ⟨hg, he⟩, h2, _⟩ | h1
  · simp [h1, M.eof] at hk
  · have hok := act_ok g gs' m' hg
    have h3 : m'.nest = depth pre := by rw [h2]; simp [M.nest, M.init]
    rw [← h3]
    have hnest : m'.nested = true → 0 < m'.nest := by simp [M.nested, M.nest]
    apply hnest
    revert hok he
    rcases act g gs' m' <;> intro he hok <;> simp [emit, M.single, M.pooled] at he <;>
      subst he <;> simp at hk <;> simp [actOK] at hok <;> exact hok.2
  · simp [h1] at hk

/-! ### Texts inside brackets contain no separators -/

def isSep (g : Str) : Prop := g = ['.'] ∨ g = [','] ∨ g = [' ']

theorem stopC_sep (g : Str) (h : stopC true (cls g) = false) : ¬ isSep g := by
  rintro (h1 | h1 | h1) <;> subst h1 <;> revert h <;> decide

theorem run_text_nosep (S : Segmenter) (gs : List Str) : ∀ m poolG, Stable S (poolG ++ gs) →
    m.pool = poolG.flatten → PoolOK gs m → (m.nested = true → ∀ g ∈ poolG, ¬ isSep g) →
    ∀ pre t post s, run gs m = pre ++ t :: post → t.kind = .text s → 0 < m.nest + depth pre →
    ∀ g ∈ S.graphemes s, ¬ isSep g := by
  induction gs with
  | nil =>
    intro m poolG _ _ _ _ pre t post s h hk
    rcases pre with _ | ⟨p, pre⟩ <;> simp [run, M.eof] at h
    simp [← h.1] at hk
  | cons g gs ih =>
    intro m poolG hs hpool hp hsep pre t post s h hk hd
    by_cases hg : g = NUL
    · rcases pre with _ | ⟨p, pre⟩ <;> simp [run, hg, M.eof] at h
      simp [← h.1] at hk
    · have hok := emit_poolOK g gs m hg hp
      have hact := act_ok g gs m hg
      have hpl := pool_nil g gs m hp
      have hnest := emit_nest (act g gs m) g m
      have htail : Stable S gs := hs.right.tail
      simp only [run, hg, if_false] at h
      by_cases hpool' : act g gs m = .pool
      · rw [hpool'] at h hok hact
        simp only [emit, List.nil_append] at h
        refine ih (emit .pool g m).2 (poolG ++ [g]) (by simpa using hs) (by simp [emit, hpool]) hok
          ?_ pre t post s h hk (by simpa [emit, M.nest] using hd)
        intro hn x hx
        have hn' : m.nested = true := by simpa [emit, M.nested] using hn
        rcases List.mem_append.1 hx with hx | hx
        · exact hsep hn' x hx
        · simp at hx
          subst hx
          simp [actOK, hn'] at hact
          exact stopC_sep _ hact.2
      · have hone : ∃ u, (emit (act g gs m) g m).1 = [u] := by
          revert hpool'
          rcases act g gs m <;> simp [emit]
        obtain ⟨u, hu⟩ := hone
        rw [hu] at h
        rcases pre with _ | ⟨p, pre⟩
        · simp at h
          rw [h.1] at hu
          have hn : m.nested = true := by
            simp [depth] at hd
            simpa [M.nested, M.nest] using hd
          have htxt : act g gs m = .text ∧ s = m.pool ++ g := by
            rcases emit_kind _ _ _ t (by rw [hu]; simp) with
              ⟨h1, h2⟩ | ⟨_, h2⟩ | ⟨_, h2⟩ | ⟨k, h1, h2⟩
            · refine ⟨h1, ?_⟩
              rw [h2] at hk
              simp [M.pooled] at hk
              exact hk.symm
            · rw [h2] at hk; simp [M.pooled] at hk
            · rw [h2] at hk; simp [M.pooled] at hk
            · rw [h2] at hk
              simp [M.single] at hk
              rw [hk] at h1
              revert h1
              rcases act g gs m <;> simp [Action.single]
          rw [htxt.1] at hact
          have hst : Stable S ((poolG ++ [g]) ++ gs) := by simpa using hs
          have e : S.graphemes s = poolG ++ [g] := by
            rw [htxt.2, hpool]
            have := hst.left
            unfold Stable at this
            simpa using this
          rw [e]
          intro x hx
          rcases List.mem_append.1 hx with hx | hx
          · exact hsep hn x hx
          · simp at hx
            subst hx
            simp [actOK, hn] at hact
            exact stopC_sep _ hact.2
        · simp at h
          refine ih _ [] (by simpa using htail) ?_ hok (by simp) pre t post s h.2 hk ?_
          · simpa using emit_pool_nil g gs m hp hpool'
          · rw [hnest, hu, h.1]
            rw [depth_cons p pre] at hd
            omega

/-! ### Plain text -/

theorem run_plain (gs : List Str) : ∀ (m : M), m.look = false → m.nested = false →
    (∀ g ∈ gs, stopC false (cls g) = false) → gs ≠ [] →
    run gs m = [⟨.text (m.pool ++ gs.flatten), ⟨⟨m.tsl, m.tsc⟩, ⟨m.line, m.col + gs.length⟩⟩⟩,
      ⟨.eof, ⟨⟨m.line, m.col + gs.length⟩, ⟨m.line, m.col + gs.length⟩⟩⟩] := by
  induction gs with
  | nil => intro m _ _ _ h; exact absurd rfl h
  | cons g gs ih =>
    intro m hl hn hgs _
    have hg : g ≠ NUL := by
      rintro rfl
      have := hgs NUL (by simp)
      revert this; decide
    have hc := hgs g (by simp)
    rcases gs with _ | ⟨g2, gs⟩
    · have ha : act g [] m = .text := by
        unfold act
        rw [action_eq, hl, hn]
        revert hc
        have : cls ((([] : List Str)).headD NUL) = .nul := by decide
        rw [this]
        generalize cls g = c
        revert c; decide
      simp [run, hg, ha, emit, M.pooled, M.adv, M.eof]
    · have hc2 := hgs g2 (by simp)
      have ha : act g (g2 :: gs) m = .pool := by
        unfold act
        rw [action_eq, hl, hn]
        simp only [List.headD_cons]
        revert hc hc2
        generalize cls g = c
        generalize cls g2 = d
        revert c d; decide
      rw [run, if_neg hg, ha]
      have := ih { m with col := m.col + 1, pool := m.pool ++ g } hl
        (by simpa [M.nested] using hn) (fun x hx => hgs x (by simp [hx])) (by simp)
      simp only [emit, List.nil_append, this]
      simp
      omega

theorem stopC_of_plain (S : Segmenter) (text : Str) (h : ∀ c ∈ specialChars, c ∉ text) :
    ∀ g ∈ S.graphemes text, stopC false (cls g) = false := by
  intro g hg
  have hsub : ∀ c ∈ g, c ∈ text := by
    intro c hc
    rw [← S.flatten text]
    exact List.mem_flatten.2 ⟨g, hg, hc⟩
  have key : ∀ c ∈ specialChars, g ≠ [c] := by
    intro c hc he
    subst he
    exact h c hc (hsub c (by simp))
  simp [specialChars] at key
  have hb : ∀ c : Cl, c ≠ .bs → c ≠ .lt → c ≠ .gt → c ≠ .lc → c ≠ .rc → c ≠ .lb → c ≠ .rb →
      c ≠ .nl → c ≠ .nul → stopC false c = false := by
    intro c; cases c <;> simp [stopC]
  apply hb <;> simp only [Ne, cls_bs, cls_lt, cls_gt, cls_lc, cls_rc, cls_lb, cls_rb, cls_nl,
    cls_nul, NUL] <;> simp_all

/-! ### Identifiers need an opening bracket -/

theorem run_ident_open (gs : List Str) : ∀ m pre t post, m.look = false →
    run gs m = pre ++ t :: post → (∃ s, t.kind = .ident s ∨ t.kind = .module s) →
    ∃ u ∈ pre, ∃ b, u.kind = .bopen b := by
  induction gs with
  | nil =>
    intro m pre t post _ h ⟨s, hk⟩
    rcases pre with _ | ⟨p, pre⟩ <;> simp [run, M.eof] at h
    simp [← h.1] at hk
  | cons g gs ih =>
    intro m pre t post hl h hk
    by_cases hg : g = NUL
    · rcases pre with _ | ⟨p, pre⟩ <;> simp [run, hg, M.eof] at h
      obtain ⟨s, hk⟩ := hk
      simp [← h.1] at hk
    · simp only [run, hg, if_false] at h
      have hok := act_ok g gs m hg
      have hlook : (∃ b, act g gs m = .bopen b) ∨ (emit (act g gs m) g m).2.look = false := by
        rcases act g gs m with _ | _ | (_ | _ | _) | (_ | _ | _) | _ | _ | _ | _ | _ | _ | _ <;>
          simp [emit, M.adv, M.addCount, hl]
      rcases emit_le_one (act g gs m) g m with he | ⟨u, he⟩
      · rcases hlook with ⟨b, hb⟩ | hlook
        · rw [hb] at he; simp [emit] at he
        · rw [he] at h
          exact ih _ pre t post hlook h hk
      · rw [he] at h
        rcases pre with _ | ⟨p, pre⟩
        · simp at h
          obtain ⟨s, hk⟩ := hk
          rw [h.1] at he
          exfalso
          revert he hok
          rcases act g gs m <;> intro hok he <;> simp [emit, M.single, M.pooled] at he <;>
            subst he <;> simp at hk <;> simp [actOK, hl] at hok
        · simp at h
          rcases hlook with ⟨b, hb⟩ | hlook
          · refine ⟨p, by simp, b, ?_⟩
            rw [hb] at he
            simp [emit, M.single] at he
            rw [← h.1, ← he]
          · obtain ⟨u', hu', hb⟩ := ih _ pre t post hlook h.2 hk
            exact ⟨u', by simp [hu'], hb⟩

end Brack
