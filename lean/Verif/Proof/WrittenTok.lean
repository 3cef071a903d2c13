import Verif.Spec.Written
import Verif.Proof.TokMore

/-
Helper lemmas: the tokens of written documents.
-/

namespace Brack

/-! ### Clusters -/

theorem own_cons {S : Segmenter} {c : Char} {t : Str} (h : OwnClusters S (c :: t)) (hc : c ∈ markChars) :
    S.graphemes (c :: t) = [c] :: S.graphemes t ∧ OwnClusters S t := by
  have hf := S.flatten (c :: t)
  rcases hg : S.graphemes (c :: t) with _ | ⟨g, gs⟩
  · rw [hg] at hf; simp at hf
  · have hne := S.nonempty (c :: t) g (by rw [hg]; simp)
    rcases g with _ | ⟨x, g⟩
    · exact absurd rfl hne
    rw [hg] at hf
    simp only [List.flatten_cons, List.cons_append, List.cons.injEq] at hf
    obtain ⟨rfl, hf⟩ := hf
    have hx : x :: g = [x] := h (x :: g) (by rw [hg]; simp) x (by simp) hc
    simp only [List.cons.injEq, true_and] at hx
    subst hx
    rw [List.nil_append] at hf
    have hs := S.suffix _ _ _ hg
    rw [hf] at hs
    refine ⟨by rw [hs], fun g hgm => h g ?_⟩
    rw [hg, ← hs]
    exact List.mem_cons_of_mem _ hgm

/-- Clusters up to a character that is a cluster of its own. -/
theorem split_at_char {c : Char} {t : Str} : ∀ (gs : List Str) (s : Str), gs.flatten = s ++ c :: t →
    (∀ g ∈ gs, g ≠ []) → (∀ g ∈ gs, c ∈ g → g = [c]) →
    ∃ as bs, gs = as ++ bs ∧ as.flatten = s ∧ bs.flatten = c :: t
  | gs, [], h, _, _ => ⟨[], gs, rfl, rfl, h⟩
  | [], x :: s, h, _, _ => by simp at h
  | g :: gs, x :: s, h, hne, hown => by
    rw [List.flatten_cons, List.append_eq_append_iff] at h
    rcases h with ⟨a, ha, hb⟩ | ⟨a, ha, hb⟩
    · obtain ⟨as, bs, h1, h2, h3⟩ := split_at_char gs a hb (fun g hg => hne g (List.mem_cons_of_mem _ hg))
        (fun g hg => hown g (List.mem_cons_of_mem _ hg))
      exact ⟨g :: as, bs, by rw [h1]; rfl, by rw [List.flatten_cons, h2, ← ha], h3⟩
    · rcases a with _ | ⟨y, a⟩
      · rw [List.append_nil] at ha
        refine ⟨[g], gs, rfl, by simp [ha], by rw [← List.nil_append gs.flatten]; exact hb.symm⟩
      · exfalso
        simp only [List.cons_append, List.cons.injEq] at hb
        obtain ⟨rfl, _⟩ := hb
        have := hown g (by simp) (by rw [ha]; simp)
        rw [ha] at this
        simp at this

theorem own_words {S : Segmenter} {s t : Str} (h : OwnClusters S (s ++ t))
    (ht : ∀ c t', t = c :: t' → c ∈ markChars) :
    S.graphemes (s ++ t) = S.graphemes s ++ S.graphemes t ∧ OwnClusters S t := by
  rcases t with _ | ⟨c, t⟩
  · refine ⟨by simp [graphemes_nil], fun g hg => ?_⟩
    rw [graphemes_nil] at hg
    simp at hg
  · have hst := stable_graphemes S (s ++ c :: t)
    obtain ⟨as, bs, h1, h2, h3⟩ := split_at_char _ _ (S.flatten (s ++ c :: t)) (S.nonempty _)
      (fun g hg hc => h g hg c hc (ht c t rfl))
    rw [h1] at hst
    have ha := hst.left
    have hb := hst.right
    unfold Stable at ha hb
    rw [h2] at ha
    rw [h3] at hb
    refine ⟨by rw [h1, ha, hb], fun g hg => h g ?_⟩
    rw [h1, List.mem_append]
    exact .inr (hb ▸ hg)

/-! ### The machine on words -/

theorem action_pool_of : ∀ (c d : Cl) (look nested : Bool), (look = true → nested = true) →
    stopC nested c = false → stopC nested d = false → actionC c d look nested = .pool := by decide

theorem action_end_of : ∀ (c d : Cl) (look nested : Bool), (look = true → nested = true) →
    stopC nested c = false → stopC nested d = true → actionC c d look nested = actionC .other d look nested := by
  decide

/-- The token made of a pool. -/
def Action.pooled? : Action → Option (Str → TokKind)
  | .text => some .text
  | .module => some .module
  | .identifier => some .ident
  | _ => none

theorem run_cons {g : Str} {gs : List Str} {m : M} (hg : g ≠ NUL) :
    run (g :: gs) m = (emit (act g gs m) g m).1 ++ run gs (emit (act g gs m) g m).2 := by
  rw [run, if_neg hg]

theorem run_pooled {mk : Str → TokKind} {rest : List Str} {look : Bool} {n : Int} {look' : Bool} (hlook : look = true → 0 < n)
    (hd : stopC (decide (n > 0)) (cls (rest.headD NUL)) = true)
    (hA : (actionC .other (cls (rest.headD NUL)) look (decide (n > 0))).pooled? = some mk)
    (hl' : look' = if actionC .other (cls (rest.headD NUL)) look (decide (n > 0)) = .identifier then false else look) :
    ∀ (gs : List Str) (m : M), gs ≠ [] → m.nest = n → m.look = look →
    (∀ g ∈ gs, stopC (decide (n > 0)) (cls g) = false) →
    ∃ m', m'.nest = n ∧ m'.look = look' ∧ m'.pool = [] ∧
      (run (gs ++ rest) m).map (·.kind) = mk (m.pool ++ gs.flatten) :: (run rest m').map (·.kind)
  | [], _, h, _, _, _ => absurd rfl h
  | g :: gs, m, _, hn, hl, hgs => by
    have hg : g ≠ NUL := by
      rintro rfl
      have := hgs NUL (by simp)
      have e : cls NUL = .nul := by decide
      rw [e] at this
      simp [stopC] at this
    have hc := hgs g (by simp)
    have hnest : m.nested = decide (n > 0) := by rw [← hn]; rfl
    rcases gs with _ | ⟨g2, gs⟩
    · have ha : act g rest m = actionC .other (cls (rest.headD NUL)) look (decide (n > 0)) := by
        unfold act
        rw [action_eq, hl, hnest]
        exact action_end_of _ _ _ _ (by simpa using hlook) hc hd
      rw [List.cons_append, List.nil_append, run_cons hg, ha]
      revert hA hl'
      generalize actionC .other (cls (rest.headD NUL)) look (decide (n > 0)) = A
      intro hA hl'
      rcases A with _ | _ | b | b | _ | _ | _ | _ | _ | _ | _ <;> simp only [Action.pooled?, Option.some.injEq, reduceCtorEq] at hA
      all_goals
        subst hA
        refine ⟨_, ?_, ?_, ?_, by simp [emit, M.pooled]; rfl⟩
        · simpa [M.nest, M.adv] using hn
        · simp [hl', M.adv, hl]
        · simp [M.adv]
    · have ha : act g (g2 :: gs ++ rest) m = .pool := by
        unfold act
        rw [action_eq, hl, hnest]
        exact action_pool_of _ _ _ _ (by simpa using hlook) hc (hgs g2 (by simp))
      obtain ⟨m', h1, h2, h3, h4⟩ := run_pooled hlook hd hA hl' (g2 :: gs) { m with col := m.col + 1, pool := m.pool ++ g }
        (by simp) hn hl (fun x hx => hgs x (by simp [hx]))
      refine ⟨m', h1, h2, h3, ?_⟩
      rw [List.cons_append, run_cons hg, ha]
      simp only [emit, List.nil_append, h4]
      simp

/-! ### Texts -/

/-- The kinds of the tokens of a text. -/
def kindsFrom (S : Segmenter) (m : M) (text : Str) : List TokKind := (run (S.graphemes text) m).map (·.kind)

/-- Between two tokens. -/
structure Ready (n : Int) (look : Bool) (m : M) : Prop where
  nest : m.nest = n
  look : m.look = look
  pool : m.pool = []

/-- Reading `s` at the start of `s ++ rest` gives tokens of these kinds. -/
def Eats (S : Segmenter) (s rest : Str) (ks : List TokKind) (n : Int) (look : Bool) (n' : Int) (look' : Bool) : Prop :=
  OwnClusters S (s ++ rest) → OwnClusters S rest ∧ ∀ m, Ready n look m →
    ∃ m', Ready n' look' m' ∧ kindsFrom S m (s ++ rest) = ks ++ kindsFrom S m' rest

theorem Eats.nil {S rest n look} : Eats S [] rest [] n look n look :=
  fun h => ⟨h, fun m hm => ⟨m, hm, rfl⟩⟩

theorem Eats.append {S s t rest ks ls n look n' look' n'' look''} (h1 : Eats S s (t ++ rest) ks n look n' look')
    (h2 : Eats S t rest ls n' look' n'' look'') : Eats S (s ++ t) rest (ks ++ ls) n look n'' look'' := by
  intro h
  rw [List.append_assoc] at h
  obtain ⟨h3, h4⟩ := h1 h
  obtain ⟨h5, h6⟩ := h2 h3
  refine ⟨h5, fun m hm => ?_⟩
  obtain ⟨m1, hm1, e1⟩ := h4 m hm
  obtain ⟨m2, hm2, e2⟩ := h6 m1 hm1
  exact ⟨m2, hm2, by rw [List.append_assoc, e1, e2, List.append_assoc]⟩

/-- The first character of what follows. -/
def StartsIn (cs : List Char) (t : Str) : Prop := ∀ c t', t = c :: t' → c ∈ cs

theorem headD_own {S : Segmenter} {t : Str} (h : OwnClusters S t) (ht : StartsIn markChars t) :
    (S.graphemes t).headD NUL = match t with | [] => NUL | c :: _ => [c] := by
  rcases t with _ | ⟨c, t⟩
  · rw [graphemes_nil]; rfl
  · rw [(own_cons h (ht c t rfl)).1]; rfl

theorem graphemes_ne_nil {S : Segmenter} {s : Str} (h : s ≠ []) : S.graphemes s ≠ [] := by
  intro e
  have := S.flatten s
  rw [e] at this
  exact h this.symm

/-- No cluster of a plain text is a special character. -/
theorem plain_clusters {S : Segmenter} {cs : List Char} {s : Str} (h : plainBut cs s = true) :
    s ≠ [] ∧ ∀ g ∈ S.graphemes s, ∀ c ∈ cs, g ≠ [c] := by
  simp only [plainBut, Bool.and_eq_true, Bool.not_eq_true', List.isEmpty_eq_false_iff, List.all_eq_true] at h
  refine ⟨h.1, fun g hg c hc e => ?_⟩
  have : c ∈ s := by
    rw [← S.flatten s]
    exact List.mem_flatten.2 ⟨g, hg, by rw [e]; simp⟩
  have h2 := h.2 c this
  rw [List.contains_iff_mem.mpr hc] at h2
  simp at h2

/-- Special characters inside or outside brackets. -/
def specials (inside : Bool) : List Char := if inside then markChars else specialChars

theorem specials_subset (inside : Bool) : ∀ c ∈ specials inside, c ∈ markChars := by
  cases inside
  · intro c hc; simp only [specials, markChars, List.mem_append] at *; exact .inr hc
  · exact fun c hc => hc

theorem plain_stop {S : Segmenter} {inside : Bool} {s : Str} (h : plainBut (specials inside) s = true) :
    ∀ g ∈ S.graphemes s, stopC inside (cls g) = false := by
  intro g hg
  have key := (plain_clusters (S := S) h).2 g hg
  have hb : ∀ c : Cl, c ≠ .bs → c ≠ .lt → c ≠ .gt → c ≠ .lc → c ≠ .rc → c ≠ .lb → c ≠ .rb →
      c ≠ .nl → c ≠ .nul → (inside = true → c ≠ .dot ∧ c ≠ .comma ∧ c ≠ .sp) → stopC inside c = false := by
    intro c; cases c <;> simp [stopC]
  cases inside <;> simp [specials, markChars, specialChars] at key
  all_goals
    apply hb <;> simp only [Ne, cls_bs, cls_lt, cls_gt, cls_lc, cls_rc, cls_lb, cls_rb, cls_nl,
      cls_nul, cls_dot, cls_comma, cls_sp, NUL] <;> simp_all

theorem stop_special {inside : Bool} {c : Char} (h : c ∈ specials inside) : stopC inside (cls [c]) = true := by
  cases inside
  · simp only [specials, specialChars, Bool.false_eq_true, if_false, List.mem_cons, List.not_mem_nil, or_false] at h
    rcases h with rfl | rfl | rfl | rfl | rfl | rfl | rfl | rfl | rfl <;> decide
  · simp only [specials, markChars, specialChars, if_true, List.mem_append, List.mem_cons, List.not_mem_nil, or_false] at h
    rcases h with (rfl | rfl | rfl) | (rfl | rfl | rfl | rfl | rfl | rfl | rfl | rfl | rfl) <;> decide

theorem Eats.words {S : Segmenter} {inside : Bool} {s rest : Str} {n : Int} (hs : plainBut (specials inside) s = true)
    (hn : inside = decide (n > 0)) (hr : StartsIn (specials inside) rest) :
    Eats S s rest [.text s] n false n false := by
  intro h
  have hr' : StartsIn markChars rest := fun c t e => specials_subset _ _ (hr c t e)
  obtain ⟨hg, ho⟩ := own_words h hr'
  refine ⟨ho, fun m hm => ?_⟩
  unfold kindsFrom
  rw [hg]
  have hd : stopC (decide (n > 0)) (cls ((S.graphemes rest).headD NUL)) = true := by
    rw [headD_own ho hr', ← hn]
    rcases rest with _ | ⟨c, t⟩
    · simp only; have : cls NUL = .nul := by decide
      rw [this]; rfl
    · exact stop_special (hr c t rfl)
  have hA : ∀ (d : Cl) (b : Bool), stopC b d = true → actionC .other d false b = .text := by decide
  have hA := hA _ _ hd
  obtain ⟨m', h1, h2, h3, h4⟩ := run_pooled (mk := .text) (look := false) (look' := false) (by simp) hd
    (by rw [hA]; rfl) (by rw [hA]; rfl) (S.graphemes s) m (graphemes_ne_nil (plain_clusters (S := S) hs).1) hm.nest hm.look
    (hn ▸ plain_stop hs)
  refine ⟨m', ⟨h1, h2, h3⟩, ?_⟩
  rw [h4, hm.pool, List.nil_append, S.flatten]
  rfl

theorem Eats.module {S : Segmenter} {s rest : Str} {n : Int} (hs : plainBut markChars s = true) (hn : 0 < n) :
    Eats S s ('.' :: rest) [.module s] n true n true := by
  intro h
  have hr' : StartsIn markChars ('.' :: rest) := by
    rintro c t ⟨⟩; decide
  obtain ⟨hg, ho⟩ := own_words h hr'
  refine ⟨ho, fun m hm => ?_⟩
  unfold kindsFrom
  rw [hg]
  have hnb : decide (n > 0) = true := by simpa using hn
  have hh : (S.graphemes ('.' :: rest)).headD NUL = ['.'] := headD_own ho hr'
  have e : cls ['.'] = .dot := by decide
  obtain ⟨m', h1, h2, h3, h4⟩ := run_pooled (n := n) (mk := .module) (look := true) (look' := true) (rest := S.graphemes ('.' :: rest))
    (fun _ => hn) (by rw [hh, e, hnb]; rfl) (by rw [hh, e, hnb]; rfl) (by rw [hh, e, hnb]; rfl) (S.graphemes s) m
    (graphemes_ne_nil (plain_clusters (S := S) hs).1) hm.nest hm.look (by rw [hnb]; exact plain_stop (inside := true) hs)
  refine ⟨m', ⟨h1, h2, h3⟩, ?_⟩
  rw [h4, hm.pool, List.nil_append, S.flatten]
  rfl

theorem Eats.ident {S : Segmenter} {s rest : Str} {n : Int} {c : Char} (hs : plainBut markChars s = true) (hn : 0 < n)
    (hc : c ∈ ' ' :: closeChars) : Eats S s (c :: rest) [.ident s] n true n false := by
  intro h
  have hr' : StartsIn markChars (c :: rest) := by
    rintro c t ⟨⟩
    simp only [closeChars, List.mem_cons, List.not_mem_nil, or_false] at hc
    rcases hc with rfl | rfl | rfl | rfl <;> decide
  obtain ⟨hg, ho⟩ := own_words h hr'
  refine ⟨ho, fun m hm => ?_⟩
  unfold kindsFrom
  rw [hg]
  have hnb : decide (n > 0) = true := by simpa using hn
  have hh : (S.graphemes (c :: rest)).headD NUL = [c] := headD_own ho hr'
  have e : stopC true (cls [c]) = true ∧ actionC .other (cls [c]) true true = .identifier := by
    simp only [closeChars, List.mem_cons, List.not_mem_nil, or_false] at hc
    rcases hc with rfl | rfl | rfl | rfl <;> decide
  obtain ⟨m', h1, h2, h3, h4⟩ := run_pooled (n := n) (mk := .ident) (look := true) (look' := false) (rest := S.graphemes (c :: rest))
    (fun _ => hn) (by rw [hh, hnb]; exact e.1) (by rw [hh, hnb, e.2]; rfl) (by rw [hh, hnb, e.2]; rfl) (S.graphemes s) m
    (graphemes_ne_nil (plain_clusters (S := S) hs).1) hm.nest hm.look (by rw [hnb]; exact plain_stop (inside := true) hs)
  refine ⟨m', ⟨h1, h2, h3⟩, ?_⟩
  rw [h4, hm.pool, List.nil_append, S.flatten]
  rfl

/-- Characters that are tokens of their own, with nothing pending. -/
theorem Eats.char {S : Segmenter} {c : Char} {rest : Str} {n n' : Int} {look' : Bool} {k : TokKind} {a : Action}
    (hc : c ∈ markChars) (hnul : c ≠ Char.ofNat 0)
    (ha : ∀ d, actionC (cls [c]) d false (decide (n > 0)) = a)
    (he : ∀ m, Ready n false m → (emit a [c] m).1.map (·.kind) = [k] ∧ Ready n' look' (emit a [c] m).2) :
    Eats S [c] rest [k] n false n' look' := by
  intro h
  rw [List.cons_append, List.nil_append] at h
  obtain ⟨hg, ho⟩ := own_cons h hc
  refine ⟨ho, fun m hm => ?_⟩
  have hact : act [c] (S.graphemes rest) m = a := by
    unfold act
    rw [action_eq, hm.look, show m.nested = decide (n > 0) by rw [← hm.nest]; rfl]
    exact ha _
  refine ⟨_, (he m hm).2, ?_⟩
  unfold kindsFrom
  rw [List.cons_append, List.nil_append, hg, run_cons (by simpa [NUL] using hnul), hact, List.map_append, (he m hm).1]

theorem nest_addCount (m : M) (b : Bracket) (d : Int) : (m.adv.addCount b d).nest = m.nest + d := by
  cases b <;> simp [M.nest, M.addCount, M.adv] <;> omega

theorem open_mark (b : Bracket) : b.openChar ∈ markChars ∧ b.openChar ∈ specialChars ∧ b.openChar ≠ Char.ofNat 0 ∧
    ∀ d n, actionC (cls [b.openChar]) d false n = .bopen b := by
  cases b <;> refine ⟨by decide, by decide, by decide, by decide⟩

theorem close_mark (b : Bracket) : b.closeChar ∈ markChars ∧ b.closeChar ∈ closeChars ∧ b.closeChar ≠ Char.ofNat 0 ∧
    ∀ d n, actionC (cls [b.closeChar]) d false n = .bclose b := by
  cases b <;> refine ⟨by decide, by decide, by decide, by decide⟩

theorem Eats.bopen {S : Segmenter} {b : Bracket} {rest : Str} {n : Int} :
    Eats S [b.openChar] rest [.bopen b] n false (n + 1) true := by
  obtain ⟨h1, _, h2, h3⟩ := open_mark b
  refine Eats.char h1 h2 (fun d => h3 d _) (fun m hm => ⟨rfl, ?_, rfl, ?_⟩)
  · have := nest_addCount m b 1
    rw [hm.nest] at this
    simpa [emit, M.nest] using this
  · cases b <;> rfl

theorem Eats.bclose {S : Segmenter} {b : Bracket} {rest : Str} {n : Int} :
    Eats S [b.closeChar] rest [.bclose b] (n + 1) false n false := by
  obtain ⟨h1, _, h2, h3⟩ := close_mark b
  refine Eats.char h1 h2 (fun d => h3 d _) (fun m hm => ⟨rfl, ?_, ?_, ?_⟩)
  · have := nest_addCount m b (-1)
    rw [hm.nest] at this
    simp only [emit]
    omega
  · have := hm.look
    cases b <;> simpa [emit, M.addCount, M.adv] using this
  · cases b <;> rfl

theorem Eats.backslash {S : Segmenter} {rest : Str} {n : Int} : Eats S ['\\'] rest [.backSlash] n false n false :=
  Eats.char (a := .backslash) (by decide) (by decide) (fun d => by revert d; cases decide (n > 0) <;> decide)
    (fun m hm => ⟨rfl, hm.nest, hm.look, hm.pool⟩)

theorem Eats.newline {S : Segmenter} {rest : Str} {n : Int} : Eats S ['\n'] rest [.newLine] n false n false :=
  Eats.char (a := .newline) (by decide) (by decide) (fun d => by revert d; cases decide (n > 0) <;> decide)
    (fun m hm => ⟨rfl, hm.nest, hm.look, rfl⟩)

theorem Eats.space {S : Segmenter} {rest : Str} {n : Int} (hn : 0 < n) :
    Eats S [' '] rest [.whiteSpace] n false n false :=
  Eats.char (a := .whitespace) (by decide) (by decide)
    (fun d => by rw [show decide (n > 0) = true by simpa using hn]; revert d; decide)
    (fun m hm => ⟨rfl, hm.nest, hm.look, rfl⟩)

theorem Eats.comma {S : Segmenter} {rest : Str} {n : Int} (hn : 0 < n) :
    Eats S [','] rest [.comma] n false n false :=
  Eats.char (a := .comma) (by decide) (by decide)
    (fun d => by rw [show decide (n > 0) = true by simpa using hn]; revert d; decide)
    (fun m hm => ⟨rfl, hm.nest, hm.look, rfl⟩)

theorem Eats.dot {S : Segmenter} {rest : Str} {n : Int} (hn : 0 < n) :
    Eats S ['.'] rest [.dot] n false n false :=
  Eats.char (a := .dot) (by decide) (by decide)
    (fun d => by rw [show decide (n > 0) = true by simpa using hn]; revert d; decide)
    (fun m hm => ⟨rfl, hm.nest, hm.look, rfl⟩)

/-- The dot between the two names. -/
theorem Eats.nameDot {S : Segmenter} {s rest : Str} {n : Int} (hs : plainBut markChars s = true) (hn : 0 < n)
    (hr : StartsIn markChars rest) : Eats S ['.'] (s ++ rest) [.dot] n true n true := by
  intro h
  rw [List.cons_append, List.nil_append] at h
  obtain ⟨hg, ho⟩ := own_cons h (by decide)
  refine ⟨ho, fun m hm => ?_⟩
  have hact : act ['.'] (S.graphemes (s ++ rest)) m = .dot := by
    unfold act
    rw [action_eq, hm.look, show m.nested = decide (n > 0) by rw [← hm.nest]; rfl,
      show decide (n > 0) = true by simpa using hn, (own_words ho hr).1]
    obtain ⟨hne, _⟩ := plain_clusters (S := S) hs
    rcases hgs : S.graphemes s with _ | ⟨g, gs⟩
    · exact absurd hgs (graphemes_ne_nil hne)
    · have := plain_stop (S := S) (inside := true) hs g (by rw [hgs]; simp)
      revert this
      simp only [List.cons_append, List.headD_cons]
      generalize cls g = d
      revert d
      decide
  refine ⟨(emit .dot ['.'] m).2, ⟨hm.nest, hm.look, rfl⟩, ?_⟩
  unfold kindsFrom
  rw [List.cons_append, List.nil_append, hg, run_cons (by decide), hact, List.map_append]
  rfl

/-! ### Written documents -/

/-- The token of an escaped character. -/
def escapeTok (c : Char) : TokKind := if c = '\\' then .backSlash else if c = '.' then .dot else .comma

mutual

def Markup.toks : Markup → List TokKind
  | .words s => [.text s]
  | .escaped c => [.backSlash, escapeTok c]
  | .blank c => [if c = '\n' then .newLine else .whiteSpace]
  | .call b m n args => .bopen b :: .module m :: .dot :: .ident n ::
      ((if args.isEmpty then [] else .whiteSpace :: Markup.toksArgs args) ++ [.bclose b])

def Markup.toksL : List Markup → List TokKind
  | [] => []
  | i :: is => i.toks ++ Markup.toksL is

def Markup.toksArgs : List (List Markup) → List TokKind
  | [] => []
  | a :: as => Markup.toksL a ++ (if as.isEmpty then [] else .comma :: Markup.toksArgs as)

end

theorem mark_true : specials true = markChars := rfl

/-- What comes after an item starts with a special character, unless the next is text. -/
theorem starts_next {inside : Bool} {is : List Markup} {rest : Str} (hok : Markup.okL inside is = true)
    (hw : is.head?.any Markup.isWords = false) (hr : StartsIn (specials inside) rest) :
    StartsIn (specials inside) (Markup.writeL is ++ rest) := by
  rcases is with _ | ⟨i, is⟩
  · exact hr
  · simp only [Markup.okL, Bool.and_eq_true] at hok
    rcases i with s | c | c | ⟨b, m, n, args⟩
    · simp [Markup.isWords] at hw
    · intro x t e
      simp only [Markup.writeL, Markup.write, List.cons_append, List.cons.injEq] at e
      obtain ⟨rfl, _⟩ := e
      cases inside <;> decide
    · intro x t e
      simp only [Markup.writeL, Markup.write, List.cons_append, List.cons.injEq] at e
      obtain ⟨rfl, _⟩ := e
      have := hok.1.1
      simp only [Markup.ok, Bool.and_eq_true, Bool.or_eq_true, beq_iff_eq] at this
      obtain ⟨rfl, rfl | rfl⟩ := this <;> decide
    · intro x t e
      simp only [Markup.writeL, Markup.write, List.cons_append, List.cons.injEq] at e
      obtain ⟨rfl, _⟩ := e
      have := open_mark b
      cases inside
      · exact this.2.1
      · exact this.1

mutual

theorem Eats.item {S : Segmenter} (i : Markup) : ∀ (inside : Bool) (n : Int) (rest : Str), 0 ≤ n → inside = decide (n > 0) →
    i.ok inside = true → (i.isWords = true → StartsIn (specials inside) rest) →
    Eats S i.write rest i.toks n false n false := by
  intro inside n rest h0 hin hok hr
  have inn : inside = true → 0 < n := by rintro rfl; simpa using hin.symm
  rcases i with s | c | c | ⟨b, m, nm, args⟩
  · exact Eats.words hok hin (hr rfl)
  · simp only [Markup.ok, Bool.or_eq_true, beq_iff_eq, Bool.and_eq_true] at hok
    rcases hok with rfl | ⟨hi, rfl | rfl⟩
    · exact Eats.append (s := ['\\']) (t := ['\\']) Eats.backslash Eats.backslash
    · exact Eats.append (s := ['\\']) (t := ['.']) Eats.backslash (Eats.dot (inn hi))
    · exact Eats.append (s := ['\\']) (t := [',']) Eats.backslash (Eats.comma (inn hi))
  · simp only [Markup.ok, Bool.and_eq_true, Bool.or_eq_true, beq_iff_eq] at hok
    obtain ⟨hi, rfl | rfl⟩ := hok
    · exact Eats.space (inn hi)
    · exact Eats.newline
  · simp only [Markup.ok, Bool.and_eq_true] at hok
    obtain ⟨⟨hm, hn⟩, ha⟩ := hok
    have hpos : 0 < n + 1 := by omega
    have hclose := close_mark b
    have tail : Eats S ((if args.isEmpty then [] else ' ' :: Markup.writeArgs args) ++ [b.closeChar]) rest
        ((if args.isEmpty then [] else .whiteSpace :: Markup.toksArgs args) ++ [.bclose b]) (n + 1) false n false := by
      refine Eats.append ?_ Eats.bclose
      cases hargs : args.isEmpty
      · refine Eats.append (s := [' ']) (ks := [.whiteSpace]) (Eats.space hpos) ?_
        exact Eats.args args (n + 1) _ hpos ha.1 (by rintro c t ⟨⟩; exact hclose.1)
      · exact Eats.nil
    have hstart : ∃ c t, c ∈ ' ' :: closeChars ∧
        (if args.isEmpty then [] else ' ' :: Markup.writeArgs args) ++ [b.closeChar] = c :: t := by
      cases hargs : args.isEmpty
      · exact ⟨' ', _, by simp, rfl⟩
      · exact ⟨b.closeChar, _, List.mem_cons_of_mem _ hclose.2.1, rfl⟩
    have hstart' : StartsIn markChars (((if args.isEmpty then [] else ' ' :: Markup.writeArgs args) ++ [b.closeChar]) ++ rest) := by
      obtain ⟨c, t, hc, e⟩ := hstart
      rw [e]
      rintro c' t' ⟨⟩
      simp only [closeChars, List.mem_cons, List.not_mem_nil, or_false] at hc
      rcases hc with rfl | rfl | rfl | rfl <;> decide
    have hdot : Eats S ['.'] ((nm ++ ((if args.isEmpty then [] else ' ' :: Markup.writeArgs args) ++ [b.closeChar])) ++ rest)
        [.dot] (n + 1) true (n + 1) true := by
      rw [List.append_assoc]
      exact Eats.nameDot hn hpos hstart'
    have hident : Eats S nm (((if args.isEmpty then [] else ' ' :: Markup.writeArgs args) ++ [b.closeChar]) ++ rest)
        [.ident nm] (n + 1) true (n + 1) false := by
      obtain ⟨c, t, hc, e⟩ := hstart
      rw [e]
      exact Eats.ident hn hpos hc
    have key := Eats.append (s := [b.openChar]) (ks := [.bopen b]) (S := S) (n := n) (rest := rest) Eats.bopen
      (Eats.append (s := m) (ks := [.module m]) (t := '.' :: (nm ++ ((if args.isEmpty then [] else ' ' :: Markup.writeArgs args) ++ [b.closeChar])))
        (Eats.module hm hpos)
        (Eats.append (s := ['.']) (ks := [.dot]) hdot (Eats.append (s := nm) (ks := [.ident nm]) hident tail)))
    simpa [Markup.write, Markup.toks] using key

theorem Eats.list {S : Segmenter} (is : List Markup) : ∀ (inside : Bool) (n : Int) (rest : Str), 0 ≤ n → inside = decide (n > 0) →
    Markup.okL inside is = true → StartsIn (specials inside) rest →
    Eats S (Markup.writeL is) rest (Markup.toksL is) n false n false := by
  intro inside n rest h0 hin hok hr
  rcases is with _ | ⟨i, is⟩
  · exact Eats.nil
  · have hok' := hok
    simp only [Markup.okL, Bool.and_eq_true, Bool.not_eq_true', Bool.and_eq_false_imp] at hok
    exact Eats.append (Eats.item i inside n _ h0 hin hok.1.1 (fun hw => starts_next hok.1.2 (hok.2 hw) hr))
      (Eats.list is inside n rest h0 hin hok.1.2 hr)

theorem Eats.args {S : Segmenter} (as : List (List Markup)) : ∀ (n : Int) (rest : Str), 0 < n →
    Markup.okArgs as = true → StartsIn markChars rest →
    Eats S (Markup.writeArgs as) rest (Markup.toksArgs as) n false n false := by
  intro n rest hn hok hr
  rcases as with _ | ⟨a, as⟩
  · exact Eats.nil
  · simp only [Markup.okArgs, Bool.and_eq_true] at hok
    have hin : true = decide (n > 0) := by simpa using hn
    simp only [Markup.writeArgs, Markup.toksArgs]
    cases has : as.isEmpty
    · refine Eats.append (Eats.list a true n _ (by omega) hin hok.1 (by rintro c t ⟨⟩; decide)) ?_
      exact Eats.append (s := [',']) (ks := [.comma]) (Eats.comma hn) (Eats.args as n rest hn hok.2 hr)
    · refine Eats.append (Eats.list a true n _ (by omega) hin hok.1 hr) Eats.nil

end

/-- The tokens of a paragraph. -/
def lineToks : List (List Markup) → List TokKind
  | [] => []
  | line :: lines => Markup.toksL line ++ (if lines.isEmpty then [] else .newLine :: lineToks lines)

theorem Eats.lines {S : Segmenter} (p : List (List Markup)) : ∀ (rest : Str),
    (∀ line ∈ p, Markup.okL false line = true) → StartsIn ['\n'] rest →
    Eats S (writeLines p) rest (lineToks p) 0 false 0 false := by
  induction p with
  | nil => exact fun _ _ _ => Eats.nil
  | cons line lines ih =>
    intro rest hok hr
    simp only [writeLines, lineToks]
    have nl : ∀ t : Str, StartsIn ['\n'] t → StartsIn (specials false) t := by
      intro t h c t' e
      have := h c t' e
      simp only [List.mem_singleton] at this
      subst this
      decide
    cases hl : lines.isEmpty
    · refine Eats.append (Eats.list line false 0 _ (by omega) rfl (hok line (by simp))
        (nl _ (by rintro c t ⟨⟩; simp))) ?_
      exact Eats.append (s := ['\n']) (ks := [.newLine]) Eats.newline (ih rest (fun l h => hok l (by simp [h])) hr)
    · exact Eats.append (Eats.list line false 0 _ (by omega) rfl (hok line (by simp)) (nl _ hr)) Eats.nil

theorem Eats.newlines {S : Segmenter} (n : Nat) (rest : Str) :
    Eats S (List.replicate n '\n') rest (List.replicate n .newLine) 0 false 0 false := by
  induction n with
  | zero => exact Eats.nil
  | succ n ih => exact Eats.append (s := ['\n']) (ks := [.newLine]) Eats.newline ih

/-- The kinds of the tokens of a document. -/
inductive DocToks : List (List (List Markup)) → List TokKind → Prop
  | empty (n : Nat) : DocToks [] (List.replicate n .newLine ++ [.eof])
  | last (p : List (List Markup)) (n : Nat) : paragraphOk p = true →
    DocToks [p] (lineToks p ++ (List.replicate n .newLine ++ [.eof]))
  | more (p : List (List Markup)) (n : Nat) (d : List (List (List Markup))) (ks : List TokKind) : paragraphOk p = true →
    2 ≤ n → d ≠ [] → DocToks d ks → DocToks (p :: d) (lineToks p ++ (List.replicate n .newLine ++ ks))

theorem Eats.all {S : Segmenter} {s : Str} {ks} (h : Eats S s [] ks 0 false 0 false) (ho : OwnClusters S s) {m : M}
    (hm : Ready 0 false m) : kindsFrom S m s = ks ++ [.eof] := by
  have := h (by rwa [List.append_nil])
  obtain ⟨m', _, e⟩ := this.2 m hm
  rw [List.append_nil] at e
  rw [e]
  unfold kindsFrom
  rw [graphemes_nil]
  rfl

theorem docToks {S : Segmenter} {d : List (List (List Markup))} {text : Str} (h : WrittenAs d text) :
    OwnClusters S text → ∀ m, Ready 0 false m → DocToks d (kindsFrom S m text) := by
  have linesOk : ∀ p : List (List Markup), paragraphOk p = true → ∀ line ∈ p, Markup.okL false line = true := by
    intro p hp line hl
    simp only [paragraphOk, Bool.and_eq_true, List.all_eq_true] at hp
    exact (hp.2 line hl).2
  induction h with
  | empty n =>
    intro ho m hm
    rw [(Eats.newlines n []).all ho hm]
    exact .empty n
  | last p n hp =>
    intro ho m hm
    rw [(Eats.append (Eats.lines p _ (linesOk p hp) (by
      rintro c t e
      rcases n with _ | n
      · simp at e
      · rw [List.replicate_succ, List.cons_append, List.cons.injEq] at e
        simp [← e.1])) (Eats.newlines n [])).all ho hm, List.append_assoc]
    exact .last p n hp
  | more p n d s hp hn hd _ ih =>
    intro ho m hm
    have he := Eats.append (S := S) (rest := s) (Eats.lines p _ (linesOk p hp) (by
      rintro c t e
      rcases n with _ | n
      · omega
      · rw [List.replicate_succ, List.cons_append, List.cons.injEq] at e
        simp [← e.1])) (Eats.newlines n s)
    obtain ⟨h1, h2⟩ := he ho
    obtain ⟨m', hm', e⟩ := h2 m hm
    rw [e, List.append_assoc]
    exact .more p n d _ hp hn hd (ih h1 m' hm')

/-- The tokens of a written document. -/
theorem written_tokens {S : Segmenter} {d : List (List (List Markup))} {text : Str} (h : WrittenAs d text)
    (ho : OwnClusters S text) : ∃ ts, tokenizeStr S text = .ok ts ∧ DocToks d (ts.map (·.kind)) :=
  ⟨_, tokenizeStr_eq S text, docToks h ho M.init ⟨rfl, rfl, rfl⟩⟩

end Brack
