import Verif.Proof.Flat
import Verif.Proof.ParaTokens
import Verif.Proof.Saving
import Verif.Spec.Expressed

/-
Helper lemmas: the document with one cluster per line.
-/

namespace Brack

/-! ### segmentation -/

/-- The clusters of the line for one cluster. -/
def lineClusters (g : Str) : List Str :=
  if ∃ c ∈ markupChars, g = [c] then [['\\'], g, ['\n']] else [g, ['\n']]

theorem graphemes_single (S : Segmenter) {text g : Str} (h : g ∈ S.graphemes text) : S.graphemes g = [g] := by
  obtain ⟨xs, ys, he⟩ := List.append_of_mem h
  have hst : Stable S (xs ++ g :: ys) := by
    have := stable_graphemes S text
    rwa [he] at this
  have h1 : S.graphemes ((g :: ys).flatten) = g :: ys := hst.right
  have h2 := S.pre _ [g] ys h1
  simpa using h2

theorem not_ends {g x : Str} (h : '\r' ∉ g) : g ≠ x ++ ['\r'] := by
  rintro rfl; simp at h

theorem graphemes_line (S : Segmenter) {g : Str} (h : S.graphemes g = [g]) (hcr : ∀ x, g ≠ x ++ ['\r'])
    (rest : Str) : S.graphemes (lineOf g ++ rest) = lineClusters g ++ S.graphemes rest := by
  unfold lineOf lineClusters
  by_cases hm : ∃ c ∈ markupChars, g = [c]
  · rw [if_pos hm, if_pos hm]
    obtain ⟨c, hc, rfl⟩ := hm
    have h1 : S.graphemes ['\\', c] = [['\\'], [c]] := by
      rw [S.ascii]
      · rfl
      · intro x hx
        simp only [List.mem_cons, List.not_mem_nil, or_false] at hx
        rcases hx with rfl | rfl
        · decide
        · clear h hcr; revert x; decide
    have h2 := graphemes_lf S ['\\', c] rest (by
      intro a ha
      have := congrArg List.getLast? ha
      simp at this
      subst this
      revert hc; decide)
    simpa [h1] using h2
  · rw [if_neg hm, if_neg hm]
    have h2 := graphemes_lf S g rest hcr
    simpa [h] using h2

theorem graphemes_lines (S : Segmenter) : ∀ gs : List Str, (∀ g ∈ gs, S.graphemes g = [g] ∧ ∀ x, g ≠ x ++ ['\r']) →
    S.graphemes ((gs.map lineOf).flatten) = (gs.map lineClusters).flatten
  | [], _ => graphemes_nil S
  | g :: gs, h => by
    have h1 := h g (by simp)
    rw [List.map_cons, List.flatten_cons, graphemes_line S h1.1 h1.2,
      graphemes_lines S gs (fun x hx => h x (by simp [hx]))]
    rfl

theorem graphemes_closes (S : Segmenter) (rest : Str) : ∀ gs : List Str,
    S.graphemes ((gs.map (fun _ => [']', '\n'])).flatten ++ rest) =
      (gs.map (fun _ => [[']'], ['\n']])).flatten ++ S.graphemes rest
  | [] => rfl
  | g :: gs => by
    have h1 := graphemes_lf S [']'] ((gs.map (fun _ => [']', '\n'])).flatten ++ rest) (by
      intro a ha
      have := congrArg List.getLast? ha
      simp at this)
    have h2 : S.graphemes [']'] = [[']']] := single_cluster S _
    rw [h2, graphemes_closes S rest gs] at h1
    simpa using h1

/-! ### tokens -/

/-- The sum of the bracket counters. -/
def M.sum (m : M) : Int := m.angle + m.curly + m.square

theorem M.nested_false {m : M} (h : m.sum ≤ 0) : m.nested = false := by
  unfold M.sum at h
  simp only [M.nested, decide_eq_false_iff_not]; omega

/-- A cluster that can be put on a line. -/
def Putable (g : Str) : Prop := g ≠ NUL ∧ g ≠ ['\n']

theorem actionC_line (c : Cl) (look : Bool) (h : c ≠ .bs ∧ c ≠ .lt ∧ c ≠ .gt ∧ c ≠ .lc ∧ c ≠ .rc ∧ c ≠ .lb ∧ c ≠ .rb ∧ c ≠ .nl) :
    actionC c .nl look false = .text := by
  revert c look; decide

theorem cls_special (g : Str) (h : ¬ ∃ c ∈ markupChars, g = [c]) :
    cls g ≠ .bs ∧ cls g ≠ .lt ∧ cls g ≠ .gt ∧ cls g ≠ .lc ∧ cls g ≠ .rc ∧ cls g ≠ .lb ∧ cls g ≠ .rb := by
  simp only [Ne, cls_bs, cls_lt, cls_gt, cls_lc, cls_rc, cls_lb, cls_rb]
  refine ⟨?_, ?_, ?_, ?_, ?_, ?_, ?_⟩ <;> (intro he; exact h ⟨_, by decide, he⟩)

theorem actionC_nl_calm (d : Cl) (nested : Bool) : actionC .nl d false nested = .newline := by
  revert d nested; decide

/-- What is read from the tokens: they are accepted, flat, and hold the text. -/
structure Holds (q : LineState) (ts : List Token) (text : Str) : Prop where
  acc : accepts [] q (ts.map (·.kind)) = true
  flat : ∀ e ∈ trace [] ts, e.flat = true
  content : (((trace [] ts).filterMap Event.content?).filterMap (·.value)).flatten = text

theorem head_lines (gs : List Str) : cls (((gs.map lineClusters).flatten).headD NUL) ≠ .gt ∧
    cls (((gs.map lineClusters).flatten).headD NUL) ≠ .rc ∧ cls (((gs.map lineClusters).flatten).headD NUL) ≠ .rb := by
  rcases gs with _ | ⟨g, gs⟩
  · decide
  · simp only [List.map_cons, List.flatten_cons, lineClusters]
    by_cases hm : ∃ c ∈ markupChars, g = [c]
    · rw [if_pos hm]; simp only [List.cons_append, List.headD_cons]; decide
    · rw [if_neg hm]
      have := cls_special g hm
      simp only [List.cons_append, List.headD_cons]
      exact ⟨this.2.2.1, this.2.2.2.2.1, this.2.2.2.2.2.2⟩

theorem act_newline {gs : List Str} {m : M} (h : cls (gs.headD NUL) ≠ .gt ∧ cls (gs.headD NUL) ≠ .rc ∧ cls (gs.headD NUL) ≠ .rb) :
    act ['\n'] gs m = .newline := by
  rw [act, action_eq, cls_lf]
  exact actionC_nl _ _ _ h

theorem run_act {g : Str} {gs : List Str} {m : M} {a : Action} (hg : g ≠ NUL) (ha : act g gs m = a) :
    run (g :: gs) m = (emit a g m).1 ++ run gs (emit a g m).2 := by
  simp only [run, hg, if_false, ha]

/-- The action for an escaped character. -/
def markupAction (c : Char) : Action :=
  if c = '\\' then .backslash else if c = '<' then .bopen .angle else if c = '>' then .bclose .angle
  else if c = '{' then .bopen .curly else if c = '}' then .bclose .curly
  else if c = '[' then .bopen .square else .bclose .square

theorem act_markup (c : Char) (hc : c ∈ markupChars) (gs : List Str) (m : M) :
    act [c] (['\n'] :: gs) m = markupAction c := by
  rw [act, action_eq, List.headD_cons, cls_lf]
  generalize m.look = l
  generalize m.nested = n
  revert c l n; decide

/-- Characters, the tokens they are escaped as, and their effect on the counters. -/
theorem emit_markup (c : Char) (hc : c ∈ markupChars) (m : M) (hp : m.pool = []) :
    ∃ t, (emit (markupAction c) [c] m).1 = [t] ∧ escapedChar t.kind = some c ∧ t.kind ∈ escapes.map (·.2) ∧
      (emit (markupAction c) [c] m).2.pool = [] ∧
      (emit (markupAction c) [c] m).2.sum ≤ m.sum + (if isOpening [c] then 1 else 0) := by
  simp only [markupChars, List.mem_cons, List.not_mem_nil, or_false] at hc
  rcases hc with rfl | rfl | rfl | rfl | rfl | rfl | rfl <;>
    refine ⟨_, rfl, by show escapedChar _ = _; rfl, by simp only [M.single]; clear hp m; decide, ?_, ?_⟩ <;>
    simp [markupAction, emit, M.adv, M.addCount, hp, M.sum, isOpening] <;> omega

theorem reads_nil {q : LineState} {m : M} : Holds q (run [] m) [] := by
  refine ⟨?_, ?_, ?_⟩ <;> simp [run, M.eof, accepts, trace]

theorem run_lines : ∀ (gs : List Str) (m : M) (q : LineState), (q = .start ∨ q = .fresh) → (∀ g ∈ gs, Putable g) →
    m.pool = [] → m.sum + (gs.filter isOpening).length ≤ 0 →
    Holds q (run ((gs.map lineClusters).flatten) m) gs.flatten
  | [], m, q, _, _, _, _ => reads_nil
  | g :: gs, m, q, hq, hg, hp, hs => by
    have hall : q.allowsItem = true := by rcases hq with rfl | rfl <;> rfl
    have hput := hg g (by simp)
    have hgs := fun x (hx : x ∈ gs) => hg x (by simp [hx])
    have hhead := head_lines gs
    have hnl : act ['\n'] (gs.map lineClusters).flatten = fun _ => .newline := by
      funext m; exact act_newline hhead
    have hnlnul : (['\n'] : Str) ≠ NUL := by decide
    simp only [List.map_cons, List.flatten_cons]
    by_cases hm : ∃ c ∈ markupChars, g = [c]
    · obtain ⟨c, hc, rfl⟩ := hm
      rw [lineClusters, if_pos ⟨c, hc, rfl⟩]
      simp only [List.cons_append, List.nil_append]
      have hbs : act ['\\'] ([c] :: ['\n'] :: (gs.map lineClusters).flatten) m = .backslash := by
        rw [act, action]; rfl
      rw [run_act (by decide) hbs, run_act hput.1 (act_markup c hc _ _), run_act hnlnul (by rw [hnl])]
      obtain ⟨t, h1, h2, h3, h4, h5⟩ := emit_markup c hc (emit .backslash ['\\'] m).2 (by simp [emit, hp])
      have hsum : (emit .backslash ['\\'] m).2.sum = m.sum := rfl
      rw [hsum] at h5
      generalize hm2 : (emit (markupAction c) [c] (emit .backslash ['\\'] m).2).2 = m2 at h4 h5 ⊢
      have ih := run_lines gs (emit .newline ['\n'] m2).2 .fresh (.inr rfl) hgs (by simp [emit]) (by
        have : (emit .newline ['\n'] m2).2.sum = m2.sum := rfl
        rw [this]
        rw [List.filter_cons] at hs
        by_cases ho : isOpening [c] = true
        · simp only [ho, if_true, List.length_cons] at hs h5
          push_cast at hs; omega
        · simp only [ho] at hs h5
          simp only [Bool.false_eq_true, if_false] at hs h5
          omega)
      rw [h1]
      refine ⟨?_, ?_, ?_⟩
      · have := ih.acc
        simp only [emit, List.cons_append, List.nil_append, List.map_cons, M.single, accepts, hall, h3, if_true,
          Bool.true_and, LineState.newline]
        exact this
      · intro e he
        simp only [emit, List.cons_append, List.nil_append, M.single, trace, h2] at he
        rcases List.mem_cons.mp he with rfl | he
        · rfl
        · rcases List.mem_cons.mp he with rfl | he
          · rfl
          · exact ih.flat e he
      · have := ih.content
        simp only [emit, List.cons_append, List.nil_append, M.single, trace, h2]
        simp only [List.filterMap_cons, Event.content?, List.flatten_cons, List.cons_append, List.nil_append]
        rw [← this]
        rfl
    · rw [lineClusters, if_neg hm]
      simp only [List.cons_append, List.nil_append]
      have hnest : m.nested = false := M.nested_false (by omega)
      have hno : isOpening g = false := by
        simp only [isOpening, Bool.or_eq_false_iff, decide_eq_false_iff_not]
        refine ⟨⟨?_, ?_⟩, ?_⟩ <;> (intro he; exact hm ⟨_, by decide, he⟩)
      have ht : act g (['\n'] :: (gs.map lineClusters).flatten) m = .text := by
        have h1 := cls_special g hm
        rw [act, action_eq, List.headD_cons, cls_lf, hnest]
        refine actionC_line _ _ ⟨h1.1, h1.2.1, h1.2.2.1, h1.2.2.2.1, h1.2.2.2.2.1, h1.2.2.2.2.2.1, h1.2.2.2.2.2.2, ?_⟩
        rw [Ne, cls_nl]; exact hput.2
      rw [run_act hput.1 ht, run_act hnlnul (by rw [hnl])]
      have ih := run_lines gs (emit .newline ['\n'] (emit .text g m).2).2 .fresh (.inr rfl) hgs (by simp [emit]) (by
        have : (emit .newline ['\n'] (emit .text g m).2).2.sum = m.sum := rfl
        rw [this]
        rw [List.filter_cons, hno] at hs
        simpa using hs)
      refine ⟨?_, ?_, ?_⟩
      · have := ih.acc
        simp only [emit, List.cons_append, List.nil_append, List.map_cons, M.single, M.pooled, accepts, hall,
          Bool.true_and, LineState.newline]
        exact this
      · intro e he
        simp only [emit, List.cons_append, List.nil_append, M.single, M.pooled, trace] at he
        rcases List.mem_cons.mp he with rfl | he
        · rfl
        · rcases List.mem_cons.mp he with rfl | he
          · rfl
          · exact ih.flat e he
      · have := ih.content
        simp only [emit, List.cons_append, List.nil_append, M.single, M.pooled, trace]
        simp only [List.filterMap_cons, Event.content?, List.flatten_cons, hp, List.nil_append]
        rw [← this]
        rfl

theorem run_closes (rest : List Str) (text : Str) : ∀ (gs : List Str) (m : M) (q : LineState), (q = .start ∨ q = .fresh) →
    m.pool = [] → m.look = false →
    (∀ m' q', (q' = .start ∨ q' = .fresh) → m'.pool = [] → m'.sum + gs.length = m.sum → Holds q' (run rest m') text) →
    Holds q (run ((gs.map (fun _ => [[']'], ['\n']])).flatten ++ rest) m) text
  | [], m, q, hq, hp, hl, h => h m q hq hp (by simp)
  | g :: gs, m, q, hq, hp, hl, h => by
    have hall : q.allowsClose = true := by rcases hq with rfl | rfl <;> rfl
    simp only [List.map_cons, List.flatten_cons, List.cons_append, List.nil_append]
    generalize hr : (gs.map (fun _ => [[']'], ['\n']])).flatten ++ rest = tail
    have hc : act [']'] (['\n'] :: tail) m = .bclose .square := by
      rw [act, action_eq, List.headD_cons, cls_lf]
      generalize m.look = l
      generalize m.nested = n
      revert l n; decide
    have hn : act ['\n'] tail (emit (.bclose .square) [']'] m).2 = .newline := by
      rw [act, action_eq, cls_lf]
      have : (emit (.bclose .square) [']'] m).2.look = false := by simp [emit, M.addCount, M.adv, hl]
      rw [this]
      exact actionC_nl_calm _ _
    rw [run_act (by decide) hc, run_act (by decide) hn]
    have ih := run_closes rest text gs (emit .newline ['\n'] (emit (.bclose .square) [']'] m).2).2 .fresh (.inr rfl)
      (by simp [emit]) (by simp [emit, M.addCount, M.adv, hl]) (by
        intro m' q' hq' hp' hs'
        refine h m' q' hq' hp' ?_
        simp only [emit, M.sum, M.addCount, M.adv] at hs' ⊢
        simp only [List.length_cons]
        push_cast
        omega)
    rw [hr] at ih
    refine ⟨?_, ?_, ?_⟩
    · have := ih.acc
      simp only [emit, List.cons_append, List.nil_append, List.map_cons, M.single, accepts, hall,
        Bool.true_and, LineState.newline, List.dropWhile_nil]
      exact this
    · intro e he
      simp only [emit, List.cons_append, List.nil_append, M.single, trace, List.dropWhile_nil, List.takeWhile_nil,
        List.map_nil] at he
      rcases List.mem_cons.mp he with rfl | he
      · rfl
      · rcases List.mem_cons.mp he with rfl | he
        · rfl
        · exact ih.flat e he
    · have := ih.content
      simp only [emit, List.cons_append, List.nil_append, M.single, trace, List.dropWhile_nil, List.takeWhile_nil,
        List.map_nil]
      simp only [List.filterMap_cons, Event.content?]
      rw [← this]
      rfl

/-! ### clusters of texts with CR LF only -/

theorem onlyCrLf_clusters (S : Segmenter) {text : Str} (h : OnlyCrLf text) (h0 : Char.ofNat 0 ∉ text) :
    ∀ g ∈ S.graphemes text, Putable g ∧ ∀ x, g ≠ x ++ ['\r'] := by
  intro g hg
  obtain ⟨xs, ys, he⟩ := List.append_of_mem hg
  have hfl := S.flatten text
  rw [he] at hfl
  have hst : Stable S (xs ++ g :: ys) := by
    have := stable_graphemes S text
    rwa [he] at this
  have hright : S.graphemes ((g :: ys).flatten) = g :: ys := hst.right
  have hcr : g ≠ ['\r'] := by
    rintro rfl
    obtain ⟨b', hb⟩ := h.2 xs.flatten ys.flatten (by rw [← hfl]; simp)
    have : ((['\r'] : Str) :: ys).flatten = '\r' :: '\n' :: b' := by simp [hb]
    rw [this, S.crlf] at hright
    cases hright
  refine ⟨⟨?_, ?_⟩, ?_⟩
  · rintro rfl
    apply h0
    rw [← hfl]
    simp [NUL]
  · rintro rfl
    obtain ⟨a', ha⟩ := h.1 xs.flatten ys.flatten (by rw [← hfl]; simp)
    -- the cluster before the line feed ends in a carriage return
    obtain ⟨zs, z, rfl⟩ : ∃ zs z, xs = zs ++ [z] := by
      rcases List.eq_nil_or_concat xs with rfl | ⟨zs, z, rfl⟩
      · simp at ha
      · exact ⟨zs, z, by simp⟩
    have hzne : z ≠ [] := S.nonempty text z (by rw [he]; simp)
    have hzl : z.getLast? = some '\r' := by
      have := congrArg List.getLast? ha
      simp only [List.flatten_append, List.flatten_cons, List.flatten_nil, List.append_nil, List.getLast?_append,
        List.getLast?_singleton, Option.some_or] at this
      rcases hz : z.getLast? with _ | x
      · exact absurd (List.getLast?_eq_none_iff.mp hz) hzne
      · rw [hz] at this; simpa using this
    have hzm : '\r' ∈ z := List.mem_of_getLast? hzl
    have hz := S.cr text z (by rw [he]; simp) hzm
    have hzr : z = ['\r'] := by
      rcases hz with hz | hz
      · exact hz
      · rw [hz] at hzl; simp at hzl
    subst hzr
    have hst2 : Stable S (zs ++ ['\r'] :: ['\n'] :: ys) := by simpa using hst
    have h2 : S.graphemes ((['\r'] :: ['\n'] :: ys : List Str).flatten) = ['\r'] :: ['\n'] :: ys := hst2.right
    have : ((['\r'] :: ['\n'] :: ys : List Str)).flatten = '\r' :: '\n' :: ys.flatten := by simp
    rw [this, S.crlf] at h2
    cases h2
  · intro x hx
    rcases S.cr text g hg (by rw [hx]; simp) with h1 | h1
    · exact hcr h1
    · rw [h1] at hx
      have := congrArg List.getLast? hx
      simp at this

theorem OnlyCrLf.nil : OnlyCrLf [] := ⟨by intro a b h; simp at h, by intro a b h; simp at h⟩

theorem OnlyCrLf.cons {c : Char} {s : Str} (h1 : c ≠ '\r' ∧ c ≠ '\n') (h : OnlyCrLf s) : OnlyCrLf (c :: s) := by
  refine ⟨?_, ?_⟩
  · intro a b he
    rcases a with _ | ⟨x, a⟩
    · simp only [List.nil_append, List.cons.injEq] at he; exact absurd he.1 h1.2
    · simp only [List.cons_append, List.cons.injEq] at he
      obtain ⟨a', ha⟩ := h.1 a b he.2
      exact ⟨x :: a', by rw [ha]; rfl⟩
  · intro a b he
    rcases a with _ | ⟨x, a⟩
    · simp only [List.nil_append, List.cons.injEq] at he; exact absurd he.1 h1.1
    · simp only [List.cons_append, List.cons.injEq] at he
      exact h.2 a b he.2

theorem OnlyCrLf.crlf {s : Str} (h : OnlyCrLf s) : OnlyCrLf ('\r' :: '\n' :: s) := by
  refine ⟨?_, ?_⟩
  · intro a b he
    rcases a with _ | ⟨x, _ | ⟨y, a⟩⟩
    · simp at he
    · simp only [List.cons_append, List.cons.injEq] at he; exact ⟨[], by rw [← he.1]; rfl⟩
    · simp only [List.cons_append, List.cons.injEq] at he
      obtain ⟨a', ha⟩ := h.1 a b he.2.2
      exact ⟨x :: y :: a', by rw [ha]; rfl⟩
  · intro a b he
    rcases a with _ | ⟨x, _ | ⟨y, a⟩⟩
    · simp only [List.nil_append, List.cons.injEq] at he; exact ⟨s, he.2.symm⟩
    · simp at he
    · simp only [List.cons_append, List.cons.injEq] at he
      exact h.2 a b he.2.2

/-- The tokens of the document for a text. -/
theorem onePerLine_reads (S : Segmenter) {text : Str} (h : OnlyCrLf text) (h0 : Char.ofNat 0 ∉ text) :
    Holds .start (run (S.graphemes (onePerLine S text)) M.init) text := by
  have hcl := onlyCrLf_clusters S h h0
  unfold onePerLine
  rw [graphemes_closes, graphemes_lines S _ (fun g hg => ⟨graphemes_single S hg, (hcl g hg).2⟩)]
  refine run_closes _ _ _ _ _ (.inl rfl) rfl rfl ?_
  intro m' q' hq hp hs
  have := run_lines (S.graphemes text) m' q' hq (fun g hg => (hcl g hg).1) hp (by
    have h1 : M.init.sum = 0 := rfl
    omega)
  rwa [S.flatten] at this

/-! ### what cannot be in the output -/

theorem Tame.nil : Tame [] := ⟨by intro a b h; simp at h, by simp⟩

theorem Tame.append {s t : Str} (hs : Tame s) (ht : Tame t) : Tame (s ++ t) := by
  refine ⟨?_, by simp [hs.2, ht.2]⟩
  intro a b h
  rcases List.append_eq_append_iff.mp h with ⟨x, h1, h2⟩ | ⟨x, h1, h2⟩
  · obtain ⟨a', ha⟩ := ht.1 x b h2
    exact ⟨s ++ a', by rw [h1, ha]; simp⟩
  · rcases x with _ | ⟨y, x⟩
    · simp only [List.nil_append] at h2
      obtain ⟨a', ha⟩ := ht.1 [] b h2.symm
      simp at ha
    · simp only [List.cons_append, List.cons.injEq] at h2
      obtain ⟨rfl, rfl⟩ := h2
      exact hs.1 a x h1

theorem Tame.flatten {ss : List Str} (h : ∀ s ∈ ss, Tame s) : Tame ss.flatten := by
  induction ss with
  | nil => exact .nil
  | cons s ss ih => exact (h s (by simp)).append (ih (fun x hx => h x (by simp [hx])))

theorem Tame.cluster (S : Segmenter) {text g : Str} (h : g ∈ S.graphemes text) (h1 : g ≠ NUL) (h2 : g ≠ ['\n']) :
    Tame g := by
  refine ⟨?_, fun hn => h1 (S.nul text g h hn)⟩
  intro a b he
  rcases S.lf text g h (by rw [he]; simp) with hg | hg
  · exact absurd hg h2
  · rw [hg] at he
    rcases a with _ | ⟨x, _ | ⟨y, a⟩⟩
    · simp at he
    · simp at he; exact ⟨[], by rw [he.1]; rfl⟩
    · simp at he

theorem actionC_text_nl (c d : Cl) (look nested : Bool) (h : actionC c d look nested = .text ∨ actionC c d look nested = .pool) :
    c ≠ .nl := by
  revert c d look nested; decide

theorem run_tame : ∀ (gs : List Str) (m : M), (∀ g ∈ gs, g ≠ NUL → g ≠ ['\n'] → Tame g) → Tame m.pool →
    ∀ t ∈ run gs m, ∀ v, t.kind = .text v → Tame v
  | [], m, _, _, t, ht, v, hv => by simp [run, M.eof] at ht; subst ht; cases hv
  | g :: gs, m, hg, hp, t, ht, v, hv => by
    by_cases hn : g = NUL
    · simp [run, hn, M.eof] at ht; subst ht; cases hv
    · have hact : act g gs m = .text ∨ act g gs m = .pool → Tame g := by
        intro ha
        rw [act, action_eq] at ha
        have := actionC_text_nl _ _ _ _ ha
        rw [Ne, cls_nl] at this
        exact hg g (by simp) hn this
      simp only [run, hn, if_false, List.mem_append] at ht
      rcases ht with ht | ht
      · rcases emit_kind _ _ _ _ ht with ⟨ha, h⟩ | ⟨_, h⟩ | ⟨_, h⟩ | ⟨k, h1, h⟩
        · rw [h] at hv
          simp only [M.pooled, TokKind.text.injEq] at hv
          rw [← hv]
          exact hp.append (hact (.inl ha))
        · rw [h] at hv; cases hv
        · rw [h] at hv; cases hv
        · rw [h] at hv
          simp only [M.single] at hv
          subst hv
          exfalso
          revert h1
          generalize act g gs m = a
          intro h1
          rcases a <;> simp [Action.single] at h1
      · refine run_tame gs _ (fun x hx => hg x (by simp [hx])) ?_ t ht v hv
        rw [emit_pool]
        split
        · next ha => exact hp.append (hact (.inr ha))
        · split
          · exact hp
          · exact .nil

/-- Plain tokens are tokens. -/
theorem trace_plain_mem (n : Nat) : ∀ (ts st : List Token), ts.length ≤ n → ∀ st' t, Event.plain st' t ∈ trace st ts → t ∈ ts := by
  induction n with
  | zero =>
    intro ts st hl st' t h
    rcases ts with _ | _
    · simp [trace] at h
    · simp at hl
  | succ n ih =>
    intro ts st hl st' t h
    rcases ts with _ | ⟨u, ts⟩
    · simp [trace] at h
    · simp only [List.length_cons] at hl
      have ih' := fun st => ih ts st (by omega) st' t
      rw [trace.eq_def] at h
      obtain ⟨k, lc⟩ := u
      rcases k
      case bclose b =>
        simp only [List.mem_append, List.mem_map] at h
        rcases h with ⟨_, _, h⟩ | h
        · cases h
        · split at h
          · rcases List.mem_cons.mp h with h | h
            · cases h
            · exact List.mem_cons_of_mem _ (ih' _ h)
          · rcases List.mem_cons.mp h with h | h
            · cases h
            · exact List.mem_cons_of_mem _ (ih' _ h)
      case backSlash =>
        rcases ts with _ | ⟨w, ws⟩
        · simp at h
        · simp only [List.length_cons] at hl
          simp only at h
          split at h
          · rcases List.mem_cons.mp h with h | h
            · cases h
            · exact List.mem_cons_of_mem _ (List.mem_cons_of_mem _ (ih ws _ (by omega) st' t h))
          · rcases List.mem_cons.mp h with h | h
            · cases h
            · exact List.mem_cons_of_mem _ (ih' _ h)
      case bopen b => exact List.mem_cons_of_mem _ (ih' _ h)
      case eof => simp at h
      case empty => simp at h
      all_goals
        simp only at h
        rcases List.mem_cons.mp h with h | h
        · cases h; simp
        · exact List.mem_cons_of_mem _ (ih' _ h)

/-- Escaped characters are those of the table. -/
theorem trace_escape_mem (n : Nat) : ∀ (ts st : List Token), ts.length ≤ n → ∀ st' b c t, Event.escape st' b c t ∈ trace st ts →
    escapedChar t.kind = some c ∧ t ∈ ts := by
  induction n with
  | zero =>
    intro ts st hl st' b c t h
    rcases ts with _ | _
    · simp [trace] at h
    · simp at hl
  | succ n ih =>
    intro ts st hl st' b c t h
    rcases ts with _ | ⟨u, ts⟩
    · simp [trace] at h
    · simp only [List.length_cons] at hl
      have ih' := fun st => ih ts st (by omega) st' b c t
      rw [trace.eq_def] at h
      obtain ⟨k, lc⟩ := u
      rcases k
      case bclose b =>
        simp only [List.mem_append, List.mem_map] at h
        rcases h with ⟨_, _, h⟩ | h
        · cases h
        · split at h
          · rcases List.mem_cons.mp h with h | h
            · cases h
            · exact (ih' _ h).imp id (List.mem_cons_of_mem _)
          · rcases List.mem_cons.mp h with h | h
            · cases h
            · exact (ih' _ h).imp id (List.mem_cons_of_mem _)
      case backSlash =>
        rcases ts with _ | ⟨w, ws⟩
        · simp at h
        · simp only [List.length_cons] at hl
          simp only at h
          split at h
          · next hc =>
            rcases List.mem_cons.mp h with h | h
            · cases h; exact ⟨hc, by simp⟩
            · have := ih ws _ (by omega) st' b c t h
              exact ⟨this.1, List.mem_cons_of_mem _ (List.mem_cons_of_mem _ this.2)⟩
          · rcases List.mem_cons.mp h with h | h
            · cases h
            · exact (ih' _ h).imp id (List.mem_cons_of_mem _)
      case bopen b => exact (ih' _ h).imp id (List.mem_cons_of_mem _)
      case eof => simp at h
      case empty => simp at h
      all_goals
        simp only at h
        rcases List.mem_cons.mp h with h | h
        · cases h
        · exact (ih' _ h).imp id (List.mem_cons_of_mem _)

theorem escapedChar_tame {k : TokKind} {c : Char} (h : escapedChar k = some c) : Tame [c] := by
  unfold escapedChar at h
  rw [Option.map_eq_some_iff] at h
  obtain ⟨p, hp, rfl⟩ := h
  have hm := List.mem_of_find?_eq_some hp
  have : ∀ p ∈ escapes, p.1 ≠ '\n' ∧ p.1 ≠ Char.ofNat 0 := by decide
  have hne := this p hm
  refine ⟨?_, by simpa using hne.2.symm⟩
  intro a b he
  have : '\n' ∈ [p.1] := by rw [he]; simp
  simp at this
  exact absurd this.symm hne.1

variable {W : Wasm}

theorem bare_tame (S : Segmenter) {ids : Nat → Str} {checks : Bool} {ps ps' : Plugins W} (h : NoHooks ps)
    (hps : ps.nameToPlugin = []) {text out : Str} (hc : compileText S ids checks text ps = (.ok out, ps')) : Tame out := by
  obtain ⟨ts, c, a, es, h1, h2, h3, rfl, hk⟩ := compile_bare h hps hc
  rw [tokenizeStr_eq] at h1
  injection h1 with h1
  have hcont := C22_content ts c ids a es h2 h3
  apply Tame.flatten
  intro s hs
  obtain ⟨x, hx, hv⟩ := List.mem_filterMap.mp hs
  have hkind := hk x hx
  rw [hcont] at hx
  obtain ⟨e, he, hec⟩ := List.mem_filterMap.mp hx
  rcases e with ⟨st, k, lc⟩ | ⟨st, bs, ch, t⟩ | _ | _ | _ | _
  · have hmem := trace_plain_mem ts.length ts [] (Nat.le_refl _) _ _ he
    rcases k <;> simp [Event.content?] at hec <;> subst hec <;> simp at hkind hv
    subst hv
    refine run_tame (S.graphemes text) M.init (fun g hg hn hl => .cluster S hg hn hl) .nil _ (by rw [h1]; exact hmem) _ rfl
  · simp [Event.content?] at hec
    subst hec
    simp at hv
    subst hv
    exact escapedChar_tame (trace_escape_mem ts.length ts [] (Nat.le_refl _) _ _ _ _ he).1
  all_goals
    simp [Event.content?] at hec
  subst hec
  simp at hkind

end Brack
