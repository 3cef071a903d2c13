import Verif.Props.Parser
import Verif.Proof.TransOnce
import Verif.Proof.WrittenTok

/-
Exactly which expression and bracket nodes end where their last token ends (C16).
-/

namespace Brack

/-- Where a token stands, relative to the token before it. -/
theorem tiles_adjacent (S : Segmenter) : ∀ (pre : List Token) (t u : Token) (post : List Token) (p : Pos),
    Tiles S p (pre ++ t :: u :: post) →
    u.loc.stop = ⟨u.loc.start.line, u.loc.start.character + (S.graphemes u.kind.spelling).length⟩ ∧
    u.loc.start = if t.kind = .newLine then ⟨t.loc.stop.line + 1, 0⟩ else t.loc.stop
  | [], t, u, post, p, h => by
    obtain ⟨h1, h2, h3, h4, -⟩ := h
    rw [h3]
    refine ⟨h4, ?_⟩
    rw [h2]
  | x :: pre, t, u, post, p, h => tiles_adjacent S pre t u post _ h.2.2

/-- Of two neighbouring tokens of a text the second does not end where the first ends, unless it is
the end of the text and the first is not a line break. -/
theorem adjacent_stop (S : Segmenter) (text : Str) (ts pre : List Token) (t u : Token) (post : List Token)
    (h : tokenizeStr S text = .ok ts) (he : ts = pre ++ t :: u :: post) :
    u.loc.stop = t.loc.stop ↔ u.kind = .eof ∧ t.kind ≠ .newLine := by
  rw [tokenizeStr_eq] at h
  injection h with h
  have ht : Tiles S ⟨0, 0⟩ ts := by rw [← h]; exact tokens_tile S text
  rw [he] at ht
  obtain ⟨h1, h2⟩ := tiles_adjacent S pre t u post _ ht
  have hs : u.kind ≠ .eof → 0 < (S.graphemes u.kind.spelling).length := fun hk =>
    List.length_pos_iff.mpr (graphemes_ne_nil
      (run_spelling (S.graphemes text) (S.nonempty text) M.init u (by rw [h, he]; simp) hk))
  rw [h1, h2]
  by_cases hn : t.kind = .newLine
  · rw [if_pos hn]
    refine ⟨fun e => ?_, fun e => absurd hn e.2⟩
    have := congrArg Pos.line e
    simp at this
  · rw [if_neg hn]
    refine ⟨fun e => ⟨?_, hn⟩, fun e => ?_⟩
    · rcases Decidable.em (u.kind = .eof) with hk | hk
      · exact hk
      · have := congrArg Pos.character e
        have := hs hk
        simp only at *
        omega
    · rw [e.1]
      simp [TokKind.spelling, graphemes_nil]

/-- C16: exactly which expressions and brackets of a text end where their last token ends. Those
that end in an escape never do. Those that end in an unclosed bracket do only at the end of the text,
and not if their last token is a line break. All others do. -/
theorem C16_exact (S : Segmenter) (text : Str) (ts : List Token) (c : CST)
    (ht : tokenizeStr S text = .ok ts) (h : parse ts = .ok c) (n : CST) (hn : CST.NodeOf n c)
    (hk : (∃ cs l, n = .node .expr cs l) ∨ (∃ b cs l, n = .node (.bracket b) cs l)) :
    ∃ pre post, ts = pre ++ n.tokens ++ post ∧
      ((∃ t ∈ n.tokens.getLast?, n.loc.stop = t.loc.stop) ↔
        n.endsEscaped = false ∧
        (n.endsUnclosed = true → (∃ u ∈ post.head?, u.kind = .eof) ∧
          ∀ t ∈ n.tokens.getLast?, t.kind ≠ .newLine)) := by
  obtain ⟨rest, hP⟩ := parse_ok h
  obtain ⟨pre, post, e, hg⟩ := hP.nodes_good c (by simp) n hn
    (by rcases hk with ⟨cs, l, rfl⟩ | ⟨b, cs, l, rfl⟩ <;> simp [isRanged])
  refine ⟨pre, post, e, ?_⟩
  have hesc : (∃ t ∈ n.tokens.getLast?, n.loc.stop = t.loc.stop) → n.endsEscaped = false := by
    rintro ⟨x, hx, hxs⟩
    rcases hc : n.endsEscaped with _ | _
    · rfl
    · exfalso
      obtain ⟨init, t, u, hi, _, hu, hs⟩ := hg.escaped hc
      rw [hi] at hx e
      simp only [List.getLast?_append, List.getLast?_cons_cons, List.getLast?_singleton,
        Option.some_or, Option.mem_def, Option.some.injEq] at hx
      subst hx
      have := (adjacent_stop S text ts (pre ++ init) t u post ht (by rw [e]; simp)).mp
        (hxs.symm.trans hs)
      exact hu this.1
  have hopen : n.endsUnclosed = true → ∀ t ∈ n.tokens.getLast?, ∃ u ∈ post.head?,
      (n.loc.stop = t.loc.stop ↔ u.kind = .eof ∧ t.kind ≠ .newLine) := by
    intro ho t htl
    obtain ⟨u, hu, hs⟩ := hg.opened ho
    refine ⟨u, hu, ?_⟩
    obtain ⟨init, hi⟩ := List.getLast?_eq_some_iff.mp htl
    obtain ⟨post', hp⟩ := List.head?_eq_some_iff.mp hu
    rw [hs]
    exact adjacent_stop S text ts (pre ++ init) t u post' ht (by rw [e, hi, hp]; simp)
  constructor
  · intro hl
    refine ⟨hesc hl, fun ho => ?_⟩
    obtain ⟨t, htl, hts⟩ := hl
    obtain ⟨u, hu, hiff⟩ := hopen ho t htl
    refine ⟨⟨u, hu, (hiff.mp hts).1⟩, fun x hx => ?_⟩
    rw [Option.mem_def] at htl hx
    rw [htl] at hx
    injection hx with hx
    exact hx ▸ (hiff.mp hts).2
  · rintro ⟨hne, ho⟩
    rcases hg.kinds with hc | hc | hc
    · exact hg.stop hc
    · rw [hne] at hc; cases hc
    · obtain ⟨⟨u, hu, hue⟩, hnl⟩ := ho hc
      obtain ⟨t, htl⟩ : ∃ t, n.tokens.getLast? = some t :=
        ⟨_, List.getLast?_eq_some_getLast (tokens_ne_nil_of_good hg)⟩
      obtain ⟨u', hu', hiff⟩ := hopen hc t htl
      rw [Option.mem_def] at hu hu'
      rw [hu] at hu'
      injection hu' with hu'
      exact ⟨t, htl, hiff.mpr ⟨hu' ▸ hue, hnl t htl⟩⟩

/-- The criterion decides both ways: in `a\]` the expression ends in an escape; in `[a` it ends in an
unclosed bracket at the end of the text. -/
example (S : Segmenter) : ∃ ts c n, tokenizeStr S (chars! "a\\]") = .ok ts ∧ parse ts = .ok c ∧
    CST.NodeOf n c ∧ (∃ cs l, n = .node .expr cs l) ∧ n.endsEscaped = true ∧
    n.tokens.getLast?.map (·.loc.stop) = some ⟨0, 3⟩ ∧ n.loc.stop = ⟨0, 2⟩ :=
  ⟨_, _, _, tokenize_ascii S _ (by decide), rfl,
    .child List.mem_cons_self (.child List.mem_cons_self .self), ⟨_, _, rfl⟩, rfl, rfl, rfl⟩

example (S : Segmenter) : ∃ ts c n, tokenizeStr S (chars! "[a") = .ok ts ∧ parse ts = .ok c ∧
    CST.NodeOf n c ∧ (∃ cs l, n = .node .expr cs l) ∧ n.endsUnclosed = true ∧
    n.tokens.getLast?.map (·.loc.stop) = some ⟨0, 2⟩ ∧ n.loc.stop = ⟨0, 2⟩ :=
  ⟨_, _, _, tokenize_ascii S _ (by decide), rfl,
    .child List.mem_cons_self (.child List.mem_cons_self .self), ⟨_, _, rfl⟩, rfl, rfl, rfl⟩

end Brack
