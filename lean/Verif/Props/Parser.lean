import Verif.Proof.ParserAccept
import Verif.Proof.ParserLoc
import Verif.Proof.TokReach
import Verif.Proof.Uax29
import Verif.Proof.Merge

/-
Properties of `parse` and `merge_location` (C09–C13, C15, C16).
-/

namespace Brack

open UTable (sampleSeg)

/-- Tokens of a text, all at the mock location, for concrete cases. -/
def toks (ks : List TokKind) : List Token := ks.map (⟨·, mockLocation⟩)

/-- C09: the leaves of the tree are the tokens (up to and including the first EOF, if tokens follow
it), locations included. -/
theorem C09_keeps_tokens (ts : List Token) (c : CST) (h : parse ts = .ok c) :
    ∃ rest, ts = c.tokens ++ rest := by
  obtain ⟨rest, hP⟩ := parse_ok h
  exact ⟨rest, hP.tokens⟩

/-- C09: when EOF is the last token and the only EOF, the leaves are exactly the token list. -/
theorem C09_keeps_all_tokens (body : List Token) (eof : Token) (hb : ∀ t ∈ body, t.kind ≠ .eof)
    (c : CST) (h : parse (body ++ [eof]) = .ok c) : c.tokens = body ++ [eof] := by
  obtain ⟨rest, hP⟩ := parse_ok h
  have ht := hP.tokens
  have heof : ∃ init e, c.tokens = init ++ [e] ∧ e.kind = .eof := by
    cases hP with
    | @mk cs _ cs2 _ ns t _ hD hO hN he =>
      obtain ⟨l, hl⟩ := foldl_add_new .document (cs ++ cs2 ++ ns ++ [CST.leaf .eof t.loc])
      rw [hl]
      refine ⟨CST.tokensL (cs ++ cs2 ++ ns), t, ?_, he⟩
      simp [CST.tokens, tokensL_append, CST.tokensL, LKind.tokKind, tok_eta he]
  obtain ⟨init, e, hi, he⟩ := heof
  rcases List.eq_nil_or_concat rest with rfl | ⟨rest', x, rfl⟩
  · simpa using ht.symm
  · exfalso
    rw [hi, List.concat_eq_append, ← List.append_assoc] at ht
    have := List.append_inj_left' ht rfl
    exact hb e (by rw [this]; simp) he

/-- The tokens of `[a.b \] c]` and EOF are accepted. -/
example : ∃ c, parse (toks [.bopen .square, .module ['a'], .dot, .ident ['b'], .whiteSpace,
    .backSlash, .bclose .square, .whiteSpace, .text ['c'], .bclose .square, .eof]) = .ok c ∧
    c.tokens.length = 11 := ⟨_, rfl, rfl⟩

/-- C10: on a token list containing EOF the parser returns Ok or Err, it does not panic. (Being a
total function it also terminates; the fuel of the model is never exhausted, since exhaustion is a
panic.) -/
theorem C10_no_panic (ts : List Token) (he : ∃ t ∈ ts, t.kind = .eof) : parse ts ≠ .panic := by
  rcases parse_spec (.inl he) with ⟨c, rest, h, _⟩ | ⟨m, _, _, _, _, _, _, h, _⟩ <;> rw [h] <;> simp

/-- C10 for tokenizer output. -/
theorem C10_no_panic_text (S : Segmenter) (text : Str) (ts : List Token)
    (h : tokenizeStr S text = .ok ts) : parse ts ≠ .panic := by
  obtain ⟨body, eof, h1, h2, _⟩ := run_shape (S.graphemes text) M.init
  rw [tokenizeStr_eq, h1] at h
  injection h with h
  exact C10_no_panic ts ⟨eof, by rw [← h]; simp, h2⟩

/-- C10: without EOF a panic is possible only if the last token is a backslash. -/
theorem C10_panic_only_backslash (ts : List Token) (h : parse ts = .panic) :
    ∃ pre t, ts = pre ++ [t] ∧ t.kind = .backSlash := by
  refine Classical.byContradiction fun hn => ?_
  rcases parse_spec (.inr hn : Safe ts) with ⟨c, rest, h', _⟩ | ⟨m, _, _, _, _, _, _, h', _⟩ <;>
    rw [h] at h' <;> cases h'

/-- Such a panic does occur. -/
example : parse (toks [.text ['a'], .backSlash]) = .panic := rfl

example : ∃ t ∈ toks [.bopen .angle, .eof], t.kind = .eof := ⟨⟨.eof, mockLocation⟩, by simp [toks], rfl⟩

/-- C11: the parser accepts exactly the lists accepted by the left-to-right scan `accepts`. -/
theorem C11_accepts_iff (ts : List Token) :
    (∃ c, parse ts = .ok c) ↔ accepts [] .start (ts.map (·.kind)) = true :=
  parse_iff_accepts ts

/-- C11: every accepted list (EOF being its last and only EOF token) is derivable from the published
grammar. -/
theorem C11_sound (body : List Token) (eof : Token) (hb : ∀ t ∈ body, t.kind ≠ .eof) (c : CST)
    (h : parse (body ++ [eof]) = .ok c) : Derivable (body ++ [eof]) := by
  obtain ⟨rest, hP⟩ := parse_ok h
  exact ⟨c, hP.grammar, C09_keeps_all_tokens body eof hb c h⟩

/-- C11: the converse is false, read literally the published grammar is ambiguous and larger than
the accepted language: `[a`, newline, `>` is derivable (an unclosed bracket, a line with a stray
closing bracket) but rejected. -/
theorem C11_grammar_refuted : ∃ ts, Derivable ts ∧ ∀ c, parse ts ≠ .ok c := by
  refine ⟨toks [.bopen .square, .text ['a'], .newLine, .bclose .angle, .eof], ?_, ?_⟩
  · refine ⟨.node .document [.node .stmt [.node .expr [.node (.bracket .square)
      [.leaf (.bopen .square) mockLocation, .node .expr [.leaf (.text ['a']) mockLocation] mockLocation]
      mockLocation] mockLocation, .leaf .newline mockLocation,
      .leaf (.bclose .angle) mockLocation] mockLocation, .leaf .eof mockLocation] mockLocation,
      ?_, rfl⟩
    refine .mk (.last (nls := []) (.mk (.more (.expr (by simp) ?_) (.one .close))) (by simp [GNewlines]))
    simp only [List.mem_singleton, forall_eq]
    refine .unclosed (.expr (by simp) ?_ .nil)
    simp only [List.mem_singleton, forall_eq]
    exact .leaf rfl
  · intro c h
    have := (C11_accepts_iff _).mp ⟨c, h⟩
    exact absurd this (by decide)

example : accepts [] .start [.bopen .curly, .bopen .square, .text ['a'], .bclose .curly, .newLine,
    .bclose .angle, .newLine, .newLine, .text ['b'], .newLine, .eof] = true := by decide

/-- C12: the tree follows the published concrete grammar. -/
theorem C12_grammar (ts : List Token) (c : CST) (h : parse ts = .ok c) : GDocument c := by
  obtain ⟨rest, hP⟩ := parse_ok h
  exact hP.grammar

example : ∃ c, parse (toks [.bopen .curly, .bopen .square, .text ['a'], .bclose .curly, .newLine,
    .bclose .angle, .newLine, .newLine, .text ['b'], .newLine, .eof]) = .ok c ∧
    c.children.length = 6 := ⟨_, rfl, rfl⟩

/-- C13 (partial): a text without closing bracket characters that does not start with a line feed is
parsed. Missing: texts with closing brackets or a leading blank line, some of which are rejected
(`C13_refuted`); `C11_accepts_iff` says which. -/
theorem C13_parses_partial (S : Segmenter) (text : Str) (hclose : ∀ c ∈ closeChars, c ∉ text)
    (hnl : text.head? ≠ some '\n') : ∃ ts c, tokenizeStr S text = .ok ts ∧ parse ts = .ok c := by
  obtain ⟨body, eof, h1, h2, h3⟩ := run_shape (S.graphemes text) M.init
  have hsp := tokens_spell S text
  have htok : tokenizeStr S text = .ok (body ++ [eof]) := by rw [tokenizeStr_eq, h1]
  rw [h1] at hsp
  have hmem : ∀ t ∈ body ++ [eof], ∀ c ∈ t.kind.spelling, c ∈ text := by
    intro t ht c hc
    have : c ∈ spell (body ++ [eof]) := List.mem_flatMap.mpr ⟨t, ht, hc⟩
    rw [hsp] at this
    exact List.takeWhile_subset _ this
  refine ⟨body ++ [eof], ?_⟩
  have hacc : accepts [] .start ((body ++ [eof]).map (·.kind)) = true := by
    refine accepts_no_close_start _ ?_ ?_ ?_ ?_
    · intro b hb
      obtain ⟨t, ht, hk⟩ := List.mem_map.mp hb
      have := hmem t ht b.closeChar (by rw [hk]; simp [TokKind.spelling])
      exact hclose _ (by cases b <;> decide) this
    · intro hE
      obtain ⟨t, ht, hk⟩ := List.mem_map.mp hE
      rcases List.mem_append.mp ht with ht | ht
      · exact (h3 t ht).2 hk
      · simp only [List.mem_singleton] at ht
        subst ht; rw [h2] at hk; cases hk
    · simp [h2]
    · intro hh
      rcases body with _ | ⟨t, body⟩
      · simp [h2] at hh
      · simp only [List.cons_append, List.map_cons, List.head?_cons, Option.some.injEq] at hh
        rw [List.cons_append, spell, List.flatMap_cons, hh] at hsp
        simp only [TokKind.spelling] at hsp
        rcases text with _ | ⟨x, xs⟩
        · simp at hsp
        · rw [List.takeWhile_cons] at hsp
          split at hsp
          · simp only [List.cons_append, List.nil_append, List.cons.injEq] at hsp
            exact hnl (by simp [← hsp.1])
          · simp at hsp
  obtain ⟨c, hc⟩ := (C11_accepts_iff _).mpr hacc
  exact ⟨c, htok, hc⟩

example : (∀ c ∈ closeChars, c ∉ chars! "[a.b \\c\n\nd {e") ∧
    (chars! "[a.b \\c\n\nd {e").head? ≠ some '\n' := by decide

/-- C13 is false: `a]b` is not parsed (whatever the segmenter). -/
theorem C13_refuted (S : Segmenter) : ∃ text ts, tokenizeStr S text = .ok ts ∧ (parse ts).isErr := by
  refine ⟨chars! "a]b", _, tokenize_ascii S _ (by decide), ?_⟩
  decide

/-- C13 is false: a leading blank line makes any further content unparsable. -/
theorem C13_leading_newline_refuted (S : Segmenter) :
    ∃ ts, tokenizeStr S (chars! "\nHello") = .ok ts ∧ (parse ts).isErr :=
  ⟨_, tokenize_ascii S _ (by decide), by decide⟩

/-- C15 (partial): the start of a merged range is the earlier of the two starts. -/
theorem C15_merge_start_partial (a b : Loc) :
    (mergeLocation a b).start.le a.start ∧ (mergeLocation a b).start.le b.start ∧
      ((mergeLocation a b).start = a.start ∨ (mergeLocation a b).start = b.start) :=
  merge_start_facts a b

/-- C15, exactly when it holds: the merged range covers both ranges iff, when they end on the same
line, the line number and the columns happen to agree (the code compares the line number with a
column). In that case it is also the smallest covering range: each bound is one of the given ones. -/
theorem C15_merge_covers_iff (a b : Loc) :
    ((mergeLocation a b).covers a ∧ (mergeLocation a b).covers b) ↔
      (a.stop.line = b.stop.line →
        if b.stop.character < a.stop.line then b.stop.character ≤ a.stop.character
        else a.stop.character ≤ b.stop.character) := by
  have hs := C15_merge_start_partial a b
  simp only [Loc.covers, hs.1, hs.2.1, true_and]
  obtain ⟨as, ⟨al, ac⟩⟩ := a
  obtain ⟨bs, ⟨bl, bc⟩⟩ := b
  simp only [mergeLocation, Pos.le]
  rcases Nat.lt_trichotomy al bl with h | h | h
  · simp [Nat.compare_eq_lt.mpr h]; omega
  · subst h
    rcases Nat.lt_trichotomy al bc with h | h | h
    · simp [Nat.compare_eq_lt.mpr h]; omega
    · simp [h]
    · simp [Nat.compare_eq_gt.mpr h]; omega
  · simp [Nat.compare_eq_gt.mpr h]; omega

/-- C15: the end of a merged range is one of the two ends. -/
theorem C15_merge_stop (a b : Loc) :
    (mergeLocation a b).stop = a.stop ∨ (mergeLocation a b).stop = b.stop :=
  merge_stop_facts a b

/-- C15 is false: merging 0:0–0:5 with 0:1–0:3 gives 0:0–0:3. -/
theorem C15_refuted : ∃ a b : Loc, ¬ (mergeLocation a b).covers a :=
  ⟨⟨⟨0, 0⟩, ⟨0, 5⟩⟩, ⟨⟨0, 1⟩, ⟨0, 3⟩⟩, by simp [mergeLocation, Loc.covers, Pos.le, compare, compareOfLessAndEq]⟩

/-- Both directions of the equivalence occur. -/
example : (mergeLocation ⟨⟨1, 0⟩, ⟨1, 5⟩⟩ ⟨⟨2, 1⟩, ⟨2, 3⟩⟩).covers ⟨⟨2, 1⟩, ⟨2, 3⟩⟩ := by
  simp [mergeLocation, Loc.covers, Pos.le, compare, compareOfLessAndEq]

/-- C16 (partial): the range of every expression and bracket node starts where its first token
starts; it ends where its last token ends if the node ends in a token of its own (a leaf, a closed
bracket, ...); an unclosed bracket ends where the token following it ends. Missing: expressions
ending in an escape or in an unclosed bracket, and statements, for which the claim is false
(`C16_refuted`, `C16_stmt_refuted`). -/
theorem C16_node_ranges_partial (ts : List Token) (c : CST) (h : parse ts = .ok c) (n : CST)
    (hn : CST.NodeOf n c)
    (hk : (∃ cs l, n = .node .expr cs l) ∨ (∃ b cs l, n = .node (.bracket b) cs l)) :
    ∃ pre post, ts = pre ++ n.tokens ++ post ∧
      (∃ t ∈ n.tokens.head?, n.loc.start = t.loc.start) ∧
      (n.endsClean = true → ∃ t ∈ n.tokens.getLast?, n.loc.stop = t.loc.stop) ∧
      ((∃ b cs l, n = .node (.bracket b) cs l) → n.isClosed = false →
        ∃ t ∈ post.head?, n.loc.stop = t.loc.stop) := by
  obtain ⟨rest, hP⟩ := parse_ok h
  obtain ⟨pre, post, e, hg⟩ := hP.nodes_good c (by simp) n hn
    (by rcases hk with ⟨cs, l, rfl⟩ | ⟨b, cs, l, rfl⟩ <;> simp [isRanged])
  refine ⟨pre, post, e, hg.start, hg.stop, ?_⟩
  rintro ⟨b, cs, l, hb⟩ hc
  exact hg.unclosed b cs l hb hc

/-- C16 is false: the expression `\]` (tokens at 0:0–0:1 and 0:1–0:2) ends before its last token. -/
theorem C16_refuted : ∃ ts c n t, parse ts = .ok c ∧ CST.NodeOf n c ∧
    (∃ cs l, n = .node .expr cs l) ∧ n.tokens.getLast? = some t ∧ n.loc.stop ≠ t.loc.stop := by
  refine ⟨[⟨.backSlash, ⟨⟨0, 0⟩, ⟨0, 1⟩⟩⟩, ⟨.bclose .square, ⟨⟨0, 1⟩, ⟨0, 2⟩⟩⟩,
    ⟨.eof, ⟨⟨0, 2⟩, ⟨0, 2⟩⟩⟩], _,
    .node .expr [.node .backSlash [.leaf (.text [']']) ⟨⟨0, 1⟩, ⟨0, 2⟩⟩] ⟨⟨0, 0⟩, ⟨0, 1⟩⟩]
      ⟨⟨0, 0⟩, ⟨0, 1⟩⟩, _, rfl, ?_, ⟨_, _, rfl⟩, rfl, ?_⟩
  · exact .child List.mem_cons_self (.child List.mem_cons_self .self)
  · decide

/-- C16 for statements: every statement starts at 0:0, wherever it stands. -/
theorem C16_stmt_start (ts : List Token) (c : CST) (h : parse ts = .ok c) (n : CST)
    (hn : CST.NodeOf n c) (cs : List CST) (l : Loc) (hs : n = .node .stmt cs l) :
    n.loc.start = ⟨0, 0⟩ := by
  obtain ⟨rest, hP⟩ := parse_ok h
  exact hP.stmtStart c (by simp) n hn cs l hs

/-- C16 is false for statements: the statement `b` of `a`, blank line, `b` does not start where its
first token starts. -/
theorem C16_stmt_refuted (S : Segmenter) : ∃ ts c n t cs l, tokenizeStr S (chars! "a\n\nb") = .ok ts ∧
    parse ts = .ok c ∧ CST.NodeOf n c ∧ n = .node .stmt cs l ∧ n.tokens.head? = some t ∧
    n.loc.start ≠ t.loc.start := by
  refine ⟨_, _, .node .stmt [.node .expr [.leaf (.text ['b']) ⟨⟨2, 0⟩, ⟨2, 1⟩⟩] ⟨⟨2, 0⟩, ⟨2, 1⟩⟩]
    ⟨⟨0, 0⟩, ⟨2, 1⟩⟩, _, _, _, tokenize_ascii S _ (by decide), rfl, ?_, rfl, rfl, ?_⟩
  · exact .child (.tail _ (.tail _ (.tail _ List.mem_cons_self))) .self
  · decide

/-- A case with a closed bracket, an unclosed bracket and an expression. -/
example : ∃ c n, parse (toks [.bopen .curly, .bopen .square, .text ['a'], .bclose .curly, .eof]) = .ok c ∧
    CST.NodeOf n c ∧ n.isClosed = true ∧ n.tokens.length = 4 :=
  ⟨_, _, rfl, .child List.mem_cons_self (.child List.mem_cons_self (.child List.mem_cons_self .self)),
    rfl, rfl⟩

end Brack
