import Verif.Proof.TokReach
import Verif.Proof.TokNames
import Verif.Proof.Uax29

/-
Properties of `tokenize_str` (C01–C08 and C58–C60).
-/

namespace Brack

open UTable (sampleSeg)

/-- C01: tokenizing any text succeeds; the result is a list of tokens that are neither EOF nor
Empty, followed by one EOF. -/
theorem C01_tokenize_total (S : Segmenter) (text : Str) :
    ∃ body eof, tokenizeStr S text = .ok (body ++ [eof]) ∧ eof.kind = .eof ∧
      ∀ t ∈ body, t.kind ≠ .eof ∧ t.kind ≠ .empty := by
  obtain ⟨body, eof, h1, h2, h3⟩ := run_shape (S.graphemes text) M.init
  exact ⟨body, eof, by rw [tokenizeStr_eq, h1], h2, h3⟩

/-- C02: the tokens spell the input, for inputs without NUL. -/
theorem C02_lossless (S : Segmenter) (text : Str) (hnul : Char.ofNat 0 ∉ text) (toks : List Token)
    (h : tokenizeStr S text = .ok toks) : spell toks = text := by
  rw [tokenizeStr_eq] at h
  injection h with h
  rw [← h, tokens_spell]
  apply takeWhile_all
  intro c hc
  have : c ≠ Char.ofNat 0 := by rintro rfl; exact hnul hc
  simpa using this

example : ∃ toks, tokenizeStr sampleSeg (chars! "[a.b \\] c]") = .ok toks ∧ toks.length = 10 ∧
    spell toks = chars! "[a.b \\] c]" :=
  ⟨_, tokenize_ascii _ _ (by decide), by decide, by decide⟩

/-- C02: in general the tokens spell the input up to the first NUL. -/
theorem C02_lossless_nul (S : Segmenter) (text : Str) (toks : List Token)
    (h : tokenizeStr S text = .ok toks) : spell toks = text.takeWhile (· ≠ Char.ofNat 0) := by
  rw [tokenizeStr_eq] at h
  injection h with h
  rw [← h, tokens_spell]

/-- C03: the tokens tile the text from position 0:0 on. -/
theorem C03_tiles (S : Segmenter) (text : Str) (toks : List Token)
    (h : tokenizeStr S text = .ok toks) : Tiles S ⟨0, 0⟩ toks := by
  rw [tokenizeStr_eq] at h
  injection h with h
  rw [← h]
  exact tokens_tile S text

/-- C04 (partial): every token starts at the position of the text preceding it, provided no
preceding token other than NewLine contains a line feed. Missing: texts where a line feed ends up
inside an identifier, or is part of a CR LF pair, for which the claim is false
(`C04_position_refuted`). -/
theorem C04_position_partial (S : Segmenter) (text : Str) (pre : List Token) (t : Token)
    (post : List Token) (h : tokenizeStr S text = .ok (pre ++ t :: post))
    (hnl : ∀ u ∈ pre, u.kind ≠ .newLine → '\n' ∉ u.kind.spelling) :
    t.loc.start = posAfter S (spell pre) := by
  rw [tokenizeStr_eq] at h
  injection h with h
  exact tokens_pos S text pre t post h hnl

/-- C04: how much the positions are off, for every token of every text: the line is too small by the number of line feeds
in the tokens before, other than NewLine. -/
theorem C04_line (S : Segmenter) (text : Str) (pre : List Token) (t : Token) (post : List Token)
    (h : tokenizeStr S text = .ok (pre ++ t :: post)) :
    t.loc.start.line + ((pre.filter (·.kind ≠ .newLine)).map (·.kind.spelling.count '\n')).sum = (posAfter S (spell pre)).line := by
  rw [tokenizeStr_eq] at h
  injection h with h
  have ht := tokens_tile S text
  rw [h] at ht
  have := tiles_line S pre t post ⟨0, 0⟩ ht
  simpa [posAfter] using this

/-- C04: so the condition of `C04_position_partial` is exact. -/
theorem C04_exact (S : Segmenter) (text : Str) (pre : List Token) (t : Token) (post : List Token)
    (h : tokenizeStr S text = .ok (pre ++ t :: post)) :
    t.loc.start = posAfter S (spell pre) ↔ ∀ u ∈ pre, u.kind ≠ .newLine → '\n' ∉ u.kind.spelling := by
  refine ⟨fun hp u hu hk hm => ?_, C04_position_partial S text pre t post h⟩
  have hl := C04_line S text pre t post h
  rw [hp] at hl
  have hz : ((pre.filter (·.kind ≠ .newLine)).map (·.kind.spelling.count '\n')).sum = 0 := by omega
  have := List.sum_eq_zero_iff_forall_eq_nat.mp hz (u.kind.spelling.count '\n')
    (List.mem_map.mpr ⟨u, List.mem_filter.mpr ⟨hu, by simp [hk]⟩, rfl⟩)
  exact absurd (List.count_eq_zero.mp this) (fun h => h hm)

/-- C04 (partial), condition on the text: without carriage returns and without a line feed directly
followed by a closing bracket, all positions are exact. -/
theorem C04_position_text_partial (S : Segmenter) (text : Str) (hcr : '\r' ∉ text)
    (hclose : ∀ a b, ∀ c ∈ closeChars, text ≠ a ++ '\n' :: c :: b)
    (pre : List Token) (t : Token) (post : List Token)
    (h : tokenizeStr S text = .ok (pre ++ t :: post)) :
    t.loc.start = posAfter S (spell pre) := by
  rw [tokenizeStr_eq] at h
  injection h with h
  refine tokens_pos S text pre t post h (fun u hu => ?_)
  exact tokens_no_pooled_nl S text hcr hclose u (by rw [h]; simp [hu])

/-- A non-trivial case: the token after two line breaks. -/
example : ∃ pre t post, tokenizeStr sampleSeg (chars! "a\nb\n[c.d e]") = .ok (pre ++ t :: post) ∧
    pre.length = 5 ∧ t.loc.start = ⟨2, 1⟩ ∧ '\r' ∉ chars! "a\nb\n[c.d e]" ∧
    (∀ u ∈ pre, u.kind ≠ .newLine → '\n' ∉ u.kind.spelling) := by
  refine ⟨(run ((chars! "a\nb\n[c.d e]").map (fun c => [c])) M.init).take 5,
    ⟨.module ['c'], ⟨⟨2, 1⟩, ⟨2, 2⟩⟩⟩,
    (run ((chars! "a\nb\n[c.d e]").map (fun c => [c])) M.init).drop 6, ?_, ?_, rfl, ?_, ?_⟩
  · rw [tokenize_ascii _ _ (by decide)]
    have : ∀ (a b : List Token), a = b → Res.ok a = Res.ok b := by intros; simp_all
    apply this
    decide
  · decide
  · decide
  · decide

/-- C04 is false in general: in `"[\n]"` the closing bracket stands on line 1, but is reported on
line 0 (whatever the segmenter). -/
theorem C04_position_refuted (S : Segmenter) :
    ∃ text pre t post, tokenizeStr S text = .ok (pre ++ t :: post) ∧
      t.loc.start ≠ posAfter S (spell pre) := by
  refine ⟨chars! "[\n]", [⟨.bopen .square, ⟨⟨0, 0⟩, ⟨0, 1⟩⟩⟩, ⟨.ident ['\n'], ⟨⟨0, 1⟩, ⟨0, 2⟩⟩⟩],
    ⟨.bclose .square, ⟨⟨0, 2⟩, ⟨0, 3⟩⟩⟩, [⟨.eof, ⟨⟨0, 3⟩, ⟨0, 3⟩⟩⟩], ?_, ?_⟩
  · rw [tokenize_ascii _ _ (by decide)]
    have : ∀ (a b : List Token), a = b → Res.ok a = Res.ok b := by intros; simp_all
    apply this
    decide
  · simp [posAfter, spell, TokKind.spelling, Bracket.openChar]

/-- C05: separators are tokens only where more opening than closing bracket tokens precede. -/
theorem C05_separators_nested (S : Segmenter) (text : Str) (pre : List Token) (t : Token)
    (post : List Token) (h : tokenizeStr S text = .ok (pre ++ t :: post))
    (hk : t.kind = .dot ∨ t.kind = .comma ∨ t.kind = .whiteSpace) : 0 < depth pre := by
  rw [tokenizeStr_eq] at h
  injection h with h
  exact tokens_sep_nested _ pre t post h hk

example : ∃ pre t post, tokenizeStr sampleSeg (chars! "a.b [c.d e]") = .ok (pre ++ t :: post) ∧
    t.kind = .dot ∧ depth pre = 1 :=
  ⟨(run ((chars! "a.b [c.d e]").map (fun c => [c])) M.init).take 3, ⟨.dot, ⟨⟨0, 6⟩, ⟨0, 7⟩⟩⟩,
    (run ((chars! "a.b [c.d e]").map (fun c => [c])) M.init).drop 4,
    by
      rw [tokenize_ascii _ _ (by decide)]
      have : ∀ (a b : List Token), a = b → Res.ok a = Res.ok b := by intros; simp_all
      apply this
      decide, rfl, by decide⟩

/-- C05, converse: where more opening than closing brackets precede, text tokens contain no
separator cluster, so every separator there is a token of its own or part of a name. -/
theorem C05_no_separator_in_nested_text (S : Segmenter) (text : Str) (pre : List Token) (t : Token)
    (post : List Token) (s : Str) (h : tokenizeStr S text = .ok (pre ++ t :: post))
    (hk : t.kind = .text s) (hd : 0 < depth pre) :
    ∀ g ∈ S.graphemes s, g ≠ ['.'] ∧ g ≠ [','] ∧ g ≠ [' '] := by
  rw [tokenizeStr_eq] at h
  injection h with h
  intro g hg
  have := run_text_nosep S (S.graphemes text) M.init [] (by simpa using stable_graphemes S text)
    rfl (poolOK_init _) (by simp) pre t post s h hk (by simpa [M.nest, M.init] using hd) g hg
  simpa [isSep] using this

/-- C06: a non-empty text without special characters is one Text token. -/
theorem C06_plain_text (S : Segmenter) (text : Str) (hne : text ≠ [])
    (h : ∀ c ∈ specialChars, c ∉ text) :
    ∃ l1 l2, tokenizeStr S text = .ok [⟨.text text, l1⟩, ⟨.eof, l2⟩] := by
  have hg : S.graphemes text ≠ [] := by
    intro hg
    apply hne
    rw [← S.flatten text, hg]
    rfl
  have := run_plain (S.graphemes text) M.init rfl (by decide) (stopC_of_plain S text h) hg
  rw [tokenizeStr_eq, this, S.flatten]
  exact ⟨_, _, rfl⟩

example : chars! "Héllo, wörld." ≠ [] ∧ ∀ c ∈ specialChars, c ∉ chars! "Héllo, wörld." := by
  decide

/-- C07: in every reachable state the nesting counters are bounded, even in sum of absolute values,
by the number of clusters already treated. -/
theorem C07_counters_bounded (S : Segmenter) (text : Str) (t : Tokenizer)
    (h : TokReach S text t) :
    ∃ angle curly square rest, t.angleNestCount = some angle ∧ t.curlyNestCount = some curly ∧
      t.squareNestCount = some square ∧ t.untreated = some rest ∧
      angle.natAbs + curly.natAbs + square.natAbs + (S.graphemes rest).length ≤
        (S.graphemes text).length := by
  obtain ⟨toks, rest, m, rfl, hb⟩ := reach_state S text t h
  exact ⟨m.angle, m.curly, m.square, rest, rfl, rfl, rfl, rfl, hb⟩

/-- C07: hence the `i32` arithmetic of `dispatch` (`angle_c + curly_c + square_c`) cannot overflow on
texts of less than 2^31 clusters. -/
theorem C07_no_overflow (S : Segmenter) (text : Str) (hlen : (S.graphemes text).length < 2 ^ 31)
    (t : Tokenizer) (h : TokReach S text t) :
    ∃ angle curly square : Int, t.angleNestCount = some angle ∧ t.curlyNestCount = some curly ∧
      t.squareNestCount = some square ∧
      ∀ x ∈ [angle, curly, square, angle + curly, angle + curly + square],
        -2 ^ 31 < x ∧ x < 2 ^ 31 := by
  obtain ⟨angle, curly, square, rest, h1, h2, h3, h4, h5⟩ := C07_counters_bounded S text t h
  refine ⟨angle, curly, square, h1, h2, h3, ?_⟩
  intro x hx
  simp at hx
  rcases hx with rfl | rfl | rfl | rfl | rfl <;> omega

/-- A reachable state with a counter different from zero. -/
example : ∃ t, TokReach sampleSeg (chars! "[a") t ∧ t.squareNestCount = some 1 := by
  refine ⟨_, .next .init (step_cons sampleSeg _ [] M.init ['['] [['a']] (by decide) (by decide)), ?_⟩
  decide

/-- C08 (partial): with LF line ends (no CR, no LF directly followed by a closing bracket) there are
exactly as many NewLine tokens as line feeds. Missing: CRLF line ends (`C08_crlf_refuted`). -/
theorem C08_line_feeds_partial (S : Segmenter) (text : Str) (hnul : Char.ofNat 0 ∉ text)
    (hcr : '\r' ∉ text) (hclose : ∀ a b, ∀ c ∈ closeChars, text ≠ a ++ '\n' :: c :: b)
    (toks : List Token) (h : tokenizeStr S text = .ok toks) :
    toks.countP (fun t => t.kind = .newLine) = text.count '\n' := by
  have hl := C02_lossless S text hnul toks h
  rw [tokenizeStr_eq] at h
  injection h with h
  subst h
  rw [← count_nl _ (tokens_no_pooled_nl S text hcr hclose), hl]

/-- C08 is false for CRLF line ends: a text all of whose line feeds are preceded by a carriage
return has no NewLine token at all. -/
theorem C08_crlf_no_newline (S : Segmenter) (text : Str)
    (hcrlf : ∀ a b, text = a ++ '\n' :: b → ∃ a', a = a' ++ ['\r'])
    (toks : List Token) (h : tokenizeStr S text = .ok toks) : ∀ t ∈ toks, t.kind ≠ .newLine := by
  rw [tokenizeStr_eq] at h
  injection h with h
  subst h
  intro t ht hk
  exact crlf_no_lf_cluster S text hcrlf (run_newline_mem _ _ t ht hk)

/-- C08 is false: a document of two lines separated by CRLF has a line end but no NewLine token. -/
theorem C08_crlf_refuted (S : Segmenter) :
    ∃ text toks, tokenizeStr S text = .ok toks ∧ text.count '\n' = 1 ∧
      ∀ t ∈ toks, t.kind ≠ .newLine := by
  obtain ⟨body, eof, h, -, -⟩ := C01_tokenize_total S (chars! "a\r\nb")
  refine ⟨chars! "a\r\nb", _, h, by decide, C08_crlf_no_newline S _ ?_ _ h⟩
  intro a b hab
  rcases a with _ | ⟨a1, _ | ⟨a2, _ | ⟨a3, _ | ⟨a4, as⟩⟩⟩⟩ <;> simp at hab
  exact ⟨['a'], by simp [← hab.1, ← hab.2.1]⟩

/-- C58: identifiers and module names occur only after an opening bracket. -/
theorem C58_names_after_open (S : Segmenter) (text : Str) (pre : List Token) (t : Token)
    (post : List Token) (h : tokenizeStr S text = .ok (pre ++ t :: post)) (s : Str)
    (hk : t.kind = .ident s ∨ t.kind = .module s) : ∃ u ∈ pre, ∃ b, u.kind = .bopen b := by
  rw [tokenizeStr_eq] at h
  injection h with h
  exact run_ident_open _ M.init pre t post rfl h ⟨s, hk⟩

/-- C58: more precisely, a name occurs only after an opening bracket and before the first identifier
following that bracket. -/
theorem C58_names_due (S : Segmenter) (text : Str) (pre : List Token) (t : Token)
    (post : List Token) (h : tokenizeStr S text = .ok (pre ++ t :: post)) (s : Str)
    (hk : t.kind = .ident s ∨ t.kind = .module s) : nameDue false pre = true := by
  rw [tokenizeStr_eq] at h
  injection h with h
  have := run_namesOk (S.graphemes text) M.init
  rw [h] at this
  exact namesOk_split this (by rcases hk with hk | hk <;> rw [hk] <;> rfl)

/-- In `[a.b c]` the names are `a` and `b`. -/
example : ∃ ts, tokenizeStr sampleSeg (chars! "[a.b c]") = .ok ts ∧
    ts.map (·.kind) = [.bopen .square, .module ['a'], .dot, .ident ['b'], .whiteSpace, .text ['c'],
      .bclose .square, .eof] := ⟨_, tokenize_ascii _ _ (by decide), by decide⟩

end Brack
