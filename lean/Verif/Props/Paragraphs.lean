import Verif.Proof.ParaSettled
import Verif.Proof.Cases
import Verif.Proof.PluginCases
import Verif.Props.Parser
import Verif.Props.Transform

/-
Properties of documents made of paragraphs (C63): paragraphs separated by a blank line do not
influence each other.
-/

namespace Brack

open UTable (sampleSeg)

/-! ### C63 -/

/-- C63: a document that is read without errors leaves nothing pending, unless it escapes brackets or
holds closing brackets that close nothing. -/
theorem C63_clean_settles (S : Segmenter) (text : Str) (ts : List Token) (c : CST) (ids : Nat → Str) (a : AST)
    (ht : tokenizeStr S text = .ok ts) (hp : parse ts = .ok c) (hx : transform ids c = .ok (a, []))
    (hesc : ∀ e ∈ trace [] ts, e.escapedBracket = false) (hopen : ∀ e ∈ trace [] ts, e.unopened? = none) :
    Settled ts := by
  obtain ⟨body, eof, rfl, he, hk⟩ := tokens_shape ht
  have hun : ∀ o, Event.unclosed o ∉ trace [] (body ++ [eof]) := by
    intro o ho
    obtain ⟨b, hb⟩ := trace_unclosed _ _ (Nat.le_refl _) [] o (by simp) ho
    have h1 := C19_unclosed_reported S text _ c ids a [] ht hp hx
    have h2 : (b, o.loc.start) ∈ (trace [] (body ++ [eof])).filterMap Event.unclosed? := by
      refine List.mem_filterMap.mpr ⟨_, ho, ?_⟩
      obtain ⟨k, l⟩ := o
      cases hb
      rfl
    rw [← h1] at h2
    simp at h2
  refine ⟨?_, ?_, hun⟩
  · rw [depth_concat body he]
    have := trace_depth _ body (Nat.le_refl _) [] eof he hk
      (fun ev h => ⟨hesc ev h, hopen ev h, fun o ho => hun o (by rw [← ho]; exact h)⟩)
    simpa using this
  · have hw := (C59_clean_iff _ c ids a [] hp hx).mp rfl
    have htok := C09_keeps_all_tokens body eof (fun t ht => (hk t ht).1) c hp
    rw [← htok]
    exact (parse_grammar hp).named hw (by rw [← parse_trace hp]; exact hesc)

example : ∃ ts c a es, tokenizeStr sampleSeg (chars! "x [a.b c {d.e f}, \\\\ g]\n{<m.n>.<o.p>}") = .ok ts ∧
    parse ts = .ok c ∧ transform someIds c = .ok (a, es) ∧ (es = [] ∧
    (∀ e ∈ trace [] ts, e.escapedBracket = false) ∧ ∀ e ∈ trace [] ts, e.unopened? = none) :=
  front_case _ _ (by decide) _ (by decide +kernel)

/-- C63 (partial): a text `a` after which nothing is pending, a blank line, and a text `b`. The whole is
read if and only if both texts are read on their own. Its statements are those of `a` followed by
those of `b`, the leaves and the errors are those of `a` followed by those of `b`, the latter as many
lines further down as `b` is. Missing: texts that leave something pending (`C63_pending_refuted`), and the
end of the range of an unclosed bracket (`C63_range_refuted`). -/
theorem C63_read_partial (S : Segmenter) (a b : Str) (ta : List Token) (hpar : Paragraph a) (hb : b.head? ≠ some '\n')
    (ht : tokenizeStr S a = .ok ta) (hs : Settled ta) (ids ids' ids'' : Nat → Str) :
    ((∃ z gs, Reads S ids'' (a ++ '\n' :: '\n' :: b) z gs) ↔
      (∃ x es, Reads S ids a x es) ∧ ∃ y fs, Reads S ids' b y fs) ∧
    ∀ x es y fs z hs, Reads S ids a x es → Reads S ids' b y fs → Reads S ids'' (a ++ '\n' :: '\n' :: b) z hs →
      ∃ ss tt gs, x.shape = .node .document ss ∧ y.shape = .node .document tt ∧
        z.shape = .node .document (ss ++ tt) ∧
        z.contents = x.contents ++ y.contents.map (Content.down (nextLine ta)) ∧
        hs = es ++ gs ∧ TErrsDown (nextLine ta) fs gs :=
  reads_join hpar hb ht hs ids ids' ids''

/-- C63 (partial): without document hook, the output of the whole is the output of `a` followed by that
of `b`, where `b` is compiled with the plugins as the compilation of `a` left them; the whole compiles
if and only if both parts do. Missing: as for `C63_read_partial`. -/
theorem C63_compile_partial {W : Wasm} (S : Segmenter) (a b : Str) (ta : List Token) (hpar : Paragraph a)
    (hb : b.head? ≠ some '\n') (ht : tokenizeStr S a = .ok ta) (hs : Settled ta) (ids ids' ids'' : Nat → Str)
    (checks : Bool) (ps : Plugins W) (hd : ps.documentHook = none) (gen : Str) (ps2 : Plugins W) :
    compileText S ids'' checks (a ++ '\n' :: '\n' :: b) ps = (.ok gen, ps2) ↔
      ∃ g ps1 g', compileText S ids checks a ps = (.ok g, ps1) ∧ compileText S ids' checks b ps1 = (.ok g', ps2) ∧
        gen = g ++ g' :=
  compile_join hpar hb ht hs ids ids' ids'' checks ps hd gen ps2

/-- C63 (partial): a document of any number of paragraphs compiles to the outputs of the paragraphs, one
after the other. Missing: as for `C63_read_partial`. -/
theorem C63_paragraphs_partial {W : Wasm} (S : Segmenter) (texts : List Str) (hne : texts ≠ [])
    (hpar : ∀ p ∈ texts, Paragraph p) (hs : ∀ p ∈ texts, ∀ ts, tokenizeStr S p = .ok ts → Settled ts)
    (ids : Nat → Str) (checks : Bool) (ps : Plugins W) (hd : ps.documentHook = none) (gen : Str) (ps2 : Plugins W) :
    compileText S ids checks (joinParagraphs texts) ps = (.ok gen, ps2) ↔
      ∃ gens, CompileEach S ids checks texts ps gens ps2 ∧ gen = gens.flatten := by
  induction texts generalizing ps gen with
  | nil => exact absurd rfl hne
  | cons p texts ih =>
    rcases texts with _ | ⟨q, texts⟩
    · constructor
      · intro h
        exact ⟨[gen], .cons h .nil, by simp⟩
      · rintro ⟨gens, h, rfl⟩
        cases h with
        | cons h1 h2 => cases h2; simpa [joinParagraphs] using h1
    · have ih' := fun ps hd gen => ih (by simp) (fun p hp => hpar p (List.mem_cons_of_mem _ hp))
        (fun p hp => hs p (List.mem_cons_of_mem _ hp)) ps hd gen
      have hj := compile_join (W := W) (hpar p (by simp)) (join_head (fun p hp => hpar p (List.mem_cons_of_mem _ hp)))
        (tokenizeStr_eq S p) (hs p (by simp) _ (tokenizeStr_eq S p)) ids ids ids checks ps hd gen ps2
      rw [joinParagraphs, hj]
      · constructor
        · rintro ⟨g, ps1, g', h1, h2, rfl⟩
          obtain ⟨gens, h3, rfl⟩ := (ih' ps1 (compileText_hooks h1 hd) g').mp h2
          exact ⟨g :: gens, .cons h1 h3, rfl⟩
        · rintro ⟨gens, h, rfl⟩
          cases h with
          | cons h1 h2 =>
            exact ⟨_, _, _, h1, (ih' _ (compileText_hooks h1 hd) _).mpr ⟨_, h2, rfl⟩, rfl⟩
      · simp


/-- Two paragraphs that leave nothing pending, calling commands of a plugin; they compile on their own and together. -/
example : Paragraph (chars! "x [p.f]") ∧ Paragraph (chars! "{p.h y, z}\nw") ∧
    (∀ ts, tokenizeStr sampleSeg (chars! "x [p.f]") = .ok ts → Settled ts) ∧
    (∀ ts, tokenizeStr sampleSeg (chars! "{p.h y, z}\nw") = .ok ts → Settled ts) ∧
    (sampleSet noHooks).documentHook = none ∧
    joinParagraphs [chars! "x [p.f]", chars! "{p.h y, z}\nw"] = chars! "x [p.f]\n\n{p.h y, z}\nw" ∧
    (compileText sampleSeg someIds true (chars! "x [p.f]") (sampleSet noHooks)).1 = .ok (chars! "x f()") ∧
    (compileText sampleSeg someIds true (chars! "{p.h y, z}\nw") (sampleSet noHooks)).1 = .ok (chars! "h(y,[z;],)w") ∧
    (compileText sampleSeg someIds true (chars! "x [p.f]\n\n{p.h y, z}\nw") (sampleSet noHooks)).1 =
      .ok (chars! "x f()h(y,[z;],)w") := by
  have hp : ∀ p ∈ [chars! "x [p.f]", chars! "{p.h y, z}\nw"], Paragraph p := by
    intro p hp
    simp only [List.mem_cons, List.not_mem_nil, or_false] at hp
    rcases hp with rfl | rfl
    · refine ⟨by decide, by decide, fun t h => ?_, by decide⟩
      have := congrArg List.getLast? h
      simp at this
    · refine ⟨by decide, by decide, fun t h => ?_, by decide⟩
      have := congrArg List.getLast? h
      simp at this
  have hs : ∀ p ∈ [chars! "x [p.f]", chars! "{p.h y, z}\nw"], ∀ ts, tokenizeStr sampleSeg p = .ok ts → Settled ts := by
    have key : ∀ p, (∃ ts c a es, tokenizeStr sampleSeg p = .ok ts ∧ parse ts = .ok c ∧
        transform someIds c = .ok (a, es) ∧ (es = [] ∧ (∀ e ∈ trace [] ts, e.escapedBracket = false) ∧
          ∀ e ∈ trace [] ts, e.unopened? = none)) → ∀ ts, tokenizeStr sampleSeg p = .ok ts → Settled ts := by
      rintro p ⟨ts, c, a, es, h1, h2, h3, rfl, h4, h5⟩ ts' ht
      rw [h1] at ht; cases ht
      exact C63_clean_settles sampleSeg p ts c someIds a h1 h2 h3 h4 h5
    intro p hp
    simp only [List.mem_cons, List.not_mem_nil, or_false] at hp
    rcases hp with rfl | rfl
    · exact key _ (front_case _ _ (by decide) _ (by decide +kernel))
    · exact key _ (front_case _ _ (by decide) _ (by decide +kernel))
  have hc : ∀ text gen, (∃ ts c a es, tokenizeStr sampleSeg text = .ok ts ∧ parse ts = .ok c ∧
      transform someIds c = .ok (a, es) ∧ ((do let b ← expander a; generate true b : PM _ Str) (sampleSet noHooks)).1 = .ok gen) →
      (compileText sampleSeg someIds true text (sampleSet noHooks)).1 = .ok gen := by
    rintro text gen ⟨ts, c, a, es, h1, h2, h3, h4⟩
    rw [compileText_front h1 h2 h3]
    exact h4
  exact ⟨hp _ (by simp), hp _ (by simp), hs _ (by simp), hs _ (by simp), by decide, rfl,
    hc _ _ (front_case _ _ (by decide) _ (by decide +kernel)), hc _ _ (front_case _ _ (by decide) _ (by decide +kernel)),
    hc _ _ (front_case _ _ (by decide) _ (by decide +kernel))⟩

/-- C63 is false for texts that leave something pending: `\[x` and `a.b` are read without errors, but on
the text made of both transform panics, since the escaped bracket still counts as open. -/
theorem C63_pending_refuted (S : Segmenter) : ∃ a b : Str, Paragraph a ∧ b.head? ≠ some '\n' ∧
    (∃ x, Reads S someIds a x []) ∧ (∃ y, Reads S someIds b y []) ∧
    ∃ ts c, tokenizeStr S (a ++ '\n' :: '\n' :: b) = .ok ts ∧ parse ts = .ok c ∧ transform someIds c = .panic := by
  refine ⟨chars! "\\[x", chars! "a.b", ⟨by decide, by decide, fun t h => ?_, by decide⟩, by decide, ?_, ?_, ?_⟩
  · have := congrArg List.getLast? h
    simp at this
  · obtain ⟨ts, c, a, es, h1, h2, h3, h4⟩ := front_case S (chars! "\\[x") (by decide) (fun _ _ _ es => es = []) (by decide +kernel)
    subst h4
    exact ⟨a, ts, c, h1, h2, h3⟩
  · obtain ⟨ts, c, a, es, h1, h2, h3, h4⟩ := front_case S (chars! "a.b") (by decide) (fun _ _ _ es => es = []) (by decide +kernel)
    subst h4
    exact ⟨a, ts, c, h1, h2, h3⟩
  · exact panic_case S _ (by decide) (by decide +kernel)

/-- C63 is false for the end of the range of an unclosed bracket: `[a.b c` is reported from its first to its last
character, but after nine lines of other text only its first character is. -/
theorem C63_range_refuted (S : Segmenter) : ∃ (a b : Str) (ta : List Token), Paragraph a ∧ b.head? ≠ some '\n' ∧
    tokenizeStr S a = .ok ta ∧ Settled ta ∧ nextLine ta = 9 ∧
    (∃ y, Reads S someIds b y [⟨.notClosed .square, ⟨⟨0, 0⟩, ⟨0, 6⟩⟩⟩]) ∧
    ∃ z, Reads S someIds (a ++ '\n' :: '\n' :: b) z [⟨.notClosed .square, ⟨⟨9, 0⟩, ⟨9, 1⟩⟩⟩] := by
  obtain ⟨ta, ca, xa, es, h1, h2, h3, h4, h5, h6, h7⟩ := front_case S (chars! "a\nb\nc\nd\ne\nf\ng\nh") (by decide)
    (fun ts _ _ es => es = [] ∧ (∀ e ∈ trace [] ts, e.escapedBracket = false) ∧
      (∀ e ∈ trace [] ts, e.unopened? = none) ∧ nextLine ts = 9) (by decide +kernel)
  subst h4
  refine ⟨chars! "a\nb\nc\nd\ne\nf\ng\nh", chars! "[a.b c", ta, ⟨by decide, by decide, fun t h => ?_, by decide⟩,
    by decide, h1, C63_clean_settles S _ ta ca someIds xa h1 h2 h3 h5 h6, h7, ?_, ?_⟩
  · have := congrArg List.getLast? h
    simp at this
  · obtain ⟨ts, c, a, es, h1, h2, h3, h4⟩ := front_case S (chars! "[a.b c") (by decide)
      (fun _ _ _ es => es = [⟨.notClosed .square, ⟨⟨0, 0⟩, ⟨0, 6⟩⟩⟩]) (by decide +kernel)
    subst h4
    exact ⟨a, ts, c, h1, h2, h3⟩
  · obtain ⟨ts, c, a, es, h1, h2, h3, h4⟩ := front_case S (chars! "a\nb\nc\nd\ne\nf\ng\nh\n\n[a.b c") (by decide)
      (fun _ _ _ es => es = [⟨.notClosed .square, ⟨⟨9, 0⟩, ⟨9, 1⟩⟩⟩]) (by decide +kernel)
    subst h4
    exact ⟨a, ts, c, h1, h2, h3⟩

end Brack
