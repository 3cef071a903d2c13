import Verif.Proof.Plain
import Verif.Props.Parser
import Verif.Props.Transform

/-
The pipeline on texts without special characters.
-/

namespace Brack

variable {W : Wasm}

theorem words_spell (l : List Token) (hopen : ∀ t ∈ l, ∀ b, t.kind ≠ .bopen b)
    (hcl : ∀ t ∈ l, ∀ b, t.kind ≠ .bclose b) (hbs : ∀ t ∈ l, t.kind ≠ .backSlash)
    (hsep : ∀ t ∈ l, t.kind ≠ .dot ∧ t.kind ≠ .comma ∧ t.kind ≠ .whiteSpace)
    (keep : Char → Bool) (hnl : ∀ t ∈ l, t.kind = .newLine → keep '\n' = false)
    (hk : ∀ t ∈ l, ∀ v, t.word? = some v → ∀ c ∈ v, keep c = true) :
    (l.filterMap Token.word?).flatten = (spell l).filter keep := by
  induction l with
  | nil => rfl
  | cons t l ih =>
    have ih := ih (fun u hu => hopen u (by simp [hu])) (fun u hu => hcl u (by simp [hu]))
      (fun u hu => hbs u (by simp [hu])) (fun u hu => hsep u (by simp [hu]))
      (fun u hu => hnl u (by simp [hu])) (fun u hu => hk u (by simp [hu]))
    have h1 := hsep t (by simp)
    have h2 := hopen t (by simp)
    have h3 := hcl t (by simp)
    have h4 := hbs t (by simp)
    have h5 := hnl t (by simp)
    have h6 := hk t (by simp)
    clear hopen hcl hbs hsep hnl hk
    rw [spell, List.flatMap_cons, List.filter_append, ← spell, ← ih]
    obtain ⟨k, lc⟩ := t
    have hfil : ∀ s : Str, (∀ c ∈ s, keep c = true) → s.filter keep = s :=
      fun s hs => List.filter_eq_self.mpr hs
    rcases k with _ | v | v | v | _ | _ | _ | _ | b | b | _ | _
    · simp [List.filterMap_cons, Token.word?, TokKind.spelling]
    · simp [Token.word?, TokKind.spelling, hfil v (h6 v rfl)]
    · simp [Token.word?, TokKind.spelling, hfil v (h6 v rfl)]
    · simp [Token.word?, TokKind.spelling, hfil v (h6 v rfl)]
    · simp [List.filterMap_cons, Token.word?, TokKind.spelling, h5 rfl]
    · exact absurd rfl h1.2.2
    · exact absurd rfl h1.1
    · exact absurd rfl h4
    · exact absurd rfl (h2 b)
    · exact absurd rfl (h3 b)
    · exact absurd rfl h1.2.1
    · simp [List.filterMap_cons, Token.word?, TokKind.spelling]

/-- A text without special characters compiles to the texts of its tokens if it can be parsed. -/
theorem compile_parsed (S : Segmenter) (ids : Nat → Str) (checks : Bool) (ps : Plugins W) (h : NoHooks ps)
    (text : Str) (hspec : ∀ c ∈ specialChars, c ≠ '\n' → c ∉ text)
    (hparse : ∃ ts c, tokenizeStr S text = .ok ts ∧ parse ts = .ok c) :
    ∃ ts, tokenizeStr S text = .ok ts ∧ spell ts = text ∧ (∀ c ∈ closeChars, c ∉ text) ∧
      compileText S ids checks text ps = (.ok (ts.filterMap Token.word?).flatten, ps) ∧
      ∀ (keep : Char → Bool), (∀ t ∈ ts, t.kind = .newLine → keep '\n' = false) →
        (∀ t ∈ ts, ∀ v, t.word? = some v → ∀ c ∈ v, keep c = true) →
        (ts.filterMap Token.word?).flatten = text.filter keep := by
  have hclose : ∀ c ∈ closeChars, c ∉ text := by
    intro c hc
    apply hspec c
    · revert c; decide
    · rintro rfl; revert hc; decide
  obtain ⟨ts, c, ht, hp⟩ := hparse
  have hsp := C02_lossless S text (hspec _ (by decide) (by decide)) ts ht
  obtain ⟨body, eof, htok, he, hbody⟩ := C01_tokenize_total S text
  have hts : ts = body ++ [eof] := by rw [ht] at htok; injection htok
  have hmem : ∀ t ∈ ts, ∀ x ∈ t.kind.spelling, x ∈ text := by
    intro t htm x hx
    rw [← hsp]
    exact List.mem_flatMap.mpr ⟨t, htm, hx⟩
  have hopen : ∀ t ∈ ts, ∀ b, t.kind ≠ .bopen b := by
    intro t htm b hk
    refine hspec b.openChar (by cases b <;> decide) (by cases b <;> decide) (hmem t htm _ ?_)
    simp [hk, TokKind.spelling]
  have hcl : ∀ t ∈ ts, ∀ b, t.kind ≠ .bclose b := by
    intro t htm b hk
    refine hspec b.closeChar (by cases b <;> decide) (by cases b <;> decide) (hmem t htm _ ?_)
    simp [hk, TokKind.spelling]
  have hbs : ∀ t ∈ ts, t.kind ≠ .backSlash := by
    intro t htm hk
    refine hspec '\\' (by decide) (by decide) (hmem t htm _ ?_)
    simp [hk, TokKind.spelling]
  have hdepth : ∀ pre, (∀ t ∈ pre, t ∈ ts) → depth pre = 0 := by
    intro pre hpre
    induction pre with
    | nil => rfl
    | cons t pre ih =>
      have h1 := hopen t (hpre t (by simp))
      have h2 := hcl t (hpre t (by simp))
      have h3 := ih (fun u hu => hpre u (by simp [hu]))
      rw [depth] at h3 ⊢
      rw [List.map_cons, List.sum_cons, h3]
      rcases hk : t.kind with _ | _ | _ | _ | _ | _ | _ | _ | b | b | _ | _ <;> simp_all
  have hsep : ∀ t ∈ ts, t.kind ≠ .dot ∧ t.kind ≠ .comma ∧ t.kind ≠ .whiteSpace := by
    intro t htm
    obtain ⟨pre, post, rfl⟩ := List.append_of_mem htm
    have h0 := hdepth pre (fun u hu => by simp [hu])
    have := C05_separators_nested S text pre t post ht
    refine ⟨fun hk => ?_, fun hk => ?_, fun hk => ?_⟩
    · have := this (.inl hk); omega
    · have := this (.inr (.inl hk)); omega
    · have := this (.inr (.inr hk)); omega
  have hplain : ∀ (l : List Token), (∀ t ∈ l, t ∈ ts ∧ t.kind ≠ .eof ∧ t.kind ≠ .empty) →
      trace [] l = l.map (.plain []) := by
    intro l
    induction l with
    | nil => intro _; rfl
    | cons t l ih =>
      intro hl
      have ⟨h0, h1, h2⟩ := hl t (by simp)
      have ih := ih (fun u hu => hl u (by simp [hu]))
      have h3 := hopen t h0
      have h4 := hcl t h0
      have h5 := hbs t h0
      obtain ⟨k, lc⟩ := t
      rcases k <;> simp_all [trace]
  have htr : trace [] ts = body.map (.plain []) := by
    rw [hts, trace_eof _ _ he]
    exact hplain body (fun t htm => ⟨by simp [hts, htm], hbody t htm⟩)
  obtain ⟨a, es, hx⟩ : ∃ a es, transform ids c = .ok (a, es) := by
    refine (C17_panic_iff ts c ids hp).2 (fun hpan => ?_)
    obtain ⟨e, hem, hl⟩ := (C17_panic_iff ts c ids hp).1.mp hpan
    rw [htr] at hem
    obtain ⟨t, htm, rfl⟩ := List.mem_map.mp hem
    have := hsep t (by simp [hts, htm])
    obtain ⟨k, lc⟩ := t
    rcases k <;> simp_all [Event.looseSeparator]
  have hctoks : c.tokens = ts := by
    subst hts
    exact C09_keeps_all_tokens body eof (fun t htm => (hbody t htm).1) c hp
  have hg := C12_grammar ts c hp
  have hnb := no_brackets hg (by rw [hctoks]; exact hopen)
  have hwf : c.WellFormed := by
    intro n hn
    rcases n with _ | ⟨k, cs, l⟩
    · rfl
    · rcases k
      case bracket b => exact absurd hn (hnb b cs l)
      case backSlash =>
        have := no_backslashes (by rw [hctoks]; exact hbs) cs l hn
        rcases cs with _ | _
        · exact absurd rfl this
        · rfl
      all_goals rfl
  have hes : es = [] := (C59_clean_iff ts c ids a es hp hx).mpr hwf
  subst hes
  have hfol := C18_grammar_partial S text ts c ids a ht hp hx (by
    intro e hem
    rw [htr] at hem
    obtain ⟨t, _, rfl⟩ := List.mem_map.mp hem
    rfl)
  refine ⟨ts, ht, hsp, hclose, ?_, ?_⟩
  rotate_left
  · intro keep h1 h2
    rw [words_spell ts hopen hcl hbs hsep keep h1 h2, hsp]
  rw [compile_textDoc ht hp hx h (textDoc_of hnb (C23_arguments ts c ids a hp hx) hfol), AST.textOf,
    (C22_words S text ts c ids a [] ht hp hx hbs).1]

/-- It can be parsed if it does not begin with a line feed. -/
theorem compile_plain (S : Segmenter) (ids : Nat → Str) (checks : Bool) (ps : Plugins W) (h : NoHooks ps)
    (text : Str) (hspec : ∀ c ∈ specialChars, c ≠ '\n' → c ∉ text) (hstart : text.head? ≠ some '\n') :
    ∃ ts, tokenizeStr S text = .ok ts ∧ spell ts = text ∧ (∀ c ∈ closeChars, c ∉ text) ∧
      compileText S ids checks text ps = (.ok (ts.filterMap Token.word?).flatten, ps) ∧
      ∀ (keep : Char → Bool), (∀ t ∈ ts, t.kind = .newLine → keep '\n' = false) →
        (∀ t ∈ ts, ∀ v, t.word? = some v → ∀ c ∈ v, keep c = true) →
        (ts.filterMap Token.word?).flatten = text.filter keep :=
  compile_parsed S ids checks ps h text hspec (C13_parses_partial S text (fun c hc => hspec c
    (by revert c; decide) (by rintro rfl; revert hc; decide)) hstart)

end Brack
