import Verif.Proof.Blank
import Verif.Proof.Paragraphs
import Verif.Spec.Blank

/-
Helper lemmas: the tokens of texts that differ in empty lines, and reading such texts.
-/

namespace Brack

/-! ### tokens -/

theorem Padded.refl : ∀ ts, Padded ts ts
  | [] => .nil
  | _ :: ts => .cons rfl (Padded.refl ts)

theorem Padded.down (d) : ∀ ts : List Token, Padded ts (ts.map (Token.down d))
  | [] => .nil
  | _ :: ts => .cons rfl (Padded.down d ts)

theorem Padded.after : ∀ (ts : List Token) {us us'}, Padded us us' → Padded (ts ++ us) (ts ++ us')
  | [], _, _, h => h
  | _ :: ts, _, _, h => .cons rfl (Padded.after ts h)

/-- Nothing after a NUL is read. -/
theorem run_nul (r : List Str) : ∀ (gs : List Str) (m : M), NUL ∈ gs → run (gs ++ r) m = run gs m
  | [], _, h => by simp at h
  | g :: gs, m, h => by
    by_cases hg : g = NUL
    · simp [run, hg]
    · have h' : NUL ∈ gs := by
        rcases List.mem_cons.mp h with h | h
        · exact absurd h.symm hg
        · exact h
      have ha : act g (gs ++ r) m = act g gs m := by
        rcases gs with _ | ⟨g2, gs⟩
        · simp at h'
        · simp [act]
      simp only [List.cons_append, run, hg, if_false, ha, run_nul r gs _ h']

/-- Reading a text up to its end or up to a line feed, whatever follows. -/
theorem run_upto : ∀ (gs : List Str) (m : M), (∀ g ∈ gs, g ≠ NUL) → ∃ ts m',
    run gs m = ts ++ [m'.eof] ∧ ∀ r, run (gs ++ ['\n'] :: r) m = ts ++ run (['\n'] :: r) m'
  | [], m, _ => ⟨[], m, by simp [run], by simp⟩
  | g :: gs, m, h => by
    have hg : g ≠ NUL := h g (by simp)
    have ha : ∀ r, act g (gs ++ ['\n'] :: r) m = act g gs m := by
      intro r
      unfold act
      rcases gs with _ | ⟨g2, gs⟩
      · simp only [List.nil_append, List.headD_cons, List.headD_nil, action_eq, cls_lf, cls_NUL, actionC_end]
      · simp
    obtain ⟨ts, m', h1, h2⟩ := run_upto gs (emit (act g gs m) g m).2 (fun g' hg' => h g' (by simp [hg']))
    refine ⟨(emit (act g gs m) g m).1 ++ ts, m', ?_, ?_⟩
    · simp only [run, hg, if_false, h1, List.append_assoc]
    · intro r
      simp only [List.cons_append, run, hg, if_false, ha]
      rw [h2, List.append_assoc]
      rfl

/-- A line feed is a line end, unless a closing bracket follows and a name is due. -/
theorem run_line (r : List Str) (m : M) (h : m.look = false ∨ ∀ c ∈ closeChars, r.headD NUL ≠ [c]) :
    run (['\n'] :: r) m = m.single .newLine :: run r m.nextLine := by
  have ha : act ['\n'] r m = .newline := by
    unfold act action
    have e1 : ¬ (['\n'] : Str) = ['\\'] := by decide
    have e2 : ¬ (r.headD NUL = ['>'] ∧ m.look = true) := by
      rintro ⟨h1, h2⟩
      rcases h with h | h
      · rw [h] at h2; cases h2
      · exact h '>' (by decide) h1
    have e3 : ¬ (r.headD NUL = ['}'] ∧ m.look = true) := by
      rintro ⟨h1, h2⟩
      rcases h with h | h
      · rw [h] at h2; cases h2
      · exact h '}' (by decide) h1
    have e4 : ¬ (r.headD NUL = [']'] ∧ m.look = true) := by
      rintro ⟨h1, h2⟩
      rcases h with h | h
      · rw [h] at h2; cases h2
      · exact h ']' (by decide) h1
    rw [if_neg e1, if_neg e2, if_neg e3, if_neg e4]
    simp
  have hn : ['\n'] ≠ NUL := by decide
  simp only [run, hn, if_false, ha]
  rfl

theorem nextLine_down (m : M) : M.Down 1 m.nextLine m.nextLine.nextLine := by
  constructor <;> simp [M.nextLine, M.nest]

theorem graphemes_after_line (S : Segmenter) (b : Str) : S.graphemes ('\n' :: b) = ['\n'] :: S.graphemes b := by
  have := graphemes_lf S [] b (by simp)
  simpa [graphemes_nil] using this

/-- A line feed before a closing bracket is the name that is due. -/
theorem run_name (r : List Str) (m : M) (c : Char) (hl : m.look = true) (hp : m.pool = []) (hc : c ∈ closeChars) :
    ∃ i k ts b, run (['\n'] :: [c] :: r) m = i :: k :: ts ∧ i.kind = .ident ['\n'] ∧ k.kind = .bclose b := by
  have ha : act ['\n'] ([c] :: r) m = .identifier := by
    unfold act
    simp only [List.headD_cons, hl]
    generalize m.nested = n
    simp only [closeChars, List.mem_cons, List.not_mem_nil, or_false] at hc
    rcases hc with rfl | rfl | rfl <;> revert n <;> decide
  have hn : ['\n'] ≠ NUL := by decide
  have hn' : [c] ≠ NUL := by
    clear ha
    revert c; decide
  have hb : ∃ b, act [c] r (emit .identifier ['\n'] m).2 = .bclose b := by
    have e : (emit .identifier ['\n'] m).2.look = false := rfl
    unfold act
    rw [e, action_eq]
    generalize (emit .identifier ['\n'] m).2.nested = n
    generalize cls (r.headD NUL) = d
    simp only [closeChars, List.mem_cons, List.not_mem_nil, or_false] at hc
    clear e hn' hn ha
    rcases hc with rfl | rfl | rfl
    · exact ⟨.angle, by revert n d; decide⟩
    · exact ⟨.curly, by revert n d; decide⟩
    · exact ⟨.square, by revert n d; decide⟩
  obtain ⟨b, hb⟩ := hb
  have e : run (['\n'] :: [c] :: r) m = m.pooled .ident ['\n'] :: (emit .identifier ['\n'] m).2.single (.bclose b) ::
      run r (emit (.bclose b) [c] (emit .identifier ['\n'] m).2).2 := by
    rw [run, if_neg hn, ha, run, if_neg hn', hb]
    rfl
  exact ⟨_, _, _, b, e, by simp [M.pooled, hp], rfl⟩

theorem tokens_blank (S : Segmenter) (u v : Str) (hcr : ∀ u', u ≠ u' ++ ['\r']) :
    ∃ T T', tokenizeStr S (u ++ '\n' :: '\n' :: v) = .ok T ∧ tokenizeStr S (u ++ '\n' :: '\n' :: '\n' :: v) = .ok T' ∧
      Padded T T' := by
  refine ⟨_, _, tokenizeStr_eq S _, tokenizeStr_eq S _, ?_⟩
  rw [graphemes_lf S u _ hcr, graphemes_lf S u _ hcr, graphemes_after_line, graphemes_after_line, graphemes_after_line]
  by_cases hnul : NUL ∈ S.graphemes u
  · rw [run_nul _ _ _ hnul, run_nul _ _ _ hnul]
    exact .refl _
  · obtain ⟨ts, m, h1, h2⟩ := run_upto (S.graphemes u) M.init (fun g hg e => hnul (e ▸ hg))
    rw [h2, h2, run_lf _ m (.inr rfl), run_lf _ m (.inr rfl), run_lf (['\n'] :: S.graphemes v) m.nextLine (.inr rfl),
      run_down 1 _ _ _ (nextLine_down m)]
    refine .after ts ?_
    by_cases hl : m.nextLine.look = false ∨ ∀ c ∈ closeChars, (S.graphemes v).headD NUL ≠ [c]
    · rw [run_line _ m.nextLine hl]
      exact .blank rfl rfl rfl rfl rfl (.down 1 _)
    · have hlook : m.nextLine.look = true := by
        rcases h : m.nextLine.look with _ | _
        · exact absurd (.inl h) hl
        · rfl
      have hv : ∃ c ∈ closeChars, ∃ r, S.graphemes v = [c] :: r := by
        apply Classical.byContradiction
        intro hno
        refine hl (.inr fun c hc h => hno ⟨c, hc, ?_⟩)
        rcases hg : S.graphemes v with _ | ⟨g, gs⟩
        · rw [hg] at h
          exfalso
          revert h
          clear hno hl hlook
          revert c; decide
        · rw [hg] at h
          exact ⟨gs, by rw [← h]; rfl⟩
      obtain ⟨c, hc, r, hr⟩ := hv
      rw [hr]
      obtain ⟨i, k, us, b, e, hi, hk⟩ := run_name r m.nextLine c hlook rfl hc
      rw [e]
      exact .name rfl rfl rfl hi hi hk hk (.down 1 _)

theorem tokens_final (S : Segmenter) (u : Str) (hcr : ∀ u', u ≠ u' ++ ['\r']) :
    ∃ T T', tokenizeStr S u = .ok T ∧ tokenizeStr S (u ++ ['\n']) = .ok T' ∧ Padded T T' := by
  refine ⟨_, _, tokenizeStr_eq S _, tokenizeStr_eq S _, ?_⟩
  rw [graphemes_lf S u _ hcr, graphemes_nil]
  by_cases hnul : NUL ∈ S.graphemes u
  · rw [run_nul _ _ _ hnul]
    exact .refl _
  · obtain ⟨ts, m, h1, h2⟩ := run_upto (S.graphemes u) M.init (fun g hg e => hnul (e ▸ hg))
    rw [h1, h2, run_line [] m (.inr (by decide))]
    exact .after ts (.final rfl rfl rfl .nil)

/-! ### reading -/

theorem same_of_padded {S : Segmenter} {text text' : Str} {T T'} (ht : tokenizeStr S text = .ok T)
    (ht' : tokenizeStr S text' = .ok T') (hp : Padded T T') (ids : Nat → Str) : SameDocument S ids text text' := by
  have he : HasEof T := by
    obtain ⟨body, e, h1, h2, _⟩ := tokens_shape ht
    exact ⟨e, by rw [h1]; simp, h2⟩
  rcases parse_padded hp he with ⟨m, m', h1, h2⟩ | ⟨cs, l, cs', l', ds, es, ds', es', h1, h2, h3, h4, h5, h6⟩
  · have hn : ∀ x fs, ¬ Reads S ids text x fs := by
      rintro x fs ⟨ts, c, k1, k2, _⟩
      rw [ht] at k1; cases k1
      rw [h1] at k2; cases k2
    have hn' : ∀ x fs, ¬ Reads S ids text' x fs := by
      rintro x fs ⟨ts, c, k1, k2, _⟩
      rw [ht'] at k1; cases k1
      rw [h2] at k2; cases k2
    refine ⟨⟨?_, ?_⟩, ?_⟩
    · rintro ⟨x, fs, h⟩; exact absurd h (hn x fs)
    · rintro ⟨x, fs, h⟩; exact absurd h (hn' x fs)
    · intro a es a' es' h; exact absurd h (hn a es)
  · obtain ⟨k1, k2⟩ := h5.twins
    refine ⟨⟨?_, ?_⟩, ?_⟩
    · rintro ⟨x, fs, h⟩
      have := (reads_parsed ht h1 h3 x fs h).1
      obtain ⟨y, hy⟩ := reads_of_parsed ids ht' h2 h4 (by rw [k2, this])
      exact ⟨y, _, hy⟩
    · rintro ⟨x, fs, h⟩
      have := (reads_parsed ht' h2 h4 x fs h).1
      obtain ⟨y, hy⟩ := reads_of_parsed ids ht h1 h3 (by rw [← k2, this])
      exact ⟨y, _, hy⟩
    · intro a fs a' fs' h h'
      obtain ⟨_, rfl, hs, _⟩ := reads_parsed ht h1 h3 a fs h
      obtain ⟨_, rfl, hs', _⟩ := reads_parsed ht' h2 h4 a' fs' h'
      exact ⟨by rw [hs, hs', k1], h6⟩

theorem SameDocument.refl (S ids text) : SameDocument S ids text text := by
  refine ⟨Iff.rfl, ?_⟩
  rintro a es a' es' ⟨ts, c, h1, h2, h3⟩ ⟨ts', c', k1, k2, k3⟩
  rw [h1] at k1; cases k1
  rw [h2] at k2; cases k2
  rw [h3] at k3; cases k3
  exact ⟨rfl, Iff.rfl⟩

theorem SameDocument.symm {S ids t t'} (h : SameDocument S ids t t') : SameDocument S ids t' t :=
  ⟨h.1.symm, fun a es a' es' h1 h2 => ⟨(h.2 a' es' a es h2 h1).1.symm, (h.2 a' es' a es h2 h1).2.symm⟩⟩

theorem SameDocument.trans {S ids t t' t''} (h : SameDocument S ids t t') (h' : SameDocument S ids t' t'') :
    SameDocument S ids t t'' := by
  refine ⟨h.1.trans h'.1, ?_⟩
  intro a es a'' es'' h1 h2
  obtain ⟨a', es', h3⟩ := h.1.mp ⟨a, es, h1⟩
  have k1 := h.2 _ _ _ _ h1 h3
  have k2 := h'.2 _ _ _ _ h3 h2
  exact ⟨k2.1.trans k1.1, k1.2.trans k2.2⟩

/-- The same document compiles to the same output. -/
theorem SameDocument.compile {W : Wasm} {S ids t t'} (h : SameDocument S ids t t') (checks : Bool) (ps : Plugins W)
    (gen : Str) (ps2 : Plugins W) :
    compileText S ids checks t ps = (.ok gen, ps2) ↔ compileText S ids checks t' ps = (.ok gen, ps2) := by
  simp only [compileText_iff]
  constructor
  · rintro ⟨x, es, hx, hg⟩
    obtain ⟨y, fs, hy⟩ := h.1.mp ⟨x, es, hx⟩
    exact ⟨y, fs, hy, by rw [generate_shape checks (h.2 _ _ _ _ hx hy).1]; exact hg⟩
  · rintro ⟨y, fs, hy, hg⟩
    obtain ⟨x, es, hx⟩ := h.1.mpr ⟨y, fs, hy⟩
    exact ⟨x, es, hx, by rw [← generate_shape checks (h.2 _ _ _ _ hx hy).1]; exact hg⟩

theorem replicate_no_cr (n : Nat) (u : Str) (hcr : ∀ u', u ≠ u' ++ ['\r']) : ∀ u', u ++ List.replicate n '\n' ≠ u' ++ ['\r'] := by
  rcases n with _ | n
  · simpa using hcr
  · intro u' h
    rw [List.replicate_succ', ← List.append_assoc] at h
    have := (List.append_inj' h rfl).2
    simp at this

theorem same_lines (S : Segmenter) (ids : Nat → Str) (u v : Str) (n : Nat) (hcr : ∀ u', u ≠ u' ++ ['\r']) :
    SameDocument S ids (withLines 2 u v) (withLines (n + 2) u v) := by
  induction n generalizing v with
  | zero => exact .refl _ _ _
  | succ n ih =>
    obtain ⟨T, T', h1, h2, h3⟩ := tokens_blank S u v hcr
    have k1 := same_of_padded h1 h2 h3 ids
    have k2 := ih ('\n' :: v)
    have e1 : withLines 2 u v = u ++ '\n' :: '\n' :: v := by simp [withLines, List.replicate]
    have e2 : withLines 2 u ('\n' :: v) = u ++ '\n' :: '\n' :: '\n' :: v := by simp [withLines, List.replicate]
    have e3 : withLines (n + 2) u ('\n' :: v) = withLines (n + 1 + 2) u v := by
      simp only [withLines]
      rw [show n + 1 + 2 = n + 2 + 1 from rfl, List.replicate_succ' (n := n + 2)]
      simp
    rw [e1, ← e3]
    rw [e2] at k2
    exact k1.trans k2

theorem same_final (S : Segmenter) (ids : Nat → Str) (u : Str) (n : Nat) (hcr : ∀ u', u ≠ u' ++ ['\r']) :
    SameDocument S ids u (u ++ List.replicate n '\n') := by
  induction n with
  | zero => simpa using SameDocument.refl S ids u
  | succ n ih =>
    obtain ⟨T, T', h1, h2, h3⟩ := tokens_final S (u ++ List.replicate n '\n') (replicate_no_cr n u hcr)
    rw [List.replicate_succ', ← List.append_assoc]
    exact ih.trans (same_of_padded h1 h2 h3 ids)

end Brack
