import Verif.Proof.Unicode
import Verif.Proof.TokMore
import Verif.Props.Tokenizer

/-
Properties of user-perceived characters (C110).
-/

namespace Brack

/-- Partitions with the same cuts are equal. -/
theorem eq_of_cuts {cs ds : List Str} (hc : ∀ c ∈ cs, c ≠ []) (hd : ∀ d ∈ ds, d ≠ [])
    (h : ∀ before, (∃ as bs, cs = as ++ bs ∧ as.flatten = before) ↔ ∃ as bs, ds = as ++ bs ∧ as.flatten = before) : cs = ds := by
  induction cs generalizing ds with
  | nil =>
    rcases ds with _ | ⟨d, ds⟩
    · rfl
    · obtain ⟨as, bs, h1, h2⟩ := (h d).mpr ⟨[d], ds, rfl, by simp⟩
      have : as = [] := (List.append_eq_nil_iff.mp h1.symm).1
      rw [this, List.flatten_nil] at h2
      exact absurd h2.symm (hd d List.mem_cons_self)
  | cons c cs ih =>
    rcases ds with _ | ⟨d, ds⟩
    · obtain ⟨as, bs, h1, h2⟩ := (h c).mp ⟨[c], cs, rfl, by simp⟩
      have : as = [] := (List.append_eq_nil_iff.mp h1.symm).1
      rw [this, List.flatten_nil] at h2
      exact absurd h2.symm (hc c List.mem_cons_self)
    · have e : c = d := by
        obtain ⟨as, bs, h1, h2⟩ := (h c).mp ⟨[c], cs, rfl, by simp⟩
        obtain ⟨as', bs', h3, h4⟩ := (h d).mpr ⟨[d], ds, rfl, by simp⟩
        rcases as with _ | ⟨x, as⟩
        · exact absurd h2.symm (hc c List.mem_cons_self)
        · rcases as' with _ | ⟨y, as'⟩
          · exact absurd h4.symm (hd d List.mem_cons_self)
          · simp only [List.cons_append, List.cons.injEq] at h1 h3
            rw [← h1.1, List.flatten_cons] at h2
            rw [← h3.1, List.flatten_cons, ← h2, List.append_assoc] at h4
            have := congrArg List.length h4
            simp only [List.length_append] at this
            have h5 : as.flatten = [] := List.eq_nil_of_length_eq_zero (by omega)
            rw [← h2, h5, List.append_nil]
      subst e
      congr 1
      refine ih (fun x hx => hc x (List.mem_cons_of_mem _ hx)) (fun x hx => hd x (List.mem_cons_of_mem _ hx)) fun before => ?_
      have tail : ∀ {xs ys : List Str}, (∀ x ∈ c :: xs, x ≠ []) → (∀ x ∈ c :: ys, x ≠ []) →
          (∀ before, (∃ as bs, c :: xs = as ++ bs ∧ as.flatten = before) → ∃ as bs, c :: ys = as ++ bs ∧ as.flatten = before) →
          (∃ as bs, xs = as ++ bs ∧ as.flatten = before) → ∃ as bs, ys = as ++ bs ∧ as.flatten = before := by
        rintro xs ys hx hy h' ⟨as, bs, h1, h2⟩
        obtain ⟨as', bs', h3, h4⟩ := h' (c ++ before) ⟨c :: as, bs, by rw [h1]; rfl, by rw [List.flatten_cons, h2]⟩
        rcases as' with _ | ⟨y, as'⟩
        · have := congrArg List.length h4
          simp only [List.flatten_nil, List.length_nil, List.length_append] at this
          exact absurd (List.eq_nil_of_length_eq_zero (by omega)) (hx c List.mem_cons_self)
        · simp only [List.cons_append, List.cons.injEq] at h3
          rw [← h3.1, List.flatten_cons] at h4
          exact ⟨as', bs', h3.2, List.append_cancel_left h4⟩
      exact ⟨tail hc hd fun b => (h b).mp, tail hd hc fun b => (h b).mpr⟩

/-- C110: the text is cut into its user-perceived characters as UAX #29 defines them. -/
theorem C110_characters (T : UTable) (hT : T.Coherent) (text : Str) (cs : List Str) :
    T.Characters text cs ↔ cs = T.segmenter.graphemes text := by
  have h : T.Characters text (T.segmenter.graphemes text) := by
    refine ⟨T.segmenter.flatten text, T.segmenter.nonempty text, ?_⟩
    rintro before rest rfl
    exact (UTable.clusters_boundary hT before rest).symm
  refine ⟨fun hc => ?_, fun hc => by rw [hc]; exact h⟩
  refine eq_of_cuts hc.nonempty h.nonempty fun before => ?_
  constructor
  · rintro ⟨as, bs, h1, h2⟩
    have : text = before ++ bs.flatten := by rw [← hc.whole, h1, List.flatten_append, h2]
    exact (h.cut before _ this).mp ((hc.cut before _ this).mpr ⟨as, bs, h1, h2⟩)
  · rintro ⟨as, bs, h1, h2⟩
    have : text = before ++ bs.flatten := by rw [← h.whole, h1, List.flatten_append, h2]
    exact (hc.cut before _ this).mp ((h.cut before _ this).mpr ⟨as, bs, h1, h2⟩)

/-- C110: every token consists of whole characters, which together are those of the text (up to the first NUL), and is as
wide as it has characters. -/
theorem C110_whole (T : UTable) (hT : T.Coherent) (text : Str) (cs : List Str) (hc : T.Characters text cs) (toks : List Token)
    (h : tokenizeStr T.segmenter text = .ok toks) :
    ∃ chunks : List (List Str), chunks.flatten = cs.takeWhile (· ≠ [Char.ofNat 0]) ∧
      toks.length = chunks.length ∧ ∀ x ∈ toks.zip chunks, x.1.kind.spelling = x.2.flatten ∧
        x.1.loc.stop = ⟨x.1.loc.start.line, x.1.loc.start.character + x.2.length⟩ := by
  rw [tokenizeStr_eq] at h
  injection h with h
  have hst := stable_graphemes T.segmenter text
  obtain ⟨chunks, h1, h2⟩ := run_chunks T.segmenter (T.segmenter.graphemes text) M.init [] (by simpa using hst) rfl (poolOK_init _)
  have ht := tokens_tile T.segmenter text
  rw [h] at h2 ht
  rw [List.nil_append] at h1
  rw [(C110_characters T hT text cs).mp hc]
  refine ⟨chunks, h1, by simpa using congrArg List.length h2, ?_⟩
  have hcs : Stable T.segmenter chunks.flatten := by
    rw [h1]
    refine Stable.left (b := (T.segmenter.graphemes text).dropWhile (· ≠ NUL)) ?_
    rw [List.takeWhile_append_dropWhile]
    exact hst
  clear h h1 hst
  generalize (⟨0, 0⟩ : Pos) = p at ht
  induction toks generalizing chunks p with
  | nil =>
    rcases chunks with _ | ⟨c, chunks⟩
    · intro x hx; cases hx
    · simp at h2
  | cons t toks ih =>
    rcases chunks with _ | ⟨c, chunks⟩
    · simp at h2
    · simp only [List.map_cons, List.cons.injEq] at h2
      obtain ⟨k1, k2, k3⟩ := ht
      rw [List.flatten_cons] at hcs
      intro x hx
      rw [List.zip_cons_cons] at hx
      rcases List.mem_cons.mp hx with rfl | hx
      · have hg : T.segmenter.graphemes t.kind.spelling = c := by rw [h2.1]; exact Stable.left hcs
        exact ⟨h2.1, by rw [k2, k1, hg]⟩
      · exact ih chunks h2.2 (Stable.right hcs) _ k3 x hx

/-- C110: tokens begin and end at boundaries between characters of the text. -/
theorem C110_boundaries (T : UTable) (hT : T.Coherent) (text : Str) (pre post : List Token)
    (h : tokenizeStr T.segmenter text = .ok (pre ++ post)) : ∃ rest, text = spell pre ++ rest ∧ T.Boundary (spell pre) rest := by
  have hc := (C110_characters T hT text _).mpr rfl
  obtain ⟨chunks, h1, h2⟩ := C110_whole T hT text _ hc _ h
  obtain ⟨as, bs, h3, h4⟩ : ∃ as bs, T.segmenter.graphemes text = as ++ bs ∧ as.flatten = spell pre := by
    have h5 := List.takeWhile_append_dropWhile (p := fun x => decide (x ≠ [Char.ofNat 0])) (l := T.segmenter.graphemes text)
    rw [← h1] at h5
    have key : ∀ (pre post : List Token) (chunks : List (List Str)),
        (pre ++ post).length = chunks.length → (∀ x ∈ (pre ++ post).zip chunks, x.1.kind.spelling = x.2.flatten) →
        ∃ as bs, chunks.flatten = as ++ bs ∧ as.flatten = spell pre := by
      intro pre
      induction pre with
      | nil => intro post chunks _ _; exact ⟨[], _, rfl, rfl⟩
      | cons t pre ih =>
        intro post chunks hl hf
        rcases chunks with _ | ⟨c, chunks⟩
        · simp at hl
        · rw [List.cons_append, List.zip_cons_cons] at hf
          obtain ⟨as, bs, h8, h9⟩ := ih post chunks (by simpa using hl) fun x hx => hf x (List.mem_cons_of_mem _ hx)
          refine ⟨c ++ as, bs, by rw [List.flatten_cons, h8, List.append_assoc], ?_⟩
          rw [List.flatten_append, h9, ← hf _ List.mem_cons_self]
          simp [spell]
    obtain ⟨as, bs, h6, h7⟩ := key pre post chunks h2.1 fun x hx => (h2.2 x hx).1
    rw [h6, List.append_assoc] at h5
    exact ⟨as, _, h5.symm, h7⟩
  have : text = spell pre ++ bs.flatten := by rw [← hc.whole, h3, List.flatten_append, h4]
  exact ⟨bs.flatten, this, (hc.cut _ _ this).mpr ⟨as, bs, h3, h4⟩⟩

/-- The sample tables are coherent. -/
theorem sample_coherent : UTable.sample.Coherent := by
  refine ⟨?_, ?_, ?_⟩
  · intro c h
    have h : 0x1F300 ≤ c.toNat ∧ c.toNat < 0x1FB00 := by simpa [UTable.sample] using h
    have h1 : c ≠ '\r' := by rintro rfl; exact absurd h (by decide)
    have h2 : c ≠ '\n' := by rintro rfl; exact absurd h (by decide)
    simp only [UTable.sample]
    rw [if_neg h1, if_neg h2, if_neg (by omega), if_neg (by omega), if_neg (by omega), if_neg (by omega)]
  · intro c h; cases h
  · intro c h; rcases h with h | h <;> cases h

/-- Concrete case: a letter with an accent, two flags of two regional indicators each, and a family of two joined emoji:
four characters in nine code points. The flags may be cut in the middle only. -/
example :
    let text : Str := ['e', '́', '🇯', '🇵', '🇫', '🇷', '👨', '‍', '👩']
    UTable.sample.Characters text [['e', '́'], ['🇯', '🇵'], ['🇫', '🇷'],
      ['👨', '‍', '👩']] ∧
    UTable.sample.Boundary (text.take 4) (text.drop 4) ∧ ¬ UTable.sample.Boundary (text.take 3) (text.drop 3) := by
  intro text
  have h : UTable.sample.Characters text [['e', '́'], ['🇯', '🇵'], ['🇫', '🇷'],
      ['👨', '‍', '👩']] := by
    rw [C110_characters _ sample_coherent]
    decide +kernel
  refine ⟨h, (h.cut _ _ rfl).mpr ⟨[['e', '́'], ['🇯', '🇵']], _, rfl, rfl⟩, ?_⟩
  intro hb
  exact hb ['e', '́'] '🇯' '🇵' ['🇫', '🇷', '👨', '‍', '👩'] rfl rfl
    (.inr ⟨by rintro (h | h | h) <;> revert h <;> decide, by rintro (h | h | h) <;> revert h <;> decide,
      .inr (.inr (.inr (.inr (.inr (.inr (.inr (.inr (.inr ⟨by decide, by decide⟩))))))))⟩)

/-- Concrete case: the tokens of a document with such characters, and their widths. -/
example : ∃ toks, tokenizeStr UTable.sampleSeg ['[', 'e', '́', '.', '👨', '‍', '👩', ' ', 'x', ']'] = .ok toks ∧
    toks.map (fun t => (t.kind.spelling.length, t.loc.stop.character - t.loc.start.character)) =
      [(1, 1), (2, 1), (1, 1), (3, 1), (1, 1), (1, 1), (1, 1), (0, 0)] := ⟨_, tokenizeStr_eq _ _, by decide +kernel⟩

end Brack
