import Verif.Proof.TokLemmas

namespace Brack

/-- `gs` is the segmentation of its own concatenation. -/
def Stable (S : Segmenter) (gs : List Str) : Prop := S.graphemes gs.flatten = gs

theorem Stable.left {S : Segmenter} {a b : List Str} (h : Stable S (a ++ b)) : Stable S a :=
  S.pre _ a b h

theorem Stable.tail {S : Segmenter} {g : Str} {b : List Str} (h : Stable S (g :: b)) :
    Stable S b :=
  S.suffix _ g b h

theorem Stable.right {S : Segmenter} {a b : List Str} (h : Stable S (a ++ b)) : Stable S b := by
  induction a with
  | nil => exact h
  | cons g a ih => exact ih (Stable.tail h)

theorem Stable.nonempty {S : Segmenter} {a : List Str} (h : Stable S a) : ∀ g ∈ a, g ≠ [] := by
  intro g hg
  apply S.nonempty a.flatten
  rw [h]; exact hg

theorem Stable.flatten_nil {S : Segmenter} {a : List Str} (h : Stable S a)
    (hf : a.flatten = []) : a = [] := by
  rcases a with _ | ⟨g, a⟩
  · rfl
  · have := h.nonempty g (by simp)
    simp at hf
    exact absurd hf.1 this

theorem stable_graphemes (S : Segmenter) (s : Str) : Stable S (S.graphemes s) := by
  unfold Stable; rw [S.flatten]

theorem graphemes_nil (S : Segmenter) : S.graphemes [] = [] := by
  have h := S.flatten []
  rcases hg : S.graphemes [] with _ | ⟨g, gs⟩
  · rfl
  · rw [hg] at h
    simp at h
    exact absurd h.1 (S.nonempty [] g (by simp [hg]))

/-- Single-cluster actions. -/
def Action.single : Action → Option TokKind
  | .backslash => some .backSlash
  | .bopen b => some (.bopen b)
  | .bclose b => some (.bclose b)
  | .dot => some .dot
  | .comma => some .comma
  | .whitespace => some .whiteSpace
  | .newline => some .newLine
  | _ => none

theorem run_tiles (S : Segmenter) (gs : List Str) : ∀ m poolG, Stable S (poolG ++ gs) →
    m.pool = poolG.flatten → m.tsl = m.line → m.col = m.tsc + poolG.length → PoolOK gs m →
    Tiles S ⟨m.line, m.tsc⟩ (run gs m) := by
  induction gs with
  | nil =>
    intro m poolG hs hpool htsl hcol hp
    have hn := poolOK_end [] m hp rfl
    have : poolG = [] := hs.left.flatten_nil (by rw [← hpool, hn])
    subst this
    simp at hcol
    simp [run, Tiles, M.eof, TokKind.spelling, graphemes_nil, hcol]
  | cons g gs ih =>
    intro m poolG hs hpool htsl hcol hp
    by_cases hg : g = NUL
    · have hn := poolOK_end (g :: gs) m hp (by simp [hg])
      have : poolG = [] := hs.left.flatten_nil (by rw [← hpool, hn])
      subst this
      simp at hcol
      simp [run, hg, Tiles, M.eof, TokKind.spelling, graphemes_nil, hcol]
    · have hsp := emit_spell g gs m hg hp
      have hok := emit_poolOK g gs m hg hp
      have hn := pool_nil g gs m hp
      have hwide : (S.graphemes (m.pool ++ g)).length = poolG.length + 1 := by
        have h1 : Stable S ((poolG ++ [g]) ++ gs) := by simpa using hs
        have h2 : S.graphemes (poolG ++ [g]).flatten = poolG ++ [g] := h1.left
        have h3 : (poolG ++ [g]).flatten = m.pool ++ g := by simp [hpool]
        rw [h3] at h2
        simp [h2]
      have htail : Stable S gs := hs.right.tail
      have hn2 : (act g gs m).pooling = false → poolG = [] := fun h =>
        hs.left.flatten_nil (by rw [← hpool, hn h])
      have hpl : S.graphemes [] = [] := graphemes_nil S
      simp only [run, hg, if_false]
      revert hsp hok hn hn2
      rcases act g gs m with _ | _ | b | b | _ | _ | _ | _ | _ | _ | _ <;>
        intro hsp hok hn hn2
      case pool =>
        have key := ih (emit .pool g m).2 (poolG ++ [g]) (by simpa using hs)
          (by simp [emit, hpool]) (by simpa [emit] using htsl) (by simp [emit]; omega) hok
        simpa [emit] using key
      case newline =>
        have key := ih (emit .newline g m).2 [] (by simpa using htail) rfl rfl rfl hok
        have hpn := hn rfl
        have hgn := hn2 rfl
        subst hgn
        simp [spell, emit, M.single] at hsp
        simp at hcol hwide
        simp only [emit, List.singleton_append, Tiles, M.single, hsp, hwide]
        refine ⟨by simp [hcol], by simp [hcol], ?_⟩
        simpa [emit] using key
      case text =>
        have key := ih (emit .text g m).2 [] (by simpa using htail) rfl
          (by simpa [emit, M.adv] using htsl) (by simp [emit, M.adv]) hok
        simp [spell, emit, M.pooled, M.adv] at hsp
        simp only [emit, List.singleton_append, Tiles, M.pooled, hsp, hwide, htsl]
        refine ⟨trivial, by simp; omega, ?_⟩
        simpa [emit, M.adv] using key
      case module =>
        have key := ih (emit .module g m).2 [] (by simpa using htail) rfl
          (by simpa [emit, M.adv] using htsl) (by simp [emit, M.adv]) hok
        simp [spell, emit, M.pooled, M.adv] at hsp
        simp only [emit, List.singleton_append, Tiles, M.pooled, hsp, hwide, htsl]
        refine ⟨trivial, by simp; omega, ?_⟩
        simpa [emit, M.adv] using key
      case identifier =>
        have key := ih (emit .identifier g m).2 [] (by simpa using htail) rfl
          (by simpa [emit, M.adv] using htsl) (by simp [emit, M.adv]) hok
        simp [spell, emit, M.pooled, M.adv] at hsp
        simp only [emit, List.singleton_append, Tiles, M.pooled, hsp, hwide, htsl]
        refine ⟨trivial, by simp; omega, ?_⟩
        simpa [emit, M.adv] using key
      all_goals
        have hpn := hn rfl
        have hgn := hn2 rfl
        subst hgn
        try cases b
        all_goals
          have key := fun h1 h2 h3 => ih _ [] (by simpa using htail) h1 h2 h3 hok
          replace key := key (by simp [emit, M.adv, M.addCount, hpn])
            (by simpa [emit, M.adv, M.addCount] using htsl) (by simp [emit, M.adv, M.addCount])
          simp [spell, emit, M.single, M.adv, M.addCount, hpn] at hsp
          simp [hpn] at hcol hwide
          simp only [emit, List.singleton_append, Tiles, M.single, hsp, hwide]
          refine ⟨by simp [hcol], by simp [hcol], ?_⟩
          simpa [emit, M.adv, M.addCount] using key

theorem tokens_tile (S : Segmenter) (text : Str) :
    Tiles S ⟨0, 0⟩ (run (S.graphemes text) M.init) :=
  run_tiles S _ M.init [] (by simpa using stable_graphemes S text) rfl rfl rfl (poolOK_init _)

end Brack
