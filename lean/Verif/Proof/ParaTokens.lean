import Verif.Proof.TokNames
import Verif.Proof.TokMore
import Verif.Spec.Paragraphs

/-
Helper lemmas: the tokens of a text that consists of two texts with a blank line between them.
-/

namespace Brack

/-! ### segmentation at a line feed -/

theorem flatten_split : ∀ (gs : List Str) (a : Str) (c : Char) (b : Str), gs.flatten = a ++ c :: b →
    ∃ xs g ys p q, gs = xs ++ g :: ys ∧ g = p ++ c :: q ∧ a = xs.flatten ++ p ∧ b = q ++ ys.flatten
  | [], a, c, b, h => by simp at h
  | g :: gs, a, c, b, h => by
    rw [List.flatten_cons] at h
    rcases List.append_eq_append_iff.mp h with ⟨p, h1, h2⟩ | ⟨p, h1, h2⟩
    · obtain ⟨xs, g', ys, p', q, rfl, hg, rfl, rfl⟩ := flatten_split gs p c b h2
      exact ⟨g :: xs, g', ys, p', q, by simp, hg, by simp [h1], rfl⟩
    · rcases p with _ | ⟨c', p⟩
      · simp only [List.append_nil, List.nil_append] at h1 h2
        obtain ⟨xs, g', ys, p', q, rfl, hg, h3, rfl⟩ := flatten_split gs [] c b h2.symm
        exact ⟨g :: xs, g', ys, p', q, by simp, hg, by simp [← h1, ← h3], rfl⟩
      · simp only [List.cons_append, List.cons.injEq] at h2
        obtain ⟨rfl, rfl⟩ := h2
        exact ⟨[], g, gs, a, p, by simp, h1, by simp, rfl⟩

theorem graphemes_lf (S : Segmenter) (a b : Str) (h : ∀ a', a ≠ a' ++ ['\r']) :
    S.graphemes (a ++ '\n' :: b) = S.graphemes a ++ ['\n'] :: S.graphemes b := by
  obtain ⟨xs, g, ys, p, q, h1, h2, h3, h4⟩ := flatten_split _ a '\n' b (S.flatten (a ++ '\n' :: b))
  have hg := S.lf (a ++ '\n' :: b) g (by rw [h1]; simp) (by simp [h2])
  have hpq : p = [] ∧ q = [] := by
    rcases hg with hg | hg <;> rw [hg] at h2
    · rcases p with _ | ⟨x, p⟩
      · simp at h2; exact ⟨rfl, h2.symm ▸ rfl⟩
      · simp at h2
    · rcases p with _ | ⟨x, _ | ⟨y, p⟩⟩
      · simp at h2
      · simp at h2
        obtain ⟨rfl, rfl⟩ := h2
        exact absurd h3 (h _)
      · simp at h2
  obtain ⟨rfl, rfl⟩ := hpq
  simp only [List.append_nil, List.nil_append] at h2 h3 h4
  subst h2
  have ha := S.pre _ _ _ h1
  have hst : Stable S (xs ++ ['\n'] :: ys) := by
    have := stable_graphemes S (a ++ '\n' :: b)
    rwa [h1] at this
  have hb : S.graphemes ys.flatten = ys := (hst.right).tail
  rw [h1, h3, h4, ha, hb]

/-! ### the machine -/

theorem actionC_end (c : Cl) (look nested : Bool) : actionC c .nl look nested = actionC c .nul look nested := by
  revert c look nested; decide

theorem cls_lf : cls ['\n'] = .nl := by decide

theorem cls_NUL : cls NUL = .nul := by decide

/-- Reading a text up to its end or up to a line feed. -/
theorem run_before (r : List Str) : ∀ (gs : List Str) (m : M), (∀ g ∈ gs, g ≠ NUL) → ∃ ts m',
    run gs m = ts ++ [m'.eof] ∧ run (gs ++ ['\n'] :: r) m = ts ++ run (['\n'] :: r) m' ∧
      m'.nest = m.nest + depth ts ∧ m'.look = nameDue m.look ts
  | [], m, _ => ⟨[], m, by simp [run], by simp, by simp [depth], rfl⟩
  | g :: gs, m, h => by
    have hg : g ≠ NUL := h g (by simp)
    have ha : act g (gs ++ ['\n'] :: r) m = act g gs m := by
      unfold act
      rcases gs with _ | ⟨g2, gs⟩
      · simp only [List.nil_append, List.headD_cons, List.headD_nil, action_eq, cls_lf, cls_NUL, actionC_end]
      · simp
    obtain ⟨ts, m', h1, h2, h3, h4⟩ := run_before r gs (emit (act g gs m) g m).2 (fun g' hg' => h g' (by simp [hg']))
    refine ⟨(emit (act g gs m) g m).1 ++ ts, m', ?_, ?_, ?_, ?_⟩
    · simp only [run, hg, if_false, h1, List.append_assoc]
    · simp only [List.cons_append, run, hg, if_false, ha]
      rw [h2, List.append_assoc]
      rfl
    · rw [h3, emit_nest, depth_append, Int.add_assoc]
    · rw [h4, emit_look, nameDue_append]

/-- The state after a line feed. -/
def M.nextLine (m : M) : M := { m with line := m.line + 1, col := 0, tsl := m.line + 1, tsc := 0, pool := [] }

theorem run_lf (r : List Str) (m : M) (h : m.look = false ∨ r.headD NUL = ['\n']) :
    run (['\n'] :: r) m = m.single .newLine :: run r m.nextLine := by
  have ha : act ['\n'] r m = .newline := by
    unfold act
    rw [action_eq, cls_lf]
    rcases h with h | h
    · rw [h]
      generalize cls (r.headD NUL) = d
      generalize m.nested = n
      revert d n; decide
    · rw [h, cls_lf]
      generalize m.look = l
      generalize m.nested = n
      revert l n; decide
  have hn : ['\n'] ≠ NUL := by decide
  simp only [run, hn, if_false, ha]
  rfl

/-- The same state some lines further down. -/
structure M.Down (d : Nat) (m m' : M) : Prop where
  line : m'.line = m.line + d
  tsl : m'.tsl = m.tsl + d
  col : m'.col = m.col
  tsc : m'.tsc = m.tsc
  pool : m'.pool = m.pool
  look : m'.look = m.look
  nest : m'.nest = m.nest

theorem run_down (d : Nat) : ∀ (gs : List Str) (m m' : M), M.Down d m m' →
    run gs m' = (run gs m).map (Token.down d)
  | [], m, m', h => by
    simp [run, M.eof, Token.down, Loc.down, Pos.down, h.line, h.col]
  | g :: gs, m, m', h => by
    have ha : act g gs m' = act g gs m := by
      unfold act M.nested
      rw [h.look]
      have := h.nest
      unfold M.nest at this
      rw [this]
    by_cases hg : g = NUL
    · simp [run, hg, M.eof, Token.down, Loc.down, Pos.down, h.line, h.col]
    · simp only [run, hg, if_false, ha, List.map_append]
      congr 1
      · rcases act g gs m with _ | _ | _ | _ | _ | _ | _ | _ | _ | _ | _ <;>
          simp [emit, M.single, M.pooled, Token.down, Loc.down, Pos.down, h.line, h.col, h.tsl, h.tsc, h.pool]
      · apply run_down
        obtain ⟨h1, h2, h3, h4, h5, h6, h7⟩ := h
        unfold M.nest at h7
        rcases act g gs m with _ | _ | b | b | _ | _ | _ | _ | _ | _ | _
        case bopen | bclose =>
          cases b <;> constructor <;>
            simp only [emit, M.adv, M.addCount, M.nest, h1, h2, h3, h5, h6] <;> omega
        all_goals
          constructor <;> simp only [emit, M.adv, M.nest, h1, h2, h3, h4, h5, h6] <;> omega

/-- The tokens of two texts with a blank line between them: those of the first, two line ends, and
those of the second moved down, provided that no bracket is open and no name is due between them. -/
theorem tokens_join (S : Segmenter) (a b : Str) (hcr : ∀ a', a ≠ a' ++ ['\r']) (hnul : Char.ofNat 0 ∉ a)
    {ts : List Token} {e : Token} (ht : tokenizeStr S a = .ok (ts ++ [e]))
    (hd : depth ts = 0) (hn : nameDue false ts = false) {us : List Token} (hu : tokenizeStr S b = .ok us) :
    e.kind = .eof ∧ tokenizeStr S (a ++ '\n' :: '\n' :: b) = .ok (ts ++
      ⟨.newLine, ⟨e.loc.start, ⟨e.loc.start.line, e.loc.start.character + 1⟩⟩⟩ ::
      ⟨.newLine, ⟨⟨e.loc.start.line + 1, 0⟩, ⟨e.loc.start.line + 1, 1⟩⟩⟩ ::
      us.map (Token.down (e.loc.start.line + 2))) := by
  rw [tokenizeStr_eq] at ht hu ⊢
  cases hu
  have hg : ∀ g ∈ S.graphemes a, g ≠ NUL := by
    rintro g hg rfl
    apply hnul
    rw [← S.flatten a]
    exact List.mem_flatten.mpr ⟨_, hg, by simp [NUL]⟩
  rw [graphemes_lf S a _ hcr]
  have hb : S.graphemes ('\n' :: b) = ['\n'] :: S.graphemes b := by
    have := graphemes_lf S [] b (by simp)
    simpa [graphemes_nil] using this
  rw [hb]
  obtain ⟨ts', m', h1, h2, h3, h4⟩ := run_before (['\n'] :: S.graphemes b) (S.graphemes a) M.init hg
  have he : ts' = ts ∧ m'.eof = e := by
    have : ts' ++ [m'.eof] = ts ++ [e] := by
      rw [← h1]; exact Res.ok.inj ht
    have := List.append_inj' this rfl
    simpa using this
  obtain ⟨rfl, rfl⟩ := he
  have hlook : m'.look = false := by rw [h4]; exact hn
  refine ⟨rfl, ?_⟩
  congr 1
  rw [h2, run_lf _ _ (.inr rfl), run_lf _ m'.nextLine (.inl hlook),
    run_down (m'.line + 2) (S.graphemes b) M.init m'.nextLine.nextLine]
  · rfl
  · constructor
    · simp [M.nextLine, M.init]
    · simp [M.nextLine, M.init]
    · rfl
    · rfl
    · rfl
    · exact hlook
    · show m'.nest = 0
      rw [h3, hd]; rfl

end Brack
