import Verif.Spec.Lines
import Verif.Proof.TokMore
import Verif.Spec.Ast
import Verif.Spec.Grammar

/-
Helper lemmas: the words of a text without special characters.
-/

namespace Brack

theorem plain_action : ∀ c d, (c = Cl.dot ∨ c = .comma ∨ c = .sp ∨ c = .nl ∨ c = .other) →
    (actionC c d false false = .newline ∧ c = .nl) ∨
    ((actionC c d false false = .text ∨ actionC c d false false = .pool) ∧ c ≠ .nl) := by
  decide

/-- The words of the tokens of clusters without special characters: all clusters but the line feeds. -/
theorem plain_words (gs : List Str) : ∀ m : M, m.look = false → m.nested = false → PoolOK gs m →
    (∀ g ∈ gs, cls g = .dot ∨ cls g = .comma ∨ cls g = .sp ∨ cls g = .nl ∨ cls g = .other) →
    ((run gs m).filterMap Token.word?).flatten = m.pool ++ (gs.filter (· ≠ ['\n'])).flatten := by
  induction gs with
  | nil =>
    intro m _ _ hp _
    simp [run, M.eof, Token.word?, poolOK_end [] m hp rfl]
  | cons g gs ih =>
    intro m hl hn hp hc
    have hg : g ≠ NUL := by
      intro h
      have := (cls_nul g).2 h
      have := hc g (by simp)
      simp_all
    have hsp := emit_spell g gs m hg hp
    have hok := emit_poolOK g gs m hg hp
    have hcg := hc g (by simp)
    have hcs : ∀ h ∈ gs, cls h = .dot ∨ cls h = .comma ∨ cls h = .sp ∨ cls h = .nl ∨ cls h = .other :=
      fun h hh => hc h (by simp [hh])
    have ha : act g gs m = actionC (cls g) (cls (gs.headD NUL)) false false := by
      rw [act, action_eq, hl, hn]
    have ih := ih (emit (act g gs m) g m).2
    simp only [run, hg, if_false, List.filterMap_append, List.flatten_append]
    rcases plain_action (cls g) (cls (gs.headD NUL)) hcg with ⟨h1, h2⟩ | ⟨h1 | h1, h2⟩
    · rw [ha, h1] at hsp hok ih ⊢
      have hg' : g = ['\n'] := (cls_nl g).1 h2
      rw [ih hl hn hok hcs]
      simp [emit, M.single, spell, TokKind.spelling, hg'] at hsp
      simp [emit, M.single, Token.word?, hg', hsp]
    · rw [ha, h1] at hsp hok ih ⊢
      have hg' : g ≠ ['\n'] := fun h => h2 ((cls_nl g).2 h)
      rw [ih hl hn hok hcs]
      simp [emit, M.pooled, M.adv, Token.word?, hg']
    · rw [ha, h1] at hsp hok ih ⊢
      have hg' : g ≠ ['\n'] := fun h => h2 ((cls_nl g).2 h)
      rw [ih hl hn hok hcs]
      simp [emit, hg']

/-- All clusters but the line feeds are the text without line feeds other than those after carriage returns. -/
theorem clusters_join (S : Segmenter) : ∀ (gs : List Str) (s : Str), S.graphemes s = gs →
    (gs.filter (· ≠ ['\n'])).flatten = joinLines s := by
  have hother : ∀ (g rest : Str), '\n' ∉ g → '\r' ∉ g → joinLines (g ++ rest) = g ++ joinLines rest := by
    intro g rest
    induction g with
    | nil => intros; rfl
    | cons c g ih =>
      intro h1 h2
      have h1' : c ≠ '\n' := fun h => h1 (by simp [h])
      have h2' : c ≠ '\r' := fun h => h2 (by simp [h])
      rw [List.cons_append, joinLines.eq_3, ih (fun h => h1 (by simp [h])) (fun h => h2 (by simp [h]))]
      · rfl
      · intro s h _; exact h2' h
      · exact h1'
  intro gs
  induction gs with
  | nil =>
    intro s hs
    have := S.flatten s
    rw [hs] at this
    subst this
    rfl
  | cons g gs ih =>
    intro s hs
    have hrest := ih gs.flatten (S.suffix s g gs hs)
    have hf := S.flatten s
    rw [hs, List.flatten_cons] at hf
    have hmem : g ∈ S.graphemes s := by rw [hs]; simp
    by_cases h1 : '\n' ∈ g
    · rcases S.lf s g hmem h1 with rfl | rfl
      · rw [← hf, List.filter_cons_of_neg (by simp), hrest]
        exact (joinLines.eq_2 _).symm
      · rw [← hf, List.filter_cons_of_pos (by simp), List.flatten_cons, hrest]
        exact (joinLines.eq_1 _).symm
    · have hg : g ≠ ['\n'] := fun h => h1 (by simp [h])
      rw [List.filter_cons_of_pos (by simpa using hg), List.flatten_cons, hrest, ← hf]
      by_cases h2 : '\r' ∈ g
      · rcases S.cr s g hmem h2 with rfl | rfl
        · show '\r' :: joinLines gs.flatten = joinLines ('\r' :: gs.flatten)
          rw [joinLines.eq_3]
          · intro u _ hu
            have := S.crlf u
            rw [← hu, show '\r' :: gs.flatten = s from hf, hs] at this
            simp at this
          · decide
        · simp at h1
      · exact (hother g _ h1 h2).symm

/-- After a leading line feed, clusters without special characters are accepted only if all are line feeds. -/
theorem plain_blank (gs : List Str) : ∀ m : M, m.look = false → m.nested = false → PoolOK gs m → (∀ g ∈ gs, g ≠ []) →
    (∀ g ∈ gs, cls g = .dot ∨ cls g = .comma ∨ cls g = .sp ∨ cls g = .nl ∨ cls g = .other) →
    (accepts [] .blank ((run gs m).map (·.kind)) = true ↔ m.pool = [] ∧ ∀ g ∈ gs, g = ['\n']) := by
  induction gs with
  | nil =>
    intro m _ _ hp _ _
    simp [run, M.eof, accepts, poolOK_end [] m hp rfl]
  | cons g gs ih =>
    intro m hl hn hp hne hc
    have hg : g ≠ NUL := by
      intro h
      have := (cls_nul g).2 h
      have := hc g (by simp)
      simp_all
    have hsp := emit_spell g gs m hg hp
    have hok := emit_poolOK g gs m hg hp
    have hg0 := hne g (by simp)
    have ha : act g gs m = actionC (cls g) (cls (gs.headD NUL)) false false := by
      rw [act, action_eq, hl, hn]
    have ih := ih (emit (act g gs m) g m).2
    simp only [run, hg, if_false, List.map_append]
    rcases plain_action (cls g) (cls (gs.headD NUL)) (hc g (by simp)) with ⟨h1, h2⟩ | ⟨h1 | h1, h2⟩
    · rw [ha, h1] at hsp hok ih ⊢
      have hg' : g = ['\n'] := (cls_nl g).1 h2
      simp [emit, M.single, spell, TokKind.spelling, hg'] at hsp
      have := ih hl hn hok (fun g hg => hne g (by simp [hg])) (fun g hg => hc g (by simp [hg]))
      simp only [emit, M.single, List.map_cons, List.map_nil, List.cons_append, List.nil_append, accepts,
        LineState.newline] at this ⊢
      rw [this]
      simp [hsp, hg']
    · rw [ha, h1]
      have hg' : g ≠ ['\n'] := fun h => h2 ((cls_nl g).2 h)
      simp [emit, M.pooled, accepts, LineState.allowsItem, hg']
    · rw [ha, h1] at hok ih ⊢
      have hg' : g ≠ ['\n'] := fun h => h2 ((cls_nl g).2 h)
      have := ih hl hn hok (fun g hg => hne g (by simp [hg])) (fun g hg => hc g (by simp [hg]))
      simp only [emit, List.map_nil, List.nil_append] at this ⊢
      rw [this]
      simp [hg', hg0]

/-- The clusters of a text without special characters. -/
theorem unmarked_clusters (S : Segmenter) {text : Str} (hspec : ∀ c ∈ specialChars, c ≠ '\n' → c ∉ text) :
    ∀ g ∈ S.graphemes text, cls g = .dot ∨ cls g = .comma ∨ cls g = .sp ∨ cls g = .nl ∨ cls g = .other := by
  intro g hg
  have hin : ∀ c ∈ g, c ∈ text := by
    intro c hc
    rw [← S.flatten text]
    exact List.mem_flatten.mpr ⟨g, hg, hc⟩
  have h : ∀ c ∈ specialChars, c ≠ '\n' → g ≠ [c] := fun c hc hn e => hspec c hc hn (hin c (by simp [e]))
  rcases hk : cls g with _ | _ | _ | _ | _ | _ | _ | _ | _ | _ | _ | _ | _ <;> simp only [reduceCtorEq, or_false, false_or, or_true, true_or]
  · exact h '\\' (by decide) (by decide) ((cls_bs g).1 hk)
  · exact h '<' (by decide) (by decide) ((cls_lt g).1 hk)
  · exact h '>' (by decide) (by decide) ((cls_gt g).1 hk)
  · exact h '{' (by decide) (by decide) ((cls_lc g).1 hk)
  · exact h '}' (by decide) (by decide) ((cls_rc g).1 hk)
  · exact h '[' (by decide) (by decide) ((cls_lb g).1 hk)
  · exact h ']' (by decide) (by decide) ((cls_rb g).1 hk)
  · exact h (Char.ofNat 0) (by decide) (by decide) ((cls_nul g).1 hk)

end Brack
