import Verif.Proof.TokMore

namespace Brack

/-- States of the tokenizer reachable while it treats `text`. -/
inductive TokReach (S : Segmenter) (text : Str) : Tokenizer → Prop
  | init : TokReach S text (initTokenizer text)
  | next {t t' : Tokenizer} : TokReach S text t → step S t = .ok (.inr t') → TokReach S text t'

theorem emit_abs (a g m) : let m' := (emit a g m).2
    m'.angle.natAbs + m'.curly.natAbs + m'.square.natAbs ≤
      m.angle.natAbs + m.curly.natAbs + m.square.natAbs + 1 := by
  rcases a with _ | _ | (_ | _ | _) | (_ | _ | _) | _ | _ | _ | _ | _ | _ | _ <;>
    simp [emit, M.adv, M.addCount] <;> omega

theorem reach_state (S : Segmenter) (text : Str) (t) (h : TokReach S text t) :
    ∃ toks rest m, t = toT toks rest m ∧
      m.angle.natAbs + m.curly.natAbs + m.square.natAbs + (S.graphemes rest).length ≤
        (S.graphemes text).length := by
  induction h with
  | init => exact ⟨[], text, M.init, rfl, by simp [M.init]⟩
  | next hr hs ih =>
    obtain ⟨toks, rest, m, rfl, hb⟩ := ih
    rcases hg : S.graphemes rest with _ | ⟨g, gs⟩
    · rw [step_stop S rest toks m (by simp [separate_nil S rest hg])] at hs
      simp at hs
    · by_cases hn : g = NUL
      · rw [step_stop S rest toks m (by simp [separate_cons S rest _ _ hg, hn])] at hs
        simp at hs
      · rw [step_cons S rest toks m g gs hg hn] at hs
        simp at hs
        refine ⟨_, _, _, hs.symm, ?_⟩
        have := emit_abs (act g gs m) g m
        simp only at this
        rw [S.suffix rest g gs hg]
        rw [hg] at hb
        simp at hb
        omega

/-- ASCII texts: the tokenizer result can be computed. -/
theorem tokenize_ascii (S : Segmenter) (text : Str) (h : ∀ c ∈ text, c.toNat < 128 ∧ c ≠ '\r') :
    tokenizeStr S text = .ok (run (text.map (fun c => [c])) M.init) := by
  rw [tokenizeStr_eq, S.ascii text h]

end Brack
