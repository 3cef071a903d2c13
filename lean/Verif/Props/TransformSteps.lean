import Verif.Proof.TransformSteps
import Verif.Props.ParserSteps
import Verif.Proof.Uax29

/-
How long transforming takes.
-/

namespace Brack

/-- C133 (partial): the steps taken to transform a parsed document, the nodes copied included, are at most
proportional to the length of the document times the depth to which commands are nested. Missing: the bound by
the length alone, see `C133_linear_refuted`. -/
theorem C133_steps_partial (ts : List Token) (c : CST) (hp : parse ts = .ok c) :
    transformSteps c ≤ 1100 * ((openMost ts + 1) * ts.length) := by
  obtain ⟨rest, hP⟩ := parse_ok hp
  have hpos : 1 ≤ ts.length := by
    have := hP.hasEof
    cases ts with
    | nil => exact absurd this not_hasEof_nil
    | cons t ts => simp
  obtain ⟨k1, k2⟩ := parse_measure hp
  obtain ⟨d, es, hs, k3, k4⟩ := simplify_measure hp
  have h1 := simplifySteps_le c
  have h4 := auxSteps_le d
  have h2 : c.height * c.size ≤ (5 * (openMost ts + 1)) * (5 * ts.length) := Nat.mul_le_mul (by omega) (by omega)
  have h5 : d.height * d.size ≤ (5 * (openMost ts + 1)) * (5 * ts.length) := Nat.mul_le_mul (by omega) (by omega)
  have h3 : (5 * (openMost ts + 1)) * (5 * ts.length) = 25 * ((openMost ts + 1) * ts.length) := by
    rw [Nat.mul_mul_mul_comm]
  have h6 : 1 * ts.length ≤ (openMost ts + 1) * ts.length := Nat.mul_le_mul_right _ (by omega)
  rw [transformSteps, hs]
  simp only
  omega

/-- C133: in the worst case they are quadratic in the length of the text. -/
theorem C133_quadratic (S : Segmenter) (text : Str) (ts : List Token) (c : CST) (ht : tokenizeStr S text = .ok ts)
    (hp : parse ts = .ok c) : transformSteps c ≤ 2200 * ((text.length + 1) * (text.length + 1)) := by
  have h1 := C133_steps_partial ts c hp
  have h2 := tokens_length S text ts ht
  have h3 := openMost_tokens ts
  have h4 : (openMost ts + 1) * ts.length ≤ (2 * (text.length + 1)) * (text.length + 1) :=
    Nat.mul_le_mul (by omega) h2
  rw [Nat.mul_assoc] at h4
  omega

/-- C133: and they are at least quadratic in the depth of nesting, for all documents. -/
theorem C133_nested (ts : List Token) (c : CST) (hp : parse ts = .ok c) :
    openMost ts * openMost ts ≤ 2 * transformSteps c := by
  obtain ⟨rest, hP⟩ := parse_ok hp
  have hc := (parse_grammar hp).copied_le
  have ho : openMost ts ≤ c.height - 1 := by
    obtain ⟨cs, l, ds, es', rfl, -⟩ := (parse_grammar hp).xdoc
    rw [openMost_le, hP.parts]
    intro x hx
    simpa [CST.height] using layL_height cs [] x (by simpa [CST.lay] using hx)
  have k1 := c.copied_ge
  have k2 : openMost ts * openMost ts ≤ c.height * (c.height - 1) := Nat.mul_le_mul (by omega) ho
  rw [transformSteps]
  omega

/-- C133 refuted: no number of steps per character is enough for all documents. -/
theorem C133_linear_refuted (S : Segmenter) (k : Nat) : ∃ text ts c, tokenizeStr S text = .ok ts ∧ parse ts = .ok c ∧
    k * text.length < transformSteps c := by
  have hg : S.graphemes (List.replicate (2 * k + 1) '[') = List.replicate (2 * k + 1) ['['] := by
    rw [S.ascii _ (by intro c hc; rw [List.eq_of_mem_replicate hc]; decide), List.map_replicate]
  obtain ⟨us, e, h1, h2, h3, h4⟩ := run_opens (2 * k + 1) M.init
  have ht : tokenizeStr S (List.replicate (2 * k + 1) '[') = .ok (us ++ [e]) := by rw [tokenizeStr_eq, hg, h1]
  have hk : (us ++ [e]).map (·.kind) = .bopen .square :: (List.replicate (2 * k) (.bopen .square) ++ [.eof]) := by
    have : us.map (·.kind) = List.replicate (2 * k + 1) (.bopen .square) := by
      rw [List.eq_replicate_iff]
      refine ⟨by simp [h3], ?_⟩
      intro b hb
      obtain ⟨u, hu, rfl⟩ := List.mem_map.mp hb
      exact h4 u hu
    rw [List.map_append, this, List.replicate_succ]
    simp [h2]
  obtain ⟨c, hc⟩ := (C11_accepts_iff (us ++ [e])).2 (by
    rw [hk, accepts]
    simpa [LineState.allowsItem] using accepts_opens (2 * k) [] .items)
  refine ⟨_, _, c, ht, hc, ?_⟩
  have hn := C133_nested _ c hc
  obtain ⟨x, hx, hx2⟩ := parts_opens us e h2 h4 [] (2 * k) (by omega)
  have ho := (openMost_le (us ++ [e]) _).1 (Nat.le_refl _) x hx
  have hsq : (2 * k + 1) * (2 * k + 1) ≤ openMost (us ++ [e]) * openMost (us ++ [e]) :=
    Nat.mul_le_mul (by simpa [hx2] using ho) (by simpa [hx2] using ho)
  have hexp : (2 * k + 1) * (2 * k + 1) = 2 * (k * (2 * k + 1)) + (2 * k + 1) := by
    rw [Nat.add_mul, Nat.mul_assoc]; omega
  rw [List.length_replicate]
  omega

/-- A document with two commands inside each other: 31 tokens and 832 steps. -/
example : ∃ ts, tokenizeStr UTable.sampleSeg (chars! "a [p.f {p.g b\\]}]\n\n[p.f [p.f c]]") = .ok ts ∧
    (ts.length = 31 ∧ openMost ts = 2 ∧ (match parse ts with | .ok c => transformSteps c | _ => 0) = 832) := by
  rw [tokenizeStr_eq]
  exact ok_such (by decide +kernel)

end Brack
