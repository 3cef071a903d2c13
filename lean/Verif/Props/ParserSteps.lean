import Verif.Spec.ParserSteps
import Verif.Proof.ParserSteps
import Verif.Props.Parser
import Verif.Proof.Balance
import Verif.Proof.Uax29

/-
How long parsing takes.
-/

namespace Brack

/-- The counting parser is the parser: whatever a copy counts, its results are the same. -/
theorem C120_same (w : Nat) (ts : List Token) : (parseS w ts).1 = parse ts := parseS_fst w ts

/-- C120: the number of calls, the failing attempts included, is at most proportional to the length of the document:
nothing is tried again and again. -/
theorem C120_calls (S : Segmenter) (text : Str) (ts : List Token) (ht : tokenizeStr S text = .ok ts) :
    parserCalls ts ≤ 180 * ts.length ∧ parserCalls ts ≤ 180 * (text.length + 1) := by
  obtain ⟨j, m, h1, h2, -, -⟩ := parseS_in ts (tokens_hasEof S text ts ht)
  have h3 := tokens_length S text ts ht
  rw [parserCalls, h1 0, Nat.zero_mul]
  exact ⟨by omega, by omega⟩

/-- C120 (partial): with the nodes that are copied, the steps are at most proportional to the length of the document
times the depth to which commands are nested. Missing: the bound by the length alone, see `C120_linear_refuted`. -/
theorem C120_steps_partial (S : Segmenter) (text : Str) (ts : List Token) (c : CST) (ht : tokenizeStr S text = .ok ts)
    (hp : parse ts = .ok c) : parserSteps ts ≤ 220 * ((openMost ts + 1) * ts.length) := by
  obtain ⟨j, m, h1, h2, h3, -⟩ := parseS_in ts (tokens_hasEof S text ts ht)
  have hm := (h3 c hp).2
  obtain ⟨k1, k2⟩ := parse_measure hp
  have hpos : 1 ≤ ts.length := by
    have := tokens_hasEof S text ts ht
    cases ts with
    | nil => exact absurd this not_hasEof_nil
    | cons t ts => simp
  have k3 : (c.height - 1) * c.size ≤ (4 * (openMost ts + 1)) * (5 * ts.length) := Nat.mul_le_mul (by omega) (by omega)
  have k4 := c.copied_le
  have k5 : (4 * (openMost ts + 1)) * (5 * ts.length) = 20 * ((openMost ts + 1) * ts.length) := by
    rw [Nat.mul_mul_mul_comm]
  have k6 : 1 * ts.length ≤ (openMost ts + 1) * ts.length := Nat.mul_le_mul_right _ (by omega)
  rw [parserSteps, h1 1, Nat.one_mul]
  omega

/-- C120: in the worst case they are quadratic in the number of tokens, for documents that are not accepted as well. -/
theorem C120_quadratic (S : Segmenter) (text : Str) (ts : List Token) (ht : tokenizeStr S text = .ok ts) :
    parserSteps ts ≤ 212 * (ts.length * ts.length) := by
  obtain ⟨j, m, h1, h2, -, h3⟩ := parseS_in ts (tokens_hasEof S text ts ht)
  have hpos : 1 ≤ ts.length := by
    have := tokens_hasEof S text ts ht
    cases ts with
    | nil => exact absurd this not_hasEof_nil
    | cons t ts => simp
  have k1 : (3 * ts.length + 1) * (3 * ts.length + 1) ≤ (4 * ts.length) * (4 * ts.length) :=
    Nat.mul_le_mul (by omega) (by omega)
  have k2 : (4 * ts.length) * (4 * ts.length) = 16 * (ts.length * ts.length) := by rw [Nat.mul_mul_mul_comm]
  have k3 : 1 * ts.length ≤ ts.length * ts.length := Nat.mul_le_mul_right _ hpos
  rw [parserSteps, h1 1, Nat.one_mul]
  omega

/-- C120: and they are at least quadratic in the depth of nesting, for all documents. -/
theorem C120_nested (ts : List Token) (c : CST) (hp : parse ts = .ok c) :
    openMost ts * openMost ts ≤ 2 * parserSteps ts := by
  obtain ⟨rest, hP⟩ := parse_ok hp
  obtain ⟨j, m, h1, -, h3, -⟩ := parseS_in ts hP.hasEof
  have hm := (h3 c hp).1
  obtain ⟨cs, l, ds, es', rfl, -⟩ := (parse_grammar hp).xdoc
  have ho : openMost ts ≤ CST.heightL cs := by
    rw [openMost_le, hP.parts]
    intro x hx
    simpa using layL_height cs [] x (by simpa [CST.lay] using hx)
  have k1 := CST.copiedL_ge cs
  have k2 : openMost ts * openMost ts ≤ CST.heightL cs * (CST.heightL cs + 1) := Nat.mul_le_mul ho (by omega)
  rw [CST.copied] at hm
  rw [parserSteps, h1 1, Nat.one_mul]
  omega

/-- C120 refuted: no number of steps per character is enough for all documents, accepted ones included. -/
theorem C120_linear_refuted (S : Segmenter) (k : Nat) : ∃ text ts c, tokenizeStr S text = .ok ts ∧ parse ts = .ok c ∧
    k * text.length < parserSteps ts := by
  have hg : S.graphemes (List.replicate (2 * k + 1) '[') = List.replicate (2 * k + 1) ['['] := by
    rw [S.ascii _ (by intro c hc; rw [List.eq_of_mem_replicate hc]; decide), List.map_replicate]
  obtain ⟨us, e, h1, h2, h3, h4⟩ := run_opens (2 * k + 1) M.init
  have ht : tokenizeStr S (List.replicate (2 * k + 1) '[') = .ok (us ++ [e]) := by rw [tokenizeStr_eq, hg, h1]
  have hk : (us ++ [e]).map (·.kind) = .bopen .square :: (List.replicate (2 * k) (.bopen .square) ++ [.eof]) := by
    have : us.map (·.kind) = List.replicate (2 * k + 1) (.bopen .square) := by
      rw [List.eq_replicate_iff]
      refine ⟨by simp [h3], ?_⟩
      intro b hb
      obtain ⟨u, hu, rfl⟩ := List.mem_map.mp hb
      exact h4 u hu
    rw [List.map_append, this, List.replicate_succ]
    simp [h2]
  obtain ⟨c, hc⟩ := (C11_accepts_iff (us ++ [e])).2 (by
    rw [hk, accepts]
    simpa [LineState.allowsItem] using accepts_opens (2 * k) [] .items)
  refine ⟨_, _, c, ht, hc, ?_⟩
  have hn := C120_nested _ c hc
  obtain ⟨x, hx, hx2⟩ := parts_opens us e h2 h4 [] (2 * k) (by omega)
  have ho := (openMost_le (us ++ [e]) _).1 (Nat.le_refl _) x hx
  have hsq : (2 * k + 1) * (2 * k + 1) ≤ openMost (us ++ [e]) * openMost (us ++ [e]) :=
    Nat.mul_le_mul (by simpa [hx2] using ho) (by simpa [hx2] using ho)
  have hexp : (2 * k + 1) * (2 * k + 1) = 2 * (k * (2 * k + 1)) + (2 * k + 1) := by
    rw [Nat.add_mul, Nat.mul_assoc]; omega
  rw [List.length_replicate]
  omega

/-- A document with two commands inside each other: 31 tokens, 539 calls and 281 nodes copied. -/
example : ∃ ts, tokenizeStr UTable.sampleSeg (chars! "a [p.f {p.g b\\]}]\n\n[p.f [p.f c]]") = .ok ts ∧
    (ts.length = 31 ∧ parserCalls ts = 539 ∧ parserSteps ts = 820 ∧ openMost ts = 2 ∧ (parse ts).isOk = true) := by
  rw [tokenizeStr_eq]
  exact ok_such (by decide +kernel)

end Brack
