import Verif.Proof.LayoutText
import Verif.Proof.Room
import Verif.Proof.Cases
import Verif.Proof.PluginCases

/-
Properties of the layout of arguments (C95): after a comma or a space that separates, further spaces and
line breaks do not matter.
-/

namespace Brack

open UTable (sampleSeg)

/-! ### C95 -/

/-- C95: after a comma or a space that separates, one may write any spaces and line feeds: the document is
read or not, has errors or not, and has the same statements, lines, brackets, arguments and texts, whichever
are written. -/
theorem C95_layout (S : Segmenter) (ids : Nat → Str) (before : Str) (c : Char) (after : Str) (hs : Separates S before c)
    (hr : Room S (before ++ [c]) after) (b b' : Str) (hb : Blanks b) (hb' : Blanks b') :
    SameDocument S ids (before ++ [c] ++ b ++ after) (before ++ [c] ++ b' ++ after) :=
  (same_blanks ids hs hr b hb).symm.trans (same_blanks ids hs hr b' hb')

/-- C95: nor do they change the output: the one document compiles if and only if the other does, to the same output,
and leaves the plugins in the same state. -/
theorem C95_output {W : Wasm} (S : Segmenter) (ids : Nat → Str) (checks : Bool) (ps : Plugins W) (before : Str) (c : Char)
    (after : Str) (hs : Separates S before c) (hr : Room S (before ++ [c]) after) (b b' : Str) (hb : Blanks b) (hb' : Blanks b')
    (gen : Str) (ps2 : Plugins W) :
    compileText S ids checks (before ++ [c] ++ b ++ after) ps = (.ok gen, ps2) ↔
      compileText S ids checks (before ++ [c] ++ b' ++ after) ps = (.ok gen, ps2) :=
  (C95_layout S ids before c after hs hr b b' hb hb').compile checks ps gen ps2

/-- C95: after a comma or a space there is room for blanks, whatever the Unicode version, unless a combining character
follows. -/
theorem C95_room (T : UTable) (before : Str) (c : Char) (after : Str) (hc : c = ',' ∨ c = ' ')
    (hx : ∀ x ∈ after.head?, ¬ T.combining x) : Room T.segmenter (before ++ [c]) after :=
  T.room before c after (by rcases hc with rfl | rfl <;> decide) (by rcases hc with rfl | rfl <;> decide) hx

/-- The comma of a block, its second argument on a line of its own or not. -/
example : Separates sampleSeg (chars! "x {p.h [p.f y]") ',' ∧ Room sampleSeg (chars! "x {p.h [p.f y],") (chars! "é}") ∧
    Blanks (chars! " ") ∧ Blanks (chars! "\n\n    ") := by
  refine ⟨?_, ?_, by unfold Blanks; decide, by unfold Blanks; decide⟩
  · refine ⟨(run (sampleSeg.graphemes (chars! "x {p.h [p.f y],")) M.init).dropLast.dropLast, ⟨.comma, ⟨⟨0, 14⟩, ⟨0, 15⟩⟩⟩,
      ⟨.eof, ⟨⟨0, 15⟩, ⟨0, 15⟩⟩⟩, ?_, .inl rfl, ?_, ?_⟩
    · rw [tokenizeStr_eq]
      exact congrArg Res.ok (by decide +kernel)
    · decide +kernel
    · decide +kernel
  · refine C95_room UTable.sample (chars! "x {p.h [p.f y]") ',' _ (.inl rfl) ?_
    intro x hx
    have : x = 'é' := by simpa using hx.symm
    subst this
    unfold UTable.combining
    decide

/-- Both are compiled to the same. -/
example : (compileText sampleSeg someIds true (chars! "x {p.h y, z}") (sampleSet noHooks)).1 =
      (compileText sampleSeg someIds true (chars! "x {p.h y,\n\n    z}") (sampleSet noHooks)).1 ∧
    ∃ gen, (compileText sampleSeg someIds true (chars! "x {p.h y, z}") (sampleSet noHooks)).1 = .ok gen := by
  have hc : ∀ text gen, (∃ ts c a es, tokenizeStr sampleSeg text = .ok ts ∧ parse ts = .ok c ∧
      transform someIds c = .ok (a, es) ∧ ((do let b ← expander a; generate true b : PM _ Str) (sampleSet noHooks)).1 = .ok gen) →
      (compileText sampleSeg someIds true text (sampleSet noHooks)).1 = .ok gen := by
    rintro text gen ⟨ts, c, a, es, h1, h2, h3, h4⟩
    rw [compileText_front h1 h2 h3]
    exact h4
  have h1 := hc (chars! "x {p.h y, z}") (chars! "x h(y,[z;],)") (front_case _ _ (by decide) _ (by decide +kernel))
  have h2 := hc (chars! "x {p.h y,\n\n    z}") (chars! "x h(y,[z;],)") (front_case _ _ (by decide) _ (by decide +kernel))
  exact ⟨by rw [h1, h2], _, h1⟩

/-- The claims say something: outside brackets a further space is text, and a space before the name of a
bracket is an error. -/
example : ¬ SameDocument sampleSeg someIds (chars! "a, b") (chars! "a,  b") ∧
    ¬ SameDocument sampleSeg someIds (chars! "[p.f b]") (chars! "[ p.f b]") := by
  constructor
  · intro h
    obtain ⟨ts, c, a, es, h1, h2, h3, h4⟩ := front_case sampleSeg (chars! "a, b") (by decide)
      (fun _ _ a _ => a.shape = .node .document [.node .stmt [.node .expr [.leaf .text (some (chars! "a, b"))]]]) (by decide +kernel)
    obtain ⟨ts', c', a', es', k1, k2, k3, k4⟩ := front_case sampleSeg (chars! "a,  b") (by decide)
      (fun _ _ a _ => a.shape = .node .document [.node .stmt [.node .expr [.leaf .text (some (chars! "a,  b"))]]]) (by decide +kernel)
    rw [(h.2 a es a' es' ⟨ts, c, h1, h2, h3⟩ ⟨ts', c', k1, k2, k3⟩).1, h4] at k4
    exact absurd k4 (by decide)
  · intro h
    obtain ⟨ts, c, a, es, h1, h2, h3, h4⟩ := front_case sampleSeg (chars! "[p.f b]") (by decide)
      (fun _ _ _ es => es = []) (by decide +kernel)
    obtain ⟨ts', c', a', es', k1, k2, k3, k4⟩ := front_case sampleSeg (chars! "[ p.f b]") (by decide)
      (fun _ _ _ es => es ≠ []) (by decide +kernel)
    exact k4 ((h.2 a es a' es' ⟨ts, c, h1, h2, h3⟩ ⟨ts', c', k1, k2, k3⟩).2.mp h4)

end Brack
