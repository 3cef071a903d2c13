import Verif.Proof.BlankText
import Verif.Proof.Cases
import Verif.Proof.PluginCases
import Verif.Proof.Uax29

/-
Properties of documents with empty lines (C94): their number does not matter, and neither do line breaks
at the end.
-/

namespace Brack

open UTable (sampleSeg)

/-! ### C94 -/

/-- C94: two or more line feeds in a row, anywhere in a document, mean the same whatever their number:
the document is read or not, has errors or not, and has the same statements, lines, brackets, arguments
and texts. The carriage return of a CR LF pair before them would take the first line feed away. -/
theorem C94_blank_lines (S : Segmenter) (ids : Nat → Str) (above below : Str) (n m : Nat) (hn : 2 ≤ n) (hm : 2 ≤ m)
    (hcr : ∀ u, above ≠ u ++ ['\r']) : SameDocument S ids (withLines n above below) (withLines m above below) := by
  obtain ⟨n, rfl⟩ := Nat.exists_eq_add_of_le hn
  obtain ⟨m, rfl⟩ := Nat.exists_eq_add_of_le hm
  rw [Nat.add_comm 2 n, Nat.add_comm 2 m]
  exact (same_lines S ids above below n hcr).symm.trans (same_lines S ids above below m hcr)

/-- C94: line feeds at the end of a document mean nothing, be it one, several or none. -/
theorem C94_final_lines (S : Segmenter) (ids : Nat → Str) (text : Str) (n : Nat) (hcr : ∀ u, text ≠ u ++ ['\r']) :
    SameDocument S ids text (text ++ List.replicate n '\n') :=
  same_final S ids text n hcr

/-- C94: nor does their number change the output: the document with `n` line feeds compiles if and only if the one
with `m` does, to the same output, and leaves the plugins in the same state. -/
theorem C94_output {W : Wasm} (S : Segmenter) (ids : Nat → Str) (checks : Bool) (ps : Plugins W) (above below : Str) (n m : Nat)
    (hn : 2 ≤ n) (hm : 2 ≤ m) (hcr : ∀ u, above ≠ u ++ ['\r']) (gen : Str) (ps2 : Plugins W) :
    compileText S ids checks (withLines n above below) ps = (.ok gen, ps2) ↔
      compileText S ids checks (withLines m above below) ps = (.ok gen, ps2) :=
  (C94_blank_lines S ids above below n m hn hm hcr).compile checks ps gen ps2

/-- C94: the output of a document does not depend on the line feeds at its end. -/
theorem C94_final_output {W : Wasm} (S : Segmenter) (ids : Nat → Str) (checks : Bool) (ps : Plugins W) (text : Str) (n : Nat)
    (hcr : ∀ u, text ≠ u ++ ['\r']) (gen : Str) (ps2 : Plugins W) :
    compileText S ids checks text ps = (.ok gen, ps2) ↔
      compileText S ids checks (text ++ List.replicate n '\n') ps = (.ok gen, ps2) :=
  (C94_final_lines S ids text n hcr).compile checks ps gen ps2

/-- Empty lines between two paragraphs and inside a bracket, and at the end. -/
example : (∀ u, chars! "x {p.h y," ≠ u ++ ['\r']) ∧
    withLines 2 (chars! "x {p.h y,") (chars! "z}\n") = chars! "x {p.h y,\n\nz}\n" ∧
    withLines 4 (chars! "x {p.h y,") (chars! "z}\n") = chars! "x {p.h y,\n\n\n\nz}\n" ∧
    (compileText sampleSeg someIds true (chars! "x {p.h y,\n\nz}\n") (sampleSet noHooks)).1 = .ok (chars! "x h(y,[z;],)") ∧
    (compileText sampleSeg someIds true (chars! "x {p.h y,\n\n\n\nz}\n") (sampleSet noHooks)).1 = .ok (chars! "x h(y,[z;],)") ∧
    (compileText sampleSeg someIds true (chars! "x {p.h y,\n\nz}") (sampleSet noHooks)).1 = .ok (chars! "x h(y,[z;],)") := by
  have hc : ∀ text gen, (∃ ts c a es, tokenizeStr sampleSeg text = .ok ts ∧ parse ts = .ok c ∧
      transform someIds c = .ok (a, es) ∧ ((do let b ← expander a; generate true b : PM _ Str) (sampleSet noHooks)).1 = .ok gen) →
      (compileText sampleSeg someIds true text (sampleSet noHooks)).1 = .ok gen := by
    rintro text gen ⟨ts, c, a, es, h1, h2, h3, h4⟩
    rw [compileText_front h1 h2 h3]
    exact h4
  refine ⟨fun t h => ?_, rfl, rfl, hc _ _ (front_case _ _ (by decide) _ (by decide +kernel)),
    hc _ _ (front_case _ _ (by decide) _ (by decide +kernel)), hc _ _ (front_case _ _ (by decide) _ (by decide +kernel))⟩
  have := congrArg List.getLast? h
  simp at this

/-- The claims say something: one line feed is not the same as two. -/
example : ¬ SameDocument sampleSeg someIds (chars! "a\nb") (chars! "a\n\nb") := by
  intro h
  obtain ⟨ts, c, a, es, h1, h2, h3, h4⟩ := front_case sampleSeg (chars! "a\nb") (by decide)
    (fun _ _ a _ => (match a.shape with | .leaf _ _ => 0 | .node _ cs => cs.length) = 1) (by decide +kernel)
  obtain ⟨ts', c', a', es', k1, k2, k3, k4⟩ := front_case sampleSeg (chars! "a\n\nb") (by decide)
    (fun _ _ a _ => (match a.shape with | .leaf _ _ => 0 | .node _ cs => cs.length) = 2) (by decide +kernel)
  rw [(h.2 a es a' es' ⟨ts, c, h1, h2, h3⟩ ⟨ts', c', k1, k2, k3⟩).1, h4] at k4
  exact absurd k4 (by decide)

/-- Why a carriage return before the line feeds is excluded: together with it the first line feed is
text, so that two of them are one line break and three are an empty line. -/
theorem C94_carriage_return :
    ¬ ∀ (S : Segmenter) (ids : Nat → Str) (above below : Str) (n m : Nat), 2 ≤ n → 2 ≤ m →
      SameDocument S ids (withLines n above below) (withLines m above below) := by
  intro hall
  have h := hall sampleSeg someIds (chars! "a\r") (chars! "b") 2 3 (by decide) (by decide)
  have hc : ∀ n, (match parse (run (sampleSeg.graphemes (withLines n (chars! "a\r") (chars! "b"))) M.init) with
      | .ok c => (match transform someIds c with
        | .ok (a, _) => (match a.shape with | .leaf _ _ => 0 | .node _ cs => cs.length) == n - 1
        | _ => false)
      | _ => false) = true → ∃ a es, Reads sampleSeg someIds (withLines n (chars! "a\r") (chars! "b")) a es ∧
        (match a.shape with | .leaf _ _ => 0 | .node _ cs => cs.length) = n - 1 := by
    intro n hn
    split at hn
    · next c h1 =>
      split at hn
      · next a es h2 => exact ⟨a, es, ⟨_, c, tokenizeStr_eq _ _, h1, h2⟩, by simpa using hn⟩
      · simp at hn
    · simp at hn
  obtain ⟨a, es, h1, h2⟩ := hc 2 (by decide +kernel)
  obtain ⟨a', es', h3, h4⟩ := hc 3 (by decide +kernel)
  rw [(h.2 a es a' es' h1 h3).1, h2] at h4
  exact absurd h4 (by decide)

end Brack
