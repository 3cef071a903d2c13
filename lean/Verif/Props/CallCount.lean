import Verif.Spec.CallCount
import Verif.Proof.CallCount
import Verif.Props.Parts
import Verif.Props.Nesting
import Verif.Props.Tokenizer

/-
C124: how many calls a document makes.
-/

namespace Brack

variable {W : Wasm}

/-- C124: whatever plugins are installed and whatever they return, compiling a document makes at most four calls for each
of its characters, and five more. What plugins return is not read again. -/
theorem C124_calls (S : Segmenter) (ids : Nat → Str) (checks : Bool) (text : Str) (ps : Plugins W) :
    callsMade (compileText S ids checks text) ps ≤ 4 * text.length + 5 := by
  have := compile_bound S ids checks text ps 1 (4 * text.length + 5) (by simp) fun ts c a es h1 h2 h3 => by
    have := (C100_size S text ts c ids a es h1 h2 h3).2.2
    have := weight_size a
    omega
  unfold callsMade
  omega

/-- C124: without hooks, it makes at most one call for each opening bracket, also if it fails. -/
theorem C124_brackets (S : Segmenter) (ids : Nat → Str) (checks : Bool) (text : Str) (ps : Plugins W) (h : NoHooks ps) :
    callsMade (compileText S ids checks text) ps ≤ openingChars text := by
  have := compile_bound S ids checks text ps 0 (openingChars text) (fun _ => h) fun ts c a es h1 h2 h3 => by
    have h4 := (weight_commands a []).1
    rw [C97_parts ts c ids a es h2 h3] at h4
    have := commands_openings S text ts h1
    unfold commandsWritten at this
    omega
  unfold callsMade
  omega

/-- C124: without hooks, a document that compiles makes exactly one call for each command written in it. -/
theorem C124_exact (S : Segmenter) (ids : Nat → Str) (checks : Bool) (text : Str) (ps : Plugins W) (h : NoHooks ps)
    (ts : List Token) (ht : tokenizeStr S text = .ok ts) (out : Str) (ho : (compileText S ids checks text ps).1 = .ok out) :
    callsMade (compileText S ids checks text) ps = commandsWritten ts := by
  rcases hr : compileText S ids checks text ps with ⟨r, ps'⟩
  rw [hr] at ho
  simp only at ho
  subst ho
  obtain ⟨ts', c, a, es, h1, h2, h3, hm, hg⟩ := compileText_ok hr
  rw [ht] at h1
  injection h1 with h1
  subst h1
  have := (counts_generate (W := W) 0 checks a ps fun _ => h).2.2 rfl out (by rw [hg])
  rw [hg, (weight_commands a []).2 hm, C97_parts ts c ids a es h2 h3] at this
  unfold callsMade commandsWritten
  rw [hr]
  simp only at this ⊢
  omega

/-- A document with three commands, two of them inside of the third, and an escaped bracket that is none. -/
example : commandsWritten (run ((chars! "a [p.g {p.h x}, [p.f]] \\]").map (fun c => [c])) M.init) = 3 ∧
    openingChars (chars! "a [p.g {p.h x}, [p.f]] \\]") = 3 := by decide +kernel

/-- It makes three calls without hooks. -/
example : callsMade (compileText UTable.sampleSeg someIds true (chars! "a [p.g [p.f], [p.f]] \\]")) (sampleSet noHooks) = 3 := by
  decide +kernel

/-- With hooks for everything, many more calls are made, but not more than the bound. -/
example : callsMade (compileText UTable.sampleSeg someIds true (chars! "[p.g a, b]")) (sampleSet allHooks) = 8 := by
  decide +kernel

end Brack
