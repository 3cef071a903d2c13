import Verif.Proof.Sources
import Verif.Proof.Cases
import Verif.Proof.PluginCases

/-
C114: what plugins are given to see.
-/

namespace Brack

/-- C114: whatever the plugins are and do, each text given to a command or a hook while a document is compiled is put
together from parts of that document, in the order in which they stand there and none of them twice, and from texts
returned by calls made earlier while compiling this document; so is the output. -/
theorem C114_sources {W : Wasm} (S : Segmenter) (ids : Nat → Str) (checks : Bool) (text : Str) (ps : Plugins W) :
    ∃ calls, (compileText S ids checks text ps).2.log = ps.log ++ calls ∧
      (∀ before call after, calls = before ++ call :: after → ∀ s ∈ call.texts, Sourced before text s) ∧
      ∀ out, (compileText S ids checks text ps).1 = .ok out → Sourced calls text out := by
  obtain ⟨new, h1, h2, h3⟩ := draws_compileText S ids checks text ps ps.log [] (by simp) (by simp) .nil
  exact ⟨new, by simpa using h1, by rwa [List.nil_append] at h2, by simpa using h3⟩

/-- C114, character by character: a character in a text given to a command or a hook stands in the document or in a text
returned by an earlier call. -/
theorem C114_characters {W : Wasm} (S : Segmenter) (ids : Nat → Str) (checks : Bool) (text : Str) (ps : Plugins W)
    (before after : List Call) (call : Call)
    (hl : (compileText S ids checks text ps).2.log = ps.log ++ before ++ call :: after) (s : Str) (hs : s ∈ call.texts) :
    ∀ ch ∈ s, ch ∈ text ∨ ∃ c ∈ before, ∃ p, c.output = .text p ∧ ch ∈ p := by
  obtain ⟨calls, h1, h2, -⟩ := C114_sources S ids checks text ps
  rw [hl, List.append_assoc] at h1
  have := h2 before call after (List.append_cancel_left h1).symm s hs
  clear h1 h2 hl hs
  induction this with
  | done => simp
  | @part gap p rest s _ _ ih =>
    intro ch hm
    rcases List.mem_append.mp hm with hm | hm
    · exact .inl (by simp [hm])
    · rcases ih ch hm with h | h
      · exact .inl (by simp [h])
      · exact .inr h
  | @result d p s c hc ho _ ih =>
    intro ch hm
    rcases List.mem_append.mp hm with hm | hm
    · exact .inr ⟨c, hc, p, ho, hm⟩
    · exact ih ch hm

/-- C114, for line breaks: a text given to a command or a hook has line feeds (other than after a carriage return) and NUL
only if an earlier call returned one. -/
theorem C114_breaks {W : Wasm} (S : Segmenter) (ids : Nat → Str) (checks : Bool) (text : Str) (ps : Plugins W)
    (before after : List Call) (call : Call)
    (hl : (compileText S ids checks text ps).2.log = ps.log ++ before ++ call :: after) (s : Str) (hs : s ∈ call.texts)
    (hr : ∀ c ∈ before, ∀ p, c.output = .text p → Tame p) : Tame s := by
  obtain ⟨calls, h1, h2, -⟩ := C114_sources S ids checks text ps
  rw [hl, List.append_assoc] at h1
  have := h2 before call after (List.append_cancel_left h1).symm s hs
  clear h1 h2 hl hs
  induction this with
  | done => exact .nil
  | part hp _ ih => exact hp.append ih
  | result hc ho _ ih => exact (hr _ hc _ ho).append ih

/-- A command called with two arguments, one of them made of an escaped bracket and a word. -/
example : (compileText UTable.sampleSeg someIds true (chars! "x [p.g y, \\]z] w") (sampleSet noHooks)).2.log.map Call.texts =
    [[chars! "y", chars! "]z"]] := by decide +kernel

/-- What the command returns is passed to the hooks, one after another. -/
example : ((compileText UTable.sampleSeg someIds true (chars! "[p.f]") (sampleSet allHooks)).2.log.map Call.texts) =
    [[], [chars! "f()"], [chars! "expr(f(),)"], [chars! "stmt(expr(f(),),)"]] := by decide +kernel

/-- Not every text made of the characters of the document is put together from parts of it: order counts. -/
example : ¬ Sourced [] (chars! "ab") (chars! "ba") := by
  intro h
  have key : ∀ {d s : Str}, Sourced [] d s → s.Sublist d := by
    intro d s h
    induction h with
    | done => exact List.nil_sublist _
    | @part gap p rest s _ _ ih =>
      rw [List.append_assoc]
      exact (ih.append_left p).trans (List.sublist_append_right _ _)
    | result hc => cases hc
  exact absurd (key h) (by decide)

end Brack
