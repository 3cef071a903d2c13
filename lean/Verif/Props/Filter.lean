import Verif.Proof.Filter
import Verif.Proof.Cases
import Verif.Proof.PluginCases
import Verif.Proof.Paragraphs
import Verif.Props.Codegen

/-
C119: with a text hook, what is written reaches the output only through the hook.
-/

namespace Brack

/-- C119: if a plugin `p` has the text hook, then whatever the plugins do, and also if the compilation fails, each call of
a command or hook made while a document is compiled is a call of the text hook, or is given texts that are made of what
earlier calls returned and of nothing else; and the output is made of what the calls returned and of nothing else. -/
theorem C119_only {W : Wasm} (S : Segmenter) (ids : Nat → Str) (checks : Bool) (text p : Str) (ps : Plugins W)
    (hk : ps.textHook = some p) :
    ∃ calls, (compileText S ids checks text ps).2.log = ps.log ++ calls ∧
      (∀ before call after, calls = before ++ call :: after →
        (∃ v, call.Filters p v) ∨ ∀ s ∈ call.texts, Returned before s) ∧
      ∀ out, (compileText S ids checks text ps).1 = .ok out → Returned calls out := by
  obtain ⟨-, new, h1, h2, h3⟩ := filters_compileText S ids checks text ps ps.log [] hk (by simp) (by simp) .nil
  exact ⟨new, by simpa using h1, by rwa [List.nil_append] at h2, by simpa using h3⟩

/-- C119, each text: in a successful compilation the text hook is called exactly once with each text of the document, in
order, and all other calls are given texts that are made of what earlier calls returned. -/
theorem C119_each {W : Wasm} (S : Segmenter) (ids : Nat → Str) (checks : Bool) (text p out : Str) (ps ps' : Plugins W)
    (hk : ps.textHook = some p) (h : compileText S ids checks text ps = (.ok out, ps')) :
    ∃ (tokens : List Token) (calls : List (Bool × Call)), tokenizeStr S text = .ok tokens ∧
      ps'.log = ps.log ++ calls.map (·.2) ∧
      (calls.filter (·.1)).map (fun c => c.2.texts) = (documentTexts tokens).map (fun v => [v]) ∧
      (∀ before call after, calls = before ++ (true, call) :: after → ∃ v, call.Filters p v) ∧
      ∀ before call after, calls = before ++ (false, call) :: after → ∀ s ∈ call.texts, Returned (before.map (·.2)) s := by
  obtain ⟨a, es, ⟨ts, c, h1, h2, h3⟩, h4⟩ := compileText_iff.mp h
  obtain ⟨calls, hl, -, hp⟩ := C34_hooks checks a ps out (by rw [h4])
  have hf := hp.filtered hk
  have ht := (hp.tagFiltered hk).1
  rw [C22_content ts c ids a es h2 h3] at hf
  refine ⟨ts, calls.map fun c => (decide (c.1 = .text), c.2), h1, by rw [h4] at hl; rw [List.map_map]; exact hl, ?_, ?_, ?_⟩
  · simp only [List.filter_map, List.map_map]
    exact hf
  · intro before call after he
    obtain ⟨b', rest, rfl, rfl, h5⟩ := List.map_eq_append_iff.mp he
    obtain ⟨c', a', rfl, h6, rfl⟩ := List.map_eq_cons_iff.mp h5
    injection h6 with h6 h7
    rw [← h7]
    exact (ht b' c' a' rfl).1 (by simpa using h6)
  · intro before call after he
    obtain ⟨b', rest, rfl, rfl, h5⟩ := List.map_eq_append_iff.mp he
    obtain ⟨c', a', rfl, h6, rfl⟩ := List.map_eq_cons_iff.mp h5
    injection h6 with h6 h7
    rw [← h7, List.map_map]
    exact (ht b' c' a' rfl).2 (by simpa using h6)

/-- C119, character by character: a character that no call returns is not in the output and in no argument of a command,
whatever the document holds. -/
theorem C119_characters {W : Wasm} (S : Segmenter) (ids : Nat → Str) (checks : Bool) (text p : Str) (ps : Plugins W)
    (hk : ps.textHook = some p) (ch : Char) :
    ∃ calls, (compileText S ids checks text ps).2.log = ps.log ++ calls ∧
      ((∀ c ∈ calls, ∀ r, c.output = .text r → ch ∉ r) →
        (∀ c ∈ calls, (∃ v, c.Filters p v) ∨ ∀ s ∈ c.texts, ch ∉ s) ∧
        ∀ out, (compileText S ids checks text ps).1 = .ok out → ch ∉ out) := by
  obtain ⟨calls, h1, h2, h3⟩ := C119_only S ids checks text p ps hk
  refine ⟨calls, h1, fun hc => ⟨fun c hm => ?_, fun out ho => (h3 out ho).without hc⟩⟩
  obtain ⟨before, after, he⟩ := List.append_of_mem hm
  refine (h2 before c after he).imp id fun h s hs => (h s hs).without fun d hd => hc d ?_
  rw [he]
  exact List.mem_append_left _ hd

/-- A document with a text outside and one inside of a command, and only the text hook: its calls are the first and the
second, the command is given what the second returned, and the output is made of what the first and the command returned. -/
example : (sampleSet ⟨false, false, false, true⟩).textHook = some ['p'] ∧
    (compileText UTable.sampleSeg someIds true (chars! "a [p.g b]") (sampleSet ⟨false, false, false, true⟩)).2.log.map
      Call.texts = [[chars! "a "], [chars! "b"], [chars! "text(b,)"]] ∧
    (compileText UTable.sampleSeg someIds true (chars! "a [p.g b]") (sampleSet ⟨false, false, false, true⟩)).1 =
      .ok (chars! "text(a ,)g(text(b,),-,)") := by decide +kernel

/-- Without a text hook the text gets into the output by itself. -/
example : (compileText UTable.sampleSeg someIds true (chars! "a") (sampleSet noHooks)).1 = .ok (chars! "a") ∧
    ¬ Returned [] (chars! "a") := by
  refine ⟨by decide +kernel, ?_⟩
  rintro ⟨_ | ⟨r, rs⟩, h1, h2⟩
  · cases h2
  · obtain ⟨c, hc, -⟩ := h1 r (by simp)
    cases hc

end Brack
