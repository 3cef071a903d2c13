import Verif.Proof.Clean
import Verif.Props.Transform
import Verif.Props.Decided

/-
Properties of documents without errors (C109): what can keep a document from being compiled.
-/

namespace Brack

variable {W : Wasm}

/-! ### C109 -/

/-- C109: exactly which documents are compiled: those that can be read, whose tree has statements, expressions, texts and
commands only, whose commands are declared and given admissible numbers of arguments, and for which no call fails. (The
hooks exist, C40, parameters are declared in the usual order, C32, and the document fits into memory.) -/
theorem C109_compiles_iff (S : Segmenter) (ids : Nat → Str) (checks : Bool) (text : Str) (ps : Plugins W) (hp : ps.log = [])
    (hh : ps.HooksExist) (hs : ps.AllStandard) (hl : 4 * text.length + 5 ≤ usizeMax) :
    (∃ gen, (compileText S ids checks text ps).1 = .ok gen) ↔
      (∃ a es, Reads S ids text a es ∧ ∀ n, AST.NodeOf n a → n.nodeGenerable = true ∧ n.CommandOk ps) ∧
        ∀ c ∈ (compileText S ids checks text ps).2.log, c.isFailed = false := by
  constructor
  · rintro ⟨gen, h⟩
    have h' : compileText S ids checks text ps = (.ok gen, (compileText S ids checks text ps).2) := by rw [← h]
    obtain ⟨a, es, h1, h2⟩ := compileText_iff.mp h'
    refine ⟨⟨a, es, h1, (generate_fine (by rw [h2])).2⟩, ?_⟩
    obtain ⟨new, h3, h4⟩ := C108_success S ids checks text gen ps _ h'
    rw [h3, hp, List.nil_append]
    exact h4
  · rintro ⟨⟨a, es, h1, h2⟩, h3⟩
    obtain ⟨calls, h4, h5⟩ := compileText_done (checks := checks) h1 h2 hh hs hl
    rcases h5 with h5 | ⟨_, c, h6, h7⟩
    · rcases hr : (compileText S ids checks text ps).1 with gen | m | _
      · exact ⟨gen, rfl⟩
      · rw [hr] at h5; cases h5
      · rw [hr] at h5; cases h5
    · rw [h4, hp, List.nil_append] at h3
      rw [h3 c (List.mem_of_getLast? h6)] at h7
      cases h7

/-- C109 (partial): a document without errors, without macros and without escaped opening brackets is compiled if its
commands are declared and given admissible numbers of arguments, unless a command or hook fails, whose error is reported
then. -/
theorem C109_clean_partial (S : Segmenter) (ids : Nat → Str) (checks : Bool) (text : Str) (ps : Plugins W) (hp : ps.log = [])
    (hh : ps.HooksExist) (hs : ps.AllStandard) (hl : 4 * text.length + 5 ≤ usizeMax) (ts : List Token) (c : CST) (a : AST)
    (h1 : tokenizeStr S text = .ok ts) (h2 : parse ts = .ok c) (h3 : transform ids c = .ok (a, []))
    (hesc : ∀ e ∈ trace [] ts, e.escapedOpen = false)
    (hm : ∀ i cs l, ¬ AST.NodeOf (.node (.bracket .angle) i cs l) a) (hc : ∀ n, AST.NodeOf n a → n.CommandOk ps) :
    (∃ gen, (compileText S ids checks text ps).1 = .ok gen) ∨
      ∃ pre c e, (compileText S ids checks text ps).2.log = pre ++ [c] ∧ c.isFailed = true ∧ Gave ps c e ∧
        (compileText S ids checks text ps).1 = .err e := by
  by_cases hf : ∃ c ∈ (compileText S ids checks text ps).2.log, c.isFailed = true
  · obtain ⟨pre, c, e, k1, k2, _, k3, k4⟩ := C108_error S ids checks text ps hp hf
    exact .inr ⟨pre, c, e, k1, k2, k3, k4⟩
  · refine .inl ((C109_compiles_iff S ids checks text ps hp hh hs hl).mpr ⟨⟨a, [], ⟨ts, c, h1, h2, h3⟩, fun n hn =>
      ⟨?_, hc n hn⟩⟩, fun c hc => ?_⟩)
    · refine generable_of_follows hn (C18_grammar_partial S text ts c ids a h1 h2 h3 hesc) hm ?_
      intro k i v l h
      obtain ⟨_, _, _, h'⟩ := reads_document ⟨ts, c, h1, h2, h3⟩
      rw [h] at h'
      cases h'
    · rcases hcf : c.isFailed
      · rfl
      · exact absurd ⟨c, hc, hcf⟩ hf

/-- The hooks of the sample plugins exist. -/
theorem sampleSet_hooks : (sampleSet noHooks).HooksExist := by
  refine ⟨?_, ?_, ?_, ?_⟩ <;> intro p h <;> cases h

/-- C109 refuted: the document `<p.m>` is without errors, its macro is declared and does not fail, and yet it is not
compiled. -/
theorem C109_macro_refuted (S : Segmenter) : ∃ ts c a es, tokenizeStr S (chars! "<p.m>") = .ok ts ∧ parse ts = .ok c ∧
    transform someIds c = .ok (a, es) ∧ es = [] ∧ (sampleSet noHooks).signature ['p'] ['m'] .ast = some [] ∧
    (compileText S someIds true (chars! "<p.m>") (sampleSet noHooks)).1.isErr = true ∧
    ∀ c ∈ (compileText S someIds true (chars! "<p.m>") (sampleSet noHooks)).2.log, c.isFailed = false := by
  obtain ⟨ts, c, a, es, h1, h2, h3, h4, h5, h6⟩ := front_case S (chars! "<p.m>") (by decide)
    (fun _ _ a es => es = [] ∧ ((do let b ← expander a; generate true b : PM sampleWasm Str) (sampleSet noHooks)).1.isErr = true ∧
      ∀ c ∈ ((do let b ← expander a; generate true b : PM sampleWasm Str) (sampleSet noHooks)).2.log, c.isFailed = false)
    (by decide +kernel)
  refine ⟨ts, c, a, es, h1, h2, h3, h4, by decide +kernel, ?_, ?_⟩
  · rw [compileText_front h1 h2 h3]; exact h5
  · rw [compileText_front h1 h2 h3]; exact h6

/-- C109 refuted: the document `[p.g \[z ]` is without errors and without macros, its command is declared and given an
admissible number of arguments, nothing fails, and yet it is not compiled. -/
theorem C109_escaped_refuted (S : Segmenter) : ∃ ts c a es, tokenizeStr S (chars! "[p.g \\[z ]") = .ok ts ∧ parse ts = .ok c ∧
    transform someIds c = .ok (a, es) ∧ es = [] ∧ a.macros.length = 0 ∧
    (sampleSet noHooks).signature ['p'] ['g'] .inline = some [.inline, .option .inline] ∧
    (compileText S someIds true (chars! "[p.g \\[z ]") (sampleSet noHooks)).1.isErr = true ∧
    (compileText S someIds true (chars! "[p.g \\[z ]") (sampleSet noHooks)).2.log.length = 0 := by
  obtain ⟨ts, c, a, es, h1, h2, h3, h4, h5, h6, h7⟩ := front_case S (chars! "[p.g \\[z ]") (by decide)
    (fun _ _ a es => es = [] ∧ a.macros.length = 0 ∧
      ((do let b ← expander a; generate true b : PM sampleWasm Str) (sampleSet noHooks)).1.isErr = true ∧
      ((do let b ← expander a; generate true b : PM sampleWasm Str) (sampleSet noHooks)).2.log.length = 0)
    (by decide +kernel)
  refine ⟨ts, c, a, es, h1, h2, h3, h4, h5, by decide +kernel, ?_, ?_⟩
  · rw [compileText_front h1 h2 h3]; exact h6
  · rw [compileText_front h1 h2 h3]; exact h7

/-- Concrete case: a document with errors that is compiled all the same, one without errors, one with an unknown command
and one with a command that fails. -/
example :
    let compile := fun text => (compileText UTable.sampleSeg someIds true text (sampleSet noHooks)).1
    (compile (chars! "[p.g x")).isOk = true ∧ (compile (chars! "a [p.g x[p.f]]")).isOk = true ∧
      (compile (chars! "[p.zz x]")).isErr = true ∧ (compile (chars! "x [p.bad]")) = .err "bad" := by decide +kernel

/-- Concrete case: hypotheses of the theorems. -/
example : (sampleSet noHooks).HooksExist ∧ (sampleSet noHooks).log = [] ∧
    ∃ ts c a es, tokenizeStr UTable.sampleSeg (chars! "a [p.g x[p.f]]") = .ok ts ∧ parse ts = .ok c ∧
      transform someIds c = .ok (a, es) ∧ es = [] ∧ (∀ e ∈ trace [] ts, e.escapedOpen = false) ∧
      a.nodes.all (fun n => match n with | .node (.bracket .angle) _ _ _ => false | _ => true) = true := by
  refine ⟨sampleSet_hooks, by rfl, ?_⟩
  exact front_case _ _ (by decide) _ (by decide +kernel)

end Brack
