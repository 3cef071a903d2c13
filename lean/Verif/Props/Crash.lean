import Verif.Proof.Crash
import Verif.Props.Main

/-
C103: the commands crash for known reasons only.
-/

namespace Brack

/-- C103: `brack new`, `brack add` and `brack version` never crash, whatever their arguments, the state of the disk and
the answers from the network. -/
theorem C103_never (M : MainEnv) (name schema : Str) (w : World) :
    (mainCommand M (.new name) w).1 ≠ .panic ∧ (mainCommand M (.add schema) w).1 ≠ .panic ∧
      (mainCommand M .version w).1 ≠ .panic :=
  ⟨newProject_ne_panic name w, addPlugin_ne_panic _ schema w, printLine_ne_panic _ w⟩

/-- Concrete case: an argument without repository. -/
example : (mainCommand mainSample (.add (chars! "github:x")) (sampleWorld fun _ => .none)).1.isErr = true := by
  decide +kernel

/-- A project with a document whose separator is outside all brackets. -/
private def loose : World :=
  { sampleWorld fun _ => .none with
    files := [(chars! "Brack.toml", utf8 (newConfigText (chars! "n"))), (chars! "docs/a.[]", utf8 (chars! "\\[a b"))]
    dirs := [chars! "docs", chars! "plugins"] }

/-- C103 refuted: `brack build` crashes in a project with the document `\[a b`, and so does `brack compile`. -/
theorem C103_refuted : ∃ (M : MainEnv) (w : World), w.Holds (chars! "docs/a.[]") (chars! "\\[a b") ∧
    (mainCommand M .build w).1 = .panic ∧
    (mainCommand M (.compile ⟨some (chars! "plugins"), chars! "docs/a.[]", 3, false⟩) w).1 = .panic := by
  refine ⟨mainSample, loose, ⟨_, rfl, fromUtf8_utf8 _⟩, ?_, ?_⟩
  · exact panic_of (by decide +kernel)
  · exact panic_of (by decide +kernel)

/-- C103 (partial), building: if the plugins declare their parameters in the usual order, a build crashes only if some
document of the project has a separator outside all brackets or a backslash that escapes nothing. -/
theorem C103_build_partial (M : MainEnv) (w : World) (hw : w.PluginsStandard M.X.W)
    (h : (mainCommand M .build w).1 = .panic) :
    ∃ name text, w.Holds (chars! "docs/" ++ name ++ chars! ".[]") text ∧
      (LooseText M.X.E.S text ∨ StrayText M.X.E.S text) :=
  buildCommand_panic hw h

/-- Concrete case: all files of plugins that can be loaded here report the same commands. -/
private theorem sample_standard (w : World) : w.PluginsStandard sampleWasm := by
  intro b ms _ h m hm
  have hms : ms ∈ (sampleWasm.reports [1]).toList := by
    rw [Wasm.reports] at h
    simp only [sampleWasm] at h
    rcases b with _ | ⟨x, b⟩
    · simp at h
    · simp only [List.isEmpty_cons, Bool.false_eq_true, if_false, Option.some.injEq] at h
      subst h
      simp [Wasm.reports, sampleWasm]
  simp only [Wasm.reports, sampleWasm, List.isEmpty_cons, Bool.false_eq_true, if_false, Option.toList_some,
    List.mem_singleton] at hms
  subst hms
  simp only [List.mem_cons, List.not_mem_nil, or_false] at hm
  have hu : 2 ≤ usizeMax := by decide
  rcases hm with rfl | rfl | rfl | rfl | rfl | rfl | rfl | rfl | rfl | rfl
  all_goals refine ⟨?_, by first | (simp; done) | (simp; omega)⟩
  all_goals first
    | exact ⟨[], [], rfl, by simp, .inl (by simp)⟩
    | exact ⟨[.inline], [], rfl, by simp [PType.isRequired], .inl (by simp)⟩
    | exact ⟨[.inline], [.option .inline], rfl, by simp [PType.isRequired], .inl (by simp)⟩
    | exact ⟨[.inline], [.array .inline], rfl, by simp [PType.isRequired], .inr ⟨_, rfl⟩⟩

/-- The crash above is one of these. -/
example : loose.PluginsStandard mainSample.X.W ∧ (mainCommand mainSample .build loose).1 = .panic :=
  ⟨sample_standard _, panic_of (by decide +kernel)⟩

/-- C103 (partial), compiling: tokenizing and parsing never crash; up to the tree, only separators outside all brackets
make `brack compile` crash, from the expansion on also backslashes that escape nothing. (Only at the last level the
plugins matter.) -/
theorem C103_compile_partial (M : MainEnv) (args : CompileArgs) (w : World)
    (hw : args.level = 5 → w.PluginsStandard M.X.W) (h : (mainCommand M (.compile args) w).1 = .panic) :
    ∃ text, w.Holds args.filename text ∧
      ((3 ≤ args.level ∧ LooseText M.X.E.S text) ∨ (4 ≤ args.level ∧ StrayText M.X.E.S text)) :=
  runCompile_panic hw h

/-- C103: a document without macros makes the compiler crash exactly for these reasons. -/
theorem C103_document_iff {W : Wasm} (S : Segmenter) (ids : Nat → Str) (checks : Bool) (text : Str) (ps : Plugins W)
    (hs : ps.AllStandard) (hm : MacroFree S text) :
    (compileText S ids checks text ps).1 = .panic ↔ LooseText S text ∨ StrayText S text :=
  ⟨compileText_panic hs, compileText_crash hm⟩

/-- Concrete cases: a backslash before a letter; a separator after an escaped bracket; a text with an error that does not
make it crash. -/
example (S : Segmenter) : MacroFree S (chars! "a\\b") ∧ StrayText S (chars! "a\\b") := by
  obtain ⟨ts, c, a, es, h1, h2, h3, h4, h5⟩ := front_case S (chars! "a\\b") (by decide)
    (fun ts _ a _ => a.macros.length = 0 ∧ (trace [] ts).any (fun e => e.stray?.isSome) = true) (by decide +kernel)
  exact ⟨macroFree_of ⟨c, ⟨ts, h1, h2⟩, h3⟩ (List.eq_nil_of_length_eq_zero h4), ts, c, h1, h2, by
    obtain ⟨e, he, h⟩ := List.any_eq_true.mp h5
    exact ⟨e, he, h⟩⟩

example (S : Segmenter) : LooseText S (chars! "\\[a b") := by
  obtain ⟨ts, c, h1, h2, h3⟩ := panic_case S (chars! "\\[a b") (by decide) (by decide +kernel)
  exact ⟨ts, c, h1, h2, (C17_panic_iff ts c _ h2).1.mp h3⟩

/-- C103: a document for which the transformation reports no misplaced backslash, in particular one without any error,
never makes the compiler crash. -/
theorem C103_clean {W : Wasm} (S : Segmenter) (ids : Nat → Str) (checks : Bool) (text : Str) (ps : Plugins W)
    (hs : ps.AllStandard) (a : AST) (es : List TErr) (h : HasAST S ids text a es)
    (hes : ∀ e ∈ es, e.kind ≠ .invalidBackslash) : (compileText S ids checks text ps).1 ≠ .panic := by
  obtain ⟨c, ⟨ts, h1, h2⟩, h3⟩ := h
  intro hp
  rcases compileText_panic hs hp with hl | hl
  · rcases front_cases S ids text with ⟨k1, k2⟩ | ⟨k1, k2, k3, _⟩ | ⟨_, _, _, k4⟩
    · exact noFault_of_err k1 k2 hl
    · rw [HasTokens, k1] at h1
      injection h1 with h1
      subst h1
      rw [k2] at h2
      injection h2 with h2
      subst h2
      rw [k3] at h3
      cases h3
    · exact k4 hl
  · obtain ⟨e, he, hk⟩ := (strayText_iff h1 h2 h3).mp hl
    exact hes e he hk

example (S : Segmenter) : ∃ a es, HasAST S someIds (chars! "a [b c] \\[d") a es ∧ es ≠ [] ∧
    ∀ e ∈ es, e.kind ≠ .invalidBackslash := by
  obtain ⟨ts, c, a, es, h1, h2, h3, h4⟩ := front_case S (chars! "a [b c] \\[d") (by decide)
    (fun _ _ _ es => es ≠ [] ∧ ∀ e ∈ es, e.kind ≠ .invalidBackslash) (by decide +kernel)
  exact ⟨a, es, ⟨c, ⟨ts, h1, h2⟩, h3⟩, h4⟩

end Brack
