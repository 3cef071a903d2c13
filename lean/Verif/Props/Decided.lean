import Verif.Proof.Decided
import Verif.Proof.Build
import Verif.Proof.Registry
import Verif.Proof.PluginCases
import Verif.Proof.ProjectCases

/-
Properties of calls and their results: returned texts are never read as markup (C107), and failures of plugins are not
passed over (C108).
-/

namespace Brack

/-! ### C107 -/

/-- C107: a document is compiled with two sets of plugins that declare the same commands and hooks but may do different
things, and no command or hook fails. Then the same commands, hooks and macros are called in the same order with values of
the same form, and both compile or both fail with the same error, whatever texts the plugins return. -/
theorem C107_same_calls {V W : Wasm} (S : Segmenter) (ids : Nat → Str) (checks : Bool) (text : Str) (ps : Plugins V)
    (qs : Plugins W) (h : SameDeclarations ps qs) (hp : ps.log = []) (hq : qs.log = [])
    (h1 : ∀ c ∈ (compileText S ids checks text ps).2.log, c.isFailed = false)
    (h2 : ∀ c ∈ (compileText S ids checks text qs).2.log, c.isFailed = false) :
    (compileText S ids checks text ps).2.log.map Call.form = (compileText S ids checks text qs).2.log.map Call.form ∧
      Res.Same (fun _ _ => True) (compileText S ids checks text ps).1 (compileText S ids checks text qs).1 := by
  obtain ⟨new, new', h3, h4, h5⟩ := compileText_decides S ids checks text ps qs h
  rw [hp, List.nil_append] at h3
  rw [hq, List.nil_append] at h4
  rw [h3] at h1 ⊢
  rw [h4] at h2 ⊢
  rcases h5 with ⟨_, _, h5, h6, _⟩ | ⟨⟨c, hc, hf⟩, _⟩ | ⟨⟨c, hc, hf⟩, _⟩
  · exact ⟨h5, h6⟩
  · rw [h1 c hc] at hf
    cases hf
  · rw [h2 c hc] at hf
    cases hf

/-- C107: in any case the calls of one of the two are the first calls of the other; they differ in number only if a call
has failed, and then that call is the last one. -/
theorem C107_until_failure {V W : Wasm} (S : Segmenter) (ids : Nat → Str) (checks : Bool) (text : Str) (ps : Plugins V)
    (qs : Plugins W) (h : SameDeclarations ps qs) (hp : ps.log = []) (hq : qs.log = []) :
    (compileText S ids checks text ps).2.log.map Call.form = (compileText S ids checks text qs).2.log.map Call.form ∨
      ((compileText S ids checks text ps).2.log.map Call.form <+: (compileText S ids checks text qs).2.log.map Call.form ∧
        ∃ c, (compileText S ids checks text ps).2.log.getLast? = some c ∧ c.isFailed = true) ∨
      ((compileText S ids checks text qs).2.log.map Call.form <+: (compileText S ids checks text ps).2.log.map Call.form ∧
        ∃ c, (compileText S ids checks text qs).2.log.getLast? = some c ∧ c.isFailed = true) := by
  obtain ⟨new, new', h3, h4, h5⟩ := compileText_decides S ids checks text ps qs h
  obtain ⟨_, r, hr1, hr⟩ := compileText_reports S ids checks text ps
  obtain ⟨_, r', hr1', hr'⟩ := compileText_reports S ids checks text qs
  rw [hp, List.nil_append] at h3 hr1
  rw [hq, List.nil_append] at h4 hr1'
  rw [h3] at hr1 ⊢
  rw [h4] at hr1' ⊢
  subst hr1 hr1'
  have last : ∀ {new : List Call}, (∃ c ∈ new, c.isFailed = true) → ((∀ c ∈ new, c.isFailed = false) ∨
      ∃ pre c, new = pre ++ [c] ∧ c.isFailed = true) → ∃ c, new.getLast? = some c ∧ c.isFailed = true := by
    rintro new ⟨c, hc, hf⟩ (h | ⟨pre, c, rfl, h⟩)
    · rw [h c hc] at hf
      cases hf
    · exact ⟨c, by simp, h⟩
  rcases h5 with ⟨_, _, h5, _⟩ | ⟨h5, h6⟩ | ⟨h5, h6⟩
  · exact .inl h5
  · exact .inr (.inl ⟨h6, last h5 (hr.imp id fun ⟨pre, c, _, k1, _, k2, _⟩ => ⟨pre, c, k1, k2⟩)⟩)
  · exact .inr (.inr ⟨h6, last h5 (hr'.imp id fun ⟨pre, c, _, k1, _, k2, _⟩ => ⟨pre, c, k1, k2⟩)⟩)

/-- A plugin that answers every call with the markup of a call. -/
def markupWasm : Wasm := { sampleWasm with callText := fun n _ _ => (.ok (chars! "[p.f]"), n) }

/-- The same declarations with the other implementation. -/
def markupSet (flag : FeatureFlag) : Plugins markupWasm :=
  ⟨(sampleSet flag).nameToPlugin.map (fun (n, p) => (n, ⟨p.name, p.extism, p.signatures, p.flag⟩)),
    (sampleSet flag).documentHook, (sampleSet flag).stmtHook, (sampleSet flag).exprHook, (sampleSet flag).textHook, []⟩

/-- The hypotheses of C107 are met. -/
theorem markupSet_same (flag : FeatureFlag) : SameDeclarations (sampleSet flag) (markupSet flag) := by
  refine ⟨rfl, rfl, rfl, rfl, fun n => ?_⟩
  show _ = (HMap.get n ((sampleSet flag).nameToPlugin.map _)).map _
  induction (sampleSet flag).nameToPlugin with
  | nil => rfl
  | cons x xs ih =>
    obtain ⟨k, p⟩ := x
    simp only [List.map_cons, HMap.get]
    by_cases hk : k = n
    · simp [hk]
    · simpa [hk] using ih

/-- Concrete case: a call within an argument; one plugin answers with markup, and the calls are the same: the one of the
argument, then the one around it. -/
example :
    let text := chars! "a[p.g x[p.f]]"
    let r := compileText UTable.sampleSeg someIds true text (sampleSet allHooks)
    let r' := compileText UTable.sampleSeg someIds true text (markupSet allHooks)
    r.2.log.map (·.command) = r'.2.log.map (·.command) ∧ r.2.log.length = 8 ∧ r.1.isOk = true ∧ r'.1.isOk = true ∧
      (∀ c ∈ r.2.log, c.isFailed = false) ∧ (∀ c ∈ r'.2.log, c.isFailed = false) := by decide +kernel

/-- Concrete case: a command fails with one of the plugins, and its calls are the first ones of the other. -/
example :
    let text := chars! "a[p.bad]b[p.f]"
    let r := compileText UTable.sampleSeg someIds true text (sampleSet allHooks)
    let r' := compileText UTable.sampleSeg someIds true text (markupSet allHooks)
    r.2.log.map (·.command) <+: r'.2.log.map (·.command) ∧ r.2.log.length = 2 ∧ r'.2.log.length = 7 := by decide +kernel

/-! ### C108 -/

/-- C108: if a command, hook or macro fails while a document is compiled, then it is the last one called, all before it have
succeeded, and compiling fails with the error that the plugin has returned. -/
theorem C108_error {W : Wasm} (S : Segmenter) (ids : Nat → Str) (checks : Bool) (text : Str) (ps : Plugins W)
    (hp : ps.log = []) (h : ∃ c ∈ (compileText S ids checks text ps).2.log, c.isFailed = true) :
    ∃ pre c e, (compileText S ids checks text ps).2.log = pre ++ [c] ∧ c.isFailed = true ∧
      (∀ d ∈ pre, d.isFailed = false) ∧ Gave ps c e ∧ (compileText S ids checks text ps).1 = .err e := by
  obtain ⟨_, new, h1, h2⟩ := compileText_reports S ids checks text ps
  rw [hp, List.nil_append] at h1
  rw [h1] at h ⊢
  rcases h2 with h2 | ⟨pre, c, e, h3, h4, h5, h6, h7⟩
  · obtain ⟨c, hc, hf⟩ := h
    rw [h2 c hc] at hf
    cases hf
  · exact ⟨pre, c, e, h3, h5, h4, h7, h6⟩

/-- C108: if a document compiles, then no command, hook or macro has failed. -/
theorem C108_success {W : Wasm} (S : Segmenter) (ids : Nat → Str) (checks : Bool) (text gen : Str) (ps ps' : Plugins W)
    (h : compileText S ids checks text ps = (.ok gen, ps')) :
    ∃ new, ps'.log = ps.log ++ new ∧ ∀ c ∈ new, c.isFailed = false := by
  obtain ⟨_, new, h1, h2⟩ := compileText_reports S ids checks text ps
  rw [h] at h1 h2
  refine ⟨new, h1, ?_⟩
  rcases h2 with h2 | ⟨_, _, _, _, _, _, h2, _⟩
  · exact h2
  · cases h2

/-- A sequence of documents that compile. -/
theorem CompiledInTurn.no_failure {W : Wasm} {E : Env} {i : Nat} {ds : List Compiled} {ps ps' : Plugins W}
    (h : CompiledInTurn E i ds ps ps') : ∃ new, ps'.log = ps.log ++ new ∧ ∀ c ∈ new, c.isFailed = false := by
  induction h with
  | nil i ps => exact ⟨[], by simp, by simp⟩
  | cons h _ ih =>
    obtain ⟨new, h1, h2⟩ := C108_success _ _ _ _ _ _ _ h
    obtain ⟨new', h3, h4⟩ := ih
    refine ⟨new ++ new', by rw [h3, h1, List.append_assoc], fun c hc => ?_⟩
    rcases List.mem_append.mp hc with hc | hc
    · exact h2 c hc
    · exact h4 c hc

/-- C108: if a build succeeds, then no command, hook or macro has failed for any of its documents. -/
theorem C108_build (W : Wasm) (E : Env) (c : Config) (md : PluginsMetadata) (w w' : World)
    (h : build W E c md w = (.ok (), w')) :
    ∃ plugins ps ps' ds, (loadPlugins W md w).1 = .ok plugins ∧ Plugins.new plugins = .ok ps ∧
      CompiledInTurn E 0 ds ps ps' ∧
      w'.writes = w.writes ++
        ds.map (fun d => (chars! "out/" ++ d.stem ++ chars! "." ++ c.document.backend, utf8 d.result)) ∧
      ∀ c ∈ ps'.log, c.isFailed = false := by
  obtain ⟨plugins, ps, ps', ds, h1, h2, h3, _, _, _, h7⟩ := build_ok h
  obtain ⟨new, h8, h9⟩ := h3.no_failure
  have h10 : ps.log = [] := by
    rcases newLoop_spec plugins (⟨[], none, none, none, none, []⟩ : Plugins W) with ⟨qs, h, _, _, hlog⟩ | ⟨⟨m, h⟩, _⟩
    · rw [Plugins.new, h] at h2
      injection h2 with h2
      rw [← h2, hlog]
    · rw [Plugins.new, h] at h2
      cases h2
  rw [h10, List.nil_append] at h8
  exact ⟨plugins, ps, ps', ds, h1, h2, h3, h7, by rw [h8]; exact h9⟩

/-- Concrete case: a failing command between two others. -/
example :
    let r := compileText UTable.sampleSeg someIds true (chars! "[p.f][p.bad][p.f]") (sampleSet noHooks)
    r.2.log.map (fun c => (c.command, c.isFailed)) = [(chars! "f", false), (chars! "bad", true)] ∧
      r.1 = .err "bad" := by decide +kernel

/-- Concrete case: a failing macro. -/
example :
    let r := compileText UTable.sampleSeg someIds true (chars! "[p.f]<p.bad><p.m>") (sampleSet noHooks)
    r.2.log.map (fun c => (c.command, c.isFailed)) = [(chars! "bad", true)] ∧ r.1 = .err "bad" := by decide +kernel

/-- Concrete case: a build that succeeds. -/
example : (build sampleWasm sampleEnv sampleConfig sampleMetadata (twoDocuments fun _ => .none)).1 = .ok () := by decide +kernel

end Brack
