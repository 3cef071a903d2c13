import Verif.Spec.EachDoc
import Verif.Props.Rebuild

/-
A project can be built exactly if each of its documents compiles (C123).
-/

namespace Brack

variable {W : Wasm} {R : W.State → W.State → Prop}

/-- Documents that leave no trace leave the plugins as good as they were. -/
theorem CompiledInTurn.left (hR : W.Traceless R) {E : Env} {i : Nat} {ds : List Compiled} {ps ps' : Plugins W}
    (h : CompiledInTurn E i ds ps ps') : Plugins.Related R ps ps' := by
  induction h with
  | nil => exact Plugins.Related.refl hR.equivalence.refl _
  | cons hc _ ih =>
    exact Plugins.Related.trans (R := R) (fun _ _ _ h h' => hR.equivalence.trans h h') (compileText_leaves hR hc) ih

/-! ### C123 -/

/-- C123 (partial): a project can be built if and only if each of its documents compiles on its own, if calls of commands
leave no trace (`R` relates the states of a plugin that cannot be told apart), the plugins can be loaded, nothing is in the
way of the outputs and nothing goes wrong on the file system. Missing: plugins that remember calls
(`C123_stateful_refuted`). -/
theorem C123_builds_partial (W : Wasm) (R : W.State → W.State → Prop) (hR : W.Traceless R) (hT : W.SameTexts R) (E : Env) (c : Config)
    (md : PluginsMetadata) (w : World) (hw : w.Healthy) (ho : w.Orderly c.document.backend)
    (plugins : List (Plugin W)) (ps : Plugins W) (hl : (loadPlugins W md w).1 = .ok plugins) (hps : Plugins.new plugins = .ok ps) :
    (build W E c md w).1 = .ok () ↔ ∀ stem, w.HasDocument stem → ∃ r, CompilesAlone E ps w stem r := by
  constructor
  · intro h stem hd
    obtain ⟨_, ps1, _, ds, h1, h2, h3, _, h5, h6, _, _⟩ := C47_outputs W E c md w _ ho.valid
      (show build W E c md w = (.ok (), (build W E c md w).2) by rw [← h])
    rw [hl] at h1
    injection h1 with h1
    subst h1
    rw [hps] at h2
    injection h2 with h2
    subst h2
    obtain ⟨d, hm, rfl⟩ := List.mem_map.mp ((h5 stem).mpr hd)
    obtain ⟨⟨b, hb, ht⟩, _⟩ := h6 d hm
    obtain ⟨j, qs, qs', hrel, hcomp⟩ := h3.traceless hR d hm
    exact ⟨d.result, b, d.text, hb, ht,
      compileText_same hT (Plugins.Related.symm (fun _ _ h => hR.equivalence.symm h) hrel) hcomp⟩
  · intro h
    refine C47_succeeds W E c md w hw plugins ps hl hps (Plugins.Related R ps) (Plugins.Related.refl hR.equivalence.refl ps)
      ho.docs ho.some ho.notDirs ho.flat ho.out ho.outputs ?_
    intro stem b hd hb
    obtain ⟨r, b', text, hb', ht, hc⟩ := h stem hd
    rw [hb] at hb'
    injection hb' with hb'
    subst hb'
    refine ⟨text, ht, fun i qs hq => ?_⟩
    have h1 := compileText_same hT (ids := E.ids 0) (ids' := E.ids i) hq
      (show compileText E.S (E.ids 0) E.checks text ps = (.ok r, (compileText E.S (E.ids 0) E.checks text ps).2) by rw [← hc])
    have h2 : compileText E.S (E.ids i) E.checks text qs = (.ok r, (compileText E.S (E.ids i) E.checks text qs).2) := by rw [← h1]
    exact ⟨r, _, Plugins.Related.trans (R := R) (fun _ _ _ h h' => hR.equivalence.trans h h') hq (compileText_leaves hR h2), h2⟩

/-- C123 (partial): then each document has the output that it has on its own, and all other files are as before. -/
theorem C123_outputs_partial (W : Wasm) (R : W.State → W.State → Prop) (hR : W.Traceless R) (hT : W.SameTexts R) (E : Env) (c : Config)
    (md : PluginsMetadata) (w : World) (hv : w.Valid) (h : (build W E c md w).1 = .ok ())
    (plugins : List (Plugin W)) (ps : Plugins W) (hl : (loadPlugins W md w).1 = .ok plugins) (hps : Plugins.new plugins = .ok ps) :
    (∀ stem, w.HasDocument stem → ∃ r, CompilesAlone E ps w stem r ∧
      (build W E c md w).2.files.get (chars! "out/" ++ stem ++ chars! "." ++ c.document.backend) = some (utf8 r)) ∧
    ∀ path, (∀ stem, w.HasDocument stem → path ≠ chars! "out/" ++ stem ++ chars! "." ++ c.document.backend) →
      (build W E c md w).2.files.get path = w.files.get path := by
  obtain ⟨_, ps1, _, ds, h1, h2, h3, _, h5, h6, _, h8⟩ := C47_outputs W E c md w _ hv
    (show build W E c md w = (.ok (), (build W E c md w).2) by rw [← h])
  rw [hl] at h1
  injection h1 with h1
  subst h1
  rw [hps] at h2
  injection h2 with h2
  subst h2
  refine ⟨fun stem hd => ?_, h8⟩
  obtain ⟨d, hm, rfl⟩ := List.mem_map.mp ((h5 stem).mpr hd)
  obtain ⟨⟨b, hb, ht⟩, hout⟩ := h6 d hm
  obtain ⟨j, qs, qs', hrel, hcomp⟩ := h3.traceless hR d hm
  exact ⟨d.result, ⟨b, d.text, hb, ht,
    compileText_same hT (Plugins.Related.symm (fun _ _ h => hR.equivalence.symm h) hrel) hcomp⟩, hout⟩

/-- C123 (partial): a build that fails is stopped by a document that is at fault itself: it is not UTF-8 or does not
compile on its own. If it has no macro calls, the build fails with the error that it has on its own. -/
theorem C123_blame_partial (W : Wasm) (R : W.State → W.State → Prop) (hR : W.Traceless R) (hT : W.SameTexts R) (E : Env) (c : Config)
    (md : PluginsMetadata) (w : World) (hw : w.Healthy) (ho : w.Orderly c.document.backend)
    (plugins : List (Plugin W)) (ps : Plugins W) (hl : (loadPlugins W md w).1 = .ok plugins) (hps : Plugins.new plugins = .ok ps)
    (h : (build W E c md w).1 ≠ .ok ()) :
    ∃ stem b, w.HasDocument stem ∧ w.files.get (chars! "docs/" ++ stem ++ chars! ".[]") = some b ∧
      ((fromUtf8 b = none ∧ ∃ m, (build W E c md w).1 = .err m) ∨ ∃ text, fromUtf8 b = some text ∧
        (∀ r, (compileText E.S (E.ids 0) E.checks text ps).1 ≠ .ok r) ∧
        (MacroFree E.S text →
          ((∃ m, (compileText E.S (E.ids 0) E.checks text ps).1 = .err m ∧ (build W E c md w).1 = .err m) ∨
            (compileText E.S (E.ids 0) E.checks text ps).1 = .panic ∧ (build W E c md w).1 = .panic))) := by
  obtain ⟨ds, ps', stem, b, h1, _, _, h4, _, h6, h7, _, _⟩ := C76_before_failure W E c md w _ ho.valid hw _ rfl h plugins ps hl
    hps ho.docs ho.some ho.notDirs ho.flat ho.out ho.outputs
  have hrel := h1.left hR
  refine ⟨stem, b, h4 stem List.mem_cons_self, h6, ?_⟩
  rcases h7 with h7 | ⟨text, ht, h7⟩
  · exact .inl h7
  refine .inr ⟨text, ht, fun r hr => ?_, fun hm => ?_⟩
  · have := compileText_same hT (ids := E.ids 0) (ids' := E.ids ds.length) hrel
      (show compileText E.S (E.ids 0) E.checks text ps = (.ok r, (compileText E.S (E.ids 0) E.checks text ps).2) by rw [← hr])
    rcases h7 with ⟨m, k, _⟩ | ⟨k, _⟩
    · rw [this] at k
      cases k
    · rw [this] at k
      cases k
  · have hsame := (compileText_rel hT E.S (ids := E.ids 0) (ids' := E.ids ds.length) E.checks text
      (fun ts c a es h1 h2 h3 h4 => absurd (hm (E.ids 0) a es ⟨c, ⟨ts, h1, h2⟩, h3⟩) h4) ps ps' hrel).1
    have heq : (compileText E.S (E.ids 0) E.checks text ps).1 = (compileText E.S (E.ids ds.length) E.checks text ps').1 := by
      generalize (compileText E.S (E.ids 0) E.checks text ps).1 = a at *
      generalize (compileText E.S (E.ids ds.length) E.checks text ps').1 = b at *
      rcases a with a | m | _ <;> rcases b with b | m' | _ <;> first | exact False.elim hsame | rfl | (rw [show _ = _ from hsame])
    rw [heq]
    exact h7

/-- C123 (partial): two projects with the same documents and the same plugins, listed in any order, can both be built or
neither, and then the outputs are the same. -/
theorem C123_listing_partial (W : Wasm) (R : W.State → W.State → Prop) (hR : W.Traceless R) (hT : W.SameTexts R) (E E2 : Env)
    (hS : E2.S = E.S) (hK : E2.checks = E.checks) (c c2 : Config) (hc : c2.document.backend = c.document.backend)
    (md md2 : PluginsMetadata) (w v : World) (hw : w.Healthy) (hv : v.Healthy) (ho : w.Orderly c.document.backend)
    (ho2 : v.Orderly c.document.backend)
    (hsrc : ∀ stem, v.files.get (chars! "docs/" ++ stem ++ chars! ".[]") = w.files.get (chars! "docs/" ++ stem ++ chars! ".[]"))
    (plugins plugins2 : List (Plugin W)) (ps : Plugins W) (hl : (loadPlugins W md w).1 = .ok plugins)
    (hl2 : (loadPlugins W md2 v).1 = .ok plugins2) (hsame : plugins.Perm plugins2) (hn : (plugins.map (·.name)).Nodup)
    (hps : Plugins.new plugins = .ok ps) :
    ((build W E c md w).1 = .ok () ↔ (build W E2 c2 md2 v).1 = .ok ()) ∧
    ((build W E c md w).1 = .ok () → ∀ stem, w.HasDocument stem →
      ((build W E c md w).2.files.get (chars! "out/" ++ stem ++ chars! "." ++ c.document.backend)).isSome = true ∧
      (build W E2 c2 md2 v).2.files.get (chars! "out/" ++ stem ++ chars! "." ++ c.document.backend) =
        (build W E c md w).2.files.get (chars! "out/" ++ stem ++ chars! "." ++ c.document.backend)) := by
  have hord := C39_order plugins plugins2 hsame hn
  have hok : (Plugins.new plugins2).isOk = true := by rw [← hord.1, hps]; rfl
  rcases hqs : Plugins.new plugins2 with qs | m | _
  case err => rw [hqs] at hok; cases hok
  case panic => rw [hqs] at hok; cases hok
  have hrel : Plugins.Related R ps qs := Alike.related hR.equivalence.refl (hord.2 ps qs hps hqs)
  have hrel' := Plugins.Related.symm (fun _ _ h => hR.equivalence.symm h) hrel
  have hhas : ∀ stem, v.HasDocument stem ↔ w.HasDocument stem := by
    intro stem
    rw [World.HasDocument, World.HasDocument, hsrc stem]
  have halone : ∀ stem r, CompilesAlone E ps w stem r ↔ CompilesAlone E2 qs v stem r := by
    intro stem r
    constructor
    · rintro ⟨b, text, h1, h2, h3⟩
      refine ⟨b, text, by rw [hsrc]; exact h1, h2, ?_⟩
      rw [hS, hK]
      exact compileText_same hT hrel
        (show compileText E.S (E.ids 0) E.checks text ps = (.ok r, (compileText E.S (E.ids 0) E.checks text ps).2) by rw [← h3])
    · rintro ⟨b, text, h1, h2, h3⟩
      rw [hsrc] at h1
      refine ⟨b, text, h1, h2, ?_⟩
      rw [← hS, ← hK]
      exact compileText_same hT hrel'
        (show compileText E2.S (E2.ids 0) E2.checks text qs = (.ok r, (compileText E2.S (E2.ids 0) E2.checks text qs).2) by rw [← h3])
  have hiff : (build W E c md w).1 = .ok () ↔ (build W E2 c2 md2 v).1 = .ok () := by
    rw [C123_builds_partial W R hR hT E c md w hw ho plugins ps hl hps,
      C123_builds_partial W R hR hT E2 c2 md2 v hv (by rw [hc]; exact ho2) plugins2 qs hl2 hqs]
    constructor
    · intro h stem hd
      obtain ⟨r, hr⟩ := h stem ((hhas stem).mp hd)
      exact ⟨r, (halone stem r).mp hr⟩
    · intro h stem hd
      obtain ⟨r, hr⟩ := h stem ((hhas stem).mpr hd)
      exact ⟨r, (halone stem r).mpr hr⟩
  refine ⟨hiff, fun h stem hd => ?_⟩
  have h' := hiff.mp h
  obtain ⟨r, hr, hout⟩ := (C123_outputs_partial W R hR hT E c md w ho.valid h plugins ps hl hps).1 stem hd
  obtain ⟨r', hr', hout'⟩ := (C123_outputs_partial W R hR hT E2 c2 md2 v ho2.valid h' plugins2 qs hl2 hqs).1 stem ((hhas stem).mpr hd)
  obtain ⟨b, text, k1, k2, k3⟩ := (halone stem r).mp hr
  obtain ⟨b', text', l1, l2, l3⟩ := hr'
  rw [k1] at l1
  injection l1 with l1
  subst l1
  rw [k2] at l2
  injection l2 with l2
  subst l2
  rw [k3] at l3
  injection l3 with l3
  subst l3
  rw [hc] at hout'
  rw [hout, hout']
  exact ⟨rfl, rfl⟩

/-- A project with documents and flat directories is in order. -/
theorem World.Orderly.of_flat {w : World} {backend : Str} (hv : w.Valid) (hd : chars! "docs" ∈ w.dirs)
    (hs : ∃ stem, w.HasDocument stem) (hf : ∀ d ∈ w.dirs, '/' ∉ d) (hb : '/' ∉ backend) (ho : w.files.get (chars! "out") = none) :
    w.Orderly backend :=
  ⟨hv, hd, hs, fun stem h => hf _ h (by simp), hb, ho, fun stem _ h => hf _ h (by simp)⟩

/-- The documents of `twoDocuments`. -/
theorem twoDocuments_stems {stem : Str} (h : (twoDocuments fun _ => .none).HasDocument stem) :
    stem = chars! "a" ∨ stem = chars! "b.c" := by
  have key : ∀ lit : Str, chars! "docs/" ++ stem ++ chars! ".[]" = lit → stem = (lit.drop 5).take (lit.length - 8) := by
    rintro lit rfl
    simp
  obtain ⟨_, _, h⟩ := h
  simp only [twoDocuments, HMap.get] at h
  by_cases h1 : chars! "docs/a.[]" = chars! "docs/" ++ stem ++ chars! ".[]"
  · exact .inl (key _ h1.symm)
  by_cases h2 : chars! "docs/b.c.[]" = chars! "docs/" ++ stem ++ chars! ".[]"
  · exact .inr (key _ h2.symm)
  have no : ∀ lit : Str, chars! "docs/" ++ (lit.drop 5).take (lit.length - 8) ++ chars! ".[]" ≠ lit →
      ¬ lit = chars! "docs/" ++ stem ++ chars! ".[]" := by
    intro lit hl he
    rw [← key _ he.symm] at hl
    exact hl he.symm
  rw [if_neg h1, if_neg h2, if_neg (no _ (by decide)), if_neg (no _ (by decide)), if_neg (no _ (by decide))] at h
  cases h

/-- The project of two documents is in order. -/
theorem twoDocuments_orderly : (twoDocuments fun _ => .none).Orderly (chars! "html") :=
  .of_flat (by unfold World.Valid; decide +kernel) (by decide +kernel) ⟨chars! "a", by unfold World.HasDocument; decide +kernel⟩
    (by decide +kernel) (by decide) (by decide +kernel)

/-- Concrete case of `C123_builds_partial`: two documents. -/
example : (build sampleWasm sampleEnv sampleConfig sampleMetadata (twoDocuments fun _ => .none)).1 = .ok () := by
  refine (C123_builds_partial sampleWasm _ sample_traceless sample_indistinct.text sampleEnv sampleConfig sampleMetadata _
    (fun _ _ => rfl) twoDocuments_orderly _ _ rfl rfl).mpr fun stem h => ?_
  rcases twoDocuments_stems h with rfl | rfl
  · exact ⟨chars! "é f()", utf8 (chars! "é [std.f]"), chars! "é [std.f]", by decide +kernel, by decide +kernel, by decide +kernel⟩
  · exact ⟨chars! "g(x,-,)", utf8 (chars! "[std.g x]"), chars! "[std.g x]", by decide +kernel, by decide +kernel, by decide +kernel⟩

/-- Concrete case of `C123_listing_partial`: the files are listed the other way round, so that the documents are compiled
in another order. -/
example :
    let w := twoDocuments fun _ => .none
    let v : World := { w with files := w.files.reverse }
    v.Orderly (chars! "html") ∧
    (∀ stem, v.files.get (chars! "docs/" ++ stem ++ chars! ".[]") = w.files.get (chars! "docs/" ++ stem ++ chars! ".[]")) ∧
    (build sampleWasm sampleEnv sampleConfig sampleMetadata w).2.writes.map (·.1) = [chars! "out/a.html", chars! "out/b.c.html"] ∧
    (build sampleWasm sampleEnv sampleConfig sampleMetadata v).2.writes.map (·.1) = [chars! "out/b.c.html", chars! "out/a.html"] := by
  refine ⟨.of_flat (by unfold World.Valid; decide +kernel) (by decide +kernel) ⟨chars! "a", by unfold World.HasDocument; decide +kernel⟩
    (by decide +kernel) (by decide) (by decide +kernel), fun stem => ?_, by decide +kernel, by decide +kernel⟩
  generalize chars! "docs/" ++ stem ++ chars! ".[]" = p
  by_cases h0 : p = chars! "docs/a.[]"
  · subst h0; decide +kernel
  by_cases h1 : p = chars! "docs/b.c.[]"
  · subst h1; decide +kernel
  by_cases h2 : p = chars! "docs/a.md"
  · subst h2; decide +kernel
  by_cases h3 : p = chars! "out/old.html"
  · subst h3; decide +kernel
  by_cases h4 : p = chars! "plugins/std_00.wasm"
  · subst h4; decide +kernel
  simp only [twoDocuments, List.reverse_cons, List.reverse_nil, List.nil_append, List.cons_append, HMap.get]
  rw [if_neg (Ne.symm h0), if_neg (Ne.symm h1), if_neg (Ne.symm h2), if_neg (Ne.symm h3), if_neg (Ne.symm h4),
    if_neg (Ne.symm h3), if_neg (Ne.symm h2), if_neg (Ne.symm h1), if_neg (Ne.symm h0)]

/-- A plugin whose command can be called only once. -/
private def onceWasm : Wasm :=
  { sampleWasm with callText := fun (n : Nat) _ _ => (if n = 0 then .ok (chars! "x") else .error "again", n + 1) }

/-- C123 refuted for plugins that remember calls: each document compiles on its own, but the project cannot be built. -/
theorem C123_stateful_refuted : ∃ (W : Wasm) (E : Env) (c : Config) (md : PluginsMetadata) (w : World) (plugins : List (Plugin W))
    (ps : Plugins W), w.Healthy ∧ w.Orderly c.document.backend ∧ (loadPlugins W md w).1 = .ok plugins ∧ Plugins.new plugins = .ok ps ∧
    (∀ stem, w.HasDocument stem → ∃ r, CompilesAlone E ps w stem r) ∧ (build W E c md w).1 ≠ .ok () := by
  refine ⟨onceWasm, sampleEnv, sampleConfig, sampleMetadata, twoDocuments fun _ => .none, _, _, fun _ _ => rfl,
    twoDocuments_orderly, rfl, rfl, fun stem h => ?_, by decide +kernel⟩
  rcases twoDocuments_stems h with rfl | rfl
  · exact ⟨chars! "é x", utf8 (chars! "é [std.f]"), chars! "é [std.f]", by decide +kernel, by decide +kernel, by decide +kernel⟩
  · exact ⟨chars! "x", utf8 (chars! "[std.g x]"), chars! "[std.g x]", by decide +kernel, by decide +kernel, by decide +kernel⟩

/-- Two documents, the second of which is at fault. -/
private def oneBad : World :=
  { twoDocuments (fun _ => .none) with
    files := [(chars! "docs/a.[]", utf8 (chars! "é [std.f]")), (chars! "docs/b.[]", utf8 (chars! "[std.none x]")),
      (chars! "plugins/std_00.wasm", [1])] }

/-- Concrete case of `C123_blame_partial`: the build fails with the error of the document. -/
example : oneBad.Orderly (chars! "html") ∧ oneBad.Healthy ∧ 
    (build sampleWasm sampleEnv sampleConfig sampleMetadata oneBad).1.isErr = true ∧ MacroFree sampleEnv.S (chars! "[std.none x]") := by
  refine ⟨.of_flat (by unfold World.Valid; decide +kernel) (by decide +kernel) ⟨chars! "a", by unfold World.HasDocument; decide +kernel⟩
    (by decide +kernel) (by decide) (by decide +kernel), fun _ _ => rfl, by decide +kernel, ?_⟩
  obtain ⟨ts, c, a, es, h1, h2, h3, h4⟩ := front_case sampleEnv.S (chars! "[std.none x]") (by decide)
    (fun _ _ a _ => a.macros.length = 0) (by decide +kernel)
  exact macroFree_of ⟨c, ⟨ts, h1, h2⟩, h3⟩ (List.eq_nil_of_length_eq_zero h4)

end Brack
