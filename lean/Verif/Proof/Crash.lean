import Verif.Spec.Crash
import Verif.Proof.Opened
import Verif.Proof.Offers
import Verif.Props.Codegen
import Verif.Props.Expander
import Verif.Props.Transform
import Verif.Props.Parser
import Verif.Proof.GenDone
import Verif.Proof.Build
import Verif.Proof.Plain
import Verif.Proof.Paragraphs
import Verif.Proof.Cli
import Verif.Proof.Effects

/-
When the commands crash.
-/

namespace Brack

section
variable {W : Wasm}

theorem AllStandard.same {ps ps' : Plugins W} (h : ps.AllStandard) (hs : Same ps ps') : ps'.AllStandard := by
  intro m c t ts hts
  rw [hs.sigs] at hts
  exact h m c t ts hts

theorem expander_same (a : AST) (ps : Plugins W) : Same ps (expander a ps).2 := by
  rcases a with ⟨k, i, v, l⟩ | ⟨k, i, cs, l⟩
  · obtain ⟨_, h, _⟩ := (expandOther_spec (W := W) (.leaf k i v l) (.leaf k i v l) ps (by simp)).run
    exact h.same
  · obtain ⟨_, h, _⟩ := (expandChildren_spec (W := W) (.node k i cs l) cs ps).run
    have h := h.same
    rw [expander, expandOther, PM.bind_run]
    rcases hr : expandChildren (.node k i cs l) cs ps with ⟨r | e | _, ps'⟩ <;> rw [hr] at h <;> exact h

theorem stray_iff {ts : List Token} {c : CST} {ids : Nat → Str} {a : AST} {es : List TErr}
    (hp : parse ts = .ok c) (hx : transform ids c = .ok (a, es)) :
    (∃ e ∈ es, e.kind = .invalidBackslash) ↔ ∃ e ∈ trace [] ts, e.stray?.isSome = true := by
  have h := C21_backslash ts c ids a es hp hx
  constructor
  · rintro ⟨⟨k, l⟩, he, rfl⟩
    have : l ∈ es.filterMap TErr.invalidBackslash? := List.mem_filterMap.mpr ⟨_, he, rfl⟩
    rw [h] at this
    obtain ⟨e, he, h'⟩ := List.mem_filterMap.mp this
    exact ⟨e, he, by rw [h']; rfl⟩
  · rintro ⟨e, he, h'⟩
    obtain ⟨l, hl⟩ := Option.isSome_iff_exists.mp h'
    have : l ∈ (trace [] ts).filterMap Event.stray? := List.mem_filterMap.mpr ⟨_, he, hl⟩
    rw [← h] at this
    obtain ⟨⟨k, l'⟩, he, h'⟩ := List.mem_filterMap.mp this
    refine ⟨_, he, ?_⟩
    rcases k <;> simp [TErr.invalidBackslash?] at h' ⊢

/-- The stages of the front end. -/
inductive Front (S : Segmenter) (ids : Nat → Str) (text : Str) : Prop where
  | refused {ts m} (h1 : tokenizeStr S text = .ok ts) (h2 : parse ts = .err m)
  | crashed {ts c} (h1 : tokenizeStr S text = .ok ts) (h2 : parse ts = .ok c) (h3 : transform ids c = .panic)
      (h4 : LooseText S text)
  | done {ts c a es} (h1 : tokenizeStr S text = .ok ts) (h2 : parse ts = .ok c) (h3 : transform ids c = .ok (a, es))
      (h4 : ¬ LooseText S text)

theorem front_cases (S : Segmenter) (ids : Nat → Str) (text : Str) : Front S ids text := by
  obtain ⟨body, eof, ht, _⟩ := C01_tokenize_total S text
  rcases hp : parse (body ++ [eof]) with c | m | _
  · have hi := C17_panic_iff _ c ids hp
    by_cases hx : transform ids c = .panic
    · exact .crashed ht hp hx ⟨_, _, ht, hp, hi.1.mp hx⟩
    · obtain ⟨a, es, hx'⟩ := hi.2 hx
      refine .done ht hp hx' ?_
      rintro ⟨ts', c', h1, h2, h3⟩
      rw [ht] at h1
      injection h1 with h1
      subst h1
      rw [hp] at h2
      injection h2 with h2
      subst h2
      exact hx (hi.1.mpr h3)
  · exact .refused ht hp
  · exact absurd hp (C10_no_panic_text S text _ ht)

theorem strayText_iff {S : Segmenter} {text : Str} {ts : List Token} {c : CST} {ids : Nat → Str} {a : AST}
    {es : List TErr} (ht : tokenizeStr S text = .ok ts) (hp : parse ts = .ok c)
    (hx : transform ids c = .ok (a, es)) : StrayText S text ↔ ∃ e ∈ es, e.kind = .invalidBackslash := by
  rw [stray_iff hp hx]
  constructor
  · rintro ⟨ts', c', h1, h2, h3⟩
    rw [ht] at h1
    injection h1 with h1
    subst h1
    exact h3
  · exact fun h => ⟨ts, c, ht, hp, h⟩

theorem noFault_of_err {S : Segmenter} {text : Str} {ts : List Token} {m : String} {P : Event → Prop}
    (ht : tokenizeStr S text = .ok ts) (hp : parse ts = .err m) : ¬ HasFault S text P := by
  rintro ⟨ts', c', h1, h2, _⟩
  rw [ht] at h1
  injection h1 with h1
  subst h1
  rw [hp] at h2
  cases h2

theorem expander_panic {S : Segmenter} {text : Str} {ts : List Token} {c : CST} {ids : Nat → Str} {a : AST}
    {es : List TErr} (ht : tokenizeStr S text = .ok ts) (hp : parse ts = .ok c)
    (hx : transform ids c = .ok (a, es)) {ps : Plugins W} (h : (expander a ps).1 = .panic) : StrayText S text := by
  rw [strayText_iff ht hp hx]
  refine Classical.byContradiction fun hn => ?_
  exact C29_no_panic_partial ts c ids a es ps hp hx (fun e he hk => hn ⟨e, he, hk⟩) h

/-- A document crashes only for a loose separator or a stray backslash. -/
theorem compileText_panic {S : Segmenter} {ids : Nat → Str} {ck : Bool} {text : Str} {ps : Plugins W}
    (hs : ps.AllStandard) (h : (compileText S ids ck text ps).1 = .panic) : LooseText S text ∨ StrayText S text := by
  rcases front_cases S ids text with ⟨h1, h2⟩ | ⟨_, _, _, h4⟩ | @⟨ts, c, a, es, h1, h2, h3, _⟩
  · unfold compileText at h
    rw [PM.bind_run, PM.lift_run, h1] at h
    simp only [] at h
    rw [PM.bind_run, PM.lift_run, h2] at h
    cases h
  · exact .inl h4
  · rw [compileText_front h1 h2 h3, PM.bind_run] at h
    rcases hr : expander a ps with ⟨b | m | _, ps'⟩
    · rw [hr] at h
      simp only at h
      have hb := C27_unchanged a b ps (by rw [hr])
      have hsame := expander_same a ps
      rw [hr] at hsame
      subst hb
      exact absurd h (C32_no_panic_document_partial ck ts c ids b es ps' h2 h3 (AllStandard.same hs hsame))
    · rw [hr] at h
      cases h
    · exact .inr (expander_panic h1 h2 h3 (by rw [hr]))

/-- ... and then it does, if there are no macros. -/
theorem compileText_crash {S : Segmenter} {ids : Nat → Str} {ck : Bool} {text : Str} {ps : Plugins W}
    (hm : MacroFree S text) (h : LooseText S text ∨ StrayText S text) :
    (compileText S ids ck text ps).1 = .panic := by
  rcases front_cases S ids text with ⟨h1, h2⟩ | ⟨h1, h2, h3, h4⟩ | @⟨ts, c, a, es, h1, h2, h3, h4⟩
  · exact absurd h (not_or.mpr ⟨noFault_of_err h1 h2, noFault_of_err h1 h2⟩)
  · unfold compileText
    rw [PM.bind_run, PM.lift_run, h1]
    simp only []
    rw [PM.bind_run, PM.lift_run, h2]
    simp only []
    rw [PM.bind_run, PM.lift_run, h3]
  · have h := h.resolve_left h4
    have hm := hm ids a es ⟨c, ⟨ts, h1, h2⟩, h3⟩
    rw [compileText_front h1 h2 h3, PM.bind_run]
    have hp := (C29_panic_iff ts c ids a es ps h2 h3 hm).mpr ((strayText_iff h1 h2 h3).mp h)
    rcases hr : expander a ps with ⟨r, ps'⟩
    rw [hr] at hp
    simp only at hp
    subst hp
    rfl


theorem compileText_standard {S : Segmenter} {ids : Nat → Str} {ck : Bool} {text gen : Str} {ps ps' : Plugins W}
    (hs : ps.AllStandard) (h : compileText S ids ck text ps = (.ok gen, ps')) : ps'.AllStandard := by
  obtain ⟨a, es, _, h1⟩ := compileText_iff.mp h
  have := Same.of_gens (generate_gens ck a ps)
  rw [h1] at this
  exact AllStandard.same hs this

theorem panic_of {r : Res α} (h : r.isPanic = true) : r = .panic := by
  cases r <;> simp_all [Res.isPanic]

/-! ### Building -/

theorem IOM.bind_panic {x : IOM α} {f : α → IOM β} {w : World} (h : ((x >>= f) w).1 = .panic) :
    (x w).1 = .panic ∨ ∃ a w1, x w = (.ok a, w1) ∧ (f a w1).1 = .panic := by
  rw [IOM.bind_run] at h
  rcases hx : x w with ⟨a | m | _, w1⟩
  · rw [hx] at h
    exact .inr ⟨a, w1, rfl, h⟩
  · rw [hx] at h
    cases h
  · exact .inl rfl

theorem step_ne_panic (w : World) : (IOM.step w).1 ≠ .panic := by
  rcases step_cases w with ⟨_, h⟩ | ⟨_, h⟩ <;> rw [h] <;> simp

theorem writeFile_ne_panic (p : Str) (b : Bytes) (w : World) : (IOM.writeFile p b w).1 ≠ .panic := by
  rcases writeFile_cases p b w with ⟨h, _⟩ | ⟨⟨m, h⟩, _⟩ | ⟨k, ⟨m, h⟩, _⟩ <;> rw [h] <;> simp

theorem createDirAll_ne_panic (d : Str) (w : World) : (IOM.createDirAll d w).1 ≠ .panic := by
  rcases createDirAll_cases d w with ⟨h, _⟩ | ⟨⟨m, h⟩, _⟩ <;> rw [h] <;> simp

theorem createDir_ne_panic (d : Str) (w : World) : (IOM.createDir d w).1 ≠ .panic := by
  refine IOM.bind_ne_panic (step_ne_panic w) fun _ w => ?_
  split <;> simp

theorem readDir_ne_panic (d : Str) (w : World) : (IOM.readDir d w).1 ≠ .panic := by
  refine IOM.bind_ne_panic (step_ne_panic w) fun _ w => ?_
  split <;> simp

theorem pure_ne_panic (a : α) (w : World) : ((pure a : IOM α) w).1 ≠ .panic := by
  simp [Pure.pure, IOM.pure]

theorem printLine_ne_panic (l : Str) (w : World) : (IOM.printLine l w).1 ≠ .panic := by
  simp [IOM.printLine]

theorem printLines_ne_panic (ls : List Str) : ∀ w : World, (printLines ls w).1 ≠ .panic := by
  induction ls with
  | nil => exact fun w => pure_ne_panic _ w
  | cons l ls ih => exact fun w => IOM.bind_ne_panic (printLine_ne_panic l w) fun _ => ih

theorem listOutputs_ne_panic (ls : List Str) : ∀ w : World, (listOutputs ls w).1 ≠ .panic := by
  induction ls with
  | nil => exact fun w => pure_ne_panic _ w
  | cons l ls ih =>
    exact fun w => IOM.bind_ne_panic (step_ne_panic w) fun _ w =>
      IOM.bind_ne_panic (printLine_ne_panic _ w) fun _ => ih

theorem readConfig_ne_panic (T : Toml) (text : Str) : T.readConfig text ≠ .panic := by
  unfold Toml.readConfig
  rcases T.parse text with v | e
  · simp
  · exact Config.ofToml_ne_panic _

theorem loadBrackToml_goes (T : Toml) : IOM.Keeps Goes (loadBrackToml T) :=
  IOM.Keeps.bind Goes.frame (readText_goes _) fun _ => IOM.Keeps.lift Goes.frame _

theorem loadBrackToml_ne_panic (T : Toml) (w : World) : (loadBrackToml T w).1 ≠ .panic := by
  refine IOM.bind_ne_panic (readText_ne_panic _ w) fun t w => ?_
  rw [IOM.lift_run]
  exact readConfig_ne_panic T t

/-- The crash of one document. -/
theorem buildOne_panic {E : Env} {backend : Str} {i : Nat} {name : Str} {ps : Plugins W} {w : World}
    (hs : ps.AllStandard) (h : (buildOne E backend i name ps w).1 = .panic) :
    ∃ text, w.Holds (chars! "docs/" ++ name) text ∧ (LooseText E.S text ∨ StrayText E.S text) := by
  unfold buildOne at h
  rcases IOM.bind_panic h with h | ⟨text, w1, h1, h⟩
  · exact absurd h (readText_ne_panic _ w)
  obtain ⟨⟨b, hb, ht⟩, _⟩ := readText_ok h1
  rcases IOM.bind_panic h with h | ⟨gen, w2, h2, h⟩
  · rw [IOM.lift_run] at h
    exact ⟨text, ⟨b, hb, ht⟩, compileText_panic hs h⟩
  rcases IOM.bind_panic h with h | ⟨_, w3, _, h⟩
  · exact absurd h (createDirAll_ne_panic _ _)
  rcases IOM.bind_panic h with h | ⟨_, w4, _, h⟩
  · exact absurd h (writeFile_ne_panic _ _ _)
  · exact absurd h (pure_ne_panic _ _)

theorem docs_ne_out (name stem backend : Str) : chars! "docs/" ++ name ≠ outputPath stem backend := by
  intro h
  simp [outputPath] at h

theorem buildLoop_panic {E : Env} {backend : Str} {names : List Str} : ∀ {i : Nat} {ps : Plugins W} {w : World},
    ps.AllStandard → (buildLoop E backend i names ps w).1 = .panic →
    ∃ name ∈ names, (splitExtension name).2 = some (chars! "[]") ∧
      ∃ text, w.Holds (chars! "docs/" ++ name) text ∧ (LooseText E.S text ∨ StrayText E.S text) := by
  induction names with
  | nil => intro i ps w _ h; rw [buildLoop] at h; exact absurd h (pure_ne_panic _ _)
  | cons name rest ih =>
    intro i ps w hs h
    rw [buildLoop_cons] at h
    rcases IOM.bind_panic h with h | ⟨_, w1, h1, h⟩
    · exact absurd h (step_ne_panic w)
    obtain ⟨rfl, _⟩ := step_ok h1
    by_cases he : (splitExtension name).2 = some (chars! "[]")
    · rw [if_pos he] at h
      rcases IOM.bind_panic h with h | ⟨ps1, w2, h2, h⟩
      · obtain ⟨text, h1, h2⟩ := buildOne_panic hs h
        exact ⟨name, List.mem_cons_self, he, text, h1, h2⟩
      · obtain ⟨text, gen, b, hb, ht, hc, hfiles, _⟩ := buildOne_ok h2
        obtain ⟨n, hn, k1, text', ⟨b', k2, k3⟩, k4⟩ := ih (compileText_standard hs hc) h
        refine ⟨n, List.mem_cons_of_mem _ hn, k1, text', ⟨b', ?_, k3⟩, k4⟩
        rw [hfiles, HMap.get_insert, if_neg (docs_ne_out _ _ _)] at k2
        exact k2
    · rw [if_neg he] at h
      obtain ⟨n, hn, k1, text', ⟨b', k2, k3⟩, k4⟩ := ih hs h
      exact ⟨n, List.mem_cons_of_mem _ hn, k1, text', ⟨b', k2, k3⟩, k4⟩

/-- The files after a download. -/
theorem storeLoop_stored {rs : List (Task × Option Bytes)} : ∀ {md md' : PluginsMetadata} {w w' : World},
    storeLoop rs md w = (.ok md', w') → ∀ p, w'.files.get p = w.files.get p ∨
      ∃ t b, (t, some b) ∈ rs ∧ t.path = p ∧ w'.files.get p = some b := by
  induction rs with
  | nil =>
    intro md md' w w' h p
    rw [storeLoop] at h
    injection h with _ h
    rw [h]
    exact .inl rfl
  | cons r rs ih =>
    intro md md' w w' h p
    obtain ⟨t, _ | b⟩ := r
    · simp [storeLoop, IOM.fail] at h
    · rw [storeLoop] at h
      obtain ⟨_, w1, h1, h⟩ := IOM.bind_ok.mp h
      have h1 := writeFile_ok h1
      rcases ih h p with h2 | ⟨t', b', k1, k2, k3⟩
      · rw [h1] at h2
        simp only at h2
        rw [HMap.get_insert] at h2
        by_cases hp : p = t.path
        · rw [if_pos hp] at h2
          exact .inr ⟨t, b, List.mem_cons_self, hp.symm, h2⟩
        · rw [if_neg hp] at h2
          exact .inl h2
      · exact .inr ⟨t', b', List.mem_cons_of_mem _ k1, k2, k3⟩

theorem downloadPlugins_stored {hash : PluginSchema → Str} {c : Config} {md : PluginsMetadata} {w w' : World}
    (h : downloadPlugins hash c w = (.ok md, w')) (p : Str) : w'.files.get p = w.files.get p ∨
      ∃ n s b k u, p = cachePath hash n s ∧ w.http k u = some b ∧ w'.files.get p = some b := by
  rcases hm : c.plugins with _ | m
  · rw [downloadPlugins_none hash hm] at h
    injection h with _ h
    rw [h]
    exact .inl rfl
  · obtain ⟨rs, w1, h1, h2, h3, _, h4, _⟩ := downloadPlugins_some hash hm w
    rw [h1] at h
    rcases storeLoop_stored h p with h5 | ⟨t, b, k1, k2, k3⟩
    · exact .inl (by rw [h5, h4])
    · obtain ⟨k, hk⟩ := h3 t b k1
      have ht : t ∈ rs.map (·.1) := List.mem_map.mpr ⟨_, k1, rfl⟩
      rw [h2] at ht
      obtain ⟨x, _, _, rfl⟩ := (mem_missingTasks hash _).mp ht
      exact .inr ⟨x.1, x.2, b, k, _, k2.symm, hk, k3⟩

/-- Plugins from standard files are standard. -/
theorem loaded_standard {md : PluginsMetadata} {w w' : World} {plugins : List (Plugin W)} {ps : Plugins W}
    (hw : ∀ path b ms, w.files.get path = some b → W.reports b = some ms →
      ∀ m ∈ ms, Standard (m.argumentTypes.map (·.2)) ∧ m.argumentTypes.length ≤ usizeMax)
    (h : loadPlugins W md w = (.ok plugins, w')) (hp : Plugins.new plugins = .ok ps) : ps.AllStandard := by
  obtain ⟨_, _, hmem⟩ := loaded_plugins (loadPlugins_ok h)
  intro m c typ ts hsig
  rw [Plugins.signature] at hsig
  rcases hg : ps.nameToPlugin.get m with _ | p
  · rw [hg] at hsig
    cases hsig
  rw [hg] at hsig
  simp only at hsig
  have hpm : p ∈ plugins := by
    rcases newLoop_spec plugins ⟨[], none, none, none, none, []⟩ with ⟨qs', g1, _, g3, _⟩ | ⟨⟨e, g1⟩, _⟩
    · rw [Plugins.new, g1] at hp
      injection hp with hp
      subst hp
      rw [g3] at hg
      simp only [HMap.get, Option.or_none] at hg
      exact List.mem_reverse.mp (List.mem_of_find?_eq_some hg)
    · rw [Plugins.new, g1] at hp
      cases hp
  obtain ⟨x, _, b, hb, hnew⟩ := (hmem p).mp hpm
  obtain ⟨_, _, ms, hms, hd⟩ := plugin_new_facts hnew
  rw [hd] at hsig
  rcases hdec : declared ms c typ with _ | md
  · rw [hdec] at hsig
    cases hsig
  · rw [hdec] at hsig
    injection hsig with hsig
    subst hsig
    have hmd : md ∈ ms := List.mem_reverse.mp (List.mem_of_find?_eq_some hdec)
    have := hw _ b ms hb hms md hmd
    exact ⟨this.1, by simpa using this.2⟩

/-! ### The commands -/

theorem splitExtension_doc {name : Str} (h : (splitExtension name).2 = some (chars! "[]")) :
    ∃ stem, name = stem ++ chars! ".[]" := by
  have hstem : docStem name = some (splitExtension name).1 := by rw [docStem, if_pos h]
  exact ⟨_, (docStem_iff.mp hstem).1⟩

theorem not_wasm (stem x : Str) : chars! "docs/" ++ (stem ++ chars! ".[]") ≠ x ++ chars! ".wasm" := by
  intro h
  have := congrArg List.reverse h
  simp at this

theorem buildCommand_panic {E : Env} {w : World} (hw : w.PluginsStandard W)
    (h : (buildCommand W E w).1 = .panic) :
    ∃ name text, w.Holds (chars! "docs/" ++ name ++ chars! ".[]") text ∧
      (LooseText E.S text ∨ StrayText E.S text) := by
  unfold buildCommand at h
  rcases IOM.bind_panic h with h | ⟨c, w1, h1, h⟩
  · exact absurd h (loadBrackToml_ne_panic _ w)
  have q1 := loadBrackToml_quiet E.toml w
  have g1 := loadBrackToml_goes E.toml w
  rw [h1] at q1 g1
  rcases IOM.bind_panic h with h | ⟨md, w2, h2, h⟩
  · exact absurd h (downloadPlugins_ne_panic c w1)
  have hstore := downloadPlugins_stored h2
  rw [q1.1, g1.http] at hstore
  unfold build at h
  rcases IOM.bind_panic h with h | ⟨plugins, w3, h3, h⟩
  · exact absurd h (loadPlugins_ne_panic md w2)
  have q3 := loadPlugins_quiet W md w2
  rw [h3] at q3
  rcases IOM.bind_panic h with h | ⟨ps, w4, h4, h⟩
  · exact absurd h plugins_new_ne_panic
  obtain ⟨hps, rfl⟩ := IOM.lift_ok.mp h4
  have hs : ps.AllStandard := by
    refine loaded_standard (w := w2) ?_ h3 hps
    intro path b ms hb hms
    rcases hstore path with hp | ⟨n, s, b', k, u, _, hu, hp⟩
    · rw [hp] at hb
      exact hw b ms (.inl ⟨path, hb⟩) hms
    · rw [hp] at hb
      injection hb with hb
      subst hb
      exact hw _ ms (.inr ⟨k, u, hu⟩) hms
  rcases IOM.bind_panic h with h | ⟨entries, w5, h5, h⟩
  · exact absurd h (readDir_ne_panic _ _)
  obtain ⟨_, rfl, _⟩ := readDir_ok h5
  rcases IOM.bind_panic h with h | ⟨_, w6, _, h⟩
  · obtain ⟨name, _, he, text, ⟨b, hb, ht⟩, hf⟩ := buildLoop_panic hs h
    obtain ⟨stem, rfl⟩ := splitExtension_doc he
    refine ⟨stem, text, ⟨b, ?_, ht⟩, hf⟩
    simp only at hb
    rw [q3.1] at hb
    rcases hstore (chars! "docs/" ++ (stem ++ chars! ".[]")) with hp | ⟨n, s, b', k, u, hp, _, _⟩
    · rw [List.append_assoc, ← hp, hb]
    · exact absurd hp (not_wasm stem _)
  rcases IOM.bind_panic h with h | ⟨_, w7, _, h⟩
  · exact absurd h (printLine_ne_panic _ _)
  rcases IOM.bind_panic h with h | ⟨_, w8, _, h⟩
  · exact absurd h (readDir_ne_panic _ _)
  · exact absurd h (listOutputs_ne_panic _ _)

theorem newProject_ne_panic (name : Str) (w : World) : (newProject name w).1 ≠ .panic :=
  IOM.bind_ne_panic (createDir_ne_panic _ _) fun _ _ => IOM.bind_ne_panic (createDir_ne_panic _ _) fun _ _ =>
    IOM.bind_ne_panic (writeFile_ne_panic _ _ _) fun _ _ => IOM.bind_ne_panic (writeFile_ne_panic _ _ _) fun _ w =>
      writeFile_ne_panic _ _ w

theorem orErr_ne_panic (m : String) (o : Option α) : orErr m o ≠ .panic := by
  cases o <;> simp [orErr]

theorem parseTarget_ne_panic (schema : Str) : parseTarget schema ≠ .panic := by
  unfold parseTarget
  refine Res.bind_ne_panic (orErr_ne_panic _ _) fun _ => Res.bind_ne_panic (orErr_ne_panic _ _) fun _ =>
    Res.bind_ne_panic (orErr_ne_panic _ _) fun _ => Res.bind_ne_panic (orErr_ne_panic _ _) fun _ =>
    Res.bind_ne_panic (orErr_ne_panic _ _) fun _ => Res.bind_ne_panic (orErr_ne_panic _ _) fun _ => ?_
  split <;> simp [pure]

theorem addPlugin_ne_panic (T : Toml) (schema : Str) (w : World) : (addPlugin T schema w).1 ≠ .panic := by
  unfold addPlugin
  refine IOM.bind_ne_panic (by simp [IOM.pathExists]) fun ex w => ?_
  cases ex
  · simp [IOM.fail]
  simp only [Bool.not_true, Bool.false_eq_true, if_false]
  refine IOM.bind_ne_panic (parseTarget_ne_panic _) fun t w => ?_
  refine IOM.bind_ne_panic (readText_ne_panic _ w) fun text w => ?_
  refine IOM.bind_ne_panic (readConfig_ne_panic T text) fun c w => ?_
  refine IOM.bind_ne_panic (orErr_ne_panic _ _) fun repository w => ?_
  refine IOM.bind_ne_panic (orErr_ne_panic _ _) fun name w => ?_
  split
  · simp [IOM.fail]
  · refine IOM.bind_ne_panic (by simp [IOM.httpGet]) fun b w => ?_
    rcases b with _ | b
    · simp [IOM.fail]
    · exact IOM.bind_ne_panic (createDirAll_ne_panic _ _) fun _ w =>
        IOM.bind_ne_panic (writeFile_ne_panic _ _ _) fun _ w => writeFile_ne_panic _ _ w

theorem scanPlugins_ne_panic (dir : Str) (names : List Str) : ∀ (md : PluginsMetadata) (w : World),
    (scanPlugins dir names md w).1 ≠ .panic := by
  induction names with
  | nil => exact fun _ w => pure_ne_panic _ w
  | cons n names ih =>
    intro md w
    rw [scanPlugins]
    refine IOM.bind_ne_panic (step_ne_panic w) fun _ w => ?_
    rcases hm : moduleName (dir ++ ['/'] ++ n) with _ | m <;> simp only <;> exact ih _ _

theorem runStage_panic {E : Env} {F : Formats} {args : CompileArgs} {ps : Plugins W} {w : World}
    (hs : args.level = 5 → ps.AllStandard)
    (h : (runStage E F args ps w).1 = .panic) : ∃ text, w.Holds args.filename text ∧
      ((3 ≤ args.level ∧ LooseText E.S text) ∨ (4 ≤ args.level ∧ StrayText E.S text)) := by
  unfold runStage at h
  split at h
  · cases h
  obtain ⟨dir, filename, level, json⟩ := args
  have hread : ∀ {α : Type} {f : Str → IOM α}, ((IOM.readText filename >>= f) w).1 = .panic →
      ∃ text w1, w.Holds filename text ∧ (f text w1).1 = .panic := by
    intro α f h
    rcases IOM.bind_panic h with h | ⟨text, w1, h1, h⟩
    · exact absurd h (readText_ne_panic _ w)
    · obtain ⟨⟨b, hb, ht⟩, _⟩ := readText_ok h1
      exact ⟨text, w1, ⟨b, hb, ht⟩, h⟩
  have hlift : ∀ {α β : Type} {r : Res α} {f : α → IOM β} {w : World},
      ((IOM.lift r >>= f) w).1 = .panic → r = .panic ∨ ∃ a w1, r = .ok a ∧ (f a w1).1 = .panic := by
    intro α β r f w h
    rcases IOM.bind_panic h with h | ⟨a, w1, h1, h⟩
    · exact .inl h
    · exact .inr ⟨a, w1, (IOM.lift_ok.mp h1).1, h⟩
  have htok : ∀ {text : Str}, tokenizeStr E.S text ≠ .panic := by
    intro text ht
    obtain ⟨_, _, h, _⟩ := C01_tokenize_total E.S text
    rw [ht] at h
    cases h
  match level, h with
  | 0, h => cases h
  | 1, h =>
    obtain ⟨text, w1, _, h⟩ := hread h
    rcases hlift h with h | ⟨ts, w2, _, h⟩
    · exact absurd h htok
    · exact absurd h (printLines_ne_panic _ _)
  | 2, h =>
    obtain ⟨text, w1, _, h⟩ := hread h
    rcases hlift h with h | ⟨ts, w2, h1, h⟩
    · exact absurd h htok
    rcases hlift h with h | ⟨c, w3, h2, h⟩
    · exact absurd h (C10_no_panic_text E.S text ts h1)
    · exact absurd h (printLines_ne_panic _ _)
  | 3, h =>
    obtain ⟨text, w1, ht, h⟩ := hread h
    refine ⟨text, ht, .inl ⟨Nat.le_refl _, ?_⟩⟩
    rcases hlift h with h | ⟨ts, w2, h1, h⟩
    · exact absurd h htok
    rcases hlift h with h | ⟨c, w3, h2, h⟩
    · exact absurd h (C10_no_panic_text E.S text ts h1)
    rcases hlift h with h | ⟨⟨a, es⟩, w4, h3, h⟩
    · exact ⟨ts, c, h1, h2, (C17_panic_iff ts c _ h2).1.mp h⟩
    simp only at h
    split at h
    · exact absurd h (printLines_ne_panic _ _)
    · split at h <;> exact absurd h (printLines_ne_panic _ _)
  | 4, h =>
    obtain ⟨text, w1, ht, h⟩ := hread h
    refine ⟨text, ht, ?_⟩
    rcases hlift h with h | ⟨ts, w2, h1, h⟩
    · exact absurd h htok
    rcases hlift h with h | ⟨c, w3, h2, h⟩
    · exact absurd h (C10_no_panic_text E.S text ts h1)
    rcases hlift h with h | ⟨⟨a, es⟩, w4, h3, h⟩
    · exact .inl ⟨by simp, ts, c, h1, h2, (C17_panic_iff ts c _ h2).1.mp h⟩
    simp only at h
    rcases hlift h with h | ⟨b, w5, h4, h⟩
    · exact .inr ⟨by simp, expander_panic h1 h2 h3 h⟩
    · exact absurd h (printLines_ne_panic _ _)
  | 5, h =>
    simp only at h
    split at h
    · cases h
    obtain ⟨text, w1, ht, h⟩ := hread h
    refine ⟨text, ht, ?_⟩
    rcases hlift h with h | ⟨ts, w2, h1, h⟩
    · exact absurd h htok
    rcases hlift h with h | ⟨c, w3, h2, h⟩
    · exact absurd h (C10_no_panic_text E.S text ts h1)
    rcases hlift h with h | ⟨⟨a, es⟩, w4, h3, h⟩
    · exact .inl ⟨by simp, ts, c, h1, h2, (C17_panic_iff ts c _ h2).1.mp h⟩
    simp only at h
    rcases hlift h with h | ⟨b, w5, h4, h⟩
    · exact .inr ⟨by simp, expander_panic h1 h2 h3 h⟩
    rcases hlift h with h | ⟨g, w6, h5, h⟩
    · have hb := C27_unchanged a b ps h4
      subst hb
      exact absurd h (C32_no_panic_document_partial E.checks ts c _ b es _ h2 h3
        (AllStandard.same (hs rfl) (expander_same b ps)))
    · exact absurd h (printLine_ne_panic _ _)
  | n + 6, h => cases h

theorem runCompile_panic {E : Env} {F : Formats} {env : Option Str} {args : CompileArgs} {w : World}
    (hw : args.level = 5 → w.PluginsStandard W)
    (h : (runCompile W E F env args w).1 = .panic) : ∃ text, w.Holds args.filename text ∧
      ((3 ≤ args.level ∧ LooseText E.S text) ∨ (4 ≤ args.level ∧ StrayText E.S text)) := by
  unfold runCompile at h
  rcases IOM.bind_panic h with h | ⟨plugins, w1, h1, h⟩
  · refine absurd h ?_
    refine IOM.bind_ne_panic (readDir_ne_panic _ _) fun es w => ?_
    exact IOM.bind_ne_panic (scanPlugins_ne_panic _ _ _ _) fun md w => loadPlugins_ne_panic md w
  have q1 := compilePlugins_quiet W (args.pluginsDir.getD (env.getD [])) w
  rw [h1] at q1
  rcases IOM.bind_panic h with h | ⟨ps, w2, h2, h⟩
  · exact absurd h plugins_new_ne_panic
  obtain ⟨hps, rfl⟩ := IOM.lift_ok.mp h2
  have hs : args.level = 5 → ps.AllStandard := by
    intro h5
    unfold compilePlugins at h1
    obtain ⟨es, w3, k1, h1⟩ := IOM.bind_ok.mp h1
    obtain ⟨md, w4, k2, h1⟩ := IOM.bind_ok.mp h1
    have r1 := readDir_quiet (args.pluginsDir.getD (env.getD [])) w
    rw [k1] at r1
    have r2 := scanPlugins_quiet (args.pluginsDir.getD (env.getD [])) es [] w3
    rw [k2] at r2
    refine loaded_standard (w := w4) ?_ h1 hps
    intro path b ms hb hms
    rw [r2.1, r1.1] at hb
    exact hw h5 b ms (.inl ⟨path, hb⟩) hms
  obtain ⟨text, ⟨b, hb, ht⟩, h⟩ := runStage_panic hs h
  exact ⟨text, ⟨b, by rw [← q1.1]; exact hb, ht⟩, h⟩

end

end Brack
