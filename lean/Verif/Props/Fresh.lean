import Verif.Proof.Opened
import Verif.Props.Project
import Verif.Props.Pipeline
import Verif.Props.Plugins

/-
Properties of building a project from its sources alone, and after changes of its configuration: C77, C85.
-/

namespace Brack

theorem HasConfig.names {w : World} {T : Toml} {c : Config} (h : w.HasConfig T c) :
    ∀ m, c.plugins = some m → (m.map (·.1)).Nodup := by
  intro m hm
  obtain ⟨_, _, v, _, _, _, hv⟩ := h
  exact C41_distinct v c hv m hm

/-! ### C77 -/

/-- C77 (partial): `brack build` succeeds with nothing but the sources if each plugin that is not there can be fetched
at any time and there is a directory for it, what is there or fetched can be loaded, no hook is enabled for two
plugins, the documents compile with the plugins made from these files whatever the other documents have done to them (`P`
holds for all states reached), nothing is in the way of the outputs, and nothing goes wrong on the file system. Missing:
a project whose directory `plugins` is not there (`C77_fresh_refuted`). -/
theorem C77_builds_partial (W : Wasm) (E : Env) (hh : ∀ s, '_' ∉ E.hash s ∧ '/' ∉ E.hash s) (c : Config) (w : World)
    (hw : w.Healthy) (hc : w.HasConfig E.toml c) (hslash : ∀ name s, c.plugin name = some s → '/' ∉ name)
    (hget : ∀ name s, c.plugin name = some s → w.pathExists (pluginFile E.hash name s) = true ∨
      (chars! "plugins" ∈ w.dirs ∧ ∀ n, (w.http n (pluginUrl c.document.backend name s)).isSome = true))
    (hnd : ∀ name s, c.plugin name = some s → pluginFile E.hash name s ∉ w.dirs)
    (hload : ∀ name s b, c.plugin name = some s → w.Provides E.hash c.document.backend name s b →
      ∃ ms, W.reports b = some ms ∧ Loadable ms s.flag)
    (hhooks : ∀ (k : Hook) name s name' s', c.plugin name = some s → c.plugin name' = some s' → k.enabled s.flag = true →
      k.enabled s'.flag = true → name = name')
    (P : Plugins W → Prop) (hP : ∀ ps, MadeFrom c (w.Provides E.hash c.document.backend) ps → P ps)
    (hdocs : chars! "docs" ∈ w.dirs) (hone : ∃ stem, w.HasDocument stem)
    (hnd' : ∀ stem, chars! "docs/" ++ stem ++ chars! ".[]" ∉ w.dirs)
    (hbackend : '/' ∉ c.document.backend) (hfile : w.files.get (chars! "out") = none)
    (hout : ∀ stem, w.HasDocument stem → chars! "out/" ++ stem ++ chars! "." ++ c.document.backend ∉ w.dirs)
    (hcomp : ∀ stem b, w.HasDocument stem → w.files.get (chars! "docs/" ++ stem ++ chars! ".[]") = some b →
      ∃ text, fromUtf8 b = some text ∧
        ∀ i ps, P ps → ∃ gen ps', P ps' ∧ compileText E.S (E.ids i) E.checks text ps = (.ok gen, ps')) :
    (buildCommand W E w).1 = .ok () := by
  have hn := HasConfig.names hc
  obtain ⟨b, t, v, g1, g2, g3, g4⟩ := hc
  have hw' : World.Healthy { w with clock := w.clock + 1 } := healthy_later hw (by simp) rfl
  unfold buildCommand
  rw [IOM.bind_of_ok (loadBrackToml_run hw g1 g2 (readConfig_iff.mpr ⟨v, g3, g4⟩))]
  obtain ⟨md, w1, hdl⟩ := downloadPlugins_runs (w := { w with clock := w.clock + 1 }) (fun s => (hh s).2) hslash hn hw' hget
  rw [IOM.bind_of_ok hdl]
  have hw1 : w1.Healthy := by
    have := downloadPlugins_goes E.hash c { w with clock := w.clock + 1 }
    rw [hdl] at this
    exact healthy_of_goes hw' this
  have hacts := downloadPlugins_acts (write := fun p => chars! "plugins/" <+: p) (create := fun _ => False)
    (ask := fun _ => True) (hash := E.hash) c (fun _ _ => trivial)
    (fun m x _ _ => ⟨x.1 ++ chars! "_" ++ E.hash x.2 ++ chars! ".wasm", by simp [cachePath]⟩) { w with clock := w.clock + 1 }
  rw [hdl] at hacts
  have hdirs : ∀ d, d ∈ w1.dirs ↔ d ∈ w.dirs :=
    fun d => ⟨fun h => (hacts.dirs d h).resolve_right (fun h => h), hacts.keepsDirs d⟩
  have hkeep : ∀ p, ¬ chars! "plugins/" <+: p → w1.files.get p = w.files.get p := hacts.files
  have hdoc : ∀ stem, w1.files.get (chars! "docs/" ++ stem ++ chars! ".[]") = w.files.get (chars! "docs/" ++ stem ++ chars! ".[]") := by
    intro stem
    refine hkeep _ ?_
    rintro ⟨r, h⟩
    simp at h
  have hhas : ∀ stem, w1.HasDocument stem ↔ w.HasDocument stem := by
    intro stem
    rw [World.HasDocument, World.HasDocument, hdoc]
  have hfiles : ∀ name s, c.plugin name = some s → ∃ b, w1.files.get (cachePath E.hash name s) = some b ∧
      w.Provides E.hash c.document.backend name s b := by
    intro name s hs
    obtain ⟨g, g'⟩ := downloadPlugins_provides (fun s => (hh s).1) hn hw' hdl hs
    rw [World.pathExists, Bool.or_eq_true] at g
    rcases g with g | g
    · obtain ⟨b, hb⟩ := Option.isSome_iff_exists.mp g
      exact ⟨b, hb, g' b hb⟩
    · exact absurd ((hdirs _).mp (show cachePath E.hash name s ∈ w1.dirs by simpa using g)) (hnd name s hs)
  have hall : AllLoadable W w1 md := allLoadable_of hn hdl (fun name s hs => by
    obtain ⟨b, hb, hprov⟩ := hfiles name s hs
    obtain ⟨ms, h⟩ := hload name s b hs hprov
    exact ⟨b, ms, hb, h⟩) hhooks
  obtain ⟨plugins, w2, ps, hpl, hps⟩ := Server.all_loaded (X := ⟨E, ⟨fun _ => none, fun _ => [], fun _ => none, fun _ => none,
    fun _ => false, fun _ => none, fun _ => none, fun _ => none, fun _ => none, fun _ _ => []⟩, W⟩) hw1 hall
  obtain ⟨hnames, _, hmem⟩ := loaded_plugins (loadPlugins_ok hpl)
  have hmade : MadeFrom c (w.Provides E.hash c.document.backend) ps := by
    refine ⟨plugins, hps, by rw [hnames]; exact hall.names, ?_, ?_⟩
    · intro name s hs
      have : name ∈ plugins.map (·.name) := by
        rw [hnames]
        exact List.mem_map.mpr ⟨_, (downloadPlugins_mem hn hdl).mpr ⟨s, hs, rfl, rfl⟩, rfl⟩
      exact List.mem_map.mp this
    · intro p hp
      obtain ⟨⟨name, path, flag⟩, hx, b, hb, hnew⟩ := (hmem p).mp hp
      obtain ⟨s, hs, rfl, rfl⟩ := (downloadPlugins_mem hn hdl).mp hx
      have hpn : p.name = name := by
        have := (plugin_new_name hnew)
        exact this
      obtain ⟨b', hb', hprov⟩ := hfiles name s hs
      rw [hb'] at hb
      injection hb with hb
      subst hb
      rw [hpn]
      exact ⟨s, b', hs, hprov, hnew⟩
  refine C47_succeeds W E c md w1 hw1 plugins ps (by rw [hpl]) hps P (hP ps hmade) ((hdirs _).mpr hdocs) ?_ ?_ hbackend ?_ ?_ ?_
  · obtain ⟨stem, h⟩ := hone
    exact ⟨stem, (hhas stem).mpr h⟩
  · intro stem h
    exact hnd' stem ((hdirs _).mp h)
  · rw [hkeep _ (by rintro ⟨r, h⟩; simp at h)]
    exact hfile
  · intro stem h hin
    exact hout stem ((hhas stem).mp h) ((hdirs _).mp hin)
  · intro stem b h hb
    rw [hdoc] at hb
    exact hcomp stem b ((hhas stem).mp h) hb

/-- C77 refuted: a project with a plugin, without the directory `plugins`, which new projects keep out of version
control, cannot be built, whatever the network offers: `brack build` fails and leaves everything outside of `plugins` as it is. -/
theorem C77_fresh_refuted (W : Wasm) (E : Env) (hh : ∀ s, '/' ∉ E.hash s) (c : Config) (w : World) (hc : w.HasConfig E.toml c)
    (name : Str) (s : PluginSchema) (hs : c.plugin name = some s) (hname : '/' ∉ name)
    (hno : w.pathExists (pluginFile E.hash name s) = false) (hdir : chars! "plugins" ∉ w.dirs) :
    ∃ m, (buildCommand W E w).1 = .err m ∧
      ∀ path, ¬ chars! "plugins/" <+: path → (buildCommand W E w).2.files.get path = w.files.get path := by
  have hn := HasConfig.names hc
  have hq := readText_quiet (chars! "Brack.toml") w
  unfold buildCommand
  rw [IOM.bind_run]
  rcases hl : loadBrackToml E.toml w with ⟨r, w0⟩
  rcases r with c' | m | _
  · obtain ⟨rfl, b, t, h1, h2, h3⟩ := loadBrackToml_ok hl
    obtain ⟨v, h4, h5⟩ := readConfig_iff.mp h3
    obtain ⟨b', t', v', g1, g2, g3, g4⟩ := hc
    rw [g1] at h1
    injection h1 with h1
    subst h1
    rw [g2] at h2
    injection h2 with h2
    subst h2
    rw [g3] at h4
    injection h4 with h4
    subst h4
    rw [g4] at h5
    injection h5 with h5
    subst h5
    simp only
    have hacts := downloadPlugins_acts (write := fun p => chars! "plugins/" <+: p) (create := fun _ => False)
      (ask := fun _ => True) (hash := E.hash) c (fun _ _ => trivial)
      (fun m x _ _ => ⟨x.1 ++ chars! "_" ++ E.hash x.2 ++ chars! ".wasm", by simp [cachePath]⟩) { w with clock := w.clock + 1 }
    have hnp := downloadPlugins_ne_panic (hash := E.hash) c { w with clock := w.clock + 1 }
    rw [IOM.bind_run]
    rcases hdl : downloadPlugins E.hash c { w with clock := w.clock + 1 } with ⟨r, w1⟩
    rw [hdl] at hacts hnp
    rcases r with md | m | _
    · rcases downloadPlugins_needs hh hs hname hn hdl with g | ⟨g, _⟩
      · exact absurd g (by
          show ¬ w.pathExists (pluginFile E.hash name s) = true
          rw [hno]
          simp)
      · exact absurd g hdir
    · exact ⟨m, rfl, hacts.files⟩
    · exact absurd rfl hnp
  · refine ⟨m, rfl, ?_⟩
    have : w0.files = w.files := by
      have := (IOM.Keeps.bind Quiet.frame (readText_quiet (chars! "Brack.toml")) fun t =>
        IOM.Keeps.lift Quiet.frame (E.toml.readConfig t)) w
      have h' : loadBrackToml E.toml w = (IOM.readText (chars! "Brack.toml") >>= fun t => IOM.lift (E.toml.readConfig t)) w := rfl
      rw [← h', hl] at this
      exact this.1
    intro path _
    simp only [this]
  · obtain ⟨b', t', v', g1, g2, g3, g4⟩ := hc
    exfalso
    unfold loadBrackToml at hl
    rw [IOM.bind_run] at hl
    rcases hr : IOM.readText (chars! "Brack.toml") w with ⟨r, w1⟩
    rw [hr] at hl
    rcases r with t | m | _
    · obtain ⟨⟨b, hb, ht⟩, _, _⟩ := readText_ok hr
      simp only [IOM.lift_run] at hl
      injection hl with hl _
      unfold Toml.readConfig at hl
      rcases hp : E.toml.parse t with _ | v
      · rw [hp] at hl
        simp at hl
      · rw [hp] at hl
        exact Config.ofToml_ne_panic v hl
    · simp at hl
    · have := readText_ne_panic (chars! "Brack.toml") w
      rw [hr] at this
      exact this rfl

/-- A configuration with a plugin without hooks. -/
private def plainConfig : Config :=
  { sampleConfig with plugins := some [(chars! "std", .plain (chars! "brack-lang") (chars! "brack-std") (chars! "v1"))] }

/-- The libraries for that project. -/
private def plainEnv : Env := { sampleEnv with toml := ⟨fun _ => some plainConfig.toToml, showVal⟩ }

private theorem plain_config (w : World) (h : w.files.get (chars! "Brack.toml") = some (utf8 (chars! "the configuration"))) :
    w.HasConfig plainEnv.toml plainConfig :=
  ⟨_, _, plainConfig.toToml, h, fromUtf8_utf8 _, rfl, by decide +kernel⟩

private theorem plain_std {name : Str} {s : PluginSchema} (h : plainConfig.plugin name = some s) :
    name = chars! "std" ∧ s = .plain (chars! "brack-lang") (chars! "brack-std") (chars! "v1") := by
  simp only [Config.plugin, plainConfig, Option.bind_some, HMap.get] at h
  by_cases hn : chars! "std" = name
  · rw [if_pos hn] at h
    injection h with h
    exact ⟨hn.symm, h.symm⟩
  · rw [if_neg hn] at h
    simp at h

/-- A project with a document of plain text and a plugin that is to be fetched: it can be built if there is a directory
for the plugin, and not otherwise. -/
example : (buildCommand sampleWasm plainEnv
      { sampleWorld (fun _ => .none) with dirs := [chars! "docs", chars! "plugins"] }).1 = .ok () ∧
    ∃ m, (buildCommand sampleWasm plainEnv (sampleWorld fun _ => .none)).1 = .err m := by
  constructor
  · refine C77_builds_partial sampleWasm plainEnv (fun _ => by show _ ∉ chars! "00" ∧ _ ∉ chars! "00"; decide) plainConfig _
      (fun _ _ => rfl) (plain_config _ rfl) ?_ ?_ ?_ ?_ ?_ NoHooks ?_ (by decide)
      ⟨chars! "a", by decide, by decide, by decide⟩ ?_ (by decide) (by decide) ?_ ?_
    · intro name s h
      rw [(plain_std h).1]
      decide
    · intro name s h
      exact .inr ⟨by decide, fun _ => rfl⟩
    · intro name s h
      rw [(plain_std h).1, (plain_std h).2]
      decide +kernel
    · rintro name s b h hb
      have : b = [1, 2, 3] := by
        rcases hb with hb | ⟨n, hb⟩
        · rw [(plain_std h).1, (plain_std h).2] at hb
          have : (sampleWorld fun _ => .none).files.get (pluginFile plainEnv.hash (chars! "std")
              (.plain (chars! "brack-lang") (chars! "brack-std") (chars! "v1"))) = none := by decide +kernel
          rw [show ({ sampleWorld (fun _ => .none) with dirs := [chars! "docs", chars! "plugins"] } : World).files =
            (sampleWorld fun _ => .none).files from rfl, this] at hb
          simp at hb
        · injection hb with hb
          exact hb.symm
      subst this
      rw [(plain_std h).2]
      refine ⟨_, rfl, fun k hk => absurd hk ?_⟩
      cases k <;> decide
    · intro k name s name' s' h h' _ _
      rw [(plain_std h).1, (plain_std h').1]
    · rintro ps ⟨plugins, hps, _, _, hfrom⟩
      have hnone : ∀ k : Hook, ps.hook k = none := by
        intro k
        rcases hk : ps.hook k with _ | n
        · rfl
        · obtain ⟨p, hp, he, _⟩ := (C38_bound plugins ps hps k n).mp hk
          obtain ⟨s, b, hs, _, hnew⟩ := hfrom p hp
          rw [(plugin_new_facts hnew).2.1, (plain_std hs).2] at he
          cases k <;> exact absurd he (by decide)
      exact ⟨hnone .document, hnone .stmt, hnone .expr, hnone .text⟩
    · intro stem h
      simp at h
    · intro stem _ h
      simp at h
    · intro stem b _ hb
      have hm := (HMap.get_eq_some (by decide)).mp hb
      simp only [sampleWorld, List.mem_cons, List.not_mem_nil, or_false, Prod.mk.injEq] at hm
      rcases hm with ⟨h1, _⟩ | ⟨_, rfl⟩
      · simp at h1
      · refine ⟨chars! "é", fromUtf8_utf8 _, fun i ps hps => ⟨(chars! "é").filter (· ≠ '\n'), ps, hps, ?_⟩⟩
        exact C36_plain_partial _ _ _ ps hps (chars! "é") (by decide) (by decide) (by
          intro a b h
          have : '\r' ∈ chars! "é" := by rw [h]; simp
          revert this
          decide)
  · obtain ⟨m, h, _⟩ := C77_fresh_refuted sampleWasm plainEnv (fun _ => by show _ ∉ chars! "00"; decide) plainConfig
      (sampleWorld fun _ => .none) (plain_config _ rfl) (chars! "std") _ rfl (by decide) (by decide +kernel) (by decide)
    exact ⟨m, h⟩

/-! ### C85 -/

/-- C85 (partial): if the entry of a plugin was changed after a successful run, a further successful run asks for the
file named by the new entry, and the plugin is then the file that the server offered. Missing: a change of the
backend (`C85_backend_refuted`). -/
theorem C85_entry_partial (hash : PluginSchema → Str) (hh : ∀ s, '_' ∉ hash s) (c c2 : Config)
    (hn : ∀ m, c.plugins = some m → (m.map (·.1)).Nodup) (hn2 : ∀ m, c2.plugins = some m → (m.map (·.1)).Nodup)
    (w w1 w2 w3 : World) (md md2 : PluginsMetadata) (h : downloadPlugins hash c w = (.ok md, w1)) (hd : w1.SameDisk w2)
    (hw : w2.Healthy) (h2 : downloadPlugins hash c2 w2 = (.ok md2, w3)) (name : Str) (s s2 : PluginSchema)
    (hs : c.plugin name = some s) (hs2 : c2.plugin name = some s2) (hne : hash s ≠ hash s2)
    (hno : w.pathExists (pluginFile hash name s2) = false) :
    (∃ urls, w3.requests = w2.requests ++ urls ∧ pluginUrl c2.document.backend name s2 ∈ urls) ∧
    md2.get name = some (pluginFile hash name s2, s2.flag) ∧
    ((∃ n b, w2.http n (pluginUrl c2.document.backend name s2) = some b ∧ w3.files.get (pluginFile hash name s2) = some b)) := by
  have hno2 : w2.pathExists (pluginFile hash name s2) = false := by
    have hacts := downloadPlugins_acts (write := fun p => p ≠ pluginFile hash name s2) (create := fun _ => False)
      (ask := fun _ => True) (hash := hash) c (fun _ _ => trivial) (by
        intro m x hm hx he
        obtain ⟨h1, h2⟩ := cachePath_inj hash hh (show cachePath hash x.1 x.2 = cachePath hash name s2 from he)
        have : c.plugin x.1 = some x.2 := by
          rw [Config.plugin, hm]
          exact (HMap.get_eq_some (hn m hm)).mpr hx
        rw [h1, hs] at this
        injection this with this
        rw [← this] at h2
        exact hne h2) w
    rw [h] at hacts
    rw [World.pathExists, Bool.or_eq_false_iff] at hno ⊢
    rw [hd.1, hd.2]
    refine ⟨by rw [hacts.files _ (by simp)]; exact hno.1, ?_⟩
    rw [decide_eq_false_iff_not] at hno ⊢
    exact fun hin => hno.2 ((hacts.dirs _ hin).resolve_right fun h => h)
  refine ⟨?_, ?_, ?_⟩
  · rcases hm : c2.plugins with _ | m
    · rw [Config.plugin, hm] at hs2
      simp at hs2
    · obtain ⟨rs, w4, h1, _, _, _, _, _, _, _, _, hlog⟩ := downloadPlugins_some hash hm w2
      obtain ⟨l, hl⟩ := (storeLoop_goes rs (cachedMeta hash w2 m []) w4).log
      rw [h1] at h2
      rw [h2] at hl
      rw [World.requests, hl, hlog, List.filterMap_append, List.filterMap_append, List.append_assoc]
      refine ⟨_, rfl, List.mem_append_left _ ?_⟩
      rw [List.mem_filterMap]
      refine ⟨.request _, List.mem_map.mpr ⟨_, (mem_missingTasks hash _).mpr ⟨(name, s2), ?_, hno2, rfl⟩, rfl⟩, rfl⟩
      rw [Config.plugin, hm] at hs2
      exact (HMap.get_eq_some (hn2 m hm)).mp hs2
  · exact (HMap.get_eq_some (downloadPlugins_nodup h2)).mpr ((downloadPlugins_mem hn2 h2).mpr ⟨s2, hs2, rfl, rfl⟩)
  · rcases hm : c2.plugins with _ | m
    · rw [Config.plugin, hm] at hs2
      simp at hs2
    · obtain ⟨g1, g2⟩ := downloadPlugins_provides hh hn2 hw h2 hs2
      have hx : (name, s2) ∈ m := by
        rw [Config.plugin, hm] at hs2
        exact (HMap.get_eq_some (hn2 m hm)).mp hs2
      obtain ⟨rs, w4, h1, k2, _, _, h4, h5, _, _, _, _⟩ := downloadPlugins_some hash hm w2
      have hf : (w3.files.get (pluginFile hash name s2)).isSome = true := by
        rw [h1] at h2
        have htask : (⟨name, cachePath hash name s2, s2.flag, downloadUrl c2.document.backend name s2⟩ : Task) ∈ rs.map (·.1) := by
          rw [k2]
          exact (mem_missingTasks hash _).mpr ⟨(name, s2), hx, hno2, rfl⟩
        obtain ⟨r, hr, hrt⟩ := List.mem_map.mp htask
        have := (storeLoop_ok h2).2.1 r hr
        rw [hrt] at this
        exact this
      obtain ⟨b, hb⟩ := Option.isSome_iff_exists.mp hf
      rcases g2 b hb with h | ⟨n, h⟩
      · rw [World.pathExists, Bool.or_eq_false_iff, h] at hno2
        simp at hno2
      · exact ⟨n, b, h, hb⟩

/-- A plugin whose version was changed. -/
example :
    let hash : PluginSchema → Str := fun s => s.version
    let c2 : Config := { plainConfig with plugins := some [(chars! "std", .plain (chars! "brack-lang") (chars! "brack-std") (chars! "v2"))] }
    let w : World := { sampleWorld (fun _ => .none) with dirs := [chars! "docs", chars! "plugins"] }
    let r := downloadPlugins hash plainConfig w
    let r2 := downloadPlugins hash c2 r.2
    ∃ md md2, r.1 = .ok md ∧ r2.1 = .ok md2 ∧ md2.get (chars! "std") = some (chars! "plugins/std_v2.wasm", noHooks) := by
  intro hash c2 w r r2
  refine ⟨_, _, rfl, rfl, ?_⟩
  have := (C85_entry_partial (fun s => if s.version = chars! "v1" then chars! "v1" else chars! "v2") (fun s => by
      by_cases hs : s.version = chars! "v1"
      · rw [if_pos hs]; decide
      · rw [if_neg hs]; decide) plainConfig c2 (by intro m hm; injection hm with hm; subst hm; decide)
    (by intro m hm; injection hm with hm; subst hm; decide) w r.2 r.2 r2.2 _ _ rfl ⟨rfl, rfl⟩ (fun _ _ => rfl) rfl (chars! "std") _ _
    rfl rfl (by decide) (by decide +kernel)).2.1
  exact this

/-- C85 refuted: after a successful run, changing the backend in the configuration changes nothing about the plugins:
no request is made, and the plugins are the same files, those for the old backend. -/
theorem C85_backend_refuted (hash : PluginSchema → Str) (c : Config) (hn : ∀ m, c.plugins = some m → (m.map (·.1)).Nodup)
    (backend : Str) (w w1 w2 : World) (md : PluginsMetadata) (h : downloadPlugins hash c w = (.ok md, w1)) (hd : w1.SameDisk w2) :
    ∃ md2, downloadPlugins hash { c with document := { c.document with backend := backend } } w2 = (.ok md2, w2) ∧
      ∀ n, md2.get n = md.get n := by
  rcases hm : c.plugins with _ | m
  · rw [downloadPlugins_none hash hm] at h
    injection h with h _
    injection h with h
    exact ⟨[], downloadPlugins_none hash rfl w2, fun n => by rw [← h]⟩
  · exact C45_second_run hash c ⟨{ c.document with backend := backend }, some m⟩ m m hm (hn m hm) rfl (.refl m) w w1 w2 md h hd

/-- A plugin whose command `f` tells the backend it was made for. -/
private def backendWasm : Wasm :=
  { sampleWasm with
    load := fun b => .ok (if b = [1] then (1 : Nat) else (2 : Nat))
    callText := fun (n : Nat) _ _ => (.ok (if n = 1 then chars! "html" else chars! "tex"), n) }

/-- A project made for HTML and then for TeX; the server has the plugin for both. -/
private def backendWorld (toml : Str) (files : HMap Str Bytes) : World :=
  { sampleWorld (fun _ => .none) with
    files := files.insert (chars! "Brack.toml") (utf8 toml)
    dirs := [chars! "docs", chars! "out", chars! "plugins"]
    http := fun _ url => if (chars! ".html.wasm") <:+ url then some [1] else some [2] }

/-- The libraries for that project: the configuration is the name of the backend. -/
private def backendEnv : Env :=
  { sampleEnv with toml := ⟨fun b => some { plainConfig with document := { plainConfig.document with backend := b } }.toToml, showVal⟩ }

/-- C85 refuted: a project built for one backend and then for another has an output for the second that was made by the
plugin for the first. -/
theorem C85_output_refuted : ∃ (W : Wasm) (E : Env) (c : Config) (w w1 w2 w3 : World) (name : Str) (s : PluginSchema),
    w.Healthy ∧ w.HasConfig E.toml c ∧ c.document.backend = chars! "html" ∧ buildCommand W E w = (.ok (), w1) ∧ w2.Healthy ∧
    w2.HasConfig E.toml { c with document := { c.document with backend := chars! "tex" } } ∧
    (∀ path, path ≠ chars! "Brack.toml" → w2.files.get path = w1.files.get path) ∧
    buildCommand W E w2 = (.ok (), w3) ∧ c.plugin name = some s ∧
    w2.http 0 (pluginUrl (chars! "html") name s) = some [1] ∧ w2.http 0 (pluginUrl (chars! "tex") name s) = some [2] ∧
    w3.files.get (pluginFile E.hash name s) = some [1] ∧
    w3.files.get (chars! "out/a.tex") = some (utf8 (chars! "html")) := by
  have h1 : (buildCommand backendWasm backendEnv
    (backendWorld (chars! "html") [(chars! "docs/a.[]", utf8 (chars! "[std.f]"))])).1 = .ok () := by decide +kernel
  have h2 : (buildCommand backendWasm backendEnv (backendWorld (chars! "tex") (buildCommand backendWasm backendEnv
    (backendWorld (chars! "html") [(chars! "docs/a.[]", utf8 (chars! "[std.f]"))])).2.files)).1 = .ok () := by decide +kernel
  refine ⟨backendWasm, backendEnv, { plainConfig with document := { plainConfig.document with backend := chars! "html" } },
    backendWorld (chars! "html") [(chars! "docs/a.[]", utf8 (chars! "[std.f]"))], _,
    backendWorld (chars! "tex") (buildCommand backendWasm backendEnv
      (backendWorld (chars! "html") [(chars! "docs/a.[]", utf8 (chars! "[std.f]"))])).2.files, _, chars! "std", _,
    fun _ _ => rfl, ⟨_, _, _, rfl, fromUtf8_utf8 _, rfl, by decide +kernel⟩, rfl, by rw [← h1], fun _ _ => rfl,
    ⟨_, chars! "tex", _, by rw [backendWorld, HMap.get_insert, if_pos rfl], fromUtf8_utf8 _, rfl, by decide +kernel⟩, ?_, by rw [← h2], rfl, ?_, ?_, ?_, ?_⟩
  · intro path hp
    rw [backendWorld, HMap.get_insert_ne hp]
  · decide +kernel
  · decide +kernel
  · decide +kernel
  · decide +kernel

end Brack
