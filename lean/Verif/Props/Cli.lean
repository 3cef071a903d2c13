import Verif.Proof.Agree
import Verif.Proof.ProjectCases
import Verif.Props.Project

/-
Properties of `brack compile`: C56, C57, C62.
-/

namespace Brack

/-! ### C56 -/

/-- C56 (partial): a plugin cached as `<name>_<hash>.wasm` is loaded under its name, if the name consists of
letters, the path of the directory has no underscore and no other file in it contains `<name>_`. Missing:
other names (`C56_names_refuted`), several cached versions (`C56_versions_refuted`) and other directories
(`C56_directory_refuted`). -/
theorem C56_loaded_partial (W : Wasm) (dir name hash : Str) (bytes : Bytes) (w w' : World) (plugins : List (Plugin W))
    (hn : name ≠ []) (hletters : ∀ c ∈ name, IsLetter c) (hh : hash ≠ []) (halnum : ∀ c ∈ hash, IsAlphanumeric c)
    (hu : '_' ∉ dir)
    (hf : w.files.get (dir ++ chars! "/" ++ (name ++ chars! "_" ++ hash ++ chars! ".wasm")) = some bytes)
    (hone : ∀ e, '/' ∉ e → w.pathExists (dir ++ chars! "/" ++ e) = true → (name ++ chars! "_") <:+: e →
      e = name ++ chars! "_" ++ hash ++ chars! ".wasm")
    (h : compilePlugins W dir w = (.ok plugins, w')) :
    ∃ p ∈ plugins, p.name = name ∧ Plugin.new W name bytes {} = .ok p ∧ ∀ q ∈ plugins, q.name = name → q = p := by
  have hm := compilePlugins_ok h
  have hal : ∀ c ∈ name, isAlpha c = true := fun c hc => isAlpha_iff.mpr (hletters c hc)
  have hnu : ∀ c ∈ hash, isAlnum c = true := fun c hc => isAlnum_iff.mpr (halnum c hc)
  have hslash : '/' ∉ name ++ chars! "_" ++ hash ++ chars! ".wasm" := by
    intro hc
    simp only [List.mem_append] at hc
    rcases hc with ((hc | hc) | hc) | hc
    · exact absurd (hal _ hc) (by decide)
    · exact absurd hc (by decide)
    · exact absurd (hnu _ hc) (by decide)
    · exact absurd hc (by decide)
  have hentry : name ++ chars! "_" ++ hash ++ chars! ".wasm" ∈ w.entries dir := by
    rw [mem_entries]
    refine ⟨?_, by simp, hslash⟩
    have : dir ++ '/' :: (name ++ chars! "_" ++ hash ++ chars! ".wasm") =
        dir ++ chars! "/" ++ (name ++ chars! "_" ++ hash ++ chars! ".wasm") := by simp
    rw [this, World.pathExists, hf]
    rfl
  have hname : moduleName (dir ++ chars! "/" ++ (name ++ chars! "_" ++ hash ++ chars! ".wasm")) = some name := by
    have := moduleName_of_at (moduleAt_cached hn hal hh hnu)
    have hd := moduleName_dir (dir := dir) (t := name ++ '_' :: (hash ++ chars! ".wasm")) hu
    rw [this] at hd
    simpa using hd
  have hget := scanned_get (md := []) hentry hname (by
    intro e he hne hme
    rw [mem_entries] at he
    refine hne (hone e he.2.2 (by simpa using he.1) ?_)
    exact moduleName_infix hu (by simpa using hme))
  have hnd := scanned_nodup (dir := dir) (names := w.entries dir) (md := []) (by simp)
  have hmem := (HMap.get_eq_some hnd).mp hget
  have : some (Plugin.new W name bytes {}) ∈ plugins.map (fun p => some (Res.ok p)) := by
    rw [← hm]
    exact List.mem_map.mpr ⟨_, hmem, by simp only; rw [hf]; rfl⟩
  obtain ⟨p, hp, he⟩ := List.mem_map.mp this
  injection he with he
  refine ⟨p, hp, plugin_new_name he.symm, he.symm, fun q hq hqn => ?_⟩
  have hnames := names_of_loaded hm
  rw [← hnames] at hnd
  have hpn := plugin_new_name he.symm
  exact eq_of_nodup_map hnd hq hp (hqn.trans hpn.symm)

/-- C56: nothing else is loaded: every plugin comes from a file of the directory; its name is not empty,
consists of letters, occurs in the path of the file before an underscore, and is the name of no other plugin. No
hook is enabled. -/
theorem C56_only (W : Wasm) (dir : Str) (w w' : World) (plugins : List (Plugin W))
    (h : compilePlugins W dir w = (.ok plugins, w')) :
    (∀ p ∈ plugins, p.name ≠ [] ∧ (∀ c ∈ p.name, IsLetter c) ∧
      ∃ e bytes, '/' ∉ e ∧ w.files.get (dir ++ chars! "/" ++ e) = some bytes ∧
        Plugin.new W p.name bytes {} = .ok p ∧ (p.name ++ chars! "_") <:+: dir ++ chars! "/" ++ e) ∧
    (plugins.map (·.name)).Nodup ∧ ∀ ps, Plugins.new plugins = .ok ps → NoHooks ps := by
  have hm := compilePlugins_ok h
  have hnd := scanned_nodup (dir := dir) (names := w.entries dir) (md := []) (by simp)
  have hfirst : ∀ p ∈ plugins, p.name ≠ [] ∧ (∀ c ∈ p.name, IsLetter c) ∧
      ∃ e bytes, '/' ∉ e ∧ w.files.get (dir ++ chars! "/" ++ e) = some bytes ∧
        Plugin.new W p.name bytes {} = .ok p ∧ (p.name ++ chars! "_") <:+: dir ++ chars! "/" ++ e := by
    intro p hp
    have : some (Res.ok p) ∈ plugins.map (fun p => some (Res.ok p)) := List.mem_map.mpr ⟨p, hp, rfl⟩
    rw [← hm] at this
    obtain ⟨⟨n, path, flag⟩, hx, he⟩ := List.mem_map.mp this
    rcases scanned_from hx with hx | ⟨e, hen, hxe, hmn⟩
    · simp at hx
    · injection hxe with hx1 hx2
      subst hx1
      subst hx2
      simp only at he
      generalize hb : w.files.get (dir ++ chars! "/" ++ e) = o at he
      rcases o with _ | bytes
      · cases he
      · simp only [Option.map_some, Option.some.injEq] at he
        have hpn := plugin_new_name he
        subst hpn
        obtain ⟨h1, h2, a, b, h3⟩ := moduleName_some hmn
        exact ⟨h1, fun c hc => isAlpha_iff.mp (h2 c hc), e, bytes, (mem_entries.mp hen).2.2, hb, he, a, b, by
          rw [h3]; simp⟩
  refine ⟨hfirst, by rw [names_of_loaded hm]; exact hnd, fun ps hps => ?_⟩
  have hflag : ∀ p ∈ plugins, p.flag = {} := by
    intro p hp
    obtain ⟨_, _, e, bytes, _, _, hnew, _⟩ := hfirst p hp
    exact (C40_loaded W _ _ _ p hnew).2.1
  have hnone : ∀ k : Hook, ps.hook k = none := by
    intro k
    rcases hk : ps.hook k with _ | n
    · rfl
    · obtain ⟨p, hp, he, _⟩ := (C38_bound plugins ps hps k n).mp hk
      rw [hflag p hp] at he
      rcases k <;> exact absurd he (by decide)
  exact ⟨hnone .document, hnone .stmt, hnone .expr, hnone .text⟩

/-- C56: exactly which plugins are loaded: those whose name is found by searching for the pattern in the path of an
entry of the directory, and each is what such a file holds. -/
theorem C56_exact (W : Wasm) (dir : Str) (w w' : World) (plugins : List (Plugin W))
    (h : compilePlugins W dir w = (.ok plugins, w')) :
    (∀ name, (∃ p ∈ plugins, p.name = name) ↔
      ∃ e, e ≠ [] ∧ '/' ∉ e ∧ w.pathExists (dir ++ chars! "/" ++ e) = true ∧ Captured (dir ++ chars! "/" ++ e) name) ∧
    ∀ p ∈ plugins, ∃ e bytes, '/' ∉ e ∧ w.files.get (dir ++ chars! "/" ++ e) = some bytes ∧
      Captured (dir ++ chars! "/" ++ e) p.name ∧ Plugin.new W p.name bytes {} = .ok p := by
  have hm := compilePlugins_ok h
  have hnd := scanned_nodup (dir := dir) (names := w.entries dir) (md := []) (by simp)
  have hnames := names_of_loaded hm
  refine ⟨fun name => ⟨?_, ?_⟩, ?_⟩
  · rintro ⟨p, hp, rfl⟩
    have : p.name ∈ (scanned dir (w.entries dir) []).map (·.1) := by
      rw [← hnames]; exact List.mem_map.mpr ⟨p, hp, rfl⟩
    obtain ⟨⟨n, x⟩, hx, he⟩ := List.mem_map.mp this
    simp only at he
    subst he
    rcases scanned_from hx with hx | ⟨e, hen, _, hmn⟩
    · simp at hx
    · have hen := mem_entries.mp hen
      exact ⟨e, hen.2.1, hen.2.2, by simpa using hen.1, moduleName_iff.mp hmn⟩
  · rintro ⟨e, h1, h2, h3, h4⟩
    have := scanned_key (dir := dir) (names := w.entries dir) (md := []) (m := name)
      (.inr ⟨e, mem_entries.mpr ⟨by simpa using h3, h1, h2⟩, moduleName_iff.mpr h4⟩)
    obtain ⟨x, hx⟩ := Option.isSome_iff_exists.mp this
    have hx := (HMap.get_eq_some hnd).mp hx
    have : name ∈ plugins.map (·.name) := by
      rw [hnames]; exact List.mem_map.mpr ⟨_, hx, rfl⟩
    obtain ⟨p, hp, he⟩ := List.mem_map.mp this
    exact ⟨p, hp, he⟩
  · intro p hp
    have : some (Res.ok p) ∈ plugins.map (fun p => some (Res.ok p)) := List.mem_map.mpr ⟨p, hp, rfl⟩
    rw [← hm] at this
    obtain ⟨⟨n, path, flag⟩, hx, he⟩ := List.mem_map.mp this
    rcases scanned_from hx with hx | ⟨e, hen, hxe, hmn⟩
    · simp at hx
    · injection hxe with hx1 hx2
      subst hx1
      subst hx2
      simp only at he
      generalize hb : w.files.get (dir ++ chars! "/" ++ e) = o at he
      rcases o with _ | bytes
      · cases he
      · simp only [Option.map_some, Option.some.injEq] at he
        have hpn := plugin_new_name he
        subst hpn
        exact ⟨e, bytes, (mem_entries.mp hen).2.2, hb, moduleName_iff.mp hmn, he⟩

/-- C56: the plugins are loaded if the directory exists, everything in it is a file holding a plugin, and
nothing goes wrong on the file system. -/
theorem C56_succeeds (W : Wasm) (dir : Str) (w : World) (hw : w.Healthy) (hd : dir ∈ w.dirs)
    (hload : ∀ e, '/' ∉ e → w.pathExists (dir ++ chars! "/" ++ e) = true →
      ∃ bytes ms, w.files.get (dir ++ chars! "/" ++ e) = some bytes ∧ W.reports bytes = some ms) :
    ∃ plugins ps, (compilePlugins W dir w).1 = .ok plugins ∧ Plugins.new plugins = .ok ps := by
  have hflags : ∀ ms : List Metadata, Loadable ms {} := by
    intro ms k hk
    rcases k <;> exact absurd hk (by decide)
  have hw1 : ({ w with clock := w.clock + 1 } : World).Healthy := fun i hi => hw i (by simp only at hi; omega)
  obtain ⟨w2, h2, hg, hq⟩ := scanPlugins_run (dir := dir) (names := w.entries dir) (md := []) hw1
  obtain ⟨plugins, w3, h3⟩ := loadPlugins_run (W := W) (md := scanned dir (w.entries dir) []) (healthy_of_goes hw1 hg) (by
    rintro ⟨n, path, flag⟩ hx
    rcases scanned_from hx with hx | ⟨e, hen, hxe, _⟩
    · simp at hx
    · injection hxe with hx1 hx2
      subst hx1
      subst hx2
      have hen := mem_entries.mp hen
      obtain ⟨bytes, ms, hb, hr⟩ := hload e hen.2.2 (by simpa using hen.1)
      obtain ⟨p, hp⟩ := (C40_loads_iff W n bytes {}).1.mpr ⟨ms, hr, hflags ms⟩
      exact ⟨bytes, p, by simp only; rw [hq.1]; exact hb, hp⟩)
  have h : compilePlugins W dir w = (.ok plugins, w3) := by
    rw [compilePlugins, IOM.bind_of_ok (readDir_run (hw _ (Nat.le_refl _)) hd), IOM.bind_of_ok h2, h3]
  have hfl : ∀ p ∈ plugins, p.flag = {} := by
    intro p hp
    obtain ⟨_, _, e, bytes, _, _, hnew, _⟩ := (C56_only W dir w w3 plugins h).1 p hp
    exact (C40_loaded W _ _ _ p hnew).2.1
  obtain ⟨ps, hps⟩ := (C38_one_plugin plugins).1.mpr (by
    intro k i j p q hi _ hk _
    rw [hfl p (List.mem_of_getElem? hi)] at hk
    rcases k <;> exact absurd hk (by decide))
  exact ⟨plugins, ps, by rw [h], hps⟩

/-- C56 refuted for names with a character other than letters: no plugin is ever loaded under such a
name, whatever is cached. (`C56_succeeds` shows that this is not because loading fails.) -/
theorem C56_names_refuted (W : Wasm) (dir name : Str) (c : Char) (hc : c ∈ name) (hl : ¬ IsLetter c) (w w' : World)
    (plugins : List (Plugin W)) (h : compilePlugins W dir w = (.ok plugins, w')) : ∀ p ∈ plugins, p.name ≠ name := by
  rintro p hp rfl
  exact hl (((C56_only W dir w w' plugins h).1 p hp).2.1 c hc)

/-- The names and files of the plugins found in a directory with these files. -/
private def found (dir : Str) (files : List Str) : Option (List Str) :=
  match (compilePlugins sampleWasm dir
    { sampleWorld (fun _ => .none) with files := files.map (fun f => (dir ++ chars! "/" ++ f, [1])), dirs := [dir] }).1 with
  | .ok ps => some (ps.map (·.name))
  | _ => none

/-- Concrete case: two plugins of the cache and other files; with names of letters both are found. -/
example : found (chars! "plugins") [chars! "std_0a1.wasm", chars! "README.md", chars! "math_77.wasm"] =
    some [chars! "std", chars! "math"] := by decide +kernel

/-- The world of the next case. -/
private def twoPlugins : World :=
  { sampleWorld (fun _ => .none) with
    files := [(chars! "plugins/std_0a1.wasm", [1]), (chars! "plugins/math_77.wasm", [2])], dirs := [chars! "plugins"] }

/-- Concrete case: the hypotheses of `C56_loaded_partial` for the second of two plugins. -/
example : ∃ plugins w', compilePlugins sampleWasm (chars! "plugins") twoPlugins = (.ok plugins, w') ∧
      ∃ p ∈ plugins, p.name = chars! "math" ∧ Plugin.new sampleWasm (chars! "math") [2] {} = .ok p ∧
        ∀ q ∈ plugins, q.name = chars! "math" → q = p := by
  have hok : (compilePlugins sampleWasm (chars! "plugins") twoPlugins).1.isOk = true := by decide +kernel
  rcases hr : compilePlugins sampleWasm (chars! "plugins") twoPlugins with ⟨plugins | m | _, w'⟩
  · refine ⟨plugins, w', rfl, C56_loaded_partial sampleWasm (chars! "plugins") (chars! "math") (chars! "77") [2] twoPlugins
      w' plugins (by decide) (by unfold IsLetter; decide) (by decide) (by unfold IsAlphanumeric IsLetter; decide)
      (by decide) (by decide) ?_ hr⟩
    have hall : ∀ e ∈ twoPlugins.entries (chars! "plugins"), (chars! "math" ++ chars! "_") <:+: e →
        e = chars! "math" ++ chars! "_" ++ chars! "77" ++ chars! ".wasm" := by decide +kernel
    intro e hs he hi
    have hne : e ≠ [] := by rintro rfl; exact absurd he (by decide)
    exact hall e (mem_entries.mpr ⟨he, hne, hs⟩) hi
  · rw [hr] at hok; cases hok
  · rw [hr] at hok; cases hok

/-- Concrete case: names with digits or hyphens: the one is not found, the other under a wrong name. -/
example : found (chars! "plugins") [chars! "h1_0a1.wasm", chars! "my-std_77.wasm"] = some [chars! "std"] := by
  decide +kernel

/-- C56 refuted if an older version is still cached: the one listed last is loaded, be it the old one. -/
theorem C56_versions_refuted : ∃ (W : Wasm) (w : World) (plugins : List (Plugin W)) (old new : Bytes),
    w.Healthy ∧ (compilePlugins W (chars! "plugins") w).1 = .ok plugins ∧
    w.files.get (chars! "plugins/std_1.wasm") = some old ∧ w.files.get (chars! "plugins/std_2.wasm") = some new ∧
    (∃ p, Plugin.new W (chars! "std") new {} = .ok p) ∧
    ∀ p, Plugin.new W (chars! "std") new {} = .ok p → p ∉ plugins := by
  refine ⟨{ sampleWasm with load := fun b => .ok (b.length : Nat) },
    { sampleWorld (fun _ => .none) with
      files := [(chars! "plugins/std_2.wasm", [1, 2]), (chars! "plugins/std_1.wasm", [1])], dirs := [chars! "plugins"] },
    _, [1], [1, 2], fun _ _ => rfl, rfl, rfl, rfl, ⟨_, rfl⟩, ?_⟩
  intro p hp hm
  injection hp with hp
  subst hp
  rw [List.mem_singleton] at hm
  have := congrArg (fun p => decide (p.extism = (2 : Nat))) hm
  revert this
  decide +kernel

/-- C56 refuted for directories such as `my_plugins/wasm`: a part of the path is taken for the name, so that
all plugins get the same name and all but one are lost. -/
theorem C56_directory_refuted : ∃ (dir : Str) (files : List Str), found dir files = some [chars! "my"] ∧
    chars! "std_0.wasm" ∈ files ∧ chars! "math_0.wasm" ∈ files :=
  ⟨chars! "my_plugins/wasm", [chars! "std_0.wasm", chars! "math_0.wasm"], by decide +kernel, by decide, by decide⟩

/-! ### C57 -/

section
variable (W : Wasm) (E : Env) (F : Formats) (envDir : Option Str) (args : CompileArgs) (w : World) (dir : Str)
  (plugins : List (Plugin W)) (ps : Plugins W) (bytes : Bytes) (stem text : Str)

/-- C57: what compile prints at each output level: the tokens, the concrete syntax tree, the abstract syntax
tree (or the errors found, unless JSON is wanted), the tree after macro expansion, and the output. It succeeds
exactly if the stages up to that level do, and prints nothing if it fails. -/
theorem C57_levels (hdir : PluginDir args envDir dir) (hw : w.Healthy)
    (hl : (compilePlugins W dir w).1 = .ok plugins) (hps : Plugins.new plugins = .ok ps)
    (hname : args.filename = stem ++ chars! ".[]") (hb : w.files.get args.filename = some bytes)
    (ht : fromUtf8 bytes = some text) :
    let run := runCompile W E F envDir args
    (args.level = 1 → Prints run w fun ls => ∃ ts, HasTokens E.S text ts ∧ ls = F.tokens args.json ts) ∧
    (args.level = 2 → Prints run w fun ls => ∃ c, HasCST E.S text c ∧ ls = F.cst args.json c) ∧
    (args.level = 3 → Prints run w fun ls => ∃ a es, HasAST E.S (E.ids 0) text a es ∧
      ((args.json = true ∨ es = []) ∧ ls = F.ast args.json a ∨ args.json = false ∧ es ≠ [] ∧ ls = F.errors es)) ∧
    (args.level = 4 → Prints run w fun ls => ∃ a, HasExpanded E.S (E.ids 0) text ps a ∧ ls = F.ast args.json a) ∧
    (args.level = 5 → args.json = false → Prints run w fun ls =>
      ∃ gen, (compileText E.S (E.ids 0) E.checks text ps).1 = .ok gen ∧ ls = [gen]) := by
  have hdir' : args.pluginsDir.getD (envDir.getD []) = dir := by
    rcases hdir with h | ⟨h, h'⟩
    · rw [h]; rfl
    · rw [h, h']; rfl
  have hq := compilePlugins_quiet W dir w
  have hg := compilePlugins_goes W dir w
  rcases hr : compilePlugins W dir w with ⟨o, w1⟩
  rw [hr] at hl hq hg
  simp only at hl hq hg
  subst hl
  have key : (1 ≤ args.level ∧ args.level ≤ 5) → (args.level = 5 → args.json = false) → ∀ P : List Str → Prop,
      (∀ ls, P ls ↔ stageLines E F args ps text = .ok ls) → Prints (runCompile W E F envDir args) w P := by
    intro h1 h2 P hP
    unfold Prints
    rw [runCompile_run (plugins := plugins) (ps := ps) (w1 := w1) (by rw [hdir']; exact hr) hps,
      runStage_run (b := bytes) (text := text) (healthy_of_goes hw hg _ (Nat.le_refl _))
      (endsWith_iff.mpr ⟨stem, hname⟩) (by rw [hq.1]; exact hb) ht h1 h2]
    have hlines : w1.lines = w.lines := by rw [World.lines, World.lines, hq.2.2]
    generalize hs : stageLines E F args ps text = o at hP
    rcases o with ls | m | _
    · refine .inl ⟨ls, (hP ls).mpr rfl, rfl, ?_⟩
      have := lines_printed { w1 with clock := w1.clock + 1 } ls
      exact this.trans (by rw [← hlines]; rfl)
    · exact .inr ⟨fun ls h => absurd ((hP ls).mp h) (by simp), by simp, hlines⟩
    · exact .inr ⟨fun ls h => absurd ((hP ls).mp h) (by simp), by simp, hlines⟩
  refine ⟨fun h => key (by omega) (by omega) _ ?_, fun h => key (by omega) (by omega) _ ?_,
    fun h => key (by omega) (by omega) _ ?_, fun h => key (by omega) (by omega) _ ?_,
    fun h hj => key (by omega) (fun _ => hj) _ ?_⟩
  · intro ls
    simp only [stageLines, h, Res.bind_ok, HasTokens]
    constructor
    · rintro ⟨ts, h1, rfl⟩; exact ⟨ts, h1, rfl⟩
    · rintro ⟨ts, h1, h2⟩; cases h2; exact ⟨ts, h1, rfl⟩
  · intro ls
    simp only [stageLines, h, Res.bind_ok, HasCST, HasTokens]
    constructor
    · rintro ⟨c, ⟨ts, h1, h2⟩, rfl⟩; exact ⟨ts, h1, c, h2, rfl⟩
    · rintro ⟨ts, h1, c, h2, h3⟩; cases h3; exact ⟨c, ⟨ts, h1, h2⟩, rfl⟩
  · intro ls
    simp only [stageLines, h, Res.bind_ok, HasAST, HasCST, HasTokens]
    constructor
    · rintro ⟨a, es, ⟨c, ⟨ts, h1, h2⟩, h3⟩, h4⟩
      refine ⟨ts, h1, c, h2, (a, es), h3, ?_⟩
      rcases h4 with ⟨hj | he, rfl⟩ | ⟨hj, he, rfl⟩
      · simp only [hj, if_true]; rfl
      · subst he
        rcases args.json <;> simp <;> rfl
      · simp only [hj]; rw [if_neg (by simp), if_pos he]; rfl
    · rintro ⟨ts, h1, c, h2, ⟨a, es⟩, h3, h4⟩
      refine ⟨a, es, ⟨c, ⟨ts, h1, h2⟩, h3⟩, ?_⟩
      cases h4
      rcases hj : args.json
      · by_cases he : es = []
        · exact .inl ⟨.inr he, by simp [he]⟩
        · exact .inr ⟨rfl, he, by simp [he]⟩
      · exact .inl ⟨.inl rfl, by simp⟩
  · intro ls
    simp only [stageLines, h, Res.bind_ok, HasExpanded, HasAST, HasCST, HasTokens]
    constructor
    · rintro ⟨b, ⟨a, es, ⟨c, ⟨ts, h1, h2⟩, h3⟩, h4⟩, rfl⟩
      exact ⟨ts, h1, c, h2, (a, es), h3, b, h4, rfl⟩
    · rintro ⟨ts, h1, c, h2, ⟨a, es⟩, h3, b, h4, h5⟩
      cases h5
      exact ⟨b, ⟨a, es, ⟨c, ⟨ts, h1, h2⟩, h3⟩, h4⟩, rfl⟩
  · intro ls
    simp only [stageLines, h, Res.bind_ok]
    constructor
    · rintro ⟨g, h1, rfl⟩; exact ⟨g, h1, rfl⟩
    · rintro ⟨g, h1, h2⟩; cases h2; exact ⟨g, h1, rfl⟩

end

/-- C57: another output level, JSON at level 5 and a file without the extension `.[]` are refused, without
any output; likewise if no plugin directory is given. -/
theorem C57_refused (W : Wasm) (E : Env) (F : Formats) (envDir : Option Str) (args : CompileArgs) (w : World)
    (h : args.level < 1 ∨ 5 < args.level ∨ (args.level = 5 ∧ args.json = true) ∨
      (∀ stem, args.filename ≠ stem ++ chars! ".[]") ∨ (args.pluginsDir = none ∧ envDir = none ∧ [] ∉ w.dirs)) :
    (runCompile W E F envDir args w).1 ≠ .ok () ∧ (runCompile W E F envDir args w).2.lines = w.lines := by
  by_cases hdir : args.pluginsDir = none ∧ envDir = none ∧ [] ∉ w.dirs
  · obtain ⟨h1, h2, h3⟩ := hdir
    have hq := compilePlugins_quiet W [] w
    have hno : ∀ x, (compilePlugins W [] w).1 ≠ .ok x := by
      intro x hx
      unfold compilePlugins at hx
      rcases hr : IOM.readDir [] w with ⟨o, w1⟩
      rw [IOM.bind_run, hr] at hx
      rcases o with l | m | _
      · exact h3 (readDir_ok hr).2.2.1
      · cases hx
      · cases hx
    unfold runCompile
    rw [h1, h2]
    simp only [Option.getD_none, IOM.bind_run]
    generalize compilePlugins W [] w = o at *
    obtain ⟨o, w1⟩ := o
    rcases o with x | m | _
    · exact absurd rfl (hno x)
    · exact ⟨by simp, by simp only [World.lines]; rw [hq.2.2]⟩
    · exact ⟨by simp, by simp only [World.lines]; rw [hq.2.2]⟩
  · have hall : ∀ ps : Plugins W, ∃ m, runStage E F args ps = IOM.fail m := by
      intro ps
      unfold runStage
      by_cases hn : endsWith (chars! ".[]") args.filename = true
      · rw [hn]
        simp only [Bool.not_true, Bool.false_eq_true, if_false]
        rcases h with h | h | h | h | h
        · have : args.level = 0 := by omega
          rw [this]; exact ⟨_, rfl⟩
        · split
          all_goals first | (exfalso; omega) | exact ⟨_, rfl⟩
        · rw [h.1, h.2]; exact ⟨_, rfl⟩
        · obtain ⟨t, ht⟩ := endsWith_iff.mp hn
          exact absurd ht (h t)
        · exact absurd h hdir
      · rw [if_pos (by simpa using hn)]
        exact ⟨_, rfl⟩
    have := runCompile_refused (W := W) (envDir := envDir) hall w
    exact ⟨this.1 (), by rw [World.lines, World.lines, this.2]⟩

/-- C57: however compile ends, it writes no file, creates no directory and sends no request. -/
theorem C57_no_effects (W : Wasm) (E : Env) (F : Formats) (envDir : Option Str) (args : CompileArgs) (w : World) :
    (runCompile W E F envDir args w).2.files = w.files ∧ (runCompile W E F envDir args w).2.dirs = w.dirs ∧
    (runCompile W E F envDir args w).2.requests = w.requests ∧ (runCompile W E F envDir args w).2.writes = w.writes :=
  runCompile_still W E F envDir args w

/-- C57 (partial): if build has succeeded, then compile at level 5 prints what build has written for the
document, given the same files and the same plugins in any order (and so no hooks, see `C56_only`), if calls of
commands leave no trace (`R` relates the states of a plugin that cannot be told apart). Missing: plugins that
remember calls (`C57_stateful_refuted`). -/
theorem C57_agree_partial (W : Wasm) (E E2 : Env) (F : Formats) (envDir : Option Str) (c : Config) (md : PluginsMetadata)
    (w w' w2 : World) (dir stem : Str) (plugins plugins2 : List (Plugin W)) (hv : w.Valid)
    (hbuild : build W E c md w = (.ok (), w')) (hdoc : w.HasDocument stem)
    (hdisk : w.SameDisk w2) (hw2 : w2.Healthy)
    (hl : (loadPlugins W md w).1 = .ok plugins) (hl2 : (compilePlugins W dir w2).1 = .ok plugins2)
    (hsame : plugins.Perm plugins2) (hS : E2.S = E.S) (hchecks : E2.checks = E.checks)
    (R : W.State → W.State → Prop) (hR : W.Traceless R) (hT : W.SameTexts R) :
    ∃ gen, w'.files.get (chars! "out/" ++ stem ++ chars! "." ++ c.document.backend) = some (utf8 gen) ∧
      (runCompile W E2 F envDir ⟨some dir, chars! "docs/" ++ stem ++ chars! ".[]", 5, false⟩ w2).1 = .ok () ∧
      (runCompile W E2 F envDir ⟨some dir, chars! "docs/" ++ stem ++ chars! ".[]", 5, false⟩ w2).2.lines =
        w2.lines ++ [gen] := by
  obtain ⟨plugins', ps, ps', ds, h1, h2, h3, h4, h5, h6, _, _⟩ := C47_outputs W E c md w w' hv hbuild
  rw [hl] at h1
  injection h1 with h1
  subst h1
  obtain ⟨d, hd, rfl⟩ := List.mem_map.mp ((h5 stem).mpr hdoc)
  obtain ⟨⟨b, hb, ht⟩, hout⟩ := h6 d hd
  obtain ⟨j, qs, qs', hrel, hc⟩ := h3.traceless hR d hd
  have hcomp : compilePlugins W dir w2 = (.ok plugins2, (compilePlugins W dir w2).2) := by rw [← hl2]
  have hn2 := (C56_only W dir w2 _ plugins2 hcomp).2.1
  have hn : (plugins.map (·.name)).Nodup := (hsame.map _).nodup_iff.mpr hn2
  have hord := C39_order plugins plugins2 hsame hn
  have hok : (Plugins.new plugins2).isOk = true := by rw [← hord.1, h2]; rfl
  rcases hps2 : Plugins.new plugins2 with qs2 | m | _
  · have halike := hord.2 ps qs2 h2 hps2
    have hr0 := Alike.related (R := R) hR.equivalence.refl halike
    have hrel2 : Plugins.Related R qs qs2 :=
      Plugins.Related.trans (R := R) (fun _ _ _ h h' => hR.equivalence.trans h h')
        (Plugins.Related.symm (R := R) (fun _ _ h => hR.equivalence.symm h) hrel) hr0
    have := compile_agrees (E2 := E2) (F := F) (envDir := envDir) (ids := E.ids j) hT hw2 hl2 hps2 hrel2 (by rw [hdisk.1]; exact hb) ht (by rw [hS, hchecks]; exact hc)
    exact ⟨d.result, hout, this.1, this.2⟩
  · rw [hps2] at hok; cases hok
  · rw [hps2] at hok; cases hok

/-- C57 (partial): the same for any plugins if the document is the only one. -/
theorem C57_agree_single_partial (W : Wasm) (E E2 : Env) (F : Formats) (envDir : Option Str) (c : Config)
    (md : PluginsMetadata) (w w' w2 : World) (dir stem : Str) (plugins plugins2 : List (Plugin W)) (hv : w.Valid)
    (hbuild : build W E c md w = (.ok (), w')) (hdoc : w.HasDocument stem)
    (honly : ∀ stem', w.HasDocument stem' → stem' = stem) (hdisk : w.SameDisk w2) (hw2 : w2.Healthy)
    (hl : (loadPlugins W md w).1 = .ok plugins) (hl2 : (compilePlugins W dir w2).1 = .ok plugins2)
    (hsame : plugins.Perm plugins2) (hS : E2.S = E.S) (hchecks : E2.checks = E.checks) :
    ∃ gen, w'.files.get (chars! "out/" ++ stem ++ chars! "." ++ c.document.backend) = some (utf8 gen) ∧
      (runCompile W E2 F envDir ⟨some dir, chars! "docs/" ++ stem ++ chars! ".[]", 5, false⟩ w2).1 = .ok () ∧
      (runCompile W E2 F envDir ⟨some dir, chars! "docs/" ++ stem ++ chars! ".[]", 5, false⟩ w2).2.lines =
        w2.lines ++ [gen] := by
  obtain ⟨plugins', ps, ps', ds, h1, h2, h3, h4, h5, h6, _, _⟩ := C47_outputs W E c md w w' hv hbuild
  rw [hl] at h1
  injection h1 with h1
  subst h1
  obtain ⟨d, hd, rfl⟩ := List.mem_map.mp ((h5 stem).mpr hdoc)
  obtain ⟨⟨b, hb, ht⟩, hout⟩ := h6 d hd
  have hds : ds = [d] := by
    rcases ds with _ | ⟨d1, ds⟩
    · simp at hd
    · have hs1 := honly _ ((h5 d1.stem).mp (by simp))
      rcases ds with _ | ⟨d2, ds⟩
      · simp at hd; rw [hd]
      · have hs2 := honly _ ((h5 d2.stem).mp (by simp))
        simp [hs1, hs2] at h4
  subst hds
  have hc := h3.first
  have hcomp : compilePlugins W dir w2 = (.ok plugins2, (compilePlugins W dir w2).2) := by rw [← hl2]
  have hn2 := (C56_only W dir w2 _ plugins2 hcomp).2.1
  have hn : (plugins.map (·.name)).Nodup := (hsame.map _).nodup_iff.mpr hn2
  have hord := C39_order plugins plugins2 hsame hn
  have hok : (Plugins.new plugins2).isOk = true := by rw [← hord.1, h2]; rfl
  have hT : W.SameTexts Eq := sameTexts_eq
  rcases hps2 : Plugins.new plugins2 with qs2 | m | _
  · have halike := hord.2 ps qs2 h2 hps2
    have hr0 := Alike.related (R := Eq) (fun _ => rfl) halike
    have := compile_agrees (E2 := E2) (F := F) (envDir := envDir) (ids := E.ids 0) (R := Eq) hT
      hw2 hl2 hps2 hr0 (by rw [hdisk.1]; exact hb) ht (by rw [hS, hchecks]; exact hc)
    exact ⟨d.result, hout, this.1, this.2⟩
  · rw [hps2] at hok; cases hok
  · rw [hps2] at hok; cases hok

/-- The states of the sample plugin cannot be told apart. -/
theorem sample_traceless : sampleWasm.Traceless fun _ _ => True :=
  ⟨⟨fun _ => trivial, fun _ => trivial, fun _ _ => trivial⟩, fun _ _ _ => trivial⟩

/-- The states of the sample plugin cannot be told apart and its macro does not look at identifiers. -/
theorem sample_indistinct : sampleWasm.Indistinct fun _ _ => True := by
  refine ⟨fun s t f vs _ => ⟨?_, trivial⟩, fun s t f r a b i j _ _ _ _ => ⟨?_, trivial⟩⟩
  · simp only [sampleWasm]
    split <;> rfl
  · simp only [sampleWasm]
    by_cases hf : f = chars! "bad"
    · simp only [hf, if_true]
      exact .inr ⟨"bad", rfl, rfl⟩
    · simp only [hf, if_false]
      exact .inl ⟨_, _, rfl, rfl⟩

/-- Formats for concrete cases. -/
private def sampleFormats : Formats where
  tokens _ ts := ts.map fun _ => chars! "token"
  cst _ _ := [chars! "cst"]
  ast j _ := [if j then chars! "{}" else chars! "ast"]
  errors es := es.map fun _ => chars! "error"

/-- Compile in the project with two documents. -/
private def compileAt (level : Nat) (json : Bool) : Res Unit × List Str :=
  let r := runCompile sampleWasm sampleEnv sampleFormats none
    ⟨some (chars! "plugins"), chars! "docs/b.c.[]", level, json⟩ (twoDocuments fun _ => .none)
  (r.1, r.2.lines)

/-- Concrete case: the levels of `C57_levels` and `C57_refused`. -/
example : (compileAt 1 false).2.length = 8 ∧ compileAt 2 true = (.ok (), [chars! "cst"]) ∧
    compileAt 3 true = (.ok (), [chars! "{}"]) ∧ compileAt 3 false = (.ok (), [chars! "ast"]) ∧
    compileAt 4 false = (.ok (), [chars! "ast"]) ∧ compileAt 5 false = (.ok (), [chars! "g(x,-,)"]) ∧
    (compileAt 5 true).2 = [] ∧ (compileAt 6 false).2 = [] := by decide +kernel

/-- Concrete case: the hypotheses of `C57_agree_partial` for two documents. -/
example : ∃ plugins, (loadPlugins sampleWasm sampleMetadata (twoDocuments fun _ => .none)).1 = .ok plugins ∧
    (compilePlugins sampleWasm (chars! "plugins") (twoDocuments fun _ => .none)).1 = .ok plugins ∧
    (build sampleWasm sampleEnv sampleConfig sampleMetadata (twoDocuments fun _ => .none)).1 = .ok () ∧
    (twoDocuments fun _ => .none).Valid ∧ (twoDocuments fun _ => .none).HasDocument (chars! "b.c") := by
  refine ⟨_, rfl, rfl, ?_⟩
  simp only [World.Valid, World.HasDocument]
  decide +kernel

/-- A plugin whose command returns the number of calls so far. -/
private def countingWasm : Wasm :=
  { sampleWasm with callText := fun (n : Nat) _ _ => (.ok (if n = 0 then chars! "first" else chars! "later"), n + 1) }

/-- C57 refuted for plugins that remember calls: with two documents, compile prints another text than build has
written. -/
theorem C57_stateful_refuted : ∃ (W : Wasm) (E : Env) (F : Formats) (c : Config) (md : PluginsMetadata) (w w' : World)
    (plugins : List (Plugin W)) (stem gen : Str), w.Valid ∧ w.Healthy ∧ build W E c md w = (.ok (), w') ∧ w.HasDocument stem ∧
    (loadPlugins W md w).1 = .ok plugins ∧ (compilePlugins W (chars! "plugins") w).1 = .ok plugins ∧
    (runCompile W E F none ⟨some (chars! "plugins"), chars! "docs/" ++ stem ++ chars! ".[]", 5, false⟩ w).1 = .ok () ∧
    (runCompile W E F none ⟨some (chars! "plugins"), chars! "docs/" ++ stem ++ chars! ".[]", 5, false⟩ w).2.lines = [gen] ∧
    w'.files.get (chars! "out/" ++ stem ++ chars! "." ++ c.document.backend) ≠ some (utf8 gen) := by
  have h : (build countingWasm sampleEnv sampleConfig sampleMetadata (twoDocuments fun _ => .none)).1 = .ok () := by
    decide +kernel
  refine ⟨countingWasm, sampleEnv, sampleFormats, sampleConfig, sampleMetadata, twoDocuments fun _ => .none,
    (build countingWasm sampleEnv sampleConfig sampleMetadata (twoDocuments fun _ => .none)).2, _, chars! "b.c",
    chars! "first", ?_, fun _ _ => rfl, by rw [← h], ?_, rfl, rfl, ?_⟩
  · unfold World.Valid; decide +kernel
  · unfold World.HasDocument; decide +kernel
  · decide +kernel

/-! ### C62 -/

section
variable {W : Wasm}

/-- C62: a text that compiles compiles to the same with any other identifiers, distinct or not, whatever the
plugins are. The calls made are the same, too. -/
theorem C62_output (S : Segmenter) (ids ids' : Nat → Str) (checks : Bool) (text gen : Str) (ps ps' : Plugins W)
    (h : compileText S ids checks text ps = (.ok gen, ps')) : compileText S ids' checks text ps = (.ok gen, ps') := by
  have hsame := compileText_same sameTexts_eq (ids' := ids') (Plugins.Related.refl (fun _ => rfl) ps) h
  rcases hr : compileText S ids' checks text ps with ⟨o, qs⟩
  rw [hr] at hsame
  simp only at hsame
  subst hsame
  obtain ⟨ts, c, a, es, h1, h2, h3, _, hg⟩ := compileText_ok h
  obtain ⟨ts', c', b, es', k1, k2, k3, _, kg⟩ := compileText_ok hr
  rw [h1] at k1
  injection k1 with k1
  subst k1
  rw [h2] at k2
  injection k2 with k2
  subst k2
  have ht := transform_renamed ids ids' c
  rw [h3, k3] at ht
  rw [← generate_renamed checks ht.1, hg] at kg
  exact kg.symm

/-- C62: so does one that does not compile, if the identifiers are distinct and macros do not look at them; nor does
the result depend on the states of the plugins as far as these cannot be told apart. -/
theorem C62_identifiers (R : W.State → W.State → Prop) (hI : W.Indistinct R) (S : Segmenter) (ids ids' : Nat → Str)
    (hids : ∀ i j, ids i = ids j → i = j) (hids' : ∀ i j, ids' i = ids' j → i = j) (checks : Bool) (text : Str)
    (ps qs : Plugins W) (h : Plugins.Related R ps qs) :
    (compileText S ids checks text ps).1 = (compileText S ids' checks text qs).1 := by
  have := (compileText_rel hI.text S (ids := ids) (ids' := ids') checks text (fun _ _ _ _ _ _ _ _ => ⟨hI, hids, hids'⟩) ps qs h).1
  generalize (compileText S ids checks text ps).1 = a at *
  generalize (compileText S ids' checks text qs).1 = b at *
  rcases a with a | m | _ <;> rcases b with b | m' | _ <;> first | exact False.elim this | rfl | (rw [show _ = _ from this])

/-- C62: without macro calls it does not depend on the identifiers at all. -/
theorem C62_no_macros (S : Segmenter) (ids ids' : Nat → Str) (checks : Bool) (text : Str) (hm : MacroFree S text)
    (ps : Plugins W) : (compileText S ids checks text ps).1 = (compileText S ids' checks text ps).1 := by
  have hT : W.SameTexts Eq := sameTexts_eq
  have := (compileText_rel hT S (ids := ids) (ids' := ids') checks text
    (fun ts c a es h1 h2 h3 h4 => absurd (hm ids a es ⟨c, ⟨ts, h1, h2⟩, h3⟩) h4) ps ps
    (Plugins.Related.refl (fun _ => rfl) ps)).1
  generalize (compileText S ids checks text ps).1 = a at *
  generalize (compileText S ids' checks text ps).1 = b at *
  rcases a with a | m | _ <;> rcases b with b | m' | _ <;> first | exact False.elim this | rfl | (rw [show _ = _ from this])

/-- Concrete case: a text without macro calls, but with a command and an error. -/
example (S : Segmenter) : MacroFree S (chars! "a [p.f x] [q]") := by
  obtain ⟨ts, c, a, es, h1, h2, h3, h4⟩ := front_case S (chars! "a [p.f x] [q]") (by decide)
    (fun _ _ a es => a.macros.length = 0 ∧ es ≠ []) (by decide +kernel)
  exact macroFree_of ⟨c, ⟨ts, h1, h2⟩, h3⟩ (List.eq_nil_of_length_eq_zero h4.1)

/-- C62: the trees differ in nothing but the identifiers, the n-th drawn in one standing where the n-th drawn in
the other does; the errors reported are the same. -/
theorem C62_trees (ids ids' : Nat → Str) (c : CST) :
    Res.Same (fun x y => x.1.Renamed (fun a b => ∃ i, a = ids i ∧ b = ids' i) y.1 ∧ x.2 = y.2)
      (transform ids c) (transform ids' c) := transform_renamed ids ids' c

end

/-- Concrete case: a document with a macro call compiled with other identifiers and plugins that have been called
before. -/
example (ids : Nat → Str) (h : ∀ i j, ids i = ids j → i = j) (S : Segmenter) (text : Str) (qs : Plugins sampleWasm)
    (hq : Plugins.Related (fun _ _ => True) (sampleSet noHooks) qs) :
    (compileText S someIds true text (sampleSet noHooks)).1 = (compileText S ids true text qs).1 :=
  C62_identifiers _ sample_indistinct S someIds ids someIds_inj h true text _ _ hq

/-- C62 refuted for the error of a document that does not compile, if macros look at identifiers: the error depends
on them. -/
theorem C62_error_refuted : ∃ (W : Wasm) (ps : Plugins W) (text : Str) (ids ids' : Nat → Str),
    (∀ i j, ids i = ids j → i = j) ∧ (∀ i j, ids' i = ids' j → i = j) ∧
    (compileText UTable.sampleSeg ids true text ps).1 ≠ (compileText UTable.sampleSeg ids' true text ps).1 := by
  refine ⟨{ sampleWasm with callMacro := fun (n : Nat) _ _ i =>
      (if 'y' ∈ i then .error "too late" else .ok (.leaf .text i none ⟨⟨0, 0⟩, ⟨0, 0⟩⟩), n) },
    ⟨[(['p'], ⟨['p'], (0 : Nat), [((chars! "m", .ast), ⟨chars! "m", chars! "call_m", [], .ast⟩)], noHooks⟩)],
      none, none, none, none, []⟩, chars! "<p.m>", someIds, fun n => 'y' :: someIds n, someIds_inj,
    fun i j h => someIds_inj i j (List.cons.inj h).2, ?_⟩
  decide +kernel

end Brack
