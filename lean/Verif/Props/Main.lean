import Verif.Proof.NewBuild
import Verif.Proof.TomlText
import Verif.Proof.Effects
import Verif.Proof.ProjectCases
import Verif.Proof.ServerCases
import Verif.Props.Project

/-
Properties of the commands as a whole: C68 to C71.
-/

namespace Brack

/-! ### C68 -/

/-- C68: `brack new` succeeds only if there was nothing with this name before, and then there are two new
directories and three new files, nothing else has happened. -/
theorem C68_created (M : MainEnv) (name : Str) (w w' : World) (h : mainCommand M (.new name) w = (.ok (), w')) :
    w.pathExists name = false ∧
    w'.dirs = w.dirs ++ [name, name ++ chars! "/docs"] ∧
    w'.files.get (name ++ chars! "/docs/main.[]") = some [] ∧
    w'.files.get (name ++ chars! "/Brack.toml") = some (utf8 (chars! "[document]\nname = \"" ++ name ++
      chars! "\"\nversion = \"0.1.0\"\nbackend = \"\"\nauthors = [\"your name <your email>\"]\n\n[plugins]\n")) ∧
    w'.files.get (name ++ chars! "/.gitignore") = some (utf8 (chars! "plugins\nout\n")) ∧
    (∀ path, path ≠ name ++ chars! "/docs/main.[]" → path ≠ name ++ chars! "/Brack.toml" →
      path ≠ name ++ chars! "/.gitignore" → w'.files.get path = w.files.get path) ∧
    w'.requests = w.requests ∧ w'.lines = w.lines := by
  obtain ⟨h1, _, rfl⟩ := newProject_ok h
  refine ⟨h1, rfl, ?_, ?_, ?_, ?_, ?_, ?_⟩
  · simp only
    rw [HMap.get_insert_ne (by simp), HMap.get_insert_ne (by simp), HMap.get_insert_self]
  · simp only
    rw [HMap.get_insert_ne (by simp), HMap.get_insert_self]
    rfl
  · exact HMap.get_insert_self _ _ _
  · intro path h2 h3 h4
    simp only
    rw [HMap.get_insert_ne h4, HMap.get_insert_ne h3, HMap.get_insert_ne h2]
  · simp [World.requests, IOEvent.url?]
  · simp [World.lines, IOEvent.line?]

/-- C68: an existing file or directory with this name is not touched: the command fails and nothing
happens. -/
theorem C68_existing (M : MainEnv) (name : Str) (w : World) (h : w.pathExists name = true) :
    (∃ m, (mainCommand M (.new name) w).1 = .err m) ∧ w.SameDisk (mainCommand M (.new name) w).2 ∧
      (mainCommand M (.new name) w).2.log = w.log := by
  have e : mainCommand M (.new name) w = newProject name w := rfl
  rw [e, newProject, IOM.bind_run]
  rcases createDir_cases name w with ⟨_, _, k, _⟩ | ⟨⟨m, k1⟩, k2, _⟩
  · rw [h] at k
    simp at k
  · rcases hr : IOM.createDir name w with ⟨r, w1⟩
    rw [hr] at k1 k2
    simp only at k1 k2
    subst k1 k2
    exact ⟨⟨m, rfl⟩, ⟨rfl, rfl⟩, rfl⟩

/-- C68: however the command ends, no file that existed before has changed. -/
theorem C68_nothing_lost (M : MainEnv) (name : Str) (w : World) (hr : w.Rooted) (path : Str) (bytes : Bytes)
    (h : w.files.get path = some bytes) : (mainCommand M (.new name) w).2.files.get path = some bytes := by
  by_cases hn : w.pathExists name = true
  · rw [(C68_existing M name w hn).2.1.1]
    exact h
  · have hn : w.pathExists name = false := by simpa using hn
    by_cases hne : name = []
    · subst hne
      have e : mainCommand M (.new []) w = newProject [] w := rfl
      rw [e, newProject, IOM.bind_run]
      rcases createDir_cases [] w with ⟨_, _, _, _, k, _⟩ | ⟨⟨m, k1⟩, k2, _⟩
      · exact absurd rfl k
      · rcases hc : IOM.createDir [] w with ⟨r, w1⟩
        rw [hc] at k1 k2
        simp only at k1 k2
        subst k1 k2
        exact h
    · have ha := newProject_acts (ask := fun _ => True) name w
      have e : mainCommand M (.new name) w = newProject name w := rfl
      rw [e, ha.files path, h]
      have hb := fun rest => rooted_below hr hne hn rest.length rest (Nat.le_refl _)
      have hp : w.pathExists path = true := by rw [World.pathExists, h]; rfl
      rintro (rfl | rfl | rfl)
      · rw [show name ++ chars! "/docs/main.[]" = name ++ '/' :: chars! "docs/main.[]" from rfl, hb] at hp
        simp at hp
      · rw [show name ++ chars! "/Brack.toml" = name ++ '/' :: chars! "Brack.toml" from rfl, hb] at hp
        simp at hp
      · rw [show name ++ chars! "/.gitignore" = name ++ '/' :: chars! ".gitignore" from rfl, hb] at hp
        simp at hp

/-- C68: the command succeeds if the name is free, the directory in which it lies exists and nothing goes wrong
on the file system. -/
theorem C68_succeeds (M : MainEnv) (name : Str) (w : World) (hw : w.Healthy) (hr : w.Rooted) (hne : name ≠ [])
    (hn : w.pathExists name = false) (hp : parentDir name = [] ∨ parentDir name ∈ w.dirs) :
    (mainCommand M (.new name) w).1 = .ok () :=
  newProject_run hw hr hne hn (by
    rw [World.hasDir]
    rcases hp with hp | hp <;> simp [hp])

/-- The libraries of the sample project with a TOML crate that reads new configurations. -/
def mainSample : MainEnv where
  X := { sampleServerEnv sampleWasm with E := { sampleEnv with toml := TomlText.toml } }
  F := ⟨fun _ _ => [], fun _ _ => [], fun _ _ => [], fun _ => []⟩
  pluginsPath := none
  appVersion := none

/-- Concrete case: a new project in a directory with another file. -/
example :
    let w := { sampleWorld fun _ => .none with dirs := [chars! "docs", chars! "sub"] }
    let r := mainCommand mainSample (.new (chars! "sub/my book")) w
    parentDir (chars! "sub/my book") = chars! "sub" ∧ r.1 = .ok () ∧
      r.2.dirs = [chars! "docs", chars! "sub", chars! "sub/my book", chars! "sub/my book/docs"] ∧
      r.2.files.map (·.1) = [chars! "Brack.toml", chars! "docs/a.[]", chars! "sub/my book/docs/main.[]",
        chars! "sub/my book/Brack.toml", chars! "sub/my book/.gitignore"] := by decide +kernel

/-- Concrete case: the name of an existing directory, and a write that is cut. -/
example :
    (mainCommand mainSample (.new (chars! "docs")) (sampleWorld fun _ => .none)).1.isErr = true ∧
    let r := mainCommand mainSample (.new (chars! "x")) (sampleWorld fun n => if n = 3 then .cut 2 else .none)
    r.1.isErr = true ∧ r.2.files.get (chars! "x/Brack.toml") = some [91, 100] ∧
      r.2.files.get (chars! "docs/a.[]") = some (utf8 (chars! "é")) := by decide +kernel

/-! ### C69 -/

/-- C69, for names without quotes, backslashes and control characters: a new project can be built at once; its
configuration has the name given and no plugins, and the build writes the empty result of the empty document. -/
theorem C69_builds_partial (M : MainEnv) (hT : M.X.E.toml.Conforms) (name : Str)
    (hname : ∀ c ∈ name, TomlGrammar.Unescaped c) (w w' : World) (hw : w.Healthy) (hr : w.Rooted)
    (h : mainCommand M (.new name) w = (.ok (), w')) :
    (w'.enter name).HasConfig M.X.E.toml
      ⟨⟨name, chars! "0.1.0", [], [chars! "your name <your email>"]⟩, some []⟩ ∧
    ∃ w2, mainCommand M .build (w'.enter name) = (.ok (), w2) ∧ w2.files.get (chars! "out/main.") = some [] ∧
      w2.writes = w'.writes ++ [(chars! "out/main.", [])] ∧ w2.requests = w'.requests := by
  obtain ⟨hf, hd, hc, hfa, hl⟩ := newProject_enter hr h
  have hchars : ∀ s : Str, (∀ c ∈ s, TomlGrammar.Unescaped c) → TomlGrammar.IsChars s s := by
    intro s
    induction s with
    | nil => exact fun _ => .nil
    | cons c s ih =>
      exact fun h => .plain (h c List.mem_cons_self) (ih fun d hd => h d (List.mem_cons_of_mem _ hd))
  have hread := newConfig_readConfig hT (hchars name hname)
  have hw' : (w'.enter name).Healthy := by
    intro n hn
    rw [hfa]
    exact hw n (by omega)
  obtain ⟨v, hv1, hv2⟩ := readConfig_iff.mp hread
  refine ⟨⟨_, _, v, by rw [hf]; simp [HMap.get], fromUtf8_utf8 (newConfigText name), hv1, hv2⟩, ?_⟩
  obtain ⟨w2, h1, h2, h3, h4⟩ := newProject_build (W := M.X.W) (E := M.X.E) hf hd hw' hread
  rw [World.writes, World.writes, hl] at h3
  rw [World.requests, World.requests, hl] at h4
  exact ⟨w2, h1, h2, h3, h4⟩

/-- The full statement of C69 has no condition on the name. It is refuted: the name is written into the
configuration as it is, so a backslash begins an escape sequence and the configuration of the project has
another name. -/
theorem C69_name_refuted : ∃ (name : Str) (w w' : World), w.Healthy ∧ w.Rooted ∧ ∀ M : MainEnv, M.X.E.toml.Conforms →
    mainCommand M (.new name) w = (.ok (), w') ∧
      (∃ c, (w'.enter name).HasConfig M.X.E.toml c) ∧
      ∀ c, (w'.enter name).HasConfig M.X.E.toml c → c.document.name ≠ name := by
  have hr : World.Rooted { sampleWorld fun _ => .none with files := [], dirs := [] } := by
    intro path h
    simp [World.pathExists, HMap.get] at h
  refine ⟨chars! "a\\b", { sampleWorld fun _ => .none with files := [], dirs := [] },
    (newProject (chars! "a\\b") { sampleWorld fun _ => .none with files := [], dirs := [] }).2, fun _ _ => rfl, hr, ?_⟩
  intro M hT
  have hrun : newProject (chars! "a\\b") { sampleWorld fun _ => .none with files := [], dirs := [] } =
      (.ok (), (newProject (chars! "a\\b") { sampleWorld fun _ => .none with files := [], dirs := [] }).2) := rfl
  obtain ⟨hf, -⟩ := newProject_enter hr hrun
  have hread := newConfig_readConfig (name := chars! "a\\b") (value := ['a', Char.ofNat 8]) hT
    (.plain (by decide) (.escape (by decide) .nil))
  obtain ⟨v, hv1, hv2⟩ := readConfig_iff.mp hread
  refine ⟨rfl, ⟨_, _, _, v, by rw [hf]; simp [HMap.get], fromUtf8_utf8 (newConfigText _), hv1, hv2⟩, ?_⟩
  rintro c ⟨bytes, text, v', h1, h2, h3, h4⟩
  rw [hf] at h1
  simp only [HMap.get] at h1
  rw [if_neg (by decide), if_pos trivial] at h1
  injection h1 with h1
  subst h1
  rw [fromUtf8_utf8] at h2
  injection h2 with h2
  subst h2
  rw [hv1] at h3
  injection h3 with h3
  subst h3
  rw [hv2] at h4
  injection h4 with h4
  subst h4
  decide

/-- Concrete case: the project `my book`, created in a directory with another file and built. -/
example :
    mainSample.X.E.toml.Conforms ∧ (∀ c ∈ chars! "my book", TomlGrammar.Unescaped c) ∧
    let r := mainCommand mainSample (.new (chars! "my book")) (sampleWorld fun _ => .none)
    let r' := mainCommand mainSample .build (r.2.enter (chars! "my book"))
    r.1 = .ok () ∧ r'.1 = .ok () ∧
      r'.2.files.map (·.1) = [chars! "docs/main.[]", chars! "Brack.toml", chars! ".gitignore", chars! "out/main."] ∧
      r'.2.lines = [chars! "Build succeeded.", chars! "  - ./out/main."] :=
  ⟨TomlText.toml_conforms, by decide, by decide +kernel⟩

/-! ### C70 -/

/-- C70, for configurations whose plugin names and backend contain no slash: every command writes files and
creates directories only in its places, and deletes nothing. (The hashes are hexadecimal in the code.) -/
theorem C70_confined_partial (M : MainEnv) (hh : ∀ s, '/' ∉ M.X.E.hash s) (cmd : SubCommand) (w : World)
    (hw : cmd.UsesConfig → w.FlatConfigs M.X.E.toml) :
    Confined cmd.MayWrite cmd.MayCreate w (mainCommand M cmd w).2 := by
  have ht : ∀ b n s, (fun _ => True) (downloadUrl b n s) := fun _ _ _ => trivial
  cases cmd with
  | compile args => exact (runCompile_acts (ask := fun _ => True) _ _ _ _ _ w).confined
  | version => exact (printLine_acts (ask := fun _ => True) _ w).confined
  | new name => exact (newProject_acts (ask := fun _ => True) name w).confined
  | add schema => exact (addPlugin_acts (ask := fun _ => True) _ schema (fun _ _ => trivial) w).confined
  | languageServer reads => exact (languageServer_acts (ask := fun _ => True) hh ht reads w (hw trivial)).confined
  | build =>
    refine (buildCommand_acts (write := SubCommand.build.MayWrite) (create := SubCommand.build.MayCreate)
      (ask := fun _ => True) rfl ht ?_).confined
    intro c b t hb hfb hc
    obtain ⟨v, hv, hc'⟩ := readConfig_iff.mp hc
    have hflat := hw trivial _ _ _ _ _ ⟨[], rfl⟩ hb hfb hv hc'
    exact ⟨fun m x hm hx => .inl (cachePath_fileIn (hflat.mem hm (Toml.readConfig_nodup hc hm) hx) (hh _)),
      fun stem h1 _ => .inr (outputPath_fileIn h1 hflat.1)⟩

/-- A configuration with a plugin whose name leads out of the project. -/
def escapingConfig : Config :=
  ⟨⟨chars! "doc", chars! "0.1.0", chars! "html", [chars! "me"]⟩,
    some [(chars! "../../evil", ⟨chars! "o", chars! "r", chars! "v1", none, none, none, none⟩)]⟩

/-- The full statement of C70 has no condition on the configuration. It is refuted: the name of a plugin is put
into the path of the file for its code as it is. -/
theorem C70_escape_refuted : ∃ (M : MainEnv) (w : World), (∀ s, '/' ∉ M.X.E.hash s) ∧ w.Healthy ∧
    w.files.get (chars! "plugins/../../evil_00.wasm") = none ∧
    (mainCommand M .build w).2.files.get (chars! "plugins/../../evil_00.wasm") = some [1, 2, 3] ∧
    ¬ SubCommand.build.MayWrite (chars! "plugins/../../evil_00.wasm") := by
  refine ⟨{ mainSample with X := { mainSample.X with E := { sampleEnv with
      toml := ⟨fun _ => some escapingConfig.toToml, fun _ => []⟩ } } },
    { sampleWorld fun _ => .none with dirs := [chars! "docs", chars! "plugins", chars! "plugins/../.."] },
    fun _ => by simp [sampleEnv], fun _ _ => rfl, by decide +kernel, by decide +kernel, ?_⟩
  rintro (⟨n, _, h1, h2⟩ | ⟨n, _, _, h2⟩)
  · have : n = chars! "../../evil_00.wasm" := by
      have h3 : chars! "plugins/" ++ chars! "../../evil_00.wasm" = chars! "plugins/" ++ n := h2
      exact (List.append_cancel_left h3).symm
    subst this
    exact h1 (by decide)
  · simp at h2

/-- Concrete case: a build that downloads the plugin of the project, with everything it has written. -/
example :
    let w := { sampleWorld fun _ => .none with dirs := [chars! "docs", chars! "plugins"] }
    w.FlatConfigs sampleToml ∧
    let r := mainCommand { mainSample with X := sampleServerEnv sampleWasm } .build w
    r.2.writes.map (·.1) = [chars! "plugins/std_00.wasm", chars! "out/a.html"] ∧
      r.2.dirs = [chars! "docs", chars! "plugins", chars! "out"] := by
  refine ⟨?_, by decide +kernel⟩
  intro path bytes text v c _ _ _ hp hc
  have hv : v = sampleConfig.toToml := by
    simp only [sampleToml] at hp
    by_cases h : text = chars! "the configuration"
    · rw [if_pos h] at hp
      injection hp with hp
      exact hp.symm
    · rw [if_neg h] at hp
      simp at hp
  subst hv
  have : Config.ofToml sampleConfig.toToml = .ok sampleConfig := by decide +kernel
  rw [this] at hc
  injection hc with hc
  subst hc
  refine ⟨by decide, fun name s h => ?_⟩
  simp only [Config.plugin, sampleConfig, Option.bind, HMap.get] at h
  by_cases he : chars! "std" = name
  · subst he
    decide
  · rw [if_neg he] at h
    simp at h

/-! ### C71 -/

/-- C71: whatever the documents, the configuration, the plugins and the editor say, the requests made by a
command go to GitHub, and only `add`, `build` and the language server make requests. -/
theorem C71_only_github (M : MainEnv) (cmd : SubCommand) (w : World) :
    ∃ l, (mainCommand M cmd w).2.requests = w.requests ++ l ∧ (∀ url ∈ l, chars! "https://github.com/" <+: url) ∧
      (¬ cmd.Online → l = []) := by
  have key : ∀ (write create ask : Str → Prop) (w' : World), Acts write create ask w w' →
      ∃ l, w'.requests = w.requests ++ l ∧ ∀ url ∈ l, ask url := by
    rintro write create ask w' ⟨⟨l, h1, _, h2⟩, -⟩
    refine ⟨l.filterMap IOEvent.url?, by rw [World.requests, h1, List.filterMap_append]; rfl, ?_⟩
    intro url hu
    obtain ⟨e, he, hu⟩ := List.mem_filterMap.mp hu
    cases e with
    | request u =>
      injection hu with hu
      exact hu ▸ h2 u he
    | _ => exact absurd hu (by simp [IOEvent.url?])
  have off : ∀ (write create : Str → Prop) (w' : World), Acts write create (fun _ => False) w w' →
      ∃ l, w'.requests = w.requests ++ l ∧ (∀ url ∈ l, chars! "https://github.com/" <+: url) ∧
        (¬ cmd.Online → l = []) := by
    intro write create w' h
    obtain ⟨l, h1, h2⟩ := key _ _ _ _ h
    have hl : l = [] := List.eq_nil_iff_forall_not_mem.mpr h2
    subst hl
    exact ⟨[], h1, by simp, fun _ => rfl⟩
  have on : ∀ (write create : Str → Prop) (w' : World), cmd.Online →
      Acts write create (fun u => chars! "https://github.com/" <+: u) w w' →
      ∃ l, w'.requests = w.requests ++ l ∧ (∀ url ∈ l, chars! "https://github.com/" <+: url) ∧
        (¬ cmd.Online → l = []) := by
    intro write create w' ho h
    obtain ⟨l, h1, h2⟩ := key _ _ _ _ h
    exact ⟨l, h1, h2, fun hn => absurd ho hn⟩
  cases cmd with
  | compile args => exact off (fun _ => True) (fun _ => True) _ (runCompile_acts _ _ _ _ _ w)
  | version => exact off (fun _ => True) (fun _ => True) _ (printLine_acts _ w)
  | new name => exact off _ _ _ (newProject_acts name w)
  | add schema => exact on _ _ _ trivial (addPlugin_acts _ schema (fun _ h => h) w)
  | languageServer reads =>
    exact on (fun _ => True) (fun _ => True) _ trivial (languageServer_asks downloadUrl_github reads w)
  | build =>
    exact on (fun _ => True) (fun _ => True) _ trivial
      (buildCommand_acts trivial downloadUrl_github fun _ _ _ _ _ _ => ⟨fun _ _ _ _ => trivial, fun _ _ _ => trivial⟩)

/-- Concrete case: the request made by a build. -/
example :
    let w := { sampleWorld fun _ => .none with dirs := [chars! "docs", chars! "plugins"] }
    (mainCommand { mainSample with X := sampleServerEnv sampleWasm } .build w).2.requests =
      [chars! "https://github.com/brack-lang/brack-std/releases/download/v1/std.html.wasm"] := by decide +kernel

end Brack
