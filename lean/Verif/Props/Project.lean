import Verif.Proof.Add
import Verif.Proof.Build
import Verif.Props.Pipeline
import Verif.Proof.ProjectCases

/-
Properties of the configuration file and of the commands `add` and `build`: C41-C47.
-/

namespace Brack

/-! ### C41 -/

/-- C41: a serialized schema is read back, whatever the order of its fields. -/
theorem C41_roundtrip (s : PluginSchema) (fields : List (Str × TVal)) (h : fields.Perm s.toFields) :
    PluginSchema.ofFields fields = .ok s := PluginSchema.ofFields_ok.mpr h

/-- C41: exactly the tables with `schema = "github"`, the three strings and any of the four hooks are
accepted, each field at most once and no other field; they are read as the schema with these values. In
particular tables with a duplicate, missing or unknown field or another kind are rejected. -/
theorem C41_accepts_exactly (s : PluginSchema) (fields : List (Str × TVal)) :
    PluginSchema.ofFields fields = .ok s ↔
      (fields.map (·.1)).Nodup ∧
      ∀ k v, (k, v) ∈ fields ↔
        (k = chars! "schema" ∧ v = .str (chars! "github")) ∨ (k = chars! "owner" ∧ v = .str s.owner) ∨
        (k = chars! "repo" ∧ v = .str s.repo) ∨ (k = chars! "version" ∧ v = .str s.version) ∨
        (k = chars! "expr_hook" ∧ ∃ b, s.exprHook = some b ∧ v = .bool b) ∨
        (k = chars! "stmt_hook" ∧ ∃ b, s.stmtHook = some b ∧ v = .bool b) ∨
        (k = chars! "document_hook" ∧ ∃ b, s.documentHook = some b ∧ v = .bool b) ∨
        (k = chars! "text_hook" ∧ ∃ b, s.textHook = some b ∧ v = .bool b) := by
  have hmem : ∀ k v, (k, v) ∈ s.toFields ↔
        (k = chars! "schema" ∧ v = .str (chars! "github")) ∨ (k = chars! "owner" ∧ v = .str s.owner) ∨
        (k = chars! "repo" ∧ v = .str s.repo) ∨ (k = chars! "version" ∧ v = .str s.version) ∨
        (k = chars! "expr_hook" ∧ ∃ b, s.exprHook = some b ∧ v = .bool b) ∨
        (k = chars! "stmt_hook" ∧ ∃ b, s.stmtHook = some b ∧ v = .bool b) ∨
        (k = chars! "document_hook" ∧ ∃ b, s.documentHook = some b ∧ v = .bool b) ∨
        (k = chars! "text_hook" ∧ ∃ b, s.textHook = some b ∧ v = .bool b) := by
    intro k v
    rw [← PluginSchema.toFields_vars, SchemaVars.mem_toFields]
    simp [PluginSchema.vars]
  rw [PluginSchema.ofFields_ok]
  constructor
  · intro h
    refine ⟨(h.map (·.1)).nodup_iff.mpr s.nodup_toFields, fun k v => ?_⟩
    rw [h.mem_iff]
    exact hmem k v
  · rintro ⟨hn, h⟩
    refine perm_of_members (nodup_of_keys hn) (nodup_of_keys s.nodup_toFields) ?_
    rintro ⟨k, v⟩
    rw [h k v, hmem k v]

/-- C41: a whole configuration with distinct plugin names, as every configuration read from a file has,
is read back from the value it is written as. -/
theorem C41_config_roundtrip (c : Config) (h : ∀ m, c.plugins = some m → (m.map (·.1)).Nodup) :
    Config.ofToml c.toToml = .ok c := Config.ofToml_toToml c h

/-- C41: plugin names read from a file are distinct. -/
theorem C41_distinct (v : TVal) (c : Config) (h : Config.ofToml v = .ok c) (m : HMap Str PluginSchema)
    (hm : c.plugins = some m) : (m.map (·.1)).Nodup := Config.ofToml_nodup h hm

/-- Concrete case: another order. -/
example : PluginSchema.ofFields [(chars! "text_hook", .bool true), (chars! "version", .str (chars! "v1")),
    (chars! "repo", .str (chars! "r")), (chars! "schema", .str (chars! "github")), (chars! "owner", .str (chars! "o"))] =
    .ok ⟨chars! "o", chars! "r", chars! "v1", none, none, none, some true⟩ := by decide +kernel

/-- Concrete case: a duplicate field. -/
example : PluginSchema.ofFields [(chars! "owner", .str (chars! "o")), (chars! "owner", .str (chars! "p"))] =
    .err "duplicate field" := by decide +kernel

/-- Concrete case: the sample configuration. -/
example : Config.ofToml sampleConfig.toToml = .ok sampleConfig := by decide +kernel

/-! ### C42 -/

/-- C42 (partial): `brack add kind:owner/repo@version`, the components being free of separators and the
repository not empty. Only the kind `github` is accepted, otherwise nothing happens. At most one request
is made, and it is for the release of this repository. If the command succeeds, this request has been
answered, the body is stored, and the plugin, named after the repository up to its first dot, is
configured with these components. Missing: an empty repository (`C42_empty_repo_refuted`). -/
theorem C42_components_partial (T : Toml) (kind owner repo version : Str) (hk : Component kind)
    (ho : Component owner) (hr : Component repo) (hv : Component version) (hne : repo ≠ []) (w : World) :
    let arg := kind ++ chars! ":" ++ owner ++ chars! "/" ++ repo ++ chars! "@" ++ version
    let url := chars! "https://github.com/" ++ owner ++ chars! "/" ++ repo ++ chars! "/releases/download/" ++
      version ++ chars! "/" ++ repo ++ chars! ".wasm"
    let out := addPlugin T arg w
    (kind ≠ chars! "github" → (∀ u, out.1 ≠ .ok u) ∧ out.2.files = w.files ∧ out.2.log = w.log) ∧
    (kind = chars! "github" →
      (out.2.requests = w.requests ∨ out.2.requests = w.requests ++ [url]) ∧
      (out.1 = .ok () →
        out.2.requests = w.requests ++ [url] ∧
        (∃ n bytes, w.http n url = some bytes ∧
          out.2.files.get (chars! "plugins/" ++ repo ++ chars! ".wasm") = some bytes) ∧
        ∃ c, out.2.WrittenConfig T c ∧
          c.plugin (repo.takeWhile (· ≠ '.')) = some (PluginSchema.plain owner repo version))) := by
  intro arg url out
  have harg : arg = kind ++ ':' :: (owner ++ '/' :: (repo ++ '@' :: version)) := by simp [arg]
  have hparse := parseTarget_components hk ho hr hv
  rw [← harg] at hparse
  have hout : addPlugin T arg w = out := rfl
  constructor
  · intro hkind
    rw [if_neg hkind] at hparse
    rcases addPlugin_plan T arg w with ⟨hn, hq⟩ | ⟨t, c, repository, name, hplan, _⟩
    · exact ⟨hn, hq.1, hq.2.2⟩
    · rw [hplan.target] at hparse; simp at hparse
  · intro hkind
    rw [if_pos hkind] at hparse
    have hplan : ∀ {t c repository name}, AddPlan T arg w t c repository name →
        t = ⟨chars! "https://github.com/" ++ owner ++ chars! "/" ++ repo, owner, repo, version⟩ ∧
          repository = repo ∧ name = repo.takeWhile (· ≠ '.') := by
      intro t c repository name hp
      have h1 := hp.target
      rw [hparse] at h1
      injection h1 with h1
      have h2 := hp.lastPart
      rw [← h1] at h2
      simp only at h2
      rw [repositoryName_repo hne hr.2.1] at h2
      injection h2 with h2
      have h3 := hp.firstPart
      rw [pluginName_eq, ← h2] at h3
      injection h3 with h3
      exact ⟨h1.symm, h2.symm, h3.symm⟩
    constructor
    · rcases addPlugin_plan T arg w with ⟨_, hq⟩ | ⟨t, c, repository, name, hp, he⟩
      · left
        rw [hout] at hq
        rw [World.requests, hq.2.2]
        rfl
      · obtain ⟨rfl, rfl, rfl⟩ := hplan hp
        rcases addFetch_outcome T _ c repository _ { w with clock := w.clock + 1 } with
          ⟨_, _, l, hl, hl'⟩ | ⟨bytes, w3, _, _, hlog, _, h2⟩
        · right
          rw [← he, hout] at hl
          rw [World.requests, hl, List.filterMap_append]
          rcases hl' with rfl | ⟨b, rfl⟩ <;> rfl
        · right
          rw [← he, hout] at h2
          rw [h2]
          rcases writeFile_cases (chars! "Brack.toml") _ w3 with ⟨_, _, _, _, h3⟩ | ⟨_, h3, _⟩ | ⟨k, _, _, _, _, h3⟩ <;>
            rw [h3, World.requests] <;> simp only <;> rw [hlog] <;>
            simp [List.filterMap_append, IOEvent.url?, World.requests, url, AddTarget.request]
    · intro hok
      have hok : addPlugin T arg w = (.ok (), out.2) := by rw [hout, ← hok]
      obtain ⟨t, c, repository, name, bytes, hp, hd⟩ := addPlugin_ok hok
      obtain ⟨rfl, rfl, rfl⟩ := hplan hp
      refine ⟨?_, ?_, _, hd.written hp, ?_⟩
      · rw [World.requests, hd.log]
        simp [List.filterMap_append, IOEvent.url?, World.requests, url, AddTarget.request]
      · obtain ⟨n, hn⟩ := hd.response
        refine ⟨n, bytes, hn, ?_⟩
        rw [hd.files]
        rw [HMap.get_insert_ne (by exact (brackToml_ne_addPath repository).symm)]
        exact HMap.get_insert_self _ _ _
      · rw [AddTarget.newConfig, Config.plugin_insertPlugin, if_pos rfl]
        rfl

/-- C42: `brack add github:owner/repo@version` succeeds if Brack.toml is readable and has no plugin of
that name, the server answers and the file system works. -/
theorem C42_succeeds (T : Toml) (owner repo version : Str)
    (ho : Component owner) (hr : Component repo) (hv : Component version) (hne : repo ≠ []) (w : World)
    (c : Config) (hc : w.HasConfig T c) (hfresh : c.plugin (repo.takeWhile (· ≠ '.')) = none) (hw : w.Healthy)
    (hs : ∀ n url, (w.http n url).isSome) (hfile : w.files.get (chars! "plugins") = none)
    (hdir : chars! "plugins/" ++ repo ++ chars! ".wasm" ∉ w.dirs) (hbrack : chars! "Brack.toml" ∉ w.dirs) :
    (addPlugin T (chars! "github:" ++ owner ++ chars! "/" ++ repo ++ chars! "@" ++ version) w).1 = .ok () := by
  have hparse := parseTarget_components (kind := chars! "github") (by decide) ho hr hv
  rw [if_pos rfl] at hparse
  have harg : chars! "github:" ++ owner ++ chars! "/" ++ repo ++ chars! "@" ++ version =
      chars! "github" ++ ':' :: (owner ++ '/' :: (repo ++ '@' :: version)) := by simp
  rw [← harg] at hparse
  obtain ⟨b, text, v, hb, ht, hv', hvc⟩ := hc
  have hp : AddPlan T (chars! "github:" ++ owner ++ chars! "/" ++ repo ++ chars! "@" ++ version) w
      ⟨chars! "https://github.com/" ++ owner ++ chars! "/" ++ repo, owner, repo, version⟩ c repo
      (repo.takeWhile (· ≠ '.')) :=
    ⟨⟨b, text, hb, ht, readConfig_iff.mpr ⟨v, hv', hvc⟩⟩, hparse, repositoryName_repo hne hr.2.1,
      pluginName_eq repo, hfresh⟩
  obtain ⟨bytes, hbytes⟩ := Option.isSome_iff_exists.mp (hs (w.clock + 1) (AddTarget.request
    ⟨chars! "https://github.com/" ++ owner ++ chars! "/" ++ repo, owner, repo, version⟩ repo))
  obtain ⟨w', hw'⟩ := addPlugin_run hp hw hbytes hr.2.1 hfile hdir hbrack
  rw [hw']

/-- C42 refuted for an empty repository: the file requested is named after the owner. -/
theorem C42_empty_repo_refuted :
    let out := addPlugin sampleToml (chars! "github:o/@v1") (sampleWorld fun _ => .none)
    out.1 = .ok () ∧ out.2.requests = [chars! "https://github.com/o//releases/download/v1/o.wasm"] := by
  decide +kernel

/-- Concrete case: a successful `add`. -/
example :
    let out := addPlugin sampleToml (chars! "github:o/r.x@v1") (sampleWorld fun _ => .none)
    out.1 = .ok () ∧ out.2.requests = [chars! "https://github.com/o/r.x/releases/download/v1/r.x.wasm"] ∧
      out.2.files.get (chars! "plugins/r.x.wasm") = some [1, 2, 3] := by decide +kernel

/-- Concrete case: another kind. -/
example : (addPlugin sampleToml (chars! "gitlab:o/r@v1") (sampleWorld fun _ => .none)).1 =
    .err "Repository type is not supported." := by decide +kernel

/-! ### C43 -/

/-- C43: after a successful `add`, Brack.toml holds the former configuration with one plugin added, whose
name was not in use; all other plugins and the document section are kept. -/
theorem C43_success (T : Toml) (schema : Str) (w w' : World) (h : addPlugin T schema w = (.ok (), w')) :
    ∃ c c' name s, w.HasConfig T c ∧ w'.WrittenConfig T c' ∧ c.plugin name = none ∧ c'.plugin name = some s ∧
      (∀ n, n ≠ name → c'.plugin n = c.plugin n) ∧ c'.document = c.document := by
  obtain ⟨t, c, repository, name, bytes, hp, hd⟩ := addPlugin_ok h
  refine ⟨c, t.newConfig c name, name, ⟨t.owner, t.repo, t.version, none, none, none, none⟩, hp.config,
    hd.written hp, hp.fresh, ?_, ?_, rfl⟩
  · rw [AddTarget.newConfig, Config.plugin_insertPlugin, if_pos rfl]
  · intro n hn
    rw [AddTarget.newConfig, Config.plugin_insertPlugin, if_neg hn]

/-- C43 (partial): if `add` fails, Brack.toml is unchanged, provided that no write stops in the middle.
Missing: a crash or a full disk while Brack.toml is written (`C43_crash_refuted`). -/
theorem C43_failure_partial (T : Toml) (schema : Str) (w : World) (hw : w.Uncut)
    (h : ∀ u, (addPlugin T schema w).1 ≠ .ok u) :
    (addPlugin T schema w).2.files.get (chars! "Brack.toml") = w.files.get (chars! "Brack.toml") := by
  rcases addPlugin_fails h with h | ⟨n, k, _, _, _, _, hn, hk, _⟩
  · exact h
  · exact absurd hk (hw n k hn)

/-- C43 (partial): in any case Brack.toml is afterwards as it was, or a beginning of the new
configuration. -/
theorem C43_failure_prefix_partial (T : Toml) (schema : Str) (w : World)
    (h : ∀ u, (addPlugin T schema w).1 ≠ .ok u) :
    (addPlugin T schema w).2.files.get (chars! "Brack.toml") = w.files.get (chars! "Brack.toml") ∨
    ∃ c name s k, w.HasConfig T c ∧ c.plugin name = none ∧
      (addPlugin T schema w).2.files.get (chars! "Brack.toml") =
        some ((utf8 (T.printConfig (c.insertPlugin name s))).take k) := by
  rcases addPlugin_fails h with h | ⟨n, k, t, c, r, name, hn, hk, hp, h⟩
  · exact .inl h
  · exact .inr ⟨c, name, _, k, hp.config, hp.fresh, h⟩

/-- C43: no file but Brack.toml and those of plugins is changed, whether `add` succeeds or not. -/
theorem C43_other_files (T : Toml) (schema : Str) (w : World) (path : Str) (hb : path ≠ chars! "Brack.toml")
    (hp : ¬ (chars! "plugins/") <+: path) : (addPlugin T schema w).2.files.get path = w.files.get path :=
  addPlugin_others (fun r e => hp (by rw [e, addPath, List.append_assoc]; exact List.prefix_append _ _)) hb

/-- C43 refuted for a crash while Brack.toml is written: the configuration is lost. -/
theorem C43_crash_refuted :
    let w := sampleWorld fun n => if n = 4 then .cut 0 else .none
    let out := addPlugin sampleToml (chars! "github:o/r@v1") w
    w.files.get (chars! "Brack.toml") ≠ some [] ∧ out.1.isErr = true ∧
      out.2.files.get (chars! "Brack.toml") = some [] := by decide +kernel

/-- Concrete case: the plugin is already configured. -/
example :
    let w := sampleWorld fun _ => .none
    let out := addPlugin sampleToml (chars! "github:o/std@v1") w
    out.1 = .err "Plugin already exists." ∧ out.2.files = w.files := by decide +kernel

/-- Concrete case: the disk is full when the plugin is stored. -/
example :
    let w := sampleWorld fun n => if n = 3 then .refused else .none
    let out := addPlugin sampleToml (chars! "github:o/r@v1") w
    out.1 = .err "input/output error" ∧ out.2.files = w.files := by decide +kernel

/-! ### C44 -/

/-- C44 refuted: whatever the hash function, the file a successful `add` stores the plugin in is not the
one `build` looks for: the latter is as before. If there was none, the next download run with the new
configuration requests the plugin again, from another address. -/
theorem C44_refuted (T : Toml) (hash : PluginSchema → Str) (schema : Str) (w w' : World)
    (h : addPlugin T schema w = (.ok (), w')) :
    ∃ c c' name s, w.HasConfig T c ∧ w'.WrittenConfig T c' ∧ c.plugin name = none ∧ c'.plugin name = some s ∧
      w'.files.get (chars! "plugins/" ++ name ++ chars! "_" ++ hash s ++ chars! ".wasm") =
        w.files.get (chars! "plugins/" ++ name ++ chars! "_" ++ hash s ++ chars! ".wasm") ∧
      ∀ w2 : World, w'.SameDisk w2 →
        w2.pathExists (chars! "plugins/" ++ name ++ chars! "_" ++ hash s ++ chars! ".wasm") = false →
        ∃ urls, (downloadPlugins hash c' w2).2.requests = w2.requests ++ urls ∧
          chars! "https://github.com/" ++ s.owner ++ chars! "/" ++ s.repo ++ chars! "/releases/download/" ++
            s.version ++ chars! "/" ++ name ++ chars! "." ++ c'.document.backend ++ chars! ".wasm" ∈ urls := by
  obtain ⟨t, c, repository, name, bytes, hp, hd⟩ := addPlugin_ok h
  have hname := hp.firstPart
  rw [pluginName_eq] at hname
  injection hname with hname
  have hdist : ∀ x : Str, chars! "plugins/" ++ name ++ chars! "_" ++ x ++ chars! ".wasm" ≠ addPath repository := by
    intro x hx
    simp only [addPath, List.append_assoc] at hx
    have hx := List.append_cancel_left hx
    have hx' : (name ++ '_' :: x) ++ chars! ".wasm" = repository ++ chars! ".wasm" := by simpa using hx
    have hx := List.append_cancel_right hx'
    have hall : ∀ (n r : Str), (∀ c ∈ n, c ≠ '.') → n ++ '_' :: x = r → r.takeWhile (· ≠ '.') ≠ n := by
      intro n
      induction n with
      | nil => rintro r _ rfl; simp
      | cons a n ih =>
        rintro r hn rfl hr
        rw [List.cons_append, List.takeWhile_cons_of_pos (by simpa using hn a List.mem_cons_self)] at hr
        injection hr with _ hr
        exact ih _ (fun c hc => hn c (List.mem_cons_of_mem _ hc)) rfl hr
    refine hall name repository ?_ hx hname
    intro c hc
    rw [← hname] at hc
    simpa using takeWhile_prop hc
  refine ⟨c, t.newConfig c name, name, ⟨t.owner, t.repo, t.version, none, none, none, none⟩, hp.config,
    hd.written hp, hp.fresh, ?_, ?_, ?_⟩
  · rw [AddTarget.newConfig, Config.plugin_insertPlugin, if_pos rfl]
  · rw [hd.files, HMap.get_insert_ne, HMap.get_insert_ne (hdist _)]
    intro h
    have := congrArg List.head? h
    simp at this
  · intro w2 _ hno
    have hm : (t.newConfig c name).plugins =
        some ((c.plugins.getD []).insert name ⟨t.owner, t.repo, t.version, none, none, none, none⟩) := rfl
    obtain ⟨rs, w3, h1, _, _, _, _, _, _, _, _, hlog⟩ := downloadPlugins_some hash hm w2
    obtain ⟨l, hl⟩ := (storeLoop_goes rs _ w3).log
    rw [h1, World.requests, hl, hlog, List.filterMap_append, List.filterMap_append, List.append_assoc]
    refine ⟨_, rfl, List.mem_append_left _ ?_⟩
    rw [List.mem_filterMap]
    refine ⟨.request _, List.mem_map.mpr ⟨_, (mem_missingTasks hash _).mpr
      ⟨(name, ⟨t.owner, t.repo, t.version, none, none, none, none⟩), ?_, hno, rfl⟩, rfl⟩, rfl⟩
    have : ∀ (m : HMap Str PluginSchema) x, (name, x) ∈ m.insert name x := by
      intro m x
      induction m with
      | nil => exact List.mem_cons_self
      | cons y m ih =>
        rw [HMap.insert]
        split
        · exact List.mem_cons_self
        · exact List.mem_cons_of_mem _ ih
    exact this _ _

/-- Concrete case: after a successful `add` the cache of `build` is empty. -/
example :
    let out := addPlugin sampleToml (chars! "github:o/r@v1") (sampleWorld fun _ => .none)
    out.1 = .ok () ∧ out.2.files.get (chars! "plugins/r_00.wasm") = none := by decide +kernel

/-! ### C45 -/

/-- C45: after a successful download run, a further run with the same plugins, in any order, on the same
disk succeeds without any effect, with the same result. -/
theorem C45_second_run (hash : PluginSchema → Str) (c c2 : Config) (m m2 : HMap Str PluginSchema)
    (hm : c.plugins = some m) (hn : (m.map (·.1)).Nodup) (hm2 : c2.plugins = some m2) (hp : m2.Perm m)
    (w w1 w2 : World) (md : PluginsMetadata) (h : downloadPlugins hash c w = (.ok md, w1)) (hd : w1.SameDisk w2) :
    ∃ md2, downloadPlugins hash c2 w2 = (.ok md2, w2) ∧ ∀ n, md2.get n = md.get n := by
  obtain ⟨h1, h2⟩ := downloadPlugins_ok hash hm hn h
  have hn2 : (m2.map (·.1)).Nodup := (hp.map (·.1)).nodup_iff.mpr hn
  have hrun := downloadPlugins_cached hash hm2 (w := w2) (fun x hx => by
    have := h2 x (hp.mem_iff.mp hx)
    rw [World.pathExists, hd.1, hd.2]
    exact this)
  refine ⟨_, hrun, fun n => ?_⟩
  rw [(downloadPlugins_ok hash hm2 hn2 hrun).1 n, h1 n]
  congr 1
  rcases hg : m.get n with _ | s
  · rw [HMap.get_none] at hg ⊢
    rw [(hp.map (·.1)).mem_iff]
    exact hg
  · rw [HMap.get_eq_some hn2, hp.mem_iff]
    exact (HMap.get_eq_some hn).mp hg

/-- C45: a configuration without plugins needs no download at all. -/
theorem C45_no_plugins (hash : PluginSchema → Str) (c : Config) (h : c.plugins = none) (w : World) :
    downloadPlugins hash c w = (.ok [], w) := downloadPlugins_none hash h w

/-- C45: the result of a successful run: each configured plugin with its file in the cache and the hooks
enabled in its configuration; the cached files exist. -/
theorem C45_plugin_set (hash : PluginSchema → Str) (c : Config) (m : HMap Str PluginSchema)
    (hm : c.plugins = some m) (hn : (m.map (·.1)).Nodup) (w w1 : World) (md : PluginsMetadata)
    (h : downloadPlugins hash c w = (.ok md, w1)) (n : Str) :
    md.get n = (c.plugin n).map (fun s => (chars! "plugins/" ++ n ++ chars! "_" ++ hash s ++ chars! ".wasm",
      ⟨s.documentHook = some true, s.stmtHook = some true, s.exprHook = some true, s.textHook = some true⟩)) ∧
    ∀ s, c.plugin n = some s →
      w1.pathExists (chars! "plugins/" ++ n ++ chars! "_" ++ hash s ++ chars! ".wasm") = true := by
  obtain ⟨h1, h2⟩ := downloadPlugins_ok hash hm hn h
  have hc : c.plugin n = m.get n := by rw [Config.plugin, hm]; rfl
  constructor
  · rw [h1 n, hc]
    congr 1
    funext s
    have : ∀ x : Option Bool, x.getD false = decide (x = some true) := by
      rintro (_ | _ | _) <;> rfl
    simp only [metaOf, PluginSchema.flag, this]
    rfl
  · intro s hs
    rw [hc] at hs
    exact h2 (n, s) ((HMap.get_eq_some hn).mp hs)

/-- C45: the first run succeeds if the directory `plugins` exists, the server answers and the file system
works. -/
theorem C45_succeeds (hash : PluginSchema → Str) (hh : ∀ s, '/' ∉ hash s) (c : Config) (m : HMap Str PluginSchema)
    (hm : c.plugins = some m) (hslash : ∀ x ∈ m, '/' ∉ x.1) (w : World) (hw : w.Healthy)
    (hs : ∀ n url, (w.http n url).isSome) (hdir : chars! "plugins" ∈ w.dirs)
    (hnd : ∀ x ∈ m, chars! "plugins/" ++ x.1 ++ chars! "_" ++ hash x.2 ++ chars! ".wasm" ∉ w.dirs) :
    (downloadPlugins hash c w).1.isOk = true := by
  obtain ⟨rs, w1, h1, h2, h3, h3', h4, h5, h6, h7, h8, h9⟩ := downloadPlugins_some hash hm w
  rw [h1]
  obtain ⟨md', w', h, _⟩ := storeLoop_run (rs := rs) (md := cachedMeta hash w m []) (w := w1)
    (fun n hn => by rw [h6]; exact hw n (by omega))
    (by
      rintro ⟨t, r⟩ hr
      rcases r with _ | b
      · obtain ⟨n, hn⟩ := h3' t hr
        have := hs n t.url
        rw [hn] at this
        simp at this
      · rfl)
    (by
      rintro ⟨t, r⟩ hr
      have ht : t ∈ rs.map (·.1) := List.mem_map.mpr ⟨_, hr, rfl⟩
      rw [h2] at ht
      obtain ⟨x, hx, _, rfl⟩ := (mem_missingTasks hash _).mp ht
      simp only
      have hpath : cachePath hash x.1 x.2 = chars! "plugins" ++ '/' :: (x.1 ++ chars! "_" ++ hash x.2 ++ chars! ".wasm") := by
        simp [cachePath]
      constructor
      · rw [hpath, parentDir_slash _ (by simp [hslash x hx, hh]), World.hasDir, h5]
        simp [hdir]
      · rw [h5]; exact hnd x hx)
  rw [h]
  rfl

/-- Concrete case: the sample configuration, with the directory `plugins`. -/
example :
    let w : World := { sampleWorld fun _ => .none with dirs := [chars! "docs", chars! "plugins"] }
    let hash : PluginSchema → Str := fun _ => chars! "00"
    let one := downloadPlugins hash sampleConfig w
    let two := downloadPlugins hash sampleConfig one.2
    one.1 = .ok [(chars! "std", (chars! "plugins/std_00.wasm", ⟨false, false, false, true⟩))] ∧ two.1 = one.1 ∧
      one.2.requests = [chars! "https://github.com/brack-lang/brack-std/releases/download/v1/std.html.wasm"] ∧
      two.2.log = one.2.log := by decide +kernel

/-! ### C46 -/

/-- C46 (partial): however a download run ends, it leaves no incomplete plugin file behind, provided that
no write stops in the middle. Missing: a crash or a full disk during a write (`C46_crash_refuted`). -/
theorem C46_complete_partial (hash : PluginSchema → Str) (hh : ∀ s, '_' ∉ hash s) (c : Config)
    (m : HMap Str PluginSchema) (hm : c.plugins = some m) (hn : (m.map (·.1)).Nodup)
    (served : Str → Bytes → Prop) (w : World) (hserver : ∀ n url b, w.http n url = some b → served url b)
    (hw : w.Uncut) (hc : w.CacheComplete hash c served) :
    (downloadPlugins hash c w).2.CacheComplete hash c served := by
  obtain ⟨rs, w1, h1, h2, h3, _, h4, h5, h6, h7, h8, h9⟩ := downloadPlugins_some hash hm w
  intro n s b hcn hb
  rw [h1] at hb
  have hu : w1.Uncut := by intro i k hi; rw [h6]; exact hw i k (by omega)
  rcases storeLoop_files (rs := rs) (md := cachedMeta hash w m []) hu
    (chars! "plugins/" ++ n ++ chars! "_" ++ hash s ++ chars! ".wasm") with h | ⟨t, b', ht, hp, h⟩
  · rw [h, h4] at hb
    exact hc n s b hcn hb
  · rw [h] at hb
    injection hb with hb
    subst hb
    obtain ⟨i, hi⟩ := h3 t b' ht
    have htm : t ∈ rs.map (·.1) := List.mem_map.mpr ⟨_, ht, rfl⟩
    rw [h2] at htm
    obtain ⟨x, hx, _, rfl⟩ := (mem_missingTasks hash _).mp htm
    simp only at hp hi
    obtain ⟨rfl, _⟩ := cachePath_inj hash hh (hp : cachePath hash x.1 x.2 = cachePath hash n s)
    have hg : m.get x.1 = some s := by rw [← hcn, Config.plugin, hm]; rfl
    rw [(HMap.get_eq_some hn).mpr hx] at hg
    injection hg with hg
    subst hg
    exact hserver _ _ _ hi

/-- C46 (partial): a later successful run, on the disk left behind by a run that ended anyhow, ends up
with the complete file of every configured plugin, provided that no write stops in the middle and the
paths of the cache are not directories. Missing: as above. -/
theorem C46_recovers_partial (hash : PluginSchema → Str) (hh : ∀ s, '_' ∉ hash s) (c : Config)
    (m : HMap Str PluginSchema) (hm : c.plugins = some m) (hn : (m.map (·.1)).Nodup)
    (served : Str → Bytes → Prop) (w w2 w3 : World) (md : PluginsMetadata)
    (hserver : ∀ n url b, w.http n url = some b → served url b)
    (hserver2 : ∀ n url b, w2.http n url = some b → served url b) (hw : w.Uncut) (hw2 : w2.Uncut)
    (hc : w.CacheComplete hash c served) (hd : (downloadPlugins hash c w).2.SameDisk w2)
    (h : downloadPlugins hash c w2 = (.ok md, w3)) (n : Str) (s : PluginSchema) (hcn : c.plugin n = some s)
    (hnd : chars! "plugins/" ++ n ++ chars! "_" ++ hash s ++ chars! ".wasm" ∉ w3.dirs) :
    ∃ b, w3.files.get (chars! "plugins/" ++ n ++ chars! "_" ++ hash s ++ chars! ".wasm") = some b ∧
      served (chars! "https://github.com/" ++ s.owner ++ chars! "/" ++ s.repo ++ chars! "/releases/download/" ++
        s.version ++ chars! "/" ++ n ++ chars! "." ++ c.document.backend ++ chars! ".wasm") b := by
  have h1 := C46_complete_partial hash hh c m hm hn served w hserver hw hc
  have h2 : w2.CacheComplete hash c served := by
    intro n s b hcn hb
    exact h1 n s b hcn (by rw [← hd.1]; exact hb)
  have h3 := C46_complete_partial hash hh c m hm hn served w2 hserver2 hw2 h2
  rw [h] at h3
  have hex := (C45_plugin_set hash c m hm hn w2 w3 md h n).2 s hcn
  rw [World.pathExists, Bool.or_eq_true, decide_eq_true_eq] at hex
  rcases hex with hex | hex
  · obtain ⟨b, hb⟩ := Option.isSome_iff_exists.mp hex
    exact ⟨b, hb, h3 n s b hcn hb⟩
  · exact absurd hex hnd

/-- C46 refuted: if the process dies while it writes a plugin file, all later runs take the incomplete
file for the plugin. -/
theorem C46_crash_refuted :
    let w : World :=
      { sampleWorld fun n => if n = 1 then .cut 1 else .none with dirs := [chars! "docs", chars! "plugins"] }
    let hash : PluginSchema → Str := fun _ => chars! "00"
    let one := downloadPlugins hash sampleConfig w
    let two := downloadPlugins hash sampleConfig one.2
    (∀ n url, w.http n url = some [1, 2, 3]) ∧ one.1.isErr = true ∧ two.1.isOk = true ∧
      two.2.files.get (chars! "plugins/std_00.wasm") = some [1] := by
  refine ⟨fun _ _ => rfl, ?_⟩
  decide +kernel

/-- Concrete case: the write is refused, the next run is complete. -/
example :
    let w : World :=
      { sampleWorld fun n => if n = 1 then .refused else .none with dirs := [chars! "docs", chars! "plugins"] }
    let hash : PluginSchema → Str := fun _ => chars! "00"
    let one := downloadPlugins hash sampleConfig w
    let two := downloadPlugins hash sampleConfig one.2
    one.1.isErr = true ∧ two.1.isOk = true ∧
      two.2.files.get (chars! "plugins/std_00.wasm") = some [1, 2, 3] := by decide +kernel

/-! ### C47 -/

/-- C47: after a successful build the documents are exactly the files `docs/<stem>.[]`, each compiled
once, and exactly one file `out/<stem>.<backend>` has been written for each; it holds the result. No other
file has changed. -/
theorem C47_outputs (W : Wasm) (E : Env) (c : Config) (md : PluginsMetadata) (w w' : World) (hv : w.Valid)
    (h : build W E c md w = (.ok (), w')) :
    ∃ plugins ps ps' ds, (loadPlugins W md w).1 = .ok plugins ∧ Plugins.new plugins = .ok ps ∧
      CompiledInTurn E 0 ds ps ps' ∧
      (ds.map (·.stem)).Nodup ∧ (∀ stem, stem ∈ ds.map (·.stem) ↔ w.HasDocument stem) ∧
      (∀ d ∈ ds, (∃ b, w.files.get (chars! "docs/" ++ d.stem ++ chars! ".[]") = some b ∧ fromUtf8 b = some d.text) ∧
        w'.files.get (chars! "out/" ++ d.stem ++ chars! "." ++ c.document.backend) = some (utf8 d.result)) ∧
      w'.writes = w.writes ++
        ds.map (fun d => (chars! "out/" ++ d.stem ++ chars! "." ++ c.document.backend, utf8 d.result)) ∧
      ∀ path, (∀ stem, w.HasDocument stem → path ≠ chars! "out/" ++ stem ++ chars! "." ++ c.document.backend) →
        w'.files.get path = w.files.get path := by
  obtain ⟨plugins, ps, ps', ds, h1, h2, h3, h4, h5, h6, h7⟩ := build_ok h
  have hn : (ds.map (·.stem)).Nodup := by rw [h4]; exact docStems_nodup hv
  have hdoc : ∀ stem, stem ∈ ds.map (·.stem) ↔ w.HasDocument stem := by
    intro stem
    constructor
    · intro hs
      obtain ⟨d, hd, rfl⟩ := List.mem_map.mp hs
      obtain ⟨b, hb, _⟩ := h5 d hd
      rw [h4, mem_docStems] at hs
      exact ⟨hs.1, hs.2.1, by rw [hb]; rfl⟩
    · rintro ⟨k1, k2, k3⟩
      rw [h4, mem_docStems]
      refine ⟨k1, k2, ?_⟩
      rw [World.pathExists, k3]
      rfl
  refine ⟨plugins, ps, ps', ds, h1, h2, h3, hn, hdoc, ?_, h7, ?_⟩
  · intro d hd
    refine ⟨h5 d hd, ?_⟩
    rw [h6]
    exact writeResults_get hn hd
  · intro path hp
    rw [h6]
    exact writeResults_other fun d hd => hp d.stem ((hdoc _).mp (List.mem_map.mpr ⟨d, hd, rfl⟩))

/-- C47: however a build ends, nothing outside of the directory `out` changes. -/
theorem C47_only_out (W : Wasm) (E : Env) (c : Config) (md : PluginsMetadata) (w : World) (path : Str)
    (hp : ¬ chars! "out/" <+: path) : (build W E c md w).2.files.get path = w.files.get path :=
  build_onlyOut W E c md w path hp

/-- C47: a build succeeds if the plugins can be loaded, there is a document, all documents are UTF-8 and
compile, whatever the other documents have done to the plugins (`P` holds for all states reached), nothing
is in the way of the outputs, and nothing goes wrong on the file system. -/
theorem C47_succeeds (W : Wasm) (E : Env) (c : Config) (md : PluginsMetadata) (w : World) (hw : w.Healthy)
    (plugins : List (Plugin W)) (ps : Plugins W) (hl : (loadPlugins W md w).1 = .ok plugins)
    (hps : Plugins.new plugins = .ok ps) (P : Plugins W → Prop) (hP : P ps)
    (hdocs : chars! "docs" ∈ w.dirs) (hone : ∃ stem, w.HasDocument stem)
    (hnd : ∀ stem, chars! "docs/" ++ stem ++ chars! ".[]" ∉ w.dirs)
    (hbackend : '/' ∉ c.document.backend) (hfile : w.files.get (chars! "out") = none)
    (hout : ∀ stem, w.HasDocument stem → chars! "out/" ++ stem ++ chars! "." ++ c.document.backend ∉ w.dirs)
    (hcomp : ∀ stem b, w.HasDocument stem → w.files.get (chars! "docs/" ++ stem ++ chars! ".[]") = some b →
      ∃ text, fromUtf8 b = some text ∧
        ∀ i ps, P ps → ∃ gen ps', P ps' ∧ compileText E.S (E.ids i) E.checks text ps = (.ok gen, ps')) :
    (build W E c md w).1 = .ok () := by
  unfold build
  have hq := loadPlugins_quiet W md w
  have hg := loadPlugins_goes W md w
  rcases hr : loadPlugins W md w with ⟨r, w1⟩
  rw [hr] at hl hq hg
  simp only at hl hq hg
  subst hl
  rw [IOM.bind_of_ok hr, hps, IOM.bind_of_ok (IOM.lift_run _ _)]
  have hw1 := healthy_of_goes hw hg
  rw [IOM.bind_of_ok (readDir_run (hw1 _ (Nat.le_refl _)) (by rw [hq.2.1]; exact hdocs))]
  have hentries : w1.entries (chars! "docs") = w.entries (chars! "docs") := by
    rw [World.entries, World.entries, hq.1, hq.2.1]
  have hw2 : ({ w1 with clock := w1.clock + 1 } : World).Healthy := fun n hn => hw1 n (by simp only at hn; omega)
  obtain ⟨ps', w3, h3, h4⟩ := buildLoop_run (E := E) (i := 0) (backend := c.document.backend)
    (names := w1.entries (chars! "docs")) (w := { w1 with clock := w1.clock + 1 }) P hP hw2 hbackend
    (by simp only; rw [hq.1]; exact hfile)
    (by
      intro name hn stem hs
      rw [hentries] at hn
      have hm := mem_docStems.mp (List.mem_filterMap.mpr ⟨name, hn, hs⟩)
      have hname := (docStem_iff.mp hs).1
      have hd : w.HasDocument stem := by
        refine ⟨hm.1, hm.2.1, ?_⟩
        have := hm.2.2
        rw [World.pathExists, Bool.or_eq_true, decide_eq_true_eq] at this
        rcases this with this | this
        · exact this
        · exact absurd this (hnd stem)
      obtain ⟨b, hb⟩ := Option.isSome_iff_exists.mp hd.2.2
      obtain ⟨text, ht, hc⟩ := hcomp stem b hd hb
      refine ⟨(mem_entries.mp hn).2.2, ?_, b, text, ?_, ht, hc⟩
      · simp only
        rw [hq.2.1]
        exact hout stem hd
      · simp only
        rw [hq.1, hname, ← List.append_assoc]
        exact hb)
  rw [IOM.bind_of_ok h3]
  obtain ⟨ds, _, hstems, _, _, _, hdir, _⟩ := buildLoop_ok h3
  have hdir : chars! "out" ∈ w3.dirs := by
    apply hdir
    rintro rfl
    obtain ⟨stem, hs⟩ := hone
    have : stem ∈ (w.entries (chars! "docs")).filterMap docStem :=
      mem_docStems.mpr ⟨hs.1, hs.2.1, by rw [World.pathExists, hs.2.2]; rfl⟩
    rw [← hentries, ← hstems] at this
    simp at this
  have hp : IOM.printLine (chars! "Build succeeded.") w3 =
      (.ok (), { w3 with log := w3.log ++ [.printed (chars! "Build succeeded.")] }) := rfl
  rw [IOM.bind_of_ok hp]
  have hw3 := healthy_of_goes hw2 h4
  rw [IOM.bind_of_ok (readDir_run (by exact hw3 _ (Nat.le_refl _)) (by exact hdir))]
  exact listOutputs_run fun n hn => hw3 n (by simp only at hn; omega)

/-- Concrete case: two documents, one with a dot in its name, and another file. -/
example :
    let w := twoDocuments fun _ => .none
    let r := build sampleWasm sampleEnv sampleConfig sampleMetadata w
    w.Valid ∧ (w.HasDocument (chars! "a") ∧ w.HasDocument (chars! "b.c") ∧ ¬ w.HasDocument (chars! "a.md")) ∧
      r.1 = .ok () ∧ r.2.writes = [(chars! "out/a.html", utf8 (chars! "é f()")), (chars! "out/b.c.html", utf8 (chars! "g(x,-,)"))] ∧
      r.2.files.get (chars! "out/old.html") = some [65] ∧
      r.2.lines = [chars! "Build succeeded.", chars! "  - ./out/old.html", chars! "  - ./out/a.html",
        chars! "  - ./out/b.c.html"] := by
  simp only [World.Valid, World.HasDocument]
  decide +kernel

/-- Concrete case: `C47_succeeds` for a document of plain text, any identifiers and any segmenter. -/
example (E : Env) : (build sampleWasm E sampleConfig [] (sampleWorld fun _ => .none)).1 = .ok () := by
  refine C47_succeeds sampleWasm E sampleConfig [] (sampleWorld fun _ => .none) (fun _ _ => rfl) [] _ rfl rfl NoHooks
    ⟨rfl, rfl, rfl, rfl⟩ (by decide) ⟨chars! "a", by decide, by decide, by decide⟩ ?_ (by decide) (by decide) ?_ ?_
  · intro stem h
    simp [sampleWorld] at h
  · intro stem _ h
    simp [sampleWorld] at h
  · intro stem b _ hb
    have hm := (HMap.get_eq_some (by decide)).mp hb
    simp only [sampleWorld, List.mem_cons, List.not_mem_nil, or_false, Prod.mk.injEq] at hm
    rcases hm with ⟨h1, _⟩ | ⟨_, rfl⟩
    · simp at h1
    · refine ⟨chars! "é", fromUtf8_utf8 _, fun i ps hps => ⟨(chars! "é").filter (· ≠ '\n'), ps, hps, ?_⟩⟩
      exact C36_plain_partial E.S (E.ids i) E.checks ps hps (chars! "é") (by decide) (by decide) (by
        intro a b h
        have : '\r' ∈ chars! "é" := by rw [h]; simp
        revert this
        decide)

end Brack
