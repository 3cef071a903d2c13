import Verif.Proof.Session
import Verif.Proof.Rebuild
import Verif.Spec.Opened

/-
Lemmas about opening documents and about the first build of a project.
-/

namespace Brack

theorem pathParent_slash {dir file : Str} (hf : '/' ∉ file) (hd : dir ≠ []) :
    Server.pathParent (dir ++ '/' :: file) = some dir := by
  have h : (dir ++ '/' :: file).reverse.dropWhile (· ≠ '/') = '/' :: dir.reverse := by
    rw [List.reverse_append, List.reverse_cons, List.append_assoc, List.dropWhile_append_of_pos]
    · rw [List.singleton_append, List.dropWhile_cons_of_neg (by simp)]
    · intro c hc
      have : c ≠ '/' := by
        rintro rfl
        exact hf (List.mem_reverse.mp hc)
      simpa using this
  rw [Server.pathParent, h]
  rcases hr : dir.reverse with _ | ⟨c, r⟩
  · exact absurd (List.reverse_eq_nil_iff.mp hr) hd
  · simp only
    rw [← hr, List.reverse_reverse]

theorem pathParent_root {file : Str} (hf : '/' ∉ file) (hne : file ≠ []) :
    Server.pathParent ('/' :: file) = some ['/'] := by
  have h : ('/' :: file).reverse.dropWhile (· ≠ '/') = ['/'] := by
    rw [List.reverse_cons, List.dropWhile_append_of_pos]
    · rw [List.dropWhile_cons_of_neg (by simp)]
    · intro c hc
      have : c ≠ '/' := by
        rintro rfl
        exact hf (List.mem_reverse.mp hc)
      simpa using this
  rw [Server.pathParent, h]
  simp only
  rw [if_neg]
  simp [hne]

/-- The configuration looked for when a document is opened. -/
theorem configPath_of {root dir file : Str} (hd : '/' ∉ dir) (hdne : dir ≠ []) (hf : '/' ∉ file) (hroot : root ≠ ['/']) :
    ∃ r, (Server.pathParent (root ++ '/' :: (dir ++ '/' :: file))).bind Server.pathParent = some r ∧
      Server.configPath r = root ++ chars! "/Brack.toml" := by
  have h1 : Server.pathParent (root ++ '/' :: (dir ++ '/' :: file)) = some (root ++ '/' :: dir) := by
    have := pathParent_slash (dir := root ++ '/' :: dir) hf (by simp)
    rw [← this]
    simp
  rw [h1]
  simp only [Option.bind_some]
  by_cases hr : root = []
  · subst hr
    exact ⟨['/'], pathParent_root hd hdne, by simp [Server.configPath]⟩
  · exact ⟨root, pathParent_slash hd hr, by rw [Server.configPath, if_neg (by simp [hr, hroot])]⟩

section
variable {hash : PluginSchema → Str}

theorem storeLoop_dirs {rs : List (Task × Option Bytes)} {md md' : PluginsMetadata} {w w' : World}
    (h : storeLoop rs md w = (.ok md', w')) : ∀ r ∈ rs, w.hasDir (parentDir r.1.path) = true := by
  induction rs generalizing md w with
  | nil => simp
  | cons r rs ih =>
    obtain ⟨t, _ | b⟩ := r
    · simp [storeLoop, IOM.fail] at h
    · rw [storeLoop] at h
      obtain ⟨_, w1, h1, h2⟩ := IOM.bind_ok.mp h
      have h3 : w.hasDir (parentDir t.path) = true ∧ w1.dirs = w.dirs := by
        rw [IOM.writeFile] at h1
        simp only at h1
        by_cases hc : (w.hasDir (parentDir t.path) && decide (t.path ∉ w.dirs)) = true
        · rw [if_pos hc] at h1
          rcases hf : w.faults w.clock with _ | _ | n
          · rw [hf] at h1
            simp only [Prod.mk.injEq] at h1
            rw [Bool.and_eq_true] at hc
            exact ⟨hc.1, by rw [← h1.2]⟩
          · rw [hf] at h1
            simp at h1
          · rw [hf] at h1
            simp at h1
        · rw [if_neg hc] at h1
          simp at h1
      intro r hr
      rcases List.mem_cons.mp hr with rfl | hr
      · exact h3.1
      · have := ih h2 r hr
        rwa [World.hasDir, h3.2] at this

theorem storeLoop_ne_panic (rs : List (Task × Option Bytes)) :
    ∀ (md : PluginsMetadata) (w : World), (storeLoop rs md w).1 ≠ .panic := by
  induction rs with
  | nil => intro md w h; simp [storeLoop, Pure.pure, IOM.pure] at h
  | cons r rs ih =>
    intro md w
    obtain ⟨t, _ | b⟩ := r
    · intro h; simp [storeLoop, IOM.fail] at h
    · rw [storeLoop, IOM.bind_run]
      have hp : (IOM.writeFile t.path b w).1 ≠ .panic := by
        rw [IOM.writeFile]
        simp only
        split
        · rcases w.faults w.clock with _ | _ | n <;> simp
        · simp
      rcases hr : IOM.writeFile t.path b w with ⟨r, w1⟩
      rw [hr] at hp
      rcases r with _ | _ | _
      · exact ih _ _
      · simp
      · exact absurd rfl hp

theorem downloadPlugins_ne_panic (c : Config) (w : World) : (downloadPlugins hash c w).1 ≠ .panic := by
  rcases hm : c.plugins with _ | m
  · rw [downloadPlugins_none hash hm]
    simp
  · obtain ⟨rs, w1, h1, _⟩ := downloadPlugins_some hash hm w
    rw [h1]
    exact storeLoop_ne_panic _ _ _

theorem cachePath_parent (hh : ∀ s, '/' ∉ hash s) {name : Str} {s : PluginSchema} (hn : '/' ∉ name) :
    parentDir (cachePath hash name s) = chars! "plugins" := by
  have hpath : cachePath hash name s = chars! "plugins" ++ '/' :: (name ++ chars! "_" ++ hash s ++ chars! ".wasm") := by
    simp [cachePath]
  rw [hpath, parentDir_slash _ (by simp [hn, hh])]

/-- What a successful download run needs. -/
theorem downloadPlugins_needs (hh : ∀ s, '/' ∉ hash s) {c : Config} {name : Str} {s : PluginSchema}
    (hs : c.plugin name = some s) (hslash : '/' ∉ name) (hn : ∀ m, c.plugins = some m → (m.map (·.1)).Nodup)
    {w w' : World} {md : PluginsMetadata} (h : downloadPlugins hash c w = (.ok md, w')) :
    w.pathExists (cachePath hash name s) = true ∨
      (chars! "plugins" ∈ w.dirs ∧ ∃ n, (w.http n (downloadUrl c.document.backend name s)).isSome = true) := by
  rcases hm : c.plugins with _ | m
  · rw [Config.plugin, hm] at hs
    simp at hs
  · have hx : (name, s) ∈ m := by
      rw [Config.plugin, hm] at hs
      exact (HMap.get_eq_some (hn m hm)).mp hs
    obtain ⟨rs, w1, h1, h2, h3, h3', h4, h5, h6, h7, h8, h9⟩ := downloadPlugins_some hash hm w
    rw [h1] at h
    rcases hno : w.pathExists (cachePath hash name s) with _ | _
    · have : (⟨name, cachePath hash name s, s.flag, downloadUrl c.document.backend name s⟩ : Task) ∈ rs.map (·.1) := by
        rw [h2]
        exact (mem_missingTasks hash _).mpr ⟨(name, s), hx, hno, rfl⟩
      obtain ⟨⟨t, r⟩, hr, rfl⟩ := List.mem_map.mp this
      right
      have hd := storeLoop_dirs h _ hr
      have hsome := (storeLoop_ok h).2.2 _ hr
      simp only at hd hsome
      rw [cachePath_parent hh hslash, World.hasDir, h5] at hd
      refine ⟨by simpa using hd, ?_⟩
      obtain ⟨b, rfl⟩ := Option.isSome_iff_exists.mp hsome
      obtain ⟨n, hb⟩ := h3 _ _ hr
      exact ⟨n, by rw [hb]; rfl⟩
    · exact .inl rfl

/-- A download run succeeds. -/
theorem downloadPlugins_runs (hh : ∀ s, '/' ∉ hash s) {c : Config} (hslash : ∀ name s, c.plugin name = some s → '/' ∉ name)
    (hn : ∀ m, c.plugins = some m → (m.map (·.1)).Nodup) {w : World} (hw : w.Healthy)
    (hall : ∀ name s, c.plugin name = some s → w.pathExists (cachePath hash name s) = true ∨
      (chars! "plugins" ∈ w.dirs ∧ ∀ n, (w.http n (downloadUrl c.document.backend name s)).isSome = true)) :
    ∃ md w', downloadPlugins hash c w = (.ok md, w') := by
  rcases hm : c.plugins with _ | m
  · exact ⟨_, _, downloadPlugins_none hash hm w⟩
  have hc : ∀ name s, c.plugin name = some s ↔ (name, s) ∈ m := by
    intro name s
    rw [Config.plugin, hm]
    exact HMap.get_eq_some (hn m hm)
  obtain ⟨rs, w1, h1, h2, h3, h3', h4, h5, h6, h7, h8, h9⟩ := downloadPlugins_some hash hm w
  rw [h1]
  have hex : ∀ t r, (t, r) ∈ rs → ∃ name s, c.plugin name = some s ∧ w.pathExists (cachePath hash name s) = false ∧
      t = ⟨name, cachePath hash name s, s.flag, downloadUrl c.document.backend name s⟩ := by
    intro t r hr
    have ht : t ∈ rs.map (·.1) := List.mem_map.mpr ⟨_, hr, rfl⟩
    rw [h2] at ht
    obtain ⟨x, hx, hno, rfl⟩ := (mem_missingTasks hash _).mp ht
    exact ⟨x.1, x.2, (hc _ _).mpr hx, hno, rfl⟩
  obtain ⟨md', w', h, _⟩ := storeLoop_run (rs := rs) (md := cachedMeta hash w m []) (w := w1)
    (fun n hn => by rw [h6]; exact hw n (by omega))
    (by
      rintro ⟨t, r⟩ hr
      obtain ⟨name, s, hs, hno, rfl⟩ := hex t r hr
      rcases hall name s hs with h | ⟨_, h⟩
      · rw [hno] at h
        exact absurd h (by simp)
      · rcases r with _ | b
        · obtain ⟨n, hb⟩ := h3' _ hr
          have h := h n
          rw [hb] at h
          exact absurd h (by simp)
        · rfl)
    (by
      rintro ⟨t, r⟩ hr
      obtain ⟨name, s, hs, hno, rfl⟩ := hex t r hr
      simp only
      rcases hall name s hs with h | ⟨h, _⟩
      · rw [hno] at h
        exact absurd h (by simp)
      · rw [cachePath_parent hh (hslash name s hs), World.hasDir, h5]
        refine ⟨by simp [h], ?_⟩
        intro hin
        rw [World.pathExists, Bool.or_eq_false_iff] at hno
        exact absurd hin (by simpa using hno.2))
  exact ⟨md', w', h⟩

/-- When a download run succeeds. -/
theorem downloadPlugins_iff (hh : ∀ s, '/' ∉ hash s) {c : Config} (hslash : ∀ name s, c.plugin name = some s → '/' ∉ name)
    (hn : ∀ m, c.plugins = some m → (m.map (·.1)).Nodup) {w : World} (hw : w.Healthy)
    (hsteady : ∀ n n' url, w.http n url = w.http n' url) :
    (∃ md w', downloadPlugins hash c w = (.ok md, w')) ↔
      ∀ name s, c.plugin name = some s → w.pathExists (cachePath hash name s) = true ∨
        (chars! "plugins" ∈ w.dirs ∧ (w.http w.clock (downloadUrl c.document.backend name s)).isSome = true) := by
  constructor
  · rintro ⟨md, w', h⟩ name s hs
    rcases downloadPlugins_needs hh hs (hslash name s hs) hn h with h | ⟨h1, n, h2⟩
    · exact .inl h
    · exact .inr ⟨h1, by rw [hsteady w.clock n]; exact h2⟩
  · intro hall
    exact downloadPlugins_runs hh hslash hn hw fun name s hs => by
      rcases hall name s hs with h | ⟨h1, h2⟩
      · exact .inl h
      · exact .inr ⟨h1, fun n => by rw [hsteady n w.clock]; exact h2⟩

/-- The plugins of a configuration after a download run. -/
theorem downloadPlugins_mem {c : Config} (hn : ∀ m, c.plugins = some m → (m.map (·.1)).Nodup) {w w' : World}
    {md : PluginsMetadata} (h : downloadPlugins hash c w = (.ok md, w')) {name path : Str} {flag : FeatureFlag} :
    (name, (path, flag)) ∈ md ↔ ∃ s, c.plugin name = some s ∧ path = cachePath hash name s ∧ flag = s.flag := by
  have hnd := downloadPlugins_nodup h
  rw [← HMap.get_eq_some hnd]
  rcases hm : c.plugins with _ | m
  · rw [downloadPlugins_none hash hm] at h
    injection h with h _
    injection h with h
    subst h
    constructor
    · intro h
      simp [HMap.get] at h
    · rintro ⟨s, hs, _⟩
      rw [Config.plugin, hm] at hs
      simp at hs
  · rw [(downloadPlugins_ok hash hm (hn m hm) h).1 name]
    have hc : c.plugin name = m.get name := by rw [Config.plugin, hm]; rfl
    rw [hc]
    rcases m.get name with _ | s
    · simp
    · simp only [Option.map_some, Option.some.injEq, metaOf, Prod.mk.injEq, exists_eq_left']
      constructor
      · rintro ⟨rfl, rfl⟩; exact ⟨rfl, rfl⟩
      · rintro ⟨rfl, rfl⟩; exact ⟨rfl, rfl⟩

/-- The files of the plugins after a download run. -/
theorem downloadPlugins_provides (hh : ∀ s, '_' ∉ hash s) {c : Config} (hn : ∀ m, c.plugins = some m → (m.map (·.1)).Nodup)
    {w w' : World} (hw : w.Healthy) {md : PluginsMetadata} (h : downloadPlugins hash c w = (.ok md, w'))
    {name : Str} {s : PluginSchema} (hs : c.plugin name = some s) :
    w'.pathExists (cachePath hash name s) = true ∧
      ∀ b, w'.files.get (cachePath hash name s) = some b → w.Provides hash c.document.backend name s b := by
  rcases hm : c.plugins with _ | m
  · rw [Config.plugin, hm] at hs
    simp at hs
  · have hc : ∀ name s, c.plugin name = some s ↔ (name, s) ∈ m := by
      intro name s
      rw [Config.plugin, hm]
      exact HMap.get_eq_some (hn m hm)
    refine ⟨(downloadPlugins_ok hash hm (hn m hm) h).2 _ ((hc _ _).mp hs), fun b hb => ?_⟩
    obtain ⟨rs, w1, h1, h2, h3, h3', h4, h5, h6, h7, h8, h9⟩ := downloadPlugins_some hash hm w
    rw [h1] at h
    have hu : w1.Uncut := by
      intro i k hi
      rw [h6, hw i (by omega)]
      simp
    have hf := storeLoop_files (rs := rs) (md := cachedMeta hash w m []) hu (cachePath hash name s)
    rw [h] at hf
    rcases hf with hf | ⟨t, b', ht, hp, hf⟩
    · rw [hf, h4] at hb
      exact .inl hb
    · rw [hf] at hb
      injection hb with hb
      subst hb
      obtain ⟨i, hi⟩ := h3 t b' ht
      have htask : t ∈ rs.map (·.1) := List.mem_map.mpr ⟨_, ht, rfl⟩
      rw [h2] at htask
      obtain ⟨x, hx, _, rfl⟩ := (mem_missingTasks hash _).mp htask
      have hname := (cachePath_inj hash hh hp).1
      have hxs := (hc x.1 x.2).mpr hx
      rw [hname, hs] at hxs
      injection hxs with hxs
      exact .inr ⟨i, by rw [← hi, hname, ← hxs]; rfl⟩

end

/-- The plugins can be loaded after a download run. -/
theorem allLoadable_of {W : Wasm} {hash : PluginSchema → Str} {c : Config} (hn : ∀ m, c.plugins = some m → (m.map (·.1)).Nodup)
    {w w' : World} {md : PluginsMetadata} (h : downloadPlugins hash c w = (.ok md, w'))
    (hfile : ∀ name s, c.plugin name = some s → ∃ b ms, w'.files.get (cachePath hash name s) = some b ∧ W.reports b = some ms ∧
      Loadable ms s.flag)
    (hhooks : ∀ (k : Hook) name s name' s', c.plugin name = some s → c.plugin name' = some s' → k.enabled s.flag = true →
      k.enabled s'.flag = true → name = name') : AllLoadable W w' md where
  names := downloadPlugins_nodup h
  files := by
    rintro ⟨name, path, flag⟩ hx
    obtain ⟨s, hs, rfl, rfl⟩ := (downloadPlugins_mem hn h).mp hx
    exact hfile name s hs
  hooks := by
    rintro k ⟨name, path, flag⟩ hx ⟨name', path', flag'⟩ hy h1 h2
    obtain ⟨s, hs, rfl, rfl⟩ := (downloadPlugins_mem hn h).mp hx
    obtain ⟨s', hs', rfl, rfl⟩ := (downloadPlugins_mem hn h).mp hy
    exact hhooks k name s name' s' hs hs' h1 h2

theorem offers_of {W : Wasm} {hash : PluginSchema → Str} {c : Config} (hn : ∀ m, c.plugins = some m → (m.map (·.1)).Nodup)
    {w w' v : World} {md : PluginsMetadata} (h : downloadPlugins hash c w = (.ok md, w')) (typ : PType) (plugin command : Str) :
    Offers W v md typ plugin command ↔ ConfigOffers W v hash c typ plugin command := by
  constructor
  · rintro ⟨path, flag, b, ms, h1, h2, h3, h4⟩
    obtain ⟨s, hs, rfl, rfl⟩ := (downloadPlugins_mem hn h).mp h1
    exact ⟨s, b, ms, hs, h2, h3, h4⟩
  · rintro ⟨s, b, ms, hs, h2, h3, h4⟩
    exact ⟨_, _, b, ms, (downloadPlugins_mem hn h).mpr ⟨s, hs, rfl, rfl⟩, h2, h3, h4⟩

theorem downloadPlugins_goes (hash : PluginSchema → Str) (c : Config) : IOM.Keeps Goes (downloadPlugins hash c) := by
  intro w
  rcases hm : c.plugins with _ | m
  · rw [downloadPlugins_none hash hm]
    exact Goes.frame.refl w
  · obtain ⟨rs, w1, h1, _, _, _, h4, h5, h6, h7, h8, h9⟩ := downloadPlugins_some hash hm w
    rw [h1]
    exact Goes.frame.trans ⟨h8, h6, h7, ⟨_, h9⟩, fun d hd => by rw [h5]; exact hd, fun p hp => by rw [h4]; exact hp⟩
      (storeLoop_goes rs (cachedMeta hash w m []) w1)

/-! ### Reading a configuration -/

theorem readText_ne_panic (path : Str) (w : World) : (IOM.readText path w).1 ≠ .panic :=
  IOM.bind_ne_panic (readFile_ne_panic path w) fun b w => by
    rcases fromUtf8 b with _ | t
    · simp [IOM.fail]
    · simp [Pure.pure, IOM.pure]

theorem Res.bind_ne_panic {α β : Type} {x : Res α} {f : α → Res β} (hx : x ≠ .panic) (hf : ∀ a, f a ≠ .panic) :
    (x >>= f) ≠ .panic := by
  rcases x with a | m | _
  · exact hf a
  · intro h; cases h
  · exact absurd rfl hx

theorem schemaLoop_ne_panic : ∀ (fields : List (Str × TVal)) (x : SchemaVars), schemaLoop fields x ≠ .panic
  | [], x => by simp [schemaLoop]
  | (key, v) :: rest, x => by
    rw [schemaLoop]
    have : schemaStep x key v ≠ .panic := by
      have hstr : ∀ o v, takeStr o v ≠ .panic := by
        intro o v
        unfold takeStr
        split
        · simp
        · split <;> simp
      have hbool : ∀ o v, takeBool o v ≠ .panic := by
        intro o v
        unfold takeBool
        split
        · simp
        · split <;> simp
      have hite : ∀ {p : Prop} [Decidable p] {a b : Res SchemaVars}, a ≠ .panic → b ≠ .panic → (if p then a else b) ≠ .panic := by
        intro p _ a b ha hb
        by_cases hp : p
        · rwa [if_pos hp]
        · rwa [if_neg hp]
      unfold schemaStep
      refine hite ?_ (hite ?_ (hite ?_ (hite ?_ (hite ?_ (hite ?_ (hite ?_ (hite ?_ ?_)))))))
      · exact Res.bind_ne_panic (hstr _ _) fun _ => by simp [pure]
      · exact Res.bind_ne_panic (hstr _ _) fun _ => by simp [pure]
      · exact Res.bind_ne_panic (hstr _ _) fun _ => by simp [pure]
      · exact Res.bind_ne_panic (hstr _ _) fun _ => by simp [pure]
      · exact Res.bind_ne_panic (hbool _ _) fun _ => by simp [pure]
      · exact Res.bind_ne_panic (hbool _ _) fun _ => by simp [pure]
      · exact Res.bind_ne_panic (hbool _ _) fun _ => by simp [pure]
      · exact Res.bind_ne_panic (hbool _ _) fun _ => by simp [pure]
      · simp
    rcases h : schemaStep x key v with y | m | _
    · exact schemaLoop_ne_panic rest y
    · simp
    · exact absurd h this

theorem Config.ofToml_ne_panic (v : TVal) : Config.ofToml v ≠ .panic := by
  have hpresent : ∀ o, present o ≠ .panic := by
    intro o
    cases o <;> simp [present]
  have hstr : ∀ key kvs, strField key kvs ≠ .panic := by
    intro key kvs
    unfold strField
    split <;> simp
  have hitems : ∀ vs, strItems vs ≠ .panic := by
    intro vs
    induction vs with
    | nil => simp [strItems]
    | cons v vs ih =>
      rcases v with s | _ | _ | _ | _
      · rw [strItems]
        exact Res.bind_ne_panic ih fun _ => by simp [pure]
      all_goals simp [strItems]
  have hauthors : ∀ kvs, authorsField kvs ≠ .panic := by
    intro kvs
    unfold authorsField
    split
    · exact hitems _
    · simp
    · simp
  have hdoc : ∀ v, Document.ofToml v ≠ .panic := by
    intro v
    unfold Document.ofToml
    split
    · refine Res.bind_ne_panic (hstr _ _) fun _ => Res.bind_ne_panic (hstr _ _) fun _ => Res.bind_ne_panic (hstr _ _) fun _ =>
        Res.bind_ne_panic (hauthors _) fun _ => by simp [pure]
    · unfold Document.ofItems
      split
      · exact Res.bind_ne_panic (hitems _) fun _ => by simp [pure]
      · simp
    · simp
  have hschema : ∀ v, PluginSchema.ofToml v ≠ .panic := by
    intro v
    unfold PluginSchema.ofToml
    split
    · unfold PluginSchema.ofFields
      refine Res.bind_ne_panic (schemaLoop_ne_panic _ _) fun _ => Res.bind_ne_panic (hpresent _) fun _ =>
        Res.bind_ne_panic (hpresent _) fun _ => Res.bind_ne_panic (hpresent _) fun _ => Res.bind_ne_panic (hpresent _) fun _ => ?_
      split <;> simp [pure]
    · simp
  have hentries : ∀ kvs m, pluginEntries kvs m ≠ .panic := by
    intro kvs
    induction kvs with
    | nil => intro m; simp [pluginEntries]
    | cons kv kvs ih =>
      intro m
      rw [pluginEntries]
      exact Res.bind_ne_panic (hschema _) fun _ => ih _
  rcases v with _ | _ | _ | kvs | _
  case table =>
    rw [Config.ofToml]
    refine Res.bind_ne_panic ?_ fun _ => Res.bind_ne_panic ?_ fun _ => by simp [pure]
    · unfold documentField
      split
      · exact hdoc _
      · simp
    · unfold pluginsField
      split
      · exact Res.bind_ne_panic (hentries _ _) fun _ => by simp [pure]
      · simp
      · simp
  all_goals simp [Config.ofToml]

/-! ### Messages that open no document -/

/-- No file changes and nothing is done except for sending messages. -/
structure Rests (w w' : World) : Prop where
  clock : w.clock ≤ w'.clock
  faults : w'.faults = w.faults
  http : w'.http = w.http
  files : w'.files = w.files
  dirs : w'.dirs = w.dirs
  log : ∃ l, w'.log = w.log ++ l ∧ ∀ e ∈ l, ∃ b, e = .sent b

theorem Rests.frame : IOM.Frame Rests where
  refl _ := ⟨Nat.le_refl _, rfl, rfl, rfl, rfl, [], by simp, by simp⟩
  trans := fun h h' => ⟨Nat.le_trans h.clock h'.clock, h'.faults.trans h.faults, h'.http.trans h.http, h'.files.trans h.files,
    h'.dirs.trans h.dirs, by
      obtain ⟨l, h1, h2⟩ := h.log
      obtain ⟨l', h3, h4⟩ := h'.log
      exact ⟨l ++ l', by rw [h3, h1, List.append_assoc], fun e he => (List.mem_append.mp he).elim (h2 e) (h4 e)⟩⟩

theorem rests_of {α : Type} {x : IOM α} (h1 : IOM.Keeps Quiet x) (h2 : IOM.Keeps Goes x) : IOM.Keeps Rests x :=
  fun w => ⟨(h2 w).clock, (h2 w).faults, (h2 w).http, (h1 w).1, (h1 w).2.1, [], by rw [(h1 w).2.2, List.append_nil], by simp⟩

theorem readText_rests (p : Str) : IOM.Keeps Rests (IOM.readText p) := rests_of (readText_quiet p) (readText_goes p)

theorem loadPlugins_rests (W : Wasm) (md : PluginsMetadata) : IOM.Keeps Rests (loadPlugins W md) :=
  rests_of (loadPlugins_quiet W md) (loadPlugins_goes W md)

namespace Server

theorem send_rests (P : Protocol) (v : Json) : IOM.Keeps Rests (send P v) := by
  intro w
  rw [send, IOM.send]
  rcases w.faults w.clock with _ | _ | n
  · exact ⟨Nat.le_succ _, rfl, rfl, rfl, rfl, _, rfl, by simp⟩
  · exact ⟨Nat.le_succ _, rfl, rfl, rfl, rfl, [], by simp, by simp⟩
  · exact ⟨Nat.le_succ _, rfl, rfl, rfl, rfl, _, rfl, by simp⟩

theorem tokenizeFile_rests (S : Segmenter) (path : Str) : IOM.Keeps Rests (tokenizeFile S path) :=
  IOM.Keeps.bind Rests.frame (readText_rests path) fun _ => IOM.Keeps.lift Rests.frame _

theorem didSave_rests (X : ServerEnv) (s : Server) (uri : Str) : IOM.Keeps Rests (didSave X s uri) := by
  unfold didSave
  split
  · exact IOM.Keeps.fail Rests.frame _
  · refine IOM.Keeps.bind Rests.frame (Keeps.attempt (tokenizeFile_rests _ _)) fun r => ?_
    split
    · exact send_rests _ _
    · refine IOM.Keeps.bind Rests.frame (IOM.Keeps.lift Rests.frame _) fun _ => ?_
      refine IOM.Keeps.bind Rests.frame (IOM.Keeps.lift Rests.frame _) fun _ => ?_
      simp only [sendDiagnostics]
      split
      · exact send_rests _ _
      · exact IOM.Keeps.pure Rests.frame _

theorem handleSemanticTokens_rests (X : ServerEnv) (uri : Str) : IOM.Keeps Rests (handleSemanticTokens X uri) := by
  unfold handleSemanticTokens
  split
  · exact IOM.Keeps.fail Rests.frame _
  · refine IOM.Keeps.bind Rests.frame (Keeps.attempt (tokenizeFile_rests _ _)) fun r => ?_
    split
    · exact IOM.Keeps.bind Rests.frame (send_rests _ _) fun _ => IOM.Keeps.pure Rests.frame _
    · exact IOM.Keeps.bind Rests.frame (IOM.Keeps.lift Rests.frame _) fun _ => IOM.Keeps.pure Rests.frame _

theorem handleCompletion_rests (X : ServerEnv) (s : Server) (context : Option (Option Str)) :
    IOM.Keeps Rests (handleCompletion X s context) := by
  unfold handleCompletion
  split
  · exact IOM.Keeps.pure Rests.frame _
  · refine IOM.Keeps.bind Rests.frame (loadPlugins_rests _ _) fun _ => ?_
    refine IOM.Keeps.bind Rests.frame (IOM.Keeps.lift Rests.frame _) fun _ => ?_
    split
    · exact IOM.Keeps.fail Rests.frame _
    · exact IOM.Keeps.pure Rests.frame _
    · exact IOM.Keeps.bind Rests.frame (IOM.Keeps.lift Rests.frame _) fun _ => IOM.Keeps.pure Rests.frame _

theorem respond_rests (P : Protocol) (id : Int) (failure : Str) {x : IOM (Option Json)} (h : IOM.Keeps Rests x) :
    IOM.Keeps Rests (respond P id failure x) := by
  refine IOM.Keeps.bind Rests.frame (Keeps.attempt h) fun r => ?_
  split
  · exact send_rests _ _
  · exact IOM.Keeps.pure Rests.frame _
  · exact send_rests _ _

theorem handleRequest_rests (X : ServerEnv) (s : Server) (msg : Json) (id : Int) (method : Str) :
    IOM.Keeps Rests (handleRequest X s msg id method) := by
  unfold handleRequest
  split
  · refine IOM.Keeps.bind Rests.frame (send_rests _ _) fun _ => ?_
    split
    · exact IOM.Keeps.fail Rests.frame _
    · exact IOM.Keeps.bind Rests.frame (send_rests _ _) fun _ => IOM.Keeps.pure Rests.frame _
  split
  · split
    · exact IOM.Keeps.fail Rests.frame _
    · exact IOM.Keeps.bind Rests.frame (respond_rests _ _ _ (handleSemanticTokens_rests _ _)) fun _ =>
        IOM.Keeps.pure Rests.frame _
  split
  · split
    · exact IOM.Keeps.fail Rests.frame _
    · exact IOM.Keeps.bind Rests.frame (respond_rests _ _ _ (handleCompletion_rests _ _ _)) fun _ =>
        IOM.Keeps.pure Rests.frame _
  · exact IOM.Keeps.bind Rests.frame (send_rests _ _) fun _ => IOM.Keeps.pure Rests.frame _

theorem handleNotification_rests (X : ServerEnv) (s : Server) (msg : Json) (method : Str)
    (h : method ≠ chars! "textDocument/didOpen") : IOM.Keeps Rests (handleNotification X s msg method) := by
  unfold handleNotification
  rw [if_neg h]
  repeat' split
  · exact IOM.Keeps.bind Rests.frame (send_rests _ _) fun _ => IOM.Keeps.pure Rests.frame _
  · exact IOM.Keeps.pure Rests.frame _
  · exact IOM.Keeps.fail Rests.frame _
  · exact IOM.Keeps.fail Rests.frame _
  · exact IOM.Keeps.bind Rests.frame (didSave_rests _ _ _) fun _ => IOM.Keeps.pure Rests.frame _
  · exact IOM.Keeps.pure Rests.frame _

theorem asStr_ne {o : Option Json} {m t : Str} (h : o ≠ some (.str t)) (hm : o.bind Json.asStr = some m) : m ≠ t := by
  rintro rfl
  rcases o with _ | v
  · simp at hm
  · rw [Option.bind_some] at hm
    unfold Json.asStr at hm
    split at hm
    · injection hm with hm
      subst hm
      exact h rfl
    · simp at hm

theorem dispatch_rests (X : ServerEnv) (s : Server) (msg : Json)
    (h : msg.get (chars! "method") ≠ some (.str (chars! "textDocument/didOpen"))) : IOM.Keeps Rests (dispatch X s msg) := by
  unfold dispatch
  rcases (msg.get (chars! "id")).bind Json.asI64 with _ | id <;>
    rcases hm : (msg.get (chars! "method")).bind Json.asStr with _ | method
  · exact IOM.Keeps.bind Rests.frame (send_rests _ _) fun _ => IOM.Keeps.pure Rests.frame _
  · exact handleNotification_rests _ _ _ _ (asStr_ne h hm)
  · exact IOM.Keeps.pure Rests.frame _
  · exact handleRequest_rests _ _ _ _ _

/-- Only opening a document changes the project. -/
theorem dispatch_project {X : ServerEnv} {s s' : Server} {msg : Json} {w w' : World}
    (h : msg.get (chars! "method") ≠ some (.str (chars! "textDocument/didOpen")))
    (hd : dispatch X s msg w = (.ok s', w')) : s'.project = s.project := by
  have key : ∀ {α : Type} {x : IOM α} {w w' : World} {s' : Server}, (x >>= fun _ => pure s) w = (.ok s', w') →
      s'.project = s.project := by
    intro α x w w' s' h
    obtain ⟨_, _, _, h⟩ := IOM.bind_ok.mp h
    injection h with h _
    injection h with h
    rw [← h]
  have pure' : ∀ {w w' : World} {s' : Server}, (pure s : IOM Server) w = (.ok s', w') → s'.project = s.project := by
    intro w w' s' h
    injection h with h _
    injection h with h
    rw [← h]
  unfold dispatch at hd
  rcases hid : (msg.get (chars! "id")).bind Json.asI64 with _ | id <;>
    rcases hm : (msg.get (chars! "method")).bind Json.asStr with _ | method <;> rw [hid, hm] at hd <;> simp only at hd
  · exact key hd
  · unfold handleNotification at hd
    rw [if_neg (asStr_ne h hm)] at hd
    by_cases h1 : method = chars! "initialized"
    · rw [if_pos h1] at hd
      exact key hd
    rw [if_neg h1] at hd
    by_cases h1 : method = chars! "textDocument/didChange"
    · rw [if_pos h1] at hd
      rcases hx : X.P.didChange (msg.index (chars! "params")) with _ | _ <;> rw [hx] at hd
      · rw [if_neg (by simp)] at hd
        simp [IOM.fail] at hd
      · rw [if_pos rfl] at hd
        exact pure' hd
    rw [if_neg h1] at hd
    by_cases h1 : method = chars! "textDocument/didSave"
    · rw [if_pos h1] at hd
      rcases hx : X.P.didSave (msg.index (chars! "params")) with _ | _ <;> rw [hx] at hd
      · simp [IOM.fail] at hd
      · exact key hd
    rw [if_neg h1] at hd
    exact pure' hd
  · exact pure' hd
  · unfold handleRequest at hd
    by_cases h1 : method = chars! "initialize"
    · rw [if_pos h1] at hd
      obtain ⟨_, _, _, hd⟩ := IOM.bind_ok.mp hd
      rcases hx : X.P.initParams (msg.index (chars! "params")) with _ | _ <;> rw [hx] at hd
      · simp [IOM.fail] at hd
      · obtain ⟨_, _, _, hd⟩ := IOM.bind_ok.mp hd
        injection hd with hd _
        injection hd with hd
        rw [← hd]
    rw [if_neg h1] at hd
    by_cases h1 : method = chars! "textDocument/semanticTokens/full"
    · rw [if_pos h1] at hd
      rcases hx : X.P.semanticTokens (msg.index (chars! "params")) with _ | _ <;> rw [hx] at hd
      · simp [IOM.fail] at hd
      · exact key hd
    rw [if_neg h1] at hd
    by_cases h1 : method = chars! "textDocument/completion"
    · rw [if_pos h1] at hd
      rcases hx : X.P.completion (msg.index (chars! "params")) with _ | _ <;> rw [hx] at hd
      · simp [IOM.fail] at hd
      · exact key hd
    rw [if_neg h1] at hd
    exact key hd

theorem handleAll_project {X : ServerEnv} : ∀ {msgs : List Json} {s s' : Server} {w w' : World},
    (∀ msg ∈ msgs, msg.get (chars! "method") ≠ some (.str (chars! "textDocument/didOpen"))) →
    handleAll X msgs s w = (.ok s', w') → s'.project = s.project ∧ Rests w w'
  | [], s, s', w, w', _, hd => by
    injection hd with h1 h2
    injection h1 with h1
    rw [← h1, ← h2]
    exact ⟨rfl, Rests.frame.refl _⟩
  | msg :: msgs, s, s', w, w', h, hd => by
    obtain ⟨s1, w1, h1, h2⟩ := IOM.bind_ok.mp hd
    obtain ⟨h3, h4⟩ := handleAll_project (fun m hm => h m (List.mem_cons_of_mem _ hm)) h2
    have h5 := dispatch_rests X s msg (h msg List.mem_cons_self) w
    rw [h1] at h5
    exact ⟨h3.trans (dispatch_project (h msg List.mem_cons_self) h1), Rests.frame.trans h5 h4⟩

/-! ### Opening a document -/

theorem open_run {X : ServerEnv} {s : Server} {msg : Json} {uri root dir file path : Str} {w : World} {c : Config}
    (hw : w.Healthy) (hm : msg.IsEvent (chars! "textDocument/didOpen"))
    (hp : X.P.didOpen (msg.index (chars! "params")) = some uri) (hf : X.P.toFilePath uri = some path)
    (hd : DocumentPath root dir file path) (hc : w.ConfigAt X.E.toml root c) :
    dispatch X s msg w = (do
      let md ← downloadPlugins X.E.hash c
      return { s with project := some md }) { w with clock := w.clock + 1 } := by
  obtain ⟨r, h1, h2⟩ := configPath_of hd.dir.1 hd.dir.2 hd.file hd.root
  obtain ⟨b, t, v, g1, g2, g3, g4⟩ := hc
  rw [dispatch_event hm, handleNotification, if_neg (by decide), if_pos rfl, hp]
  simp only
  rw [didOpen, hf]
  simp only [Option.bind_some]
  rw [hd.path, h1]
  simp only
  rw [IOM.bind_run, attempt_run]
  have : loadConfigAt X.E.toml r w = (.ok c, { w with clock := w.clock + 1 }) := by
    unfold loadConfigAt
    rw [h2, IOM.bind_of_ok (readText_run g1 g2 (hw _ (Nat.le_refl _))), Toml.readConfig, g3]
    simp only
    rw [g4]
    rfl
  rw [this]

theorem open_none {X : ServerEnv} {s : Server} {msg : Json} {uri root dir file path : Str} {w : World}
    (hw : w.Healthy) (hm : msg.IsEvent (chars! "textDocument/didOpen"))
    (hp : X.P.didOpen (msg.index (chars! "params")) = some uri) (hf : X.P.toFilePath uri = some path)
    (hd : DocumentPath root dir file path) (hc : ∀ c, ¬ w.ConfigAt X.E.toml root c) :
    dispatch X s msg w = (.ok s, { w with clock := w.clock + 1 }) := by
  obtain ⟨r, h1, h2⟩ := configPath_of hd.dir.1 hd.dir.2 hd.file hd.root
  rw [dispatch_event hm, handleNotification, if_neg (by decide), if_pos rfl, hp]
  simp only
  rw [didOpen, hf]
  simp only [Option.bind_some]
  rw [hd.path, h1]
  simp only
  rw [IOM.bind_run, attempt_run]
  have : ∃ m, loadConfigAt X.E.toml r w = (.err m, { w with clock := w.clock + 1 }) := by
    unfold loadConfigAt
    rw [h2, IOM.bind_run]
    rcases hb : w.files.get (root ++ chars! "/Brack.toml") with _ | b
    · obtain ⟨m, h⟩ := readText_fails (w := w) (path := root ++ chars! "/Brack.toml") (fun b t h => by
        rw [hb] at h
        simp at h)
      rw [h]
      exact ⟨m, rfl⟩
    · rcases ht : fromUtf8 b with _ | t
      · obtain ⟨m, h⟩ := readText_fails (w := w) (path := root ++ chars! "/Brack.toml") (fun b' t h => by
          rw [hb] at h
          injection h with h
          rw [← h, ht]
          simp)
        rw [h]
        exact ⟨m, rfl⟩
      · rw [readText_run hb ht (hw _ (Nat.le_refl _))]
        simp only
        rw [IOM.lift_run, Toml.readConfig]
        rcases hv : X.E.toml.parse t with _ | v
        · exact ⟨_, rfl⟩
        · simp only
          rcases hcv : Config.ofToml v with c | m | _
          · exact absurd ⟨b, t, v, hb, ht, hv, hcv⟩ (hc c)
          · exact ⟨m, rfl⟩
          · exact absurd hcv (Config.ofToml_ne_panic v)
  obtain ⟨m, h⟩ := this
  rw [h]
  rfl

end Server

end Brack
