import Verif.Proof.Again

/-
Repeated builds of projects the plugins of which have to be downloaded (C111).
-/

namespace Brack

/-- A file can be written there. -/
def Writable (w : World) (p : Str) : Prop := w.hasDir (parentDir p) = true ∧ p ∉ w.dirs

theorem parentDir_prefix (p : Str) : parentDir p <+: p := by
  have h : ((p.reverse.dropWhile (· ≠ '/')).drop 1) <:+ p.reverse :=
    (List.drop_suffix _ _).trans (List.dropWhile_suffix _)
  rw [parentDir]
  have := List.reverse_prefix.mpr h
  rwa [List.reverse_reverse] at this

theorem pluginFile_parent (hash : PluginSchema → Str) (n : Str) (s : PluginSchema) :
    parentDir (pluginFile hash n s) ≠ chars! "out" := by
  intro h
  obtain ⟨u, hu⟩ := parentDir_prefix (pluginFile hash n s)
  rw [h] at hu
  have := congrArg List.head? hu
  simp [pluginFile] at this

theorem pluginFile_out (hash : PluginSchema → Str) (n : Str) (s : PluginSchema) : pluginFile hash n s ≠ chars! "out" := by
  simp [pluginFile]

theorem pluginFile_output {hash : PluginSchema → Str} {n : Str} {s : PluginSchema} {names : List Str} {backend : Str} :
    ¬ OutputOf names backend (pluginFile hash n s) := by
  rintro ⟨stem, _, hs⟩
  simp [outputPath, pluginFile] at hs

theorem pluginFile_entry (hash : PluginSchema → Str) (n : Str) (s : PluginSchema) :
    entryName (chars! "docs") (pluginFile hash n s) = none := by
  rcases h : entryName (chars! "docs") (pluginFile hash n s) with _ | m
  · rfl
  · have := congrArg List.head? (entryName_iff.mp h).1
    simp [pluginFile] at this

theorem Writable.congr {hash : PluginSchema → Str} {n : Str} {s : PluginSchema} {u v : World}
    (hd : ∀ d, d ≠ chars! "out" → (d ∈ v.dirs ↔ d ∈ u.dirs)) (h : Writable u (pluginFile hash n s)) :
    Writable v (pluginFile hash n s) := by
  refine ⟨?_, fun hm => h.2 ((hd _ (pluginFile_out _ _ _)).mp hm)⟩
  have h1 := h.1
  simp only [World.hasDir, Bool.or_eq_true, decide_eq_true_eq] at h1 ⊢
  exact h1.imp id (hd _ (pluginFile_parent _ _ _)).mpr

/-- What storing the responses does, however it ends. -/
theorem storeLoop_frame (rs : List (Task × Option Bytes)) (md : PluginsMetadata) (w : World)
    (hpl : ∀ r ∈ rs, entryName (chars! "docs") r.1.path = none) :
    (storeLoop rs md w).2.dirs = w.dirs ∧
    ((storeLoop rs md w).2.files.map (·.1)).filterMap (entryName (chars! "docs")) =
      (w.files.map (·.1)).filterMap (entryName (chars! "docs")) ∧
    ∀ p, (storeLoop rs md w).2.files.get p = w.files.get p ∨ (∃ r ∈ rs, r.1.path = p) ∧ Writable w p := by
  induction rs generalizing md w with
  | nil => exact ⟨rfl, rfl, fun _ => .inl rfl⟩
  | cons r rs ih =>
    obtain ⟨t, _ | b⟩ := r
    · exact ⟨rfl, rfl, fun _ => .inl rfl⟩
    · have key : (IOM.writeFile t.path b w).2.dirs = w.dirs ∧
          ((IOM.writeFile t.path b w).2.files.map (·.1)).filterMap (entryName (chars! "docs")) =
            (w.files.map (·.1)).filterMap (entryName (chars! "docs")) ∧
          ∀ p, (IOM.writeFile t.path b w).2.files.get p = w.files.get p ∨ t.path = p ∧ Writable w p := by
        have hone : ∀ b' : Bytes, ∀ p, (w.files.insert t.path b').get p = w.files.get p ∨ t.path = p := by
          intro b' p
          by_cases e : p = t.path
          · exact .inr e.symm
          · exact .inl (HMap.get_insert_ne e _ _)
        have hent := hpl _ List.mem_cons_self
        rcases writeFile_cases t.path b w with ⟨_, _, k1, k2, h⟩ | ⟨_, h, _⟩ | ⟨k, _, _, k1, k2, h⟩ <;> rw [h]
        · exact ⟨rfl, entries_insert hent, fun p => (hone b p).imp id fun e => ⟨e, e ▸ ⟨k1, k2⟩⟩⟩
        · exact ⟨rfl, rfl, fun _ => .inl rfl⟩
        · exact ⟨rfl, entries_insert hent, fun p => (hone _ p).imp id fun e => ⟨e, e ▸ ⟨k1, k2⟩⟩⟩
      rw [storeLoop]
      rcases IOM.bind_cases (IOM.writeFile t.path b) (fun _ => storeLoop rs (md.insert t.name (t.path, t.flag))) w with
        ⟨u, w1, h1, h2⟩ | ⟨_, _, h2⟩
      · rw [h2]
        rw [h1] at key
        obtain ⟨k1, k2, k3⟩ := key
        obtain ⟨i1, i2, i3⟩ := ih (md.insert t.name (t.path, t.flag)) w1 fun r hr => hpl r (List.mem_cons_of_mem _ hr)
        simp only at k1 k2 k3
        refine ⟨i1.trans k1, i2.trans k2, fun p => ?_⟩
        rcases i3 p with h | ⟨⟨r, hr, hp⟩, hw⟩
        · rw [h]
          rcases k3 p with h | ⟨h, hw⟩
          · exact .inl h
          · exact .inr ⟨⟨_, List.mem_cons_self, h⟩, hw⟩
        · refine .inr ⟨⟨r, List.mem_cons_of_mem _ hr, hp⟩, ?_⟩
          rw [Writable, World.hasDir, k1] at hw
          exact hw
      · rw [h2]
        exact ⟨key.1, key.2.1, fun p => (key.2.2 p).imp id fun h => ⟨⟨_, List.mem_cons_self, h.1⟩, h.2⟩⟩

theorem plugin_iff {c : Config} {m : HMap Str PluginSchema} (hm : c.plugins = some m) (hn : (m.map (·.1)).Nodup)
    {n : Str} {s : PluginSchema} : c.plugin n = some s ↔ (n, s) ∈ m := by
  rw [Config.plugin, hm]
  exact HMap.get_eq_some hn

/-- What a download does, however it ends. -/
theorem downloadPlugins_frame {hash : PluginSchema → Str} {c : Config}
    (hn : ∀ m, c.plugins = some m → (m.map (·.1)).Nodup) (w : World) :
    (downloadPlugins hash c w).2.dirs = w.dirs ∧
    ((downloadPlugins hash c w).2.files.map (·.1)).filterMap (entryName (chars! "docs")) =
      (w.files.map (·.1)).filterMap (entryName (chars! "docs")) ∧
    ∀ p, (downloadPlugins hash c w).2.files.get p = w.files.get p ∨
      (∃ n s, c.plugin n = some s ∧ p = pluginFile hash n s ∧ w.pathExists p = false) ∧ Writable w p := by
  rcases hm : c.plugins with _ | m
  · rw [downloadPlugins_none hash hm]
    exact ⟨rfl, rfl, fun _ => .inl rfl⟩
  · obtain ⟨rs, w1, h1, h2, _, _, h4, h5, _⟩ := downloadPlugins_some hash hm w
    have hrs : ∀ r ∈ rs, ∃ n s, c.plugin n = some s ∧ r.1.path = pluginFile hash n s ∧ w.pathExists r.1.path = false := by
      intro r hr
      have : r.1 ∈ rs.map (·.1) := List.mem_map.mpr ⟨r, hr, rfl⟩
      rw [h2] at this
      obtain ⟨x, hx, hex, ht⟩ := (mem_missingTasks hash _).mp this
      rw [ht]
      exact ⟨x.1, x.2, (plugin_iff hm (hn m hm)).mpr hx, rfl, hex⟩
    rw [h1]
    obtain ⟨k1, k2, k3⟩ := storeLoop_frame rs (cachedMeta hash w m []) w1 (by
      intro r hr
      obtain ⟨n, s, _, hp, _⟩ := hrs r hr
      rw [hp]
      exact pluginFile_entry _ _ _)
    rw [h4] at k2 k3
    rw [h5] at k1
    refine ⟨k1, k2, fun p => (k3 p).imp id ?_⟩
    rintro ⟨⟨r, hr, rfl⟩, hw⟩
    rw [Writable, World.hasDir, h5] at hw
    exact ⟨hrs r hr, hw⟩

theorem downloadPlugins_faults (hash : PluginSchema → Str) (c : Config) (w : World) :
    (downloadPlugins hash c w).2.faults = w.faults ∧ w.clock ≤ (downloadPlugins hash c w).2.clock := by
  rcases hm : c.plugins with _ | m
  · rw [downloadPlugins_none hash hm]
    exact ⟨rfl, Nat.le_refl _⟩
  · obtain ⟨rs, w1, h1, _, _, _, _, _, h6, _, h8, _⟩ := downloadPlugins_some hash hm w
    rw [h1]
    have := storeLoop_goes rs (cachedMeta hash w m []) w1
    exact ⟨this.faults.trans h6, Nat.le_trans h8 this.clock⟩

/-- What a download from a server that always has the same files leaves, if no write is cut short: files that were not
there are there and are those of the server, or are not there. -/
theorem downloadPlugins_serves {hash : PluginSchema → Str} (hh : ∀ s, '_' ∉ hash s) {c : Config}
    (hn : ∀ m, c.plugins = some m → (m.map (·.1)).Nodup) {serve : Str → Bytes} {w : World}
    (hs : ∀ n url b, w.http n url = some b → b = serve url) (hw : w.Uncut) {n : Str} {s : PluginSchema}
    (hc : c.plugin n = some s) :
    (downloadPlugins hash c w).2.files.get (pluginFile hash n s) = w.files.get (pluginFile hash n s) ∨
    (downloadPlugins hash c w).2.files.get (pluginFile hash n s) = some (serve (pluginUrl c.document.backend n s)) := by
  rcases hm : c.plugins with _ | m
  · rw [downloadPlugins_none hash hm]
    exact .inl rfl
  · obtain ⟨rs, w1, h1, h2, h3, _, h4, _, h6, _, h8, _⟩ := downloadPlugins_some hash hm w
    rw [h1]
    have hu : w1.Uncut := by intro i k hi; rw [h6]; exact hw i k (by omega)
    rcases storeLoop_files (rs := rs) (md := cachedMeta hash w m []) hu (pluginFile hash n s) with h | ⟨t, b, ht, hp, h⟩
    · exact .inl (by rw [h, h4])
    · refine .inr ?_
      rw [h]
      obtain ⟨i, hi⟩ := h3 t b ht
      have htm : t ∈ rs.map (·.1) := List.mem_map.mpr ⟨_, ht, rfl⟩
      rw [h2] at htm
      obtain ⟨x, hx, _, rfl⟩ := (mem_missingTasks hash _).mp htm
      simp only at hp hi
      obtain ⟨rfl, _⟩ := cachePath_inj hash hh (hp : cachePath hash x.1 x.2 = cachePath hash n s)
      have hg := (plugin_iff hm (hn m hm)).mpr hx
      rw [hc] at hg
      injection hg with hg
      subst hg
      rw [hs _ _ _ hi]
      rfl

/-- A successful download from a steady server. -/
theorem downloadPlugins_filled {hash : PluginSchema → Str} (hh : ∀ s, '_' ∉ hash s) {c : Config}
    (hn : ∀ m, c.plugins = some m → (m.map (·.1)).Nodup) {serve : Str → Bytes} {w w1 : World} {md : PluginsMetadata}
    (hs : ∀ n url, w.http n url = some (serve url)) (hw : w.Uncut) (h : downloadPlugins hash c w = (.ok md, w1)) :
    (∀ n s, c.plugin n = some s → w.pathExists (pluginFile hash n s) = false →
      Writable w (pluginFile hash n s) ∧
        w1.files.get (pluginFile hash n s) = some (serve (pluginUrl c.document.backend n s))) ∧
    ∀ p, (∀ n s, c.plugin n = some s → p = pluginFile hash n s → w.pathExists p = true) →
      w1.files.get p = w.files.get p := by
  obtain ⟨k1, k2, k3⟩ := downloadPlugins_frame (hash := hash) hn w
  constructor
  · intro n s hc hex
    have hno : w.files.get (pluginFile hash n s) = none ∧ pluginFile hash n s ∉ w.dirs := by
      simpa [World.pathExists] using hex
    have hnow : w1.pathExists (pluginFile hash n s) = true := by
      rcases hm : c.plugins with _ | m
      · rw [Config.plugin, hm] at hc
        cases hc
      · exact (downloadPlugins_ok hash hm (hn m hm) h).2 (n, s) ((plugin_iff hm (hn m hm)).mp hc)
    have hser := downloadPlugins_serves hh hn (serve := serve) (w := w)
      (fun i url b hb => by rw [hs] at hb; injection hb with hb; exact hb.symm) hw hc
    have k3 := k3 (pluginFile hash n s)
    rw [h] at k1 k3 hser
    simp only at k1 k3 hser
    rw [World.pathExists, Bool.or_eq_true, decide_eq_true_eq, k1] at hnow
    have hsome := hnow.resolve_right hno.2
    rcases hser with h | h
    · rw [h, hno.1] at hsome
      cases hsome
    · refine ⟨?_, h⟩
      rcases k3 with h' | h'
      · rw [h', hno.1] at hsome
        cases hsome
      · exact h'.2
  · intro p hp
    have k3 := k3 p
    rw [h] at k3
    rcases k3 with h' | ⟨⟨n, s, hc, he, hex⟩, _⟩
    · exact h'
    · rw [hp n s hc he] at hex
      cases hex

/-- A download succeeds if the server answers and the files that are missing can be written. -/
theorem downloadPlugins_succeeds {hash : PluginSchema → Str} {c : Config}
    (hn : ∀ m, c.plugins = some m → (m.map (·.1)).Nodup) {serve : Str → Bytes} {w : World}
    (hs : ∀ n url, w.http n url = some (serve url)) (hw : w.Healthy)
    (hwr : ∀ n s, c.plugin n = some s → w.pathExists (pluginFile hash n s) = false → Writable w (pluginFile hash n s)) :
    ∃ md w1, downloadPlugins hash c w = (.ok md, w1) := by
  rcases hm : c.plugins with _ | m
  · exact ⟨_, _, downloadPlugins_none hash hm w⟩
  · obtain ⟨rs, w1, h1, h2, _, h3, h4, h5, h6, _, h8, _⟩ := downloadPlugins_some hash hm w
    obtain ⟨md, w2, h, _⟩ := storeLoop_run (rs := rs) (md := cachedMeta hash w m []) (w := w1)
      (fun i hi => by rw [h6]; exact hw i (by omega))
      (by
        rintro ⟨t, _ | b⟩ hr
        · obtain ⟨i, hi⟩ := h3 t hr
          rw [hs] at hi
          cases hi
        · rfl)
      (by
        intro r hr
        have htm : r.1 ∈ rs.map (·.1) := List.mem_map.mpr ⟨_, hr, rfl⟩
        rw [h2] at htm
        obtain ⟨x, hx, hex, ht⟩ := (mem_missingTasks hash _).mp htm
        have := hwr x.1 x.2 ((plugin_iff hm (hn m hm)).mpr hx) hex
        rw [World.hasDir, h5, ht]
        exact this)
    exact ⟨md, w2, h1.trans h⟩

/-- Two disks that differ only in outputs and in that files of plugins that are on one of them are still to be
downloaded on the other. -/
structure Agree (hash : PluginSchema → Str) (c : Config) (serve : Str → Bytes) (u v : World) : Prop where
  files : ∀ p, ¬ OutputOf (u.entries (chars! "docs")) c.document.backend p →
    (∀ n s, c.plugin n = some s → p ≠ pluginFile hash n s) → v.files.get p = u.files.get p
  plugins : ∀ n s, c.plugin n = some s →
    v.files.get (pluginFile hash n s) = u.files.get (pluginFile hash n s) ∨
    (u.files.get (pluginFile hash n s) = none ∧ Writable u (pluginFile hash n s) ∧
      v.files.get (pluginFile hash n s) = some (serve (pluginUrl c.document.backend n s))) ∨
    (v.files.get (pluginFile hash n s) = none ∧ Writable v (pluginFile hash n s) ∧
      u.files.get (pluginFile hash n s) = some (serve (pluginUrl c.document.backend n s)))
  listed : v.entries (chars! "docs") = u.entries (chars! "docs")
  dirs : ∀ d, d ≠ chars! "out" → (d ∈ v.dirs ↔ d ∈ u.dirs)
  out : (chars! "out" ∈ v.dirs ↔ chars! "out" ∈ u.dirs) ∨ (u.entries (chars! "docs")).filterMap docStem ≠ []

theorem Agree.symm {hash : PluginSchema → Str} {c : Config} {serve : Str → Bytes} {u v : World}
    (h : Agree hash c serve u v) : Agree hash c serve v u :=
  ⟨fun p h1 h2 => (h.files p (by rw [← h.listed]; exact h1) h2).symm,
    fun n s hc => (h.plugins n s hc).elim (fun h => .inl h.symm) fun h => .inr h.symm,
    h.listed.symm, fun d hd => (h.dirs d hd).symm, by rw [h.listed]; exact h.out.imp Iff.symm id⟩

theorem Agree.of_disk {hash : PluginSchema → Str} {c : Config} {serve : Str → Bytes} {u v u' v' : World}
    (h : Agree hash c serve u v) (hu : u.SameDisk u') (hv : v.SameDisk v') : Agree hash c serve u' v' := by
  have h1 : u'.entries (chars! "docs") = u.entries (chars! "docs") := by rw [World.entries, World.entries, hu.1, hu.2]
  have h2 : v'.entries (chars! "docs") = v.entries (chars! "docs") := by rw [World.entries, World.entries, hv.1, hv.2]
  refine ⟨?_, ?_, by rw [h1, h2]; exact h.listed, by rw [hu.2, hv.2]; exact h.dirs, by rw [h1, hu.2, hv.2]; exact h.out⟩
  · rw [h1, hu.1, hv.1]
    exact h.files
  · simp only [Writable, World.hasDir]
    rw [hu.1, hv.1, hu.2, hv.2]
    exact h.plugins

theorem entries_of {w w' : World} (h1 : w'.dirs = w.dirs)
    (h2 : (w'.files.map (·.1)).filterMap (entryName (chars! "docs")) =
      (w.files.map (·.1)).filterMap (entryName (chars! "docs"))) :
    w'.entries (chars! "docs") = w.entries (chars! "docs") := by
  rw [World.entries, World.entries, h2, h1]

/-- After the downloads the disks differ only in outputs. -/
theorem Agree.near {hash : PluginSchema → Str} (hh : ∀ s, '_' ∉ hash s) {c : Config}
    (hn : ∀ m, c.plugins = some m → (m.map (·.1)).Nodup) {serve : Str → Bytes} {u v u1 v1 : World}
    {md md2 : PluginsMetadata} (h : Agree hash c serve u v) (hu : ∀ n url, u.http n url = some (serve url))
    (hv : ∀ n url, v.http n url = some (serve url)) (hu2 : u.Uncut) (hv2 : v.Uncut)
    (h1 : downloadPlugins hash c u = (.ok md, u1)) (h2 : downloadPlugins hash c v = (.ok md2, v1)) :
    Near c.document.backend u1 v1 := by
  obtain ⟨a1, a2⟩ := downloadPlugins_filled hh hn hu hu2 h1
  obtain ⟨b1, b2⟩ := downloadPlugins_filled hh hn hv hv2 h2
  have fu := downloadPlugins_frame (hash := hash) hn u
  have fv := downloadPlugins_frame (hash := hash) hn v
  rw [h1] at fu
  rw [h2] at fv
  have eu := entries_of fu.1 fu.2.1
  have ev := entries_of fv.1 fv.2.1
  simp only at fu fv eu ev
  refine ⟨fun p hp => ?_, by rw [eu, ev]; exact h.listed, by rw [fu.1, fv.1]; exact h.dirs,
    by rw [eu, fu.1, fv.1]; exact h.out⟩
  rw [eu] at hp
  by_cases hpl : ∃ n s, c.plugin n = some s ∧ p = pluginFile hash n s
  · obtain ⟨n, s, hc, rfl⟩ := hpl
    have hd := h.dirs _ (pluginFile_out hash n s)
    -- present ones are kept, missing ones are those of the server
    have keep : ∀ {w w1 : World}, (∀ p, (∀ n s, c.plugin n = some s → p = pluginFile hash n s → w.pathExists p = true) →
        w1.files.get p = w.files.get p) → w.pathExists (pluginFile hash n s) = true →
        w1.files.get (pluginFile hash n s) = w.files.get (pluginFile hash n s) :=
      fun H he => H _ fun _ _ _ _ => he
    by_cases hmem : pluginFile hash n s ∈ u.dirs
    · have hmv := hd.mpr hmem
      rw [keep a2 (by simp [World.pathExists, hmem]), keep b2 (by simp [World.pathExists, hmv])]
      rcases h.plugins n s hc with e | ⟨_, e, _⟩ | ⟨_, e, _⟩
      · exact e
      · exact absurd hmem e.2
      · exact absurd hmv e.2
    · have hmv : pluginFile hash n s ∉ v.dirs := fun e => hmem (hd.mp e)
      have full : ∀ {w w1 : World}, (∀ n s, c.plugin n = some s → w.pathExists (pluginFile hash n s) = false →
          Writable w (pluginFile hash n s) ∧
            w1.files.get (pluginFile hash n s) = some (serve (pluginUrl c.document.backend n s))) →
          pluginFile hash n s ∉ w.dirs → w.files.get (pluginFile hash n s) = none →
          w1.files.get (pluginFile hash n s) = some (serve (pluginUrl c.document.backend n s)) :=
        fun H h1 h2 => (H n s hc (by simp [World.pathExists, h1, h2])).2
      rcases h.plugins n s hc with e | ⟨e1, _, e2⟩ | ⟨e1, _, e2⟩
      · rcases hg : u.files.get (pluginFile hash n s) with _ | b
        · rw [full a1 hmem hg, full b1 hmv (e.trans hg)]
        · rw [keep a2 (by simp [World.pathExists, hg]), keep b2 (by simp [World.pathExists, e.trans hg])]
          exact e
      · rw [full a1 hmem e1, keep b2 (by simp [World.pathExists, e2])]
        exact e2
      · rw [full b1 hmv e1, keep a2 (by simp [World.pathExists, e2])]
        exact e2.symm
  · have hno : ∀ n s, c.plugin n = some s → p ≠ pluginFile hash n s := fun n s hc e => hpl ⟨n, s, hc, e⟩
    rw [a2 p fun n s hc e => absurd e (hno n s hc), b2 p fun n s hc e => absurd e (hno n s hc)]
    exact h.files p hp hno

theorem uncut_of_healthy {w : World} (h : w.Healthy) : w.Uncut := by
  intro n k hn e
  rw [h n hn] at e
  cases e

/-- Builds on disks that agree. -/
theorem buildCommand_agree {W : Wasm} {E E2 : Env} (hS : E2.S = E.S) (hK : E2.checks = E.checks) (hT : E2.toml = E.toml)
    (hH : E2.hash = E.hash) (hh : ∀ s, '_' ∉ E.hash s) {serve : Str → Bytes} {u v u' : World} (hval : u.Valid)
    (hu : ∀ n url, u.http n url = some (serve url)) (hv : ∀ n url, v.http n url = some (serve url)) (hu2 : u.Healthy)
    (hv2 : v.Healthy)
    (hagree : ∀ b t c, u.files.get (chars! "Brack.toml") = some b → fromUtf8 b = some t → E.toml.readConfig t = .ok c →
      Agree E.hash c serve u v)
    (h : buildCommand W E u = (.ok (), u')) :
    ∃ v', buildCommand W E2 v = (.ok (), v') ∧ (∀ p, v'.files.get p = u'.files.get p) ∧
      (∀ d, d ∈ v'.dirs ↔ d ∈ u'.dirs) := by
  unfold buildCommand at h
  obtain ⟨c, wa, ha, h⟩ := IOM.bind_ok.mp h
  obtain ⟨rfl, b, t, hb, ht, hc⟩ := loadBrackToml_ok ha
  obtain ⟨x, hx, hxc⟩ := readConfig_iff.mp hc
  have hn : ∀ m, c.plugins = some m → (m.map (·.1)).Nodup := fun m hm => Config.ofToml_nodup hxc hm
  have ha := hagree b t c hb ht hc
  have hbv : v.files.get (chars! "Brack.toml") = some b := by
    rw [ha.files _ ?_ ?_]
    · exact hb
    · rintro ⟨stem, _, hs⟩
      simp [outputPath] at hs
    · intro n s _
      simp [pluginFile]
  have ha' : Agree E.hash c serve { u with clock := u.clock + 1 } { v with clock := v.clock + 1 } :=
    ha.of_disk ⟨rfl, rfl⟩ ⟨rfl, rfl⟩
  have hload := loadBrackToml_run (T := E.toml) hv2 hbv ht hc
  obtain ⟨md, u1, hd1, h⟩ := IOM.bind_ok.mp h
  have hhu : ({ u with clock := u.clock + 1 } : World).Healthy := fun n hn => hu2 n (by simp only at hn; omega)
  have hhv : ({ v with clock := v.clock + 1 } : World).Healthy := fun n hn => hv2 n (by simp only at hn; omega)
  obtain ⟨f1, _⟩ := downloadPlugins_filled hh hn (serve := serve) (w := { u with clock := u.clock + 1 }) hu (uncut_of_healthy hhu) hd1
  obtain ⟨md2, v1, hd2⟩ := downloadPlugins_succeeds (hash := E.hash) hn (serve := serve)
    (w := { v with clock := v.clock + 1 }) hv hhv (by
      intro n s hcn hex
      have hno : v.files.get (pluginFile E.hash n s) = none ∧ pluginFile E.hash n s ∉ v.dirs := by
        simpa [World.pathExists] using hex
      rcases ha.plugins n s hcn with e | ⟨_, _, e⟩ | ⟨_, e, _⟩
      · refine Writable.congr ha'.dirs (f1 n s hcn ?_).1
        have h1 : u.files.get (pluginFile E.hash n s) = none := e.symm.trans hno.1
        have h2 : pluginFile E.hash n s ∉ u.dirs := fun hm => hno.2 ((ha.dirs _ (pluginFile_out _ _ _)).mpr hm)
        simp [World.pathExists, h1, h2]
      · rw [hno.1] at e
        cases e
      · exact e)
  have hperm : md2.Perm md := by
    rcases hm : c.plugins with _ | m
    · rw [downloadPlugins_none E.hash hm] at hd1 hd2
      injection hd1 with e1 _
      injection hd2 with e2 _
      injection e1 with e1
      injection e2 with e2
      rw [← e1, ← e2]
    · refine HMap.perm_of_get (downloadPlugins_nodup hd1) (downloadPlugins_nodup hd2) fun n => ?_
      rw [(downloadPlugins_ok E.hash hm (hn m hm) hd2).1 n, (downloadPlugins_ok E.hash hm (hn m hm) hd1).1 n]
  have hout : ∀ x ∈ md, ¬ chars! "out/" <+: x.2.1 := by
    rintro x hx ⟨a, ha⟩
    obtain ⟨a', ha'⟩ := downloadPlugins_paths hn hd1 x hx
    have := congrArg List.head? (ha.trans ha'.symm)
    simp at this
  have hval1 : u1.Valid := by
    have := downloadPlugins_valid E.hash c { u with clock := u.clock + 1 } hval
    rw [hd1] at this
    exact this
  have hg := downloadPlugins_faults E.hash c { v with clock := v.clock + 1 }
  rw [hd2] at hg
  have hnear := ha'.near hh hn hu hv (uncut_of_healthy hhu) (uncut_of_healthy hhv) hd1 hd2
  obtain ⟨v', k1, k2⟩ := build_near (E2 := E2) hS hK (downloadPlugins_nodup hd1) hperm hout hval1 hnear h
    (fun i hi => by
      rw [hg.1]
      exact hhv i (Nat.le_trans hg.2 hi))
  refine ⟨v', ?_, k2⟩
  unfold buildCommand
  rw [hT, hH, IOM.bind_of_ok hload, IOM.bind_of_ok hd2]
  exact k1

/-- A build first downloads plugins, then writes outputs; either may be cut short. -/
theorem buildCommand_split {W : Wasm} {E : Env} {w : World} {b : Bytes} {t : Str} {c : Config}
    (hb : w.files.get (chars! "Brack.toml") = some b) (ht : fromUtf8 b = some t) (hc : E.toml.readConfig t = .ok c) :
    ∃ w1 : World, (w1 = w ∨ w1 = (downloadPlugins E.hash c { w with clock := w.clock + 1 }).2) ∧
      Left (OutputOf (w1.entries (chars! "docs")) c.document.backend) w1 (buildCommand W E w).2 := by
  have hquiet : IOM.Keeps Quiet (loadBrackToml E.toml) := by
    unfold loadBrackToml
    exact IOM.Keeps.bind Quiet.frame (readText_quiet _) fun _ => IOM.Keeps.lift Quiet.frame _
  have hq := hquiet w
  unfold buildCommand
  rcases IOM.bind_cases (loadBrackToml E.toml) (fun config => do
      let md ← downloadPlugins E.hash config
      build W E config md) w with ⟨c2, w2, h1, h2⟩ | ⟨_, _, h2⟩
  · rw [h2]
    obtain ⟨rfl, b2, t2, hb2, ht2, hc2⟩ := loadBrackToml_ok h1
    rw [hb] at hb2
    injection hb2 with hb2
    subst hb2
    rw [ht] at ht2
    injection ht2 with ht2
    subst ht2
    rw [hc] at hc2
    injection hc2 with hc2
    subst hc2
    refine ⟨(downloadPlugins E.hash c { w with clock := w.clock + 1 }).2, .inr rfl, ?_⟩
    rcases IOM.bind_cases (downloadPlugins E.hash c) (fun md => build W E c md) { w with clock := w.clock + 1 } with
      ⟨md, w3, k1, k2⟩ | ⟨_, _, k2⟩
    · rw [k2, k1]
      exact build_left W E c md w3
    · rw [k2]
      exact (Left.frame _).refl _
  · rw [h2]
    exact ⟨w, .inl rfl, fun p _ => by rw [hq.1], by rw [hq.1], .inl hq.2.1⟩

/-- What an interrupted `brack build` leaves behind. -/
theorem buildCommand_leaves {W : Wasm} {E : Env} {w : World} {b : Bytes} {t : Str} {c : Config} {serve : Str → Bytes}
    (hb : w.files.get (chars! "Brack.toml") = some b) (ht : fromUtf8 b = some t) (hc : E.toml.readConfig t = .ok c)
    (hwhole : ∀ n s b, c.plugin n = some s → w.pathExists (pluginFile E.hash n s) = false →
      (buildCommand W E w).2.files.get (pluginFile E.hash n s) = some b → b = serve (pluginUrl c.document.backend n s)) :
    Agree E.hash c serve w (buildCommand W E w).2 := by
  obtain ⟨x, hx, hxc⟩ := readConfig_iff.mp hc
  have hn : ∀ m, c.plugins = some m → (m.map (·.1)).Nodup := fun m hm => Config.ofToml_nodup hxc hm
  obtain ⟨w1, hw1, hl⟩ := buildCommand_split (W := W) hb ht hc
  have hf : w1.dirs = w.dirs ∧
      (w1.files.map (·.1)).filterMap (entryName (chars! "docs")) =
        (w.files.map (·.1)).filterMap (entryName (chars! "docs")) ∧
      ∀ p, w1.files.get p = w.files.get p ∨
        (∃ n s, c.plugin n = some s ∧ p = pluginFile E.hash n s ∧ w.pathExists p = false) ∧ Writable w p := by
    rcases hw1 with rfl | rfl
    · exact ⟨rfl, rfl, fun _ => .inl rfl⟩
    · exact downloadPlugins_frame (hash := E.hash) hn { w with clock := w.clock + 1 }
  obtain ⟨f1, f2, f3⟩ := hf
  have he := entries_of f1 f2
  have hnear := hl.near
  rw [he] at hl
  refine ⟨fun p h1 h2 => ?_, fun n s hcn => ?_, hnear.listed.trans he, fun d hd => ?_, ?_⟩
  · rw [hl.files p h1]
    rcases f3 p with h | ⟨⟨n, s, hcn, hp, _⟩, _⟩
    · exact h
    · exact absurd hp (h2 n s hcn)
  · have h1 := hl.files (pluginFile E.hash n s) pluginFile_output
    rcases f3 (pluginFile E.hash n s) with h | ⟨⟨n', s', _, _, hex⟩, hw⟩
    · exact .inl (h1.trans h)
    · have hno : w.files.get (pluginFile E.hash n s) = none ∧ pluginFile E.hash n s ∉ w.dirs := by
        simpa [World.pathExists] using hex
      rcases hg : (buildCommand W E w).2.files.get (pluginFile E.hash n s) with _ | b'
      · exact .inl hno.1.symm
      · refine .inr (.inl ⟨hno.1, hw, ?_⟩)
        rw [hwhole n s b' hcn hex hg]
  · rw [hnear.dirs d hd, f1]
  · rw [← f1, ← he]
    exact hnear.out

/-- If no write is cut short, the files of plugins left behind are those of the server. -/
theorem buildCommand_whole {W : Wasm} {E : Env} (hh : ∀ s, '_' ∉ E.hash s) {w : World} {b : Bytes} {t : Str} {c : Config}
    {serve : Str → Bytes} (hs : ∀ n url b, w.http n url = some b → b = serve url) (hw : w.Uncut)
    (hb : w.files.get (chars! "Brack.toml") = some b) (ht : fromUtf8 b = some t) (hc : E.toml.readConfig t = .ok c)
    (n : Str) (s : PluginSchema) (b : Bytes) (hcn : c.plugin n = some s)
    (hex : w.pathExists (pluginFile E.hash n s) = false)
    (h : (buildCommand W E w).2.files.get (pluginFile E.hash n s) = some b) :
    b = serve (pluginUrl c.document.backend n s) := by
  obtain ⟨x, hx, hxc⟩ := readConfig_iff.mp hc
  have hn : ∀ m, c.plugins = some m → (m.map (·.1)).Nodup := fun m hm => Config.ofToml_nodup hxc hm
  have hno : w.files.get (pluginFile E.hash n s) = none ∧ pluginFile E.hash n s ∉ w.dirs := by
    simpa [World.pathExists] using hex
  obtain ⟨w1, hw1, hl⟩ := buildCommand_split (W := W) hb ht hc
  rw [hl.files _ pluginFile_output] at h
  rcases hw1 with rfl | rfl
  · rw [hno.1] at h
    cases h
  · rcases downloadPlugins_serves hh hn (w := { w with clock := w.clock + 1 }) hs
      (fun i k hi => hw i k (by simp only at hi; omega)) hcn with e | e
    · rw [e] at h
      simp only at h
      rw [hno.1] at h
      cases h
    · rw [e] at h
      injection h with h
      exact h.symm

/-- A build does not touch the configuration. -/
theorem buildCommand_keeps_toml {W : Wasm} {E : Env} {w : World} :
    (buildCommand W E w).2.files.get (chars! "Brack.toml") = w.files.get (chars! "Brack.toml") := by
  by_cases hex : ∃ b t c, w.files.get (chars! "Brack.toml") = some b ∧ fromUtf8 b = some t ∧ E.toml.readConfig t = .ok c
  · obtain ⟨b, t, c, hb, ht, hc⟩ := hex
    obtain ⟨x, hx, hxc⟩ := readConfig_iff.mp hc
    obtain ⟨w1, hw1, hl⟩ := buildCommand_split (W := W) hb ht hc
    rw [hl.files _ (by rintro ⟨stem, _, hs⟩; simp [outputPath] at hs)]
    rcases hw1 with rfl | rfl
    · rfl
    · rcases (downloadPlugins_frame (hash := E.hash) (fun m hm => Config.ofToml_nodup hxc hm)
        { w with clock := w.clock + 1 }).2.2 (chars! "Brack.toml") with h | ⟨⟨n, s, _, h, _⟩, _⟩
      · exact h
      · simp [pluginFile] at h
  · have hquiet : IOM.Keeps Quiet (loadBrackToml E.toml) := by
      unfold loadBrackToml
      exact IOM.Keeps.bind Quiet.frame (readText_quiet _) fun _ => IOM.Keeps.lift Quiet.frame _
    have hq := hquiet w
    unfold buildCommand
    refine IOM.bind_at (P := fun w' => w'.files.get (chars! "Brack.toml") = w.files.get (chars! "Brack.toml"))
      (by rw [hq.1]) fun c2 w2 h2 _ => ?_
    obtain ⟨rfl, b2, t2, hb2, ht2, hc2⟩ := loadBrackToml_ok h2
    exact absurd ⟨b2, t2, c2, hb2, ht2, hc2⟩ hex

end Brack
