import Verif.Proof.Add

/-
Helper lemmas on `download_plugins_using_config`.
-/

namespace Brack

variable (hash : PluginSchema → Str) (backend : Str)

/-- The tasks spawned for the plugins that are not cached. -/
def missingTasks (w : World) (m : List (Str × PluginSchema)) : List Task :=
  (m.filter fun x => !w.pathExists (cachePath hash x.1 x.2)).map fun x =>
    ⟨x.1, cachePath hash x.1 x.2, x.2.flag, downloadUrl backend x.1 x.2⟩

/-- The metadata of the cached plugins added to `md`. -/
def cachedMeta (w : World) : List (Str × PluginSchema) → PluginsMetadata → PluginsMetadata
  | [], md => md
  | x :: m, md =>
    cachedMeta w m (if w.pathExists (cachePath hash x.1 x.2) then md.insert x.1 (cachePath hash x.1 x.2, x.2.flag)
      else md)

theorem planLoop_run (m : List (Str × PluginSchema)) (md : PluginsMetadata) (w : World) :
    planLoop hash backend m md w = (.ok (cachedMeta hash w m md, missingTasks hash backend w m), w) := by
  induction m generalizing md with
  | nil => rfl
  | cons x m ih =>
    obtain ⟨name, s⟩ := x
    have hex : IOM.pathExists (cachePath hash name s) w = (.ok (w.pathExists (cachePath hash name s)), w) := rfl
    rw [planLoop]
    simp only
    rw [IOM.bind_of_ok hex]
    rcases h : w.pathExists (cachePath hash name s) with _ | _
    · simp only [Bool.false_eq_true, if_false]
      rw [IOM.bind_of_ok (ih md)]
      simp [cachedMeta, missingTasks, h, IOM.pure_run]
    · simp only [if_true]
      rw [ih]
      simp [cachedMeta, missingTasks, h]

/-- The requests are made, and nothing else. -/
theorem fetchLoop_run (ts : List Task) (w : World) :
    ∃ rs w', fetchLoop ts w = (.ok rs, w') ∧ rs.map (·.1) = ts ∧
      (∀ t b, (t, some b) ∈ rs → ∃ n, w.http n t.url = some b) ∧
      (∀ t, (t, none) ∈ rs → ∃ n, w.http n t.url = none) ∧
      w'.files = w.files ∧ w'.dirs = w.dirs ∧ w'.faults = w.faults ∧ w'.http = w.http ∧
      w'.clock = w.clock + ts.length ∧ w'.log = w.log ++ ts.map (fun t => .request t.url) := by
  induction ts generalizing w with
  | nil => exact ⟨[], w, rfl, rfl, by simp, by simp, rfl, rfl, rfl, rfl, rfl, by simp⟩
  | cons t ts ih =>
    obtain ⟨rs, w', h, h1, h2, h2', h3, h4, h5, h6, h7, h8⟩ :=
      ih { w with clock := w.clock + 1, log := w.log ++ [.request t.url] }
    refine ⟨(t, w.http w.clock t.url) :: rs, w', ?_, ?_, ?_, ?_, h3, h4, h5, h6, ?_, ?_⟩
    · rw [fetchLoop, IOM.bind_of_ok (httpGet_run _ w), IOM.bind_of_ok h]
      rfl
    · simp [h1]
    · intro t' b hm
      rcases List.mem_cons.mp hm with hm | hm
      · injection hm with hm1 hm2
        exact ⟨w.clock, by rw [hm1, hm2]⟩
      · exact h2 t' b hm
    · intro t' hm
      rcases List.mem_cons.mp hm with hm | hm
      · injection hm with hm1 hm2
        exact ⟨w.clock, by rw [hm1, hm2]⟩
      · exact h2' t' hm
    · rw [h7]
      simp only [List.length_cons]
      omega
    · rw [h8]
      simp

/-- Storing the responses goes forward. -/
theorem storeLoop_goes (rs : List (Task × Option Bytes)) (md : PluginsMetadata) :
    IOM.Keeps Goes (storeLoop rs md) := by
  induction rs generalizing md with
  | nil => exact IOM.Keeps.pure Goes.frame _
  | cons r rs ih =>
    obtain ⟨t, _ | b⟩ := r
    · exact IOM.Keeps.fail Goes.frame _
    · exact IOM.Keeps.bind Goes.frame (writeFile_goes _ _) (fun _ => ih _)

/-- The metadata after storing all responses. -/
def storedMeta : List Task → PluginsMetadata → PluginsMetadata
  | [], md => md
  | t :: ts, md => storedMeta ts (md.insert t.name (t.path, t.flag))

theorem storeLoop_ok {rs : List (Task × Option Bytes)} {md md' : PluginsMetadata} {w w' : World}
    (h : storeLoop rs md w = (.ok md', w')) :
    md' = storedMeta (rs.map (·.1)) md ∧ (∀ r ∈ rs, (w'.files.get r.1.path).isSome) ∧
      ∀ r ∈ rs, r.2.isSome := by
  induction rs generalizing md w with
  | nil =>
    rw [storeLoop] at h
    injection h with h _
    injection h with h
    exact ⟨h.symm, by simp, by simp⟩
  | cons r rs ih =>
    obtain ⟨t, _ | b⟩ := r
    · simp [storeLoop, IOM.fail] at h
    · rw [storeLoop] at h
      obtain ⟨u, w1, h1, h2⟩ := IOM.bind_ok.mp h
      obtain ⟨h3, h4, h5⟩ := ih h2
      refine ⟨h3, ?_, ?_⟩
      · intro r hr
        rcases List.mem_cons.mp hr with rfl | hr
        · have h5 := writeFile_ok h1
          have hg := storeLoop_goes rs (md.insert t.name (t.path, t.flag)) w1
          rw [h2] at hg
          apply hg.files
          rw [h5]
          simp only
          rw [HMap.get_insert_self]
          rfl
        · exact h4 r hr
      · intro r hr
        rcases List.mem_cons.mp hr with rfl | hr
        · rfl
        · exact h5 r hr

theorem downloadPlugins_none {c : Config} (h : c.plugins = none) (w : World) :
    downloadPlugins hash c w = (.ok [], w) := by
  rw [downloadPlugins, h]
  rfl

theorem downloadPlugins_some {c : Config} {m : HMap Str PluginSchema} (h : c.plugins = some m) (w : World) :
    ∃ rs w1, downloadPlugins hash c w = storeLoop rs (cachedMeta hash w m []) w1 ∧
      rs.map (·.1) = missingTasks hash c.document.backend w m ∧
      (∀ t b, (t, some b) ∈ rs → ∃ n, w.http n t.url = some b) ∧
      (∀ t, (t, none) ∈ rs → ∃ n, w.http n t.url = none) ∧
      w1.files = w.files ∧ w1.dirs = w.dirs ∧ w1.faults = w.faults ∧ w1.http = w.http ∧ w.clock ≤ w1.clock ∧
      w1.log = w.log ++ (missingTasks hash c.document.backend w m).map (fun t => .request t.url) := by
  obtain ⟨rs, w1, h1, h2, h3, h3', h4, h5, h6, h7, h8, h9⟩ := fetchLoop_run (missingTasks hash c.document.backend w m) w
  refine ⟨rs, w1, ?_, h2, h3, h3', h4, h5, h6, h7, by rw [h8]; omega, h9⟩
  rw [downloadPlugins, h]
  simp only
  rw [IOM.bind_of_ok (planLoop_run hash c.document.backend m [] w)]
  simp only
  rw [IOM.bind_of_ok h1]

/-- The metadata of a plugin. -/
def metaOf (n : Str) (s : PluginSchema) : Str × FeatureFlag := (cachePath hash n s, s.flag)

theorem cachedMeta_get {w : World} {m : List (Str × PluginSchema)} {md : PluginsMetadata} {n : Str}
    {v : Str × FeatureFlag} (h : (cachedMeta hash w m md).get n = some v) :
    md.get n = some v ∨ ∃ s, (n, s) ∈ m ∧ v = metaOf hash n s := by
  induction m generalizing md with
  | nil => exact .inl h
  | cons x m ih =>
    rw [cachedMeta] at h
    rcases ih h with h1 | ⟨s, hs, hv⟩
    · split at h1
      · rw [HMap.get_insert] at h1
        split at h1
        · next hn =>
          injection h1 with h1
          subst hn
          exact .inr ⟨x.2, List.mem_cons_self, h1.symm⟩
        · exact .inl h1
      · exact .inl h1
    · exact .inr ⟨s, List.mem_cons_of_mem _ hs, hv⟩

theorem cachedMeta_keeps {w : World} {m : List (Str × PluginSchema)} {md : PluginsMetadata} {n : Str}
    (h : (md.get n).isSome) : ((cachedMeta hash w m md).get n).isSome := by
  induction m generalizing md with
  | nil => exact h
  | cons x m ih =>
    rw [cachedMeta]
    apply ih
    split
    · rw [HMap.get_insert]
      split
      · rfl
      · exact h
    · exact h

theorem cachedMeta_mem {w : World} {m : List (Str × PluginSchema)} {md : PluginsMetadata} {x : Str × PluginSchema}
    (hx : x ∈ m) (h : w.pathExists (cachePath hash x.1 x.2) = true) :
    ((cachedMeta hash w m md).get x.1).isSome := by
  induction m generalizing md with
  | nil => simp at hx
  | cons y m ih =>
    rw [cachedMeta]
    rcases List.mem_cons.mp hx with rfl | hx
    · apply cachedMeta_keeps
      rw [if_pos h, HMap.get_insert_self]
      rfl
    · exact ih hx

theorem storedMeta_get {ts : List Task} {md : PluginsMetadata} {n : Str} {v : Str × FeatureFlag}
    (h : (storedMeta ts md).get n = some v) :
    md.get n = some v ∨ ∃ t ∈ ts, t.name = n ∧ v = (t.path, t.flag) := by
  induction ts generalizing md with
  | nil => exact .inl h
  | cons t ts ih =>
    rw [storedMeta] at h
    rcases ih h with h | ⟨t', ht, hn, hv⟩
    · rw [HMap.get_insert] at h
      split at h
      · next hn =>
        injection h with h
        exact .inr ⟨t, List.mem_cons_self, hn.symm, h.symm⟩
      · exact .inl h
    · exact .inr ⟨t', List.mem_cons_of_mem _ ht, hn, hv⟩

theorem storedMeta_keeps {ts : List Task} {md : PluginsMetadata} {n : Str} (h : (md.get n).isSome) :
    ((storedMeta ts md).get n).isSome := by
  induction ts generalizing md with
  | nil => exact h
  | cons t ts ih =>
    rw [storedMeta]
    apply ih
    rw [HMap.get_insert]
    split
    · rfl
    · exact h

theorem storedMeta_mem {ts : List Task} {md : PluginsMetadata} {t : Task} (ht : t ∈ ts) :
    ((storedMeta ts md).get t.name).isSome := by
  induction ts generalizing md with
  | nil => simp at ht
  | cons t' ts ih =>
    rw [storedMeta]
    rcases List.mem_cons.mp ht with rfl | ht
    · apply storedMeta_keeps
      rw [HMap.get_insert_self]
      rfl
    · exact ih ht

theorem mem_missingTasks {w : World} {m : List (Str × PluginSchema)} {t : Task} :
    t ∈ missingTasks hash backend w m ↔
      ∃ x ∈ m, w.pathExists (cachePath hash x.1 x.2) = false ∧
        t = ⟨x.1, cachePath hash x.1 x.2, x.2.flag, downloadUrl backend x.1 x.2⟩ := by
  simp only [missingTasks, List.mem_map, List.mem_filter, Bool.not_eq_true']
  constructor
  · rintro ⟨x, ⟨h1, h2⟩, rfl⟩; exact ⟨x, h1, h2, rfl⟩
  · rintro ⟨x, h1, h2, rfl⟩; exact ⟨x, ⟨h1, h2⟩, rfl⟩

/-- A successful download run: the metadata are those of the configured plugins, and all of them are
cached. -/
theorem downloadPlugins_ok {c : Config} {m : HMap Str PluginSchema} (hm : c.plugins = some m)
    (hn : (m.map (·.1)).Nodup) {w w' : World} {md : PluginsMetadata} (h : downloadPlugins hash c w = (.ok md, w')) :
    (∀ n, md.get n = (m.get n).map (metaOf hash n)) ∧
    (∀ x ∈ m, w'.pathExists (cachePath hash x.1 x.2) = true) := by
  obtain ⟨rs, w1, h1, h2, h3, _, h4, h5, h6, h7, h8, h9⟩ := downloadPlugins_some hash hm w
  rw [h1] at h
  obtain ⟨hmd, hfiles, _⟩ := storeLoop_ok h
  have hg := storeLoop_goes rs (cachedMeta hash w m []) w1
  rw [h] at hg
  simp only at hg
  constructor
  · intro n
    have hsome : ∀ v, md.get n = some v → ∃ s, (n, s) ∈ m ∧ v = metaOf hash n s := by
      intro v hv
      rw [hmd] at hv
      rcases storedMeta_get hv with hv1 | ⟨t, ht, htn, hv1⟩
      · rcases cachedMeta_get hash hv1 with hv2 | hv2
        · simp [HMap.get] at hv2
        · exact hv2
      · rw [h2] at ht
        obtain ⟨x, hx, _, rfl⟩ := (mem_missingTasks hash _).mp ht
        simp only at htn
        subst htn
        exact ⟨x.2, hx, hv1⟩
    rcases hg : m.get n with _ | s
    · rcases hv : md.get n with _ | v
      · rfl
      · obtain ⟨s, hs, _⟩ := hsome v hv
        rw [(HMap.get_eq_some hn).mpr hs] at hg
        simp at hg
    · have hs := (HMap.get_eq_some hn).mp hg
      have : (md.get n).isSome := by
        rw [hmd]
        rcases hp : w.pathExists (cachePath hash n s) with _ | _
        · rw [h2]
          exact storedMeta_mem (t := ⟨n, _, _, _⟩) ((mem_missingTasks hash _).mpr ⟨(n, s), hs, hp, rfl⟩)
        · exact storedMeta_keeps (cachedMeta_mem hash (x := (n, s)) hs hp)
      obtain ⟨v, hv⟩ := Option.isSome_iff_exists.mp this
      obtain ⟨s', hs', hv'⟩ := hsome v hv
      rw [(HMap.get_eq_some hn).mpr hs'] at hg
      injection hg with hg
      rw [hv, hv', hg]
      rfl
  · intro x hx
    rcases hp : w.pathExists (cachePath hash x.1 x.2) with _ | _
    · have ht := (mem_missingTasks hash c.document.backend).mpr ⟨x, hx, hp, rfl⟩
      rw [← h2, List.mem_map] at ht
      obtain ⟨r, hr, hrt⟩ := ht
      have := hfiles r hr
      rw [hrt] at this
      simp only at this
      rw [World.pathExists, this]
      rfl
    · rw [World.pathExists, Bool.or_eq_true, decide_eq_true_eq] at hp ⊢
      rcases hp with hp | hp
      · exact .inl (hg.files _ (by rw [h4]; exact hp))
      · exact .inr (hg.dirs _ (by rw [h5]; exact hp))

/-- If all plugins are cached, nothing is requested or written. -/
theorem downloadPlugins_cached {c : Config} {m : HMap Str PluginSchema} (hm : c.plugins = some m) {w : World}
    (h : ∀ x ∈ m, w.pathExists (cachePath hash x.1 x.2) = true) :
    downloadPlugins hash c w = (.ok (cachedMeta hash w m []), w) := by
  have ht : missingTasks hash c.document.backend w m = [] := by
    rw [missingTasks, List.filter_eq_nil_iff.mpr (by intro x hx; simp [h x hx])]
    rfl
  rw [downloadPlugins, hm]
  simp only
  rw [IOM.bind_of_ok (planLoop_run hash c.document.backend m [] w), ht]
  rfl

theorem cachePath_inj (hh : ∀ s, '_' ∉ hash s) {n n' : Str} {s s' : PluginSchema}
    (h : cachePath hash n s = cachePath hash n' s') : n = n' ∧ hash s = hash s' := by
  simp only [cachePath, List.append_assoc] at h
  have h := List.append_cancel_left h
  have key : ∀ (a b x y : Str), '_' ∉ x → '_' ∉ y → a ++ '_' :: x = b ++ '_' :: y → a = b ∧ x = y := by
    intro a
    induction a with
    | nil =>
      intro b x y hx hy h
      rcases b with _ | ⟨c, b⟩
      · simpa using h
      · simp only [List.nil_append, List.cons_append, List.cons.injEq] at h
        exact absurd (h.2 ▸ (by simp)) hx
    | cons c a ih =>
      intro b x y hx hy h
      rcases b with _ | ⟨d, b⟩
      · simp only [List.nil_append, List.cons_append, List.cons.injEq] at h
        exact absurd (h.2 ▸ (by simp)) hy
      · simp only [List.cons_append, List.cons.injEq] at h
        obtain ⟨h1, h2⟩ := ih b x y hx hy h.2
        exact ⟨by rw [h.1, h1], h2⟩
  have h' : n ++ '_' :: (hash s ++ chars! ".wasm") = n' ++ '_' :: (hash s' ++ chars! ".wasm") := by simpa using h
  obtain ⟨h1, h2⟩ := key _ _ _ _ (by simp [hh]) (by simp [hh]) h'
  exact ⟨h1, List.append_cancel_right h2⟩

/-- Storing responses without interruption leaves each file as it was or with the response of a task. -/
theorem storeLoop_files {rs : List (Task × Option Bytes)} {md : PluginsMetadata} {w : World} (hw : w.Uncut) (p : Str) :
    (storeLoop rs md w).2.files.get p = w.files.get p ∨
    ∃ t b, (t, some b) ∈ rs ∧ t.path = p ∧ (storeLoop rs md w).2.files.get p = some b := by
  induction rs generalizing md w with
  | nil => exact .inl rfl
  | cons r rs ih =>
    obtain ⟨t, _ | b⟩ := r
    · exact .inl rfl
    · rw [storeLoop]
      rcases IOM.bind_cases (IOM.writeFile t.path b) (fun _ => storeLoop rs (md.insert t.name (t.path, t.flag))) w with
        ⟨u, w1, h1, h2⟩ | ⟨_, _, h2⟩
      · rw [h2]
        have h3 := writeFile_ok h1
        have hu : w1.Uncut := by
          intro n k hn
          rw [h3] at hn ⊢
          exact hw n k (by simp only at hn; omega)
        rcases ih (md := md.insert t.name (t.path, t.flag)) hu with h4 | ⟨t', b', hm, hp, h4⟩
        · rw [h4, h3]
          simp only
          rw [HMap.get_insert]
          split
          · next hp => exact .inr ⟨t, b, List.mem_cons_self, hp.symm, rfl⟩
          · exact .inl rfl
        · exact .inr ⟨t', b', List.mem_cons_of_mem _ hm, hp, h4⟩
      · rw [h2]
        rcases writeFile_cases t.path b w with ⟨_, _, _, _, h3⟩ | ⟨_, h3, _⟩ | ⟨k, _, hk, _⟩
        · rw [h3]
          simp only
          rw [HMap.get_insert]
          split
          · next hp => exact .inr ⟨t, b, List.mem_cons_self, hp.symm, rfl⟩
          · exact .inl rfl
        · rw [h3]; exact .inl rfl
        · exact absurd hk (hw _ _ (Nat.le_refl _))

/-- Storing succeeds if all responses arrived and the file system works. -/
theorem storeLoop_run {rs : List (Task × Option Bytes)} {md : PluginsMetadata} {w : World} (hw : w.Healthy)
    (hall : ∀ r ∈ rs, r.2.isSome) (hdir : ∀ r ∈ rs, w.hasDir (parentDir r.1.path) = true ∧ r.1.path ∉ w.dirs) :
    ∃ md' w', storeLoop rs md w = (.ok md', w') ∧ w'.dirs = w.dirs ∧ w'.faults = w.faults ∧ w.clock ≤ w'.clock := by
  induction rs generalizing md w with
  | nil => exact ⟨md, w, rfl, rfl, rfl, Nat.le_refl _⟩
  | cons r rs ih =>
    obtain ⟨t, _ | b⟩ := r
    · simpa using hall _ List.mem_cons_self
    · obtain ⟨hd1, hd2⟩ := hdir _ List.mem_cons_self
      rw [storeLoop, IOM.bind_of_ok (writeFile_run (hw _ (Nat.le_refl _)) hd1 hd2)]
      obtain ⟨md', w', h, h1, h2, h3⟩ := ih (md := md.insert t.name (t.path, t.flag))
        (w := { w with clock := w.clock + 1, files := w.files.insert t.path b, log := w.log ++ [.wrote t.path b] })
        (fun n hn => hw n (by simp only at hn; omega)) (fun r hr => hall r (List.mem_cons_of_mem _ hr))
        (fun r hr => hdir r (List.mem_cons_of_mem _ hr))
      exact ⟨md', w', h, h1, h2, by simp only at h3; omega⟩

end Brack
