import Verif.Proof.Clear
import Verif.Props.Project

/-
Clearing the cache of plugins.
-/

namespace Brack

/-- C91 (partial): if there is a directory `plugins` (and, of course, no file of that name) and the file
system works, clearing succeeds. Missing: a project without such a directory, see `C91_missing_refuted`. -/
theorem C91_succeeds_partial (md : PluginsMetadata) (w : World) (hw : w.Healthy) (hd : chars! "plugins" ∈ w.dirs)
    (hf : w.files.get (chars! "plugins") = none) : (clearPlugins md w).1.1 = .ok () := by
  rcases clearPlugins_cases md w with ⟨m, k, h, h2⟩ | ⟨m, k, n, h, _, h2⟩ | ⟨m, k, h, _, h2⟩ | ⟨k, h, _⟩
  · obtain ⟨n, h3, h4⟩ := h2 hd
    exact absurd (hw n h4) h3
  · obtain ⟨n, h3, h4⟩ := h2
    exact absurd (hw n h4) h3
  · rcases h2 with ⟨n, h3, h4⟩ | h2
    · exact absurd (hw n h4) h3
    · rw [hf] at h2; simp at h2
  · rw [h]

/-- C91: after it succeeded, the directory `plugins` exists, nothing is in it, no plugin is known to the
project, and all other files and directories are as before. -/
theorem C91_empties (md md' : PluginsMetadata) (w w' : World) (h : clearPlugins md w = ((.ok (), md'), w')) :
    md' = [] ∧ chars! "plugins" ∈ w'.dirs ∧
    (∀ n, w'.files.get (chars! "plugins/" ++ n) = none ∧ chars! "plugins/" ++ n ∉ w'.dirs) ∧
    ∀ p, (∀ n, p ≠ chars! "plugins/" ++ n) →
      w'.files.get p = w.files.get p ∧ (p ∈ w'.dirs ↔ p ∈ w.dirs) := by
  rcases clearPlugins_cases md w with ⟨m, k, h1, _⟩ | ⟨m, k, n, h1, _⟩ | ⟨m, k, h1, _⟩ | ⟨k, h1, hd⟩
  · rw [h] at h1; injection h1 with h1 _; injection h1 with h1 _; simp at h1
  · rw [h] at h1; injection h1 with h1 _; injection h1 with h1 _; simp at h1
  · rw [h] at h1; injection h1 with h1 _; injection h1 with h1 _; simp at h1
  · rw [h] at h1
    injection h1 with h1 h2
    injection h1 with _ h1
    subst h1 h2
    have hb : ∀ n, isBelow (chars! "plugins") (chars! "plugins/" ++ n) = true := fun n => isBelow_iff.mpr ⟨n, rfl⟩
    refine ⟨rfl, by simp, fun n => ⟨?_, ?_⟩, fun p hp => ?_⟩
    · simp only
      rw [get_filterBelow, if_pos (hb n)]
    · simp only [List.mem_append, List.mem_filter, hb]
      simp
    · have hp' : isBelow (chars! "plugins") p = false := by
        rcases hx : isBelow (chars! "plugins") p with _ | _
        · rfl
        · obtain ⟨n, hn⟩ := isBelow_iff.mp hx
          exact absurd hn (hp n)
      constructor
      · simp only
        rw [get_filterBelow, if_neg (by rw [hp']; simp)]
      · simp only [List.mem_append, List.mem_filter, hp', List.mem_singleton]
        by_cases he : p = chars! "plugins"
        · subst he; simp [hd]
        · simp [he]

/-- C91: however it ends, only files and directories in the cache are affected, and no file is written,
nothing printed and nothing requested. -/
theorem C91_outside (md : PluginsMetadata) (w : World) :
    let w' := (clearPlugins md w).2
    w'.log = w.log ∧
    ∀ p, (∀ n, p ≠ chars! "plugins/" ++ n) →
      w'.files.get p = w.files.get p ∧ (p ≠ chars! "plugins" → (p ∈ w'.dirs ↔ p ∈ w.dirs)) := by
  have hb : ∀ p : Str, (∀ n, p ≠ chars! "plugins/" ++ n) → isBelow (chars! "plugins") p = false := by
    intro p hp
    rcases hx : isBelow (chars! "plugins") p with _ | _
    · rfl
    · obtain ⟨n, hn⟩ := isBelow_iff.mp hx
      exact absurd hn (hp n)
  rcases clearPlugins_cases md w with ⟨m, k, h1, _⟩ | ⟨m, k, n, h1, _⟩ | ⟨m, k, h1, _⟩ | ⟨k, h1, hd⟩
  · rw [h1]
    exact ⟨rfl, fun p hp => ⟨rfl, fun _ => Iff.rfl⟩⟩
  · rw [h1]
    exact ⟨rfl, fun p hp => ⟨deleteBelow_get _ _ _ _ (hb p hp), fun _ => Iff.rfl⟩⟩
  · rw [h1]
    refine ⟨rfl, fun p hp => ⟨?_, fun hne => ?_⟩⟩
    · simp only
      rw [get_filterBelow, if_neg (by rw [hb p hp]; simp)]
    · simp only [List.mem_filter, hb p hp]
      simp [hne]
  · rw [h1]
    refine ⟨rfl, fun p hp => ⟨?_, fun hne => ?_⟩⟩
    · simp only
      rw [get_filterBelow, if_neg (by rw [hb p hp]; simp)]
    · simp only [List.mem_append, List.mem_filter, hb p hp]
      simp [hne]

/-- C91: after it succeeded, the next download run requests each plugin of the configuration, whatever was
in the cache before. -/
theorem C91_fetches (hash : PluginSchema → Str) (c : Config) (m : HMap Str PluginSchema) (hm : c.plugins = some m)
    (md md' : PluginsMetadata) (w w' : World) (h : clearPlugins md w = ((.ok (), md'), w')) :
    (downloadPlugins hash c w').2.requests =
      w'.requests ++ m.map (fun x => pluginUrl c.document.backend x.1 x.2) := by
  obtain ⟨_, _, h2, _⟩ := C91_empties md md' w w' h
  have hmiss : missingTasks hash c.document.backend w' m =
      m.map fun x => ⟨x.1, cachePath hash x.1 x.2, x.2.flag, downloadUrl c.document.backend x.1 x.2⟩ := by
    rw [missingTasks, List.filter_eq_self.mpr]
    rintro ⟨n, s⟩ _
    have := h2 (n ++ chars! "_" ++ hash s ++ chars! ".wasm")
    have he : cachePath hash n s = chars! "plugins/" ++ (n ++ chars! "_" ++ hash s ++ chars! ".wasm") := by
      simp [cachePath]
    simp only [World.pathExists, he, this.1, this.2]
    rfl
  obtain ⟨rs, w1, h3, _, _, _, _, _, _, _, _, h9⟩ := downloadPlugins_some hash hm w'
  have hreq : ∀ (rs : List (Task × Option Bytes)) (md : PluginsMetadata),
      IOM.Keeps (fun w w' => w'.requests = w.requests) (storeLoop rs md) := by
    have hfr : IOM.Frame (fun w w' : World => w'.requests = w.requests) :=
      ⟨fun _ => rfl, fun h1 h2 => h2.trans h1⟩
    intro rs
    induction rs with
    | nil => intro md; exact IOM.Keeps.pure hfr _
    | cons r rs ih =>
      intro md
      obtain ⟨t, _ | b⟩ := r
      · exact IOM.Keeps.fail hfr _
      · refine IOM.Keeps.bind hfr (fun w => ?_) fun _ => ih _
        rcases writeFile_cases t.path b w with ⟨_, _, _, _, h⟩ | ⟨_, h, _⟩ | ⟨_, _, _, _, _, h⟩ <;>
          simp [h, World.requests, IOEvent.url?]
  rw [h3, hreq rs _ w1, World.requests, h9, hmiss, World.requests, List.filterMap_append, List.map_map]
  congr 1
  have : ∀ l : List (Str × PluginSchema), List.filterMap IOEvent.url? (l.map ((fun t : Task => .request t.url) ∘
      fun x => ⟨x.1, cachePath hash x.1 x.2, x.2.flag, downloadUrl c.document.backend x.1 x.2⟩)) =
      l.map (fun x => pluginUrl c.document.backend x.1 x.2) := by
    intro l
    induction l with
    | nil => rfl
    | cons x l ih =>
      rw [List.map_cons, List.map_cons, List.filterMap_cons, ih]
      rfl
  exact this m

/-- C91: clearing repairs the cache. Whatever was in it, such as files that a crash left incomplete, after
a download run that succeeds without a write being cut short, the file of each plugin is one that the
server sent for it. -/
theorem C91_repairs (hash : PluginSchema → Str) (hh : ∀ s, '_' ∉ hash s) (c : Config)
    (m : HMap Str PluginSchema) (hm : c.plugins = some m) (hn : (m.map (·.1)).Nodup)
    (md md1 md2 : PluginsMetadata) (w w1 w2 : World) (h : clearPlugins md w = ((.ok (), md1), w1)) (hw : w1.Uncut)
    (h2 : downloadPlugins hash c w1 = (.ok md2, w2)) (n : Str) (s : PluginSchema) (hcn : c.plugin n = some s)
    (hnd : chars! "plugins/" ++ n ++ chars! "_" ++ hash s ++ chars! ".wasm" ∉ w2.dirs) :
    ∃ b k, w2.files.get (chars! "plugins/" ++ n ++ chars! "_" ++ hash s ++ chars! ".wasm") = some b ∧
      w1.http k (pluginUrl c.document.backend n s) = some b := by
  obtain ⟨_, _, he, _⟩ := C91_empties md md1 w w1 h
  have hc : w1.CacheComplete hash c fun url b => ∃ k, w1.http k url = some b := by
    intro n s b _ hb
    have := (he (n ++ chars! "_" ++ hash s ++ chars! ".wasm")).1
    simp only [List.append_assoc] at hb this
    rw [this] at hb
    simp at hb
  have h3 := C46_complete_partial hash hh c m hm hn _ w1 (fun n url b h => ⟨n, h⟩) hw hc
  rw [h2] at h3
  have hex := (C45_plugin_set hash c m hm hn w1 w2 md2 h2 n).2 s hcn
  rw [World.pathExists, Bool.or_eq_true, decide_eq_true_eq] at hex
  rcases hex with hex | hex
  · obtain ⟨b, hb⟩ := Option.isSome_iff_exists.mp hex
    obtain ⟨k, hk⟩ := h3 n s b hcn hb
    exact ⟨b, k, hb, hk⟩
  · exact absurd hex hnd

/-- Concrete case: a file cut short by a crash is replaced. -/
example :
    let w : World :=
      { sampleWorld fun n => if n = 1 then .cut 1 else .none with dirs := [chars! "docs", chars! "plugins"] }
    let hash : PluginSchema → Str := fun _ => chars! "00"
    let one := downloadPlugins hash sampleConfig w
    let two := clearPlugins sampleMetadata one.2
    let three := downloadPlugins hash sampleConfig two.2
    one.2.files.get (chars! "plugins/std_00.wasm") = some [1] ∧ two.1 = (.ok (), []) ∧
      two.2.files = w.files ∧ two.2.dirs = w.dirs ∧ three.1.isOk = true ∧
      three.2.files.get (chars! "plugins/std_00.wasm") = some [1, 2, 3] := by decide +kernel

/-- C91 refuted: without a directory `plugins` there is nothing to clear, but clearing fails. -/
theorem C91_missing_refuted (md : PluginsMetadata) (w : World) (hd : chars! "plugins" ∉ w.dirs) :
    (∃ e, (clearPlugins md w).1 = (.err e, md)) ∧ (clearPlugins md w).2.files = w.files := by
  rcases clearPlugins_cases md w with ⟨m, k, h1, _⟩ | ⟨m, k, n, h1, h2, _⟩ | ⟨m, k, h1, h2, _⟩ | ⟨k, h1, h2⟩
  · rw [h1]; exact ⟨⟨m, rfl⟩, rfl⟩
  all_goals exact absurd h2 hd

/-- C91 refuted: if the process ends between the deletion of the directory and its creation, there is no
directory `plugins` any more, the project still claims to have the deleted plugins, and as long as nobody
else creates the directory, clearing again fails however often it is tried, and so does every download of
a plugin. -/
theorem C91_interrupted_refuted (md : PluginsMetadata) (w : World) (hd : chars! "plugins" ∈ w.dirs)
    (h0 : w.faults w.clock = .none) (h1 : w.faults (w.clock + 1) = .refused) :
    let w1 := (clearPlugins md w).2
    (∃ e, (clearPlugins md w).1 = (.err e, md)) ∧ (∀ n, w1.files.get (chars! "plugins/" ++ n) = none) ∧
    chars! "plugins" ∉ w1.dirs ∧
    ∀ w2, w1.SameDisk w2 →
      (∀ md2, (clearPlugins md2 w2).1.1.isErr = true) ∧
      ∀ (hash : PluginSchema → Str) (c : Config) (m : HMap Str PluginSchema) (name : Str) (s : PluginSchema),
        (∀ s, '/' ∉ hash s) → '/' ∉ name → c.plugins = some m → (m.map (·.1)).Nodup → c.plugin name = some s →
        (downloadPlugins hash c w2).1.isErr = true := by
  have hr : IOM.removeDirAll (chars! "plugins") w = (.ok (), { w with
      clock := w.clock + 1
      files := w.files.filter fun x => !isBelow (chars! "plugins") x.1
      dirs := w.dirs.filter fun d => d ≠ chars! "plugins" && !isBelow (chars! "plugins") d }) := by
    simp only [IOM.removeDirAll, if_pos hd, h0]
  have hrun : clearPlugins md w = ((.err "input/output error", md), { w with
      clock := w.clock + 1 + 1
      files := w.files.filter fun x => !isBelow (chars! "plugins") x.1
      dirs := w.dirs.filter fun d => d ≠ chars! "plugins" && !isBelow (chars! "plugins") d }) := by
    rw [clearPlugins, IOM.bind_of_ok hr, IOM.createDir, IOM.bind_run, IOM.step]
    simp only [h1]
  have hb : ∀ n, isBelow (chars! "plugins") (chars! "plugins/" ++ n) = true := fun n => isBelow_iff.mpr ⟨n, rfl⟩
  intro w1
  have hw1 : w1 = { w with
      clock := w.clock + 1 + 1
      files := w.files.filter fun x => !isBelow (chars! "plugins") x.1
      dirs := w.dirs.filter fun d => d ≠ chars! "plugins" && !isBelow (chars! "plugins") d } := by
    show (clearPlugins md w).2 = _
    rw [hrun]
  have hf : ∀ n, w1.files.get (chars! "plugins/" ++ n) = none := by
    intro n
    rw [hw1]
    simp only
    rw [get_filterBelow, if_pos (hb n)]
  have hnd : chars! "plugins" ∉ w1.dirs := by
    rw [hw1]
    simp [List.mem_filter]
  have hnb : ∀ n, chars! "plugins/" ++ n ∉ w1.dirs := by
    intro n
    rw [hw1]
    simp only [List.mem_filter, hb]
    simp
  refine ⟨⟨_, by rw [hrun]⟩, hf, hnd, fun w2 hs => ⟨fun md2 => ?_, ?_⟩⟩
  · obtain ⟨⟨e, he⟩, _⟩ := C91_missing_refuted md2 w2 (by rw [hs.2]; exact hnd)
    rw [he]
    rfl
  · intro hash c m name s hh hname hm hn hs'
    rcases hres : downloadPlugins hash c w2 with ⟨r, w3⟩
    rcases r with md3 | e | _
    · rcases downloadPlugins_needs hh hs' hname (fun m' hm' => by rw [hm] at hm'; injection hm' with hm'; exact hm' ▸ hn)
        hres with h | h
      · have he : cachePath hash name s = chars! "plugins/" ++ (name ++ chars! "_" ++ hash s ++ chars! ".wasm") := by
          simp [cachePath]
        rw [World.pathExists, hs.1, hs.2, he, hf] at h
        simp only [hnb] at h
        simp at h
      · rw [hs.2] at h
        exact absurd h.1 hnd
    · rfl
    · have := downloadPlugins_ne_panic (hash := hash) c w2
      rw [hres] at this
      exact absurd rfl this

/-- Such an end, in a project with a plugin. -/
example :
    let w := twoDocuments fun n => if n = 1 then .refused else .none
    let one := clearPlugins sampleMetadata w
    one.1 = (.err "input/output error", sampleMetadata) ∧ one.2.files.length = 4 ∧
      one.2.dirs = [chars! "docs", chars! "out"] ∧
      (clearPlugins sampleMetadata one.2).1.1 = .err "no such directory" ∧
      (downloadPlugins (fun _ => chars! "00") sampleConfig one.2).1.isErr = true := by decide +kernel

end Brack
