import Verif.Spec.Main
import Verif.Proof.Download
import Verif.Proof.Build
import Verif.Proof.Cli
import Verif.Proof.ServerSays

/-
Helper lemmas on the effects of all commands.
-/

namespace Brack

variable {write create ask : Str → Prop}

/-- The files written, the directories created and the requests made are as described, and nothing
disappears. -/
structure Acts (write create ask : Str → Prop) (w w' : World) : Prop where
  log : ∃ l, w'.log = w.log ++ l ∧ (∀ path bytes, IOEvent.wrote path bytes ∈ l → write path) ∧
    ∀ url, IOEvent.request url ∈ l → ask url
  files : ∀ path, ¬ write path → w'.files.get path = w.files.get path
  keeps : ∀ path, (w.files.get path).isSome → (w'.files.get path).isSome
  dirs : ∀ dir, dir ∈ w'.dirs → dir ∈ w.dirs ∨ create dir
  keepsDirs : ∀ dir, dir ∈ w.dirs → dir ∈ w'.dirs

theorem Acts.confined {w w' : World} (h : Acts write create ask w w') : Confined write create w w' := by
  obtain ⟨l, h1, h2, _⟩ := h.log
  exact ⟨⟨l, h1, h2⟩, h.files, h.keeps, h.dirs, h.keepsDirs⟩

theorem Acts.frame : IOM.Frame (Acts write create ask) where
  refl w := ⟨⟨[], by simp, by simp, by simp⟩, fun _ _ => rfl, fun _ h => h, fun _ h => .inl h, fun _ h => h⟩
  trans := by
    rintro a b c h h'
    refine ⟨?_, fun p hp => (h'.files p hp).trans (h.files p hp), fun p hp => h'.keeps p (h.keeps p hp), ?_,
      fun d hd => h'.keepsDirs d (h.keepsDirs d hd)⟩
    · obtain ⟨l, hl, h1, h3⟩ := h.log
      obtain ⟨l', hl', h2, h4⟩ := h'.log
      refine ⟨l ++ l', by rw [hl', hl, List.append_assoc], fun p x hm => ?_, fun u hm => ?_⟩
      · rcases List.mem_append.mp hm with hm | hm
        · exact h1 p x hm
        · exact h2 p x hm
      · rcases List.mem_append.mp hm with hm | hm
        · exact h3 u hm
        · exact h4 u hm
    · intro d hd
      rcases h'.dirs d hd with hd | hd
      · exact h.dirs d hd
      · exact .inr hd

theorem log_acts_at {w w' : World} (h1 : w'.files = w.files) (h2 : w'.dirs = w.dirs) {l : List IOEvent}
    (h3 : w'.log = w.log ++ l) (h4 : ∀ p b, IOEvent.wrote p b ∉ l) (h5 : ∀ u, IOEvent.request u ∈ l → ask u) :
    Acts write create ask w w' :=
  ⟨⟨l, h3, fun p b hm => absurd hm (h4 p b), h5⟩, fun _ _ => by rw [h1], fun _ h => by rw [h1]; exact h,
    fun _ h => .inl (by rw [h2] at h; exact h), fun _ h => by rw [h2]; exact h⟩

theorem Quiet.acts {α : Type} {x : IOM α} (h : IOM.Keeps Quiet x) : IOM.Keeps (Acts write create ask) x := by
  intro w
  obtain ⟨h1, h2, h3⟩ := h w
  exact log_acts_at h1 h2 (l := []) (by rw [h3]; simp) (by simp) (by simp)

theorem writeFile_acts {p : Str} (hp : write p) (b : Bytes) :
    IOM.Keeps (Acts write create ask) (IOM.writeFile p b) := by
  intro w
  have hfiles : ∀ q, ¬ write q → (IOM.writeFile p b w).2.files.get q = w.files.get q := fun q hq =>
    writeFile_other (by rintro rfl; exact hq hp) b w
  have hg := writeFile_goes p b w
  refine ⟨?_, hfiles, hg.files, ?_, hg.dirs⟩
  · rcases writeFile_cases p b w with ⟨_, _, _, _, h⟩ | ⟨_, h, _⟩ | ⟨k, _, _, _, _, h⟩ <;> rw [h]
    · exact ⟨[.wrote p b], rfl, by simp [hp], by simp⟩
    · exact ⟨[], by simp, by simp, by simp⟩
    · exact ⟨[.wrote p (b.take k)], rfl, by simp [hp], by simp⟩
  · intro d hd
    rcases writeFile_cases p b w with ⟨_, _, _, _, h⟩ | ⟨_, h, _⟩ | ⟨k, _, _, _, _, h⟩ <;> rw [h] at hd <;>
      exact .inl hd

theorem createDirAll_acts {d : Str} (hd : create d) : IOM.Keeps (Acts write create ask) (IOM.createDirAll d) := by
  intro w
  obtain ⟨h1, h2⟩ := createDirAll_files d w
  have hg := createDirAll_goes d w
  refine ⟨⟨[], by rw [h2]; simp, by simp, by simp⟩, fun _ _ => by rw [h1], hg.files, ?_, hg.dirs⟩
  intro e he
  rcases createDirAll_cases d w with ⟨_, _, h⟩ | ⟨_, h, _⟩ <;> rw [h] at he
  · simp only at he
    split at he
    · exact .inl he
    · rcases List.mem_append.mp he with he | he
      · exact .inl he
      · rw [List.mem_singleton.mp he]; exact .inr hd
  · exact .inl he

theorem createDir_cases (d : Str) (w : World) :
    ((IOM.createDir d w).1 = .ok () ∧ w.faults w.clock = .none ∧ w.pathExists d = false ∧
      w.hasDir (parentDir d) = true ∧ d ≠ [] ∧
      (IOM.createDir d w).2 = { w with clock := w.clock + 1, dirs := w.dirs ++ [d] }) ∨
    ((∃ m, (IOM.createDir d w).1 = .err m) ∧ (IOM.createDir d w).2 = { w with clock := w.clock + 1 } ∧
      (w.pathExists d = false → w.hasDir (parentDir d) = true → d ≠ [] → w.faults w.clock ≠ .none)) := by
  rcases step_cases w with ⟨hf, h⟩ | ⟨hf, h⟩
  · rw [IOM.createDir, IOM.bind_of_ok h]
    have hex : ({ w with clock := w.clock + 1 } : World).pathExists d = w.pathExists d := rfl
    have hhd : ({ w with clock := w.clock + 1 } : World).hasDir (parentDir d) = w.hasDir (parentDir d) := rfl
    simp only [hex, hhd]
    by_cases hc : (w.pathExists d || !w.hasDir (parentDir d) || decide (d = [])) = true
    · rw [if_pos hc]
      refine .inr ⟨⟨_, rfl⟩, rfl, fun h1 h2 h3 => ?_⟩
      rw [h1, h2] at hc
      simp at hc
      exact absurd hc h3
    · rw [if_neg hc]
      simp only [Bool.or_eq_true, Bool.not_eq_true', decide_eq_true_eq, not_or, Bool.not_eq_true,
        Bool.not_eq_false] at hc
      exact .inl ⟨rfl, hf, hc.1.1, hc.1.2, hc.2, rfl⟩
  · have : IOM.createDir d w = (.err "input/output error", { w with clock := w.clock + 1 }) := by
      rw [IOM.createDir, IOM.bind_run, h]
    rw [this]
    exact .inr ⟨⟨_, rfl⟩, rfl, fun _ _ _ => hf⟩

theorem createDir_acts {d : Str} (hd : create d) : IOM.Keeps (Acts write create ask) (IOM.createDir d) := by
  intro w
  rcases createDir_cases d w with ⟨_, _, _, _, _, h⟩ | ⟨_, h, _⟩ <;> rw [h]
  · refine ⟨⟨[], by simp, by simp, by simp⟩, fun _ _ => rfl, fun _ h => h, ?_, fun _ h => List.mem_append_left _ h⟩
    intro e he
    rcases List.mem_append.mp he with he | he
    · exact .inl he
    · rw [List.mem_singleton.mp he]; exact .inr hd
  · exact log_acts_at rfl rfl (l := []) (by simp) (by simp) (by simp)

theorem printLine_acts (l : Str) : IOM.Keeps (Acts write create ask) (IOM.printLine l) :=
  fun _ => log_acts_at rfl rfl (l := [.printed l]) rfl (by simp) (by simp)

theorem httpGet_acts {u : Str} (hu : ask u) : IOM.Keeps (Acts write create ask) (IOM.httpGet u) :=
  fun _ => log_acts_at rfl rfl (l := [.request u]) rfl (by simp) (by simp [hu])

theorem send_acts (b : Bytes) : IOM.Keeps (Acts write create ask) (IOM.send b) := by
  intro w
  unfold IOM.send
  rcases w.faults w.clock with _ | _ | k
  · exact log_acts_at rfl rfl (l := [.sent b]) rfl (by simp) (by simp)
  · exact log_acts_at rfl rfl (l := []) (by simp) (by simp) (by simp)
  · exact log_acts_at rfl rfl (l := [.sent (b.take k)]) rfl (by simp) (by simp)

theorem listOutputs_acts (names : List Str) : IOM.Keeps (Acts write create ask) (listOutputs names) := by
  induction names with
  | nil => exact IOM.Keeps.pure Acts.frame _
  | cons n names ih =>
    exact IOM.Keeps.bind Acts.frame (Quiet.acts step_quiet) fun _ =>
      IOM.Keeps.bind Acts.frame (printLine_acts _) fun _ => ih

theorem printLines_acts (ls : List Str) : IOM.Keeps (Acts write create ask) (printLines ls) := by
  induction ls with
  | nil => exact IOM.Keeps.pure Acts.frame _
  | cons l ls ih => exact IOM.Keeps.bind Acts.frame (printLine_acts _) fun _ => ih

/-! ### Downloads -/

variable {hash : PluginSchema → Str}

theorem storeLoop_acts (rs : List (Task × Option Bytes)) (h : ∀ r ∈ rs, write r.1.path) (md : PluginsMetadata) :
    IOM.Keeps (Acts write create ask) (storeLoop rs md) := by
  induction rs generalizing md with
  | nil => exact IOM.Keeps.pure Acts.frame _
  | cons r rs ih =>
    obtain ⟨t, b⟩ := r
    rcases b with _ | b
    · exact IOM.Keeps.fail Acts.frame _
    · exact IOM.Keeps.bind Acts.frame (writeFile_acts (h _ List.mem_cons_self) _) fun _ =>
        ih (fun r hr => h r (List.mem_cons_of_mem _ hr)) _

theorem downloadPlugins_acts (c : Config) (hask : ∀ n s, ask (downloadUrl c.document.backend n s))
    (h : ∀ m x, c.plugins = some m → x ∈ m → write (cachePath hash x.1 x.2)) :
    IOM.Keeps (Acts write create ask) (downloadPlugins hash c) := by
  intro w
  rcases hm : c.plugins with _ | m
  · rw [downloadPlugins_none hash hm]
    exact Acts.frame.refl w
  · obtain ⟨rs, w1, h1, h2, _, _, h3, h4, _, _, _, h5⟩ := downloadPlugins_some hash hm w
    rw [h1]
    refine Acts.frame.trans ?_ (storeLoop_acts rs ?_ _ w1)
    · refine log_acts_at h3 h4 h5 (by simp) ?_
      intro u hu
      simp only [missingTasks, List.map_map, List.mem_map] at hu
      obtain ⟨x, _, hx⟩ := hu
      injection hx with hx
      rw [← hx]
      exact hask _ _
    · intro r hr
      have hr' : r.1 ∈ missingTasks hash c.document.backend w m := by
        rw [← h2]
        exact List.mem_map.mpr ⟨r, hr, rfl⟩
      simp only [missingTasks, List.mem_map, List.mem_filter] at hr'
      obtain ⟨x, ⟨hx, _⟩, hx'⟩ := hr'
      rw [← hx']
      exact h m x hm hx

theorem downloadUrl_github (backend n : Str) (s : PluginSchema) :
    chars! "https://github.com/" <+: downloadUrl backend n s :=
  ⟨s.owner ++ chars! "/" ++ s.repo ++ chars! "/releases/download/" ++ s.version ++ chars! "/" ++ n ++ chars! "." ++
    backend ++ chars! ".wasm", by simp [downloadUrl]⟩

theorem cachePath_fileIn {n : Str} {s : PluginSchema} (hn : '/' ∉ n) (hh : '/' ∉ hash s) :
    FileIn (chars! "plugins") (cachePath hash n s) :=
  ⟨n ++ chars! "_" ++ hash s ++ chars! ".wasm", by simp, by simp [hn, hh], by simp [cachePath]⟩

theorem cachePath_wasm (n : Str) (s : PluginSchema) : chars! ".wasm" <:+ cachePath hash n s :=
  ⟨chars! "plugins/" ++ n ++ chars! "_" ++ hash s, by simp [cachePath]⟩

theorem wasm_not_config {p : Str} (h : chars! ".wasm" <:+ p) : ¬ chars! "Brack.toml" <:+ p := by
  rintro ⟨t, ht⟩
  obtain ⟨t', ht'⟩ := h
  rw [← ht'] at ht
  have := congrArg List.getLast? ht
  simp [List.getLast?_append] at this

/-- The names of a flat configuration. -/
theorem Config.Flat.mem {c : Config} (h : c.Flat) {m : HMap Str PluginSchema} (hm : c.plugins = some m)
    (hn : (m.map (·.1)).Nodup) {x : Str × PluginSchema} (hx : x ∈ m) : '/' ∉ x.1 :=
  h.2 x.1 x.2 (by
    rw [Config.plugin, hm]
    exact (HMap.get_eq_some hn).mpr hx)

/-! ### `build` -/

theorem buildOne_acts {W : Wasm} (E : Env) (backend : Str) (hc : create (chars! "out")) (name : Str)
    (h : write (outputPath (splitExtension name).1 backend)) (i : Nat)
    (ps : Plugins W) : IOM.Keeps (Acts write create ask) (buildOne E backend i name ps) :=
  IOM.Keeps.bind Acts.frame (Quiet.acts (readText_quiet _)) fun _ =>
    IOM.Keeps.bind Acts.frame (IOM.Keeps.lift Acts.frame _) fun _ =>
      IOM.Keeps.bind Acts.frame (createDirAll_acts hc) fun _ =>
        IOM.Keeps.bind Acts.frame (writeFile_acts h _) fun _ => IOM.Keeps.pure Acts.frame _

theorem buildLoop_acts {W : Wasm} (E : Env) (backend : Str) (hc : create (chars! "out"))
    (names : List Str) (h : ∀ n ∈ names, ∀ stem, docStem n = some stem → write (outputPath stem backend)) (i : Nat)
    (ps : Plugins W) : IOM.Keeps (Acts write create ask) (buildLoop E backend i names ps) := by
  induction names generalizing i ps with
  | nil => exact IOM.Keeps.pure Acts.frame _
  | cons name rest ih =>
    have ih := ih fun n hn => h n (List.mem_cons_of_mem _ hn)
    rw [buildLoop_cons]
    refine IOM.Keeps.bind Acts.frame (Quiet.acts step_quiet) fun _ => ?_
    by_cases he : (splitExtension name).2 = some (chars! "[]")
    · rw [if_pos he]
      refine IOM.Keeps.bind Acts.frame (buildOne_acts E backend hc name ?_ i ps) fun _ => ih _ _
      exact h name List.mem_cons_self _ (by rw [docStem, if_pos he])
    · rw [if_neg he]
      exact ih _ _

theorem build_acts {W : Wasm} (E : Env) (c : Config) (hc : create (chars! "out")) (md : PluginsMetadata)
    (h : ∀ stem, '/' ∉ stem → stem ≠ [] → write (outputPath stem c.document.backend)) :
    IOM.Keeps (Acts write create ask) (build W E c md) := by
  refine IOM.Keeps.bind Acts.frame (Quiet.acts (loadPlugins_quiet _ _)) fun _ => ?_
  refine IOM.Keeps.bind Acts.frame (IOM.Keeps.lift Acts.frame _) fun _ => ?_
  refine IOM.Keeps.bind_ok Acts.frame (Quiet.acts (readDir_quiet _)) fun w names w1 hr => ?_
  refine IOM.Keeps.bind Acts.frame (buildLoop_acts E _ hc _ ?_ _ _) (fun _ => ?_) w1
  · intro n hn stem hs
    obtain ⟨rfl, _⟩ := readDir_ok hr
    have hm := mem_docStems.mp (List.mem_filterMap.mpr ⟨n, hn, hs⟩)
    exact h stem hm.2.1 hm.1
  · refine IOM.Keeps.bind Acts.frame (printLine_acts _) fun _ => ?_
    exact IOM.Keeps.bind Acts.frame (Quiet.acts (readDir_quiet _)) fun _ => listOutputs_acts _

theorem outputPath_fileIn {stem backend : Str} (h1 : '/' ∉ stem) (h2 : '/' ∉ backend) :
    FileIn (chars! "out") (outputPath stem backend) :=
  ⟨stem ++ chars! "." ++ backend, by simp, by simp [h1, h2], by simp [outputPath]⟩

theorem loadBrackToml_quiet (T : Toml) : IOM.Keeps Quiet (loadBrackToml T) :=
  IOM.Keeps.bind Quiet.frame (readText_quiet _) fun _ => IOM.Keeps.lift Quiet.frame _

/-- The configuration obtained by loading a file. -/
theorem readConfig_at {T : Toml} {p : Str} {w w1 : World} {c : Config}
    (h : (IOM.readText p >>= fun text => IOM.lift (T.readConfig text)) w = (.ok c, w1)) :
    ∃ b t, w.files.get p = some b ∧ fromUtf8 b = some t ∧ T.readConfig t = .ok c := by
  obtain ⟨t, w2, h1, h2⟩ := IOM.bind_ok.mp h
  obtain ⟨⟨b, hb, ht⟩, _⟩ := readText_ok h1
  exact ⟨b, t, hb, ht, (IOM.lift_ok.mp h2).1⟩

theorem World.FlatConfigs.flat {w : World} {T : Toml} (h : w.FlatConfigs T) {p : Str} (hp : chars! "Brack.toml" <:+ p)
    {b : Bytes} {t : Str} {c : Config} (hb : w.files.get p = some b) (ht : fromUtf8 b = some t)
    (hc : T.readConfig t = .ok c) : c.Flat := by
  obtain ⟨v, hv, hc⟩ := readConfig_iff.mp hc
  exact h p b t v c hp hb ht hv hc

theorem buildCommand_acts {W : Wasm} {E : Env} {w : World} (hc : create (chars! "out"))
    (hask : ∀ b n s, ask (downloadUrl b n s))
    (h : ∀ c b t, w.files.get (chars! "Brack.toml") = some b → fromUtf8 b = some t → E.toml.readConfig t = .ok c →
      (∀ m x, c.plugins = some m → x ∈ m → write (cachePath E.hash x.1 x.2)) ∧
      (∀ stem, '/' ∉ stem → stem ≠ [] → write (outputPath stem c.document.backend))) :
    Acts write create ask w (buildCommand W E w).2 := by
  have hq := Quiet.acts (write := write) (create := create) (ask := ask) (loadBrackToml_quiet E.toml) w
  unfold buildCommand
  rcases IOM.bind_cases (loadBrackToml E.toml) (fun c => do
    let md ← downloadPlugins E.hash c
    build W E c md) w with ⟨c, w1, h1, h2⟩ | ⟨_, _, h2⟩
  · rw [h2]
    rw [h1] at hq
    obtain ⟨b, t, hb, ht, hr⟩ := readConfig_at h1
    obtain ⟨k1, k2⟩ := h c b t hb ht hr
    exact Acts.frame.trans hq (IOM.Keeps.bind Acts.frame (downloadPlugins_acts c (fun _ _ => hask _ _ _) k1)
      (fun md => build_acts E c hc md k2) w1)
  · rw [h2]
    exact hq

/-! ### The language server -/

section
variable {X : ServerEnv} {R : World → World → Prop}

/-- What every operation of the server other than opening a document keeps, the server keeps. -/
theorem run_keeps (hR : IOM.Frame R) (hq : ∀ {α : Type} {x : IOM α}, IOM.Keeps Quiet x → IOM.Keeps R x)
    (hs : ∀ b, IOM.Keeps R (IOM.send b)) (hd : ∀ s uri, IOM.Keeps R (Server.didOpen X s uri)) (reads : List Bytes) :
    ∀ b s, IOM.Keeps R (Server.run X reads b s) := by
  have hlift : ∀ {α : Type} (r : Res α), IOM.Keeps R (IOM.lift r) := fun r => IOM.Keeps.lift hR r
  have htok : ∀ path, IOM.Keeps R (IOM.attempt (Server.tokenizeFile X.E.S path)) := fun path =>
    Keeps.attempt (IOM.Keeps.bind hR (hq (readText_quiet _)) fun _ => hlift _)
  have hres : ∀ id failure (x : IOM (Option Json)), IOM.Keeps R x → IOM.Keeps R (Server.respond X.P id failure x) := by
    intro id failure x hx
    refine IOM.Keeps.bind hR (Keeps.attempt hx) fun r => ?_
    split
    · exact hs _
    · exact IOM.Keeps.pure hR _
    · exact hs _
  have hdis : ∀ s msg, IOM.Keeps R (Server.dispatch X s msg) := by
    intro s msg
    unfold Server.dispatch
    split
    · unfold Server.handleRequest
      repeat' split
      · exact IOM.Keeps.bind hR (hs _) fun _ => IOM.Keeps.fail hR _
      · exact IOM.Keeps.bind hR (hs _) fun _ => IOM.Keeps.bind hR (hs _) fun _ => IOM.Keeps.pure hR _
      · exact IOM.Keeps.fail hR _
      · refine IOM.Keeps.bind hR (hres _ _ _ ?_) fun _ => IOM.Keeps.pure hR _
        unfold Server.handleSemanticTokens
        split
        · exact IOM.Keeps.fail hR _
        · refine IOM.Keeps.bind hR (htok _) fun r => ?_
          split
          · exact IOM.Keeps.bind hR (hs _) fun _ => IOM.Keeps.pure hR _
          · exact IOM.Keeps.bind hR (hlift _) fun _ => IOM.Keeps.pure hR _
      · exact IOM.Keeps.fail hR _
      · refine IOM.Keeps.bind hR (hres _ _ _ ?_) fun _ => IOM.Keeps.pure hR _
        unfold Server.handleCompletion
        split
        · exact IOM.Keeps.pure hR _
        · refine IOM.Keeps.bind hR (hq (loadPlugins_quiet _ _)) fun _ => ?_
          refine IOM.Keeps.bind hR (hlift _) fun _ => ?_
          split
          · exact IOM.Keeps.fail hR _
          · exact IOM.Keeps.pure hR _
          · exact IOM.Keeps.bind hR (hlift _) fun _ => IOM.Keeps.pure hR _
      · exact IOM.Keeps.bind hR (hs _) fun _ => IOM.Keeps.pure hR _
    · exact IOM.Keeps.pure hR _
    · unfold Server.handleNotification
      repeat' split
      · exact IOM.Keeps.bind hR (hs _) fun _ => IOM.Keeps.pure hR _
      · exact IOM.Keeps.fail hR _
      · exact hd _ _
      · exact IOM.Keeps.pure hR _
      · exact IOM.Keeps.fail hR _
      · exact IOM.Keeps.fail hR _
      · refine IOM.Keeps.bind hR ?_ fun _ => IOM.Keeps.pure hR _
        unfold Server.didSave
        split
        · exact IOM.Keeps.fail hR _
        · refine IOM.Keeps.bind hR (htok _) fun r => ?_
          split
          · exact hs _
          · refine IOM.Keeps.bind hR (hlift _) fun _ => IOM.Keeps.bind hR (hlift _) fun _ => ?_
            simp only
            unfold Server.sendDiagnostics
            split
            · exact hs _
            · exact IOM.Keeps.pure hR _
      · exact IOM.Keeps.pure hR _
    · exact IOM.Keeps.bind hR (hs _) fun _ => IOM.Keeps.pure hR _
  induction reads with
  | nil => intro b s; exact IOM.Keeps.pure hR _
  | cons c cs ih =>
    intro b s
    unfold Server.run
    split
    · exact IOM.Keeps.pure hR _
    · refine IOM.Keeps.bind hR (hlift _) fun r => ?_
      split
      · exact ih _ _
      · exact IOM.Keeps.bind hR (hdis _ _) fun _ => ih _ _

end

theorem configPath_config (root : Str) : chars! "Brack.toml" <:+ Server.configPath root := by
  unfold Server.configPath
  split
  · exact ⟨root, rfl⟩
  · exact ⟨root ++ ['/'], by simp⟩

/-- Opening a document, by the configurations it may find. -/
theorem didOpen_acts {X : ServerEnv} {w : World} (hask : ∀ b n s, ask (downloadUrl b n s))
    (h : ∀ root c b t, w.files.get (Server.configPath root) = some b → fromUtf8 b = some t →
      X.E.toml.readConfig t = .ok c → ∀ m x, c.plugins = some m → x ∈ m → write (cachePath X.E.hash x.1 x.2))
    (s : Server) (uri : Str) : Acts write create ask w (Server.didOpen X s uri w).2 := by
  unfold Server.didOpen
  rcases (X.P.toFilePath uri).bind (fun p => (Server.pathParent p).bind Server.pathParent) with _ | root
  · exact Acts.frame.refl w
  · simp only
    have hl : IOM.Keeps Quiet (Server.loadConfigAt X.E.toml root) :=
      IOM.Keeps.bind Quiet.frame (readText_quiet _) fun _ => IOM.Keeps.lift Quiet.frame _
    have hq := Quiet.acts (write := write) (create := create) (ask := ask) hl w
    rw [IOM.bind_run, attempt_run]
    rcases hr : Server.loadConfigAt X.E.toml root w with ⟨r, w1⟩
    rw [hr] at hq
    rcases r with c | m | _
    · obtain ⟨b, t, hb, ht, hc⟩ := readConfig_at hr
      exact Acts.frame.trans hq (IOM.Keeps.bind Acts.frame
        (downloadPlugins_acts c (fun _ _ => hask _ _ _) (h root c b t hb ht hc)) (fun _ => IOM.Keeps.pure Acts.frame _) w1)
    · exact hq
    · exact hq

/-- The server in a world with flat configurations. -/
theorem languageServer_acts {X : ServerEnv} (hh : ∀ s, '/' ∉ X.E.hash s) (hask : ∀ b n s, ask (downloadUrl b n s))
    (reads : List Bytes) (w : World) (hw : w.FlatConfigs X.E.toml) :
    Acts (FileIn (chars! "plugins")) create ask w (languageServerCommand X reads w).2 := by
  let W1 : Str → Prop := fun p => FileIn (chars! "plugins") p ∧ chars! ".wasm" <:+ p
  let R : World → World → Prop := fun w w' => w.FlatConfigs X.E.toml → Acts W1 create ask w w'
  have hkeep : ∀ {w w'}, Acts W1 create ask w w' → w.FlatConfigs X.E.toml → w'.FlatConfigs X.E.toml := by
    intro w w' ha hf p b t v c hp hb ht hv hc
    rw [ha.files p fun hp' => wasm_not_config hp'.2 hp] at hb
    exact hf p b t v c hp hb ht hv hc
  have hR : IOM.Frame R := by
    refine ⟨fun w _ => Acts.frame.refl w, ?_⟩
    intro a b c h h' hf
    have h1 := h hf
    exact Acts.frame.trans h1 (h' (hkeep h1 hf))
  have hrun : IOM.Keeps R (Server.run X reads [] {}) := by
    refine run_keeps hR (fun hx w _ => Quiet.acts hx w) (fun b w _ => send_acts b w) (fun s uri w hf => ?_) reads [] {}
    refine didOpen_acts hask (fun root c b t hb ht hc m x hm hx => ?_) s uri
    have hflat := hf.flat (configPath_config root) hb ht hc
    exact ⟨cachePath_fileIn (hflat.mem hm (X.E.toml.readConfig_nodup hc hm) hx) (hh _), cachePath_wasm _ _⟩
  have h := IOM.Keeps.bind hR hrun (f := fun _ => (pure () : IOM Unit)) (fun _ => IOM.Keeps.pure hR _) w hw
  obtain ⟨l, h1, h2, h3⟩ := h.log
  exact ⟨⟨l, h1, fun p b hm => (h2 p b hm).1, h3⟩, fun p hp => h.files p fun hp' => hp hp'.1, h.keeps, h.dirs,
    h.keepsDirs⟩

/-- The server anywhere. -/
theorem languageServer_asks {X : ServerEnv} (hask : ∀ b n s, ask (downloadUrl b n s)) (reads : List Bytes) :
    IOM.Keeps (Acts (fun _ => True) create ask) (languageServerCommand X reads) :=
  IOM.Keeps.bind Acts.frame (run_keeps Acts.frame (fun hx => Quiet.acts hx) send_acts
    (fun s uri _ => didOpen_acts hask (fun _ _ _ _ _ _ _ _ _ _ _ => trivial) s uri) reads [] {})
    fun _ => IOM.Keeps.pure Acts.frame _

/-! ### `new`, `add` and `compile` -/

theorem newProject_acts (name : Str) :
    IOM.Keeps (Acts (SubCommand.new name).MayWrite (SubCommand.new name).MayCreate ask) (newProject name) :=
  IOM.Keeps.bind Acts.frame (createDir_acts (.inl rfl)) fun _ =>
    IOM.Keeps.bind Acts.frame (createDir_acts (.inr rfl)) fun _ =>
      IOM.Keeps.bind Acts.frame (writeFile_acts (.inl rfl) _) fun _ =>
        IOM.Keeps.bind Acts.frame (writeFile_acts (.inr (.inl rfl)) _) fun _ =>
          writeFile_acts (.inr (.inr rfl)) _

theorem splitOn_no_sep {sep : Char} {s p : Str} (h : p ∈ splitOn sep s) : sep ∉ p := by
  induction s generalizing p with
  | nil => simp [splitOn] at h; simp [h]
  | cons c s ih =>
    rw [splitOn] at h
    split at h
    · rcases List.mem_cons.mp h with rfl | h
      · simp
      · exact ih h
    · next hc =>
      split at h
      · next q qs hq =>
        rcases List.mem_cons.mp h with rfl | h
        · simp only [List.mem_cons, not_or]
          exact ⟨fun e => hc e.symm, ih (by rw [hq]; exact List.mem_cons_self)⟩
        · exact ih (by rw [hq]; exact List.mem_cons_of_mem _ h)
      · simp only [List.mem_singleton] at h
        rw [h]
        simp only [List.mem_singleton]
        exact fun e => hc e.symm

theorem repositoryName_no_slash {url r : Str} (h : repositoryName url = .ok r) : '/' ∉ r := by
  unfold repositoryName orErr at h
  split at h
  · next p hp =>
    injection h with h
    subst h
    exact splitOn_no_sep (List.mem_of_getLast? hp)
  · simp at h

theorem addPath_fileIn {r : Str} (h : '/' ∉ r) : FileIn (chars! "plugins") (addPath r) :=
  ⟨r ++ chars! ".wasm", by simp, by simp [h], by simp [addPath]⟩

theorem parseTarget_url {schema : Str} {t : AddTarget} (h : parseTarget schema = .ok t) :
    chars! "https://github.com/" <+: t.url := by
  unfold parseTarget at h
  obtain ⟨_, _, h⟩ := Res.bind_ok.mp h
  obtain ⟨_, _, h⟩ := Res.bind_ok.mp h
  obtain ⟨owner, _, h⟩ := Res.bind_ok.mp h
  obtain ⟨_, _, h⟩ := Res.bind_ok.mp h
  obtain ⟨repo, _, h⟩ := Res.bind_ok.mp h
  obtain ⟨_, _, h⟩ := Res.bind_ok.mp h
  split at h
  · injection h with h
    rw [← h]
    exact ⟨owner ++ chars! "/" ++ repo, by simp⟩
  · simp at h

theorem addPlugin_acts (T : Toml) (schema : Str) (hask : ∀ u, chars! "https://github.com/" <+: u → ask u) :
    IOM.Keeps (Acts (SubCommand.add schema).MayWrite (SubCommand.add schema).MayCreate ask) (addPlugin T schema) := by
  intro w
  rcases addPlugin_plan T schema w with ⟨_, h1, h2, h3⟩ | ⟨t, c, repository, name, hp, h⟩
  · exact log_acts_at h1 h2 (l := []) (by rw [h3]; simp) (by simp) (by simp)
  · rw [h]
    have hw : Acts (SubCommand.add schema).MayWrite (SubCommand.add schema).MayCreate ask w
        { w with clock := w.clock + 1 } := log_acts_at rfl rfl (l := []) (by simp) (by simp) (by simp)
    refine Acts.frame.trans hw ?_
    refine IOM.Keeps.bind Acts.frame (httpGet_acts (hask _ ?_)) (fun r => ?_) _
    · obtain ⟨u, hu⟩ := parseTarget_url hp.target
      exact ⟨u ++ chars! "/releases/download/" ++ t.version ++ chars! "/" ++ repository ++ chars! ".wasm", by
        rw [AddTarget.request, ← hu]; simp⟩
    · split
      · exact IOM.Keeps.fail Acts.frame _
      · refine IOM.Keeps.bind Acts.frame (createDirAll_acts rfl) fun _ => ?_
        refine IOM.Keeps.bind Acts.frame (writeFile_acts (.inr (addPath_fileIn ?_)) _) fun _ => writeFile_acts (.inl rfl) _
        exact repositoryName_no_slash hp.lastPart

theorem runStage_acts {W : Wasm} (E : Env) (F : Formats) (args : CompileArgs) (ps : Plugins W) :
    IOM.Keeps (Acts write create ask) (runStage E F args ps) := by
  have hlift : ∀ {α : Type} (r : Res α), IOM.Keeps (Acts write create ask) (IOM.lift r) :=
    fun r => IOM.Keeps.lift Acts.frame r
  have hread : IOM.Keeps (Acts write create ask) (IOM.readText args.filename) := Quiet.acts (readText_quiet _)
  unfold runStage
  split
  · exact Quiet.acts (fail_quiet _)
  · split
    · exact IOM.Keeps.bind Acts.frame hread fun _ => IOM.Keeps.bind Acts.frame (hlift _) fun _ => printLines_acts _
    · exact IOM.Keeps.bind Acts.frame hread fun _ => IOM.Keeps.bind Acts.frame (hlift _) fun _ =>
        IOM.Keeps.bind Acts.frame (hlift _) fun _ => printLines_acts _
    · refine IOM.Keeps.bind Acts.frame hread fun _ => IOM.Keeps.bind Acts.frame (hlift _) fun _ =>
        IOM.Keeps.bind Acts.frame (hlift _) fun _ => IOM.Keeps.bind Acts.frame (hlift _) fun x => ?_
      simp only
      split
      · exact printLines_acts _
      · split <;> exact printLines_acts _
    · exact IOM.Keeps.bind Acts.frame hread fun _ => IOM.Keeps.bind Acts.frame (hlift _) fun _ =>
        IOM.Keeps.bind Acts.frame (hlift _) fun _ => IOM.Keeps.bind Acts.frame (hlift _) fun x =>
          IOM.Keeps.bind Acts.frame (hlift _) fun _ => printLines_acts _
    · split
      · exact Quiet.acts (fail_quiet _)
      · exact IOM.Keeps.bind Acts.frame hread fun _ => IOM.Keeps.bind Acts.frame (hlift _) fun _ =>
          IOM.Keeps.bind Acts.frame (hlift _) fun _ => IOM.Keeps.bind Acts.frame (hlift _) fun x =>
            IOM.Keeps.bind Acts.frame (hlift _) fun _ => IOM.Keeps.bind Acts.frame (hlift _) fun _ => printLine_acts _
    · exact Quiet.acts (fail_quiet _)

theorem runCompile_acts (W : Wasm) (E : Env) (F : Formats) (envDir : Option Str) (args : CompileArgs) :
    IOM.Keeps (Acts write create ask) (runCompile W E F envDir args) :=
  IOM.Keeps.bind Acts.frame (Quiet.acts (compilePlugins_quiet _ _)) fun _ =>
    IOM.Keeps.bind Acts.frame (IOM.Keeps.lift Acts.frame _) fun _ => runStage_acts _ _ _ _

end Brack
