import Verif.Proof.Opened
import Verif.Props.Session
import Verif.Props.Project

/-
Properties of opening documents in the language server: C82, C83.
-/

namespace Brack

theorem ConfigAt.names {w : World} {T : Toml} {root : Str} {c : Config} (h : w.ConfigAt T root c) :
    ∀ m, c.plugins = some m → (m.map (·.1)).Nodup := by
  intro m hm
  obtain ⟨_, _, v, _, _, _, hv⟩ := h
  exact C41_distinct v c hv m hm

/-! ### C82 -/

/-- C82 (partial): after a document of a project has been opened, completion lists exactly the commands of the plugins
in the configuration of that project, each once, until another document is opened. Missing: a document of another
project being opened (`C82_last_refuted`, `C82_stray_refuted`), and macros (`C55_macros_refuted`). -/
theorem C82_opened_partial (X : ServerEnv) (hh : ∀ s, '_' ∉ X.E.hash s) (s s1 s2 : Server) (opened request : Json)
    (between : List Json) (uri root dir file path : Str) (c : Config) (id : Int) (trigger : Str) (typ : PType) (close : Str)
    (w w1 w2 : World) (hw : w.Healthy) (ho : opened.IsEvent (chars! "textDocument/didOpen"))
    (hp : X.P.didOpen (opened.index (chars! "params")) = some uri) (hf : X.P.toFilePath uri = some path)
    (hd : DocumentPath root dir file path) (hc : w.ConfigAt X.E.toml root c)
    (h1 : Server.dispatch X s opened w = (.ok s1, w1))
    (hb : ∀ msg ∈ between, msg.get (chars! "method") ≠ some (.str (chars! "textDocument/didOpen")))
    (h2 : handleAll X between s1 w1 = (.ok s2, w2)) (hl : ConfigLoadable X.W w2 X.E.hash c)
    (hnd : ∀ name sch, c.plugin name = some sch → pluginFile X.E.hash name sch ∉ w2.dirs)
    (hm : request.IsRequest id (chars! "textDocument/completion"))
    (hr : X.P.completion (request.index (chars! "params")) = some (some (some trigger)))
    (htr : (trigger, typ, close) ∈ [(chars! "[", PType.inline, chars! "]"), (chars! "{", PType.block, chars! "}")]) :
    ∃ (reply : Json) (commands : List (Str × Str)), (Server.dispatch X s2 request w2).1 = .ok s2 ∧
      w2.Said X.P (Server.dispatch X s2 request w2).2 [reply] ∧ reply.IsReply (.int id) ∧ commands.Nodup ∧
      (∀ plugin command, (plugin, command) ∈ commands ↔ ConfigOffers X.W w2 X.E.hash c typ plugin command) ∧
      reply.seenItems = some (commands.map (fun c => ⟨c.1 ++ chars! "." ++ c.2,
        c.1 ++ chars! "." ++ c.2 ++ chars! " $0" ++ close, true⟩)) := by
  have hn := ConfigAt.names hc
  rw [Server.open_run hw ho hp hf hd hc] at h1
  obtain ⟨md, wd, hdl, h1'⟩ := IOM.bind_ok.mp h1
  clear h1
  injection h1' with h1 hwd
  injection h1 with h1
  subst hwd h1
  obtain ⟨hproj, hrest⟩ := Server.handleAll_project hb h2
  have hs2 : s2.project = some md := hproj
  have hw' : World.Healthy { w with clock := w.clock + 1 } := healthy_later hw (by simp) rfl
  have hw1 : wd.Healthy := by
    have := downloadPlugins_goes X.E.hash c { w with clock := w.clock + 1 }
    rw [hdl] at this
    exact healthy_of_goes hw' this
  have hw2 : w2.Healthy := by
    intro n hn
    rw [hrest.faults]
    exact hw1 n (Nat.le_trans hrest.clock hn)
  have hall : AllLoadable X.W w2 md := by
    have := allLoadable_of (W := X.W) hn hdl (fun name sch hs => by
      obtain ⟨g, _⟩ := downloadPlugins_provides hh hn hw' hdl hs
      rw [World.pathExists, Bool.or_eq_true, ← hrest.files, ← hrest.dirs] at g
      rcases g with g | g
      · obtain ⟨b, hb⟩ := Option.isSome_iff_exists.mp g
        obtain ⟨ms, h⟩ := hl.files name sch b hs hb
        exact ⟨b, ms, by rw [← hrest.files]; exact hb, h⟩
      · exact absurd (show cachePath X.E.hash name sch ∈ w2.dirs by simpa using g) (hnd name sch hs)) hl.hooks
    exact ⟨this.names, fun x hx => by rw [hrest.files]; exact this.files x hx, this.hooks⟩
  obtain ⟨reply, commands, g1, g2, g3, g4, g5, g6⟩ := C55_listed_partial X s2 request id md trigger typ close w2 hw2 hm hr hs2
    hall htr
  exact ⟨reply, commands, g1, g2, g3, g4, fun p n => (g5 p n).trans (offers_of hn hdl typ p n), g6⟩

/-- A TOML crate that knows two configurations, the sample and one without plugins. -/
private def twoTomls : Toml where
  parse text :=
    if text = chars! "the configuration" then some sampleConfig.toToml
    else if text = chars! "no plugins" then some ({ sampleConfig with plugins := none } : Config).toToml
    else none
  print := showVal

/-- Two projects, one with a plugin, the other without. -/
private def twoProjects : World :=
  { sampleWorld (fun _ => .none) with
    files := [(chars! "/w/Brack.toml", utf8 (chars! "the configuration")), (chars! "/w/docs/a.[]", []),
      (chars! "/v/Brack.toml", utf8 (chars! "no plugins")), (chars! "/v/docs/a.[]", []), (chars! "/docs/a.[]", []),
      (chars! "plugins/std_00.wasm", [1])]
    dirs := [chars! "plugins"] }

/-- The libraries of a server for two projects. -/
private def twoEnv : ServerEnv := ⟨⟨UTable.sampleSeg, fun _ => someIds, true, twoTomls, fun _ => chars! "00"⟩, sampleProtocol, sampleWasm⟩

/-- The parameters naming a document. -/
private def docParams (uri : Str) : Json := .obj [(chars! "textDocument", .obj [(chars! "uri", .str uri)])]

private theorem twoProjects_config : twoProjects.ConfigAt twoEnv.E.toml (chars! "/w") sampleConfig :=
  ⟨_, chars! "the configuration", sampleConfig.toToml, rfl, by decide +kernel, rfl, by decide +kernel⟩

private theorem twoProjects_loadable (w : World) (h : w.files = twoProjects.files) :
    ConfigLoadable sampleWasm w (fun _ => chars! "00") sampleConfig where
  files := by
    intro name s b hs hb
    have hk : name = chars! "std" := by
      simp only [Config.plugin, sampleConfig, Option.bind_some, HMap.get] at hs
      by_cases h : chars! "std" = name
      · exact h.symm
      · rw [if_neg h] at hs
        simp at hs
    subst hk
    have hs' : sampleConfig.plugin (chars! "std") =
      some ⟨chars! "brack-lang", chars! "brack-std", chars! "v1", none, none, none, some true⟩ := rfl
    rw [hs'] at hs
    injection hs with hs
    subst hs
    rw [h] at hb
    have hb' : twoProjects.files.get (pluginFile (fun _ => chars! "00") (chars! "std")
      ⟨chars! "brack-lang", chars! "brack-std", chars! "v1", none, none, none, some true⟩) = some [1] := by decide +kernel
    rw [hb'] at hb
    injection hb with hb
    subst hb
    refine ⟨_, rfl, ?_⟩
    intro k hk
    cases k
    · exact absurd hk (by decide)
    · exact absurd hk (by decide)
    · exact absurd hk (by decide)
    · decide
  hooks := by
    intro k name s name' s' hs hs' _ _
    have hk : ∀ name s, sampleConfig.plugin name = some s → name = chars! "std" := by
      intro name s hs
      simp only [Config.plugin, sampleConfig, Option.bind_some, HMap.get] at hs
      by_cases h : chars! "std" = name
      · exact h.symm
      · rw [if_neg h] at hs
        simp at hs
    rw [hk _ _ hs, hk _ _ hs']

/-- Opening a document of the first project, then asking for completion twice. -/
example : ∃ (s1 : Server) (w1 : World) (reply : Json) (commands : List (Str × Str)),
    Server.dispatch twoEnv {} (eventJson (chars! "textDocument/didOpen") documentParams) twoProjects = (.ok s1, w1) ∧
    w1.Said sampleProtocol (Server.dispatch twoEnv s1
      (requestJson 7 (chars! "textDocument/completion") (completionParams ['['])) w1).2 [reply] ∧
    (chars! "std", chars! "f") ∈ commands ∧
    reply.seenItems = some (commands.map (fun c => ⟨c.1 ++ chars! "." ++ c.2,
        c.1 ++ chars! "." ++ c.2 ++ chars! " $0" ++ chars! "]", true⟩)) := by
  obtain ⟨reply, commands, _, h1, _, _, h2, h3⟩ := C82_opened_partial twoEnv (fun _ => by show _ ∉ chars! "00"; decide) {} _ _
    (eventJson (chars! "textDocument/didOpen") documentParams)
    (requestJson 7 (chars! "textDocument/completion") (completionParams ['['])) [] (chars! "file:///w/docs/a.[]") (chars! "/w")
    (chars! "docs") (chars! "a.[]") (chars! "/w/docs/a.[]") sampleConfig 7 ['['] .inline (chars! "]") twoProjects _ _
    (fun _ _ => rfl) (eventJson_is ..) rfl rfl ⟨rfl, by decide, by decide, by decide⟩ twoProjects_config rfl (by simp) rfl
    (twoProjects_loadable _ rfl) (by
      intro name sch _ h
      rw [show (_ : World).dirs = [chars! "plugins"] from rfl, List.mem_singleton] at h
      have := congrArg List.length h
      simp [pluginFile] at this) (requestJson_is (by decide) _ _) rfl (by decide)
  exact ⟨_, _, reply, commands, rfl, h1, (h2 _ _).mpr ⟨_, [1], _, rfl, rfl, rfl, by decide⟩, h3⟩

/-- C82 refuted: after a document of a second project has been opened, completion in a document of the first lists
nothing, although a plugin of the first project offers a command. -/
theorem C82_last_refuted : ∃ (X : ServerEnv) (w w1 w2 : World) (s1 s2 : Server) (first second request reply : Json)
    (uri1 uri2 : Str) (c : Config), w.Healthy ∧ w.ConfigAt X.E.toml (chars! "/w") c ∧
    first.IsEvent (chars! "textDocument/didOpen") ∧ X.P.didOpen (first.index (chars! "params")) = some uri1 ∧
    X.P.toFilePath uri1 = some (chars! "/w/docs/a.[]") ∧ Server.dispatch X {} first w = (.ok s1, w1) ∧
    second.IsEvent (chars! "textDocument/didOpen") ∧ X.P.didOpen (second.index (chars! "params")) = some uri2 ∧
    X.P.toFilePath uri2 = some (chars! "/v/docs/a.[]") ∧ Server.dispatch X s1 second w1 = (.ok s2, w2) ∧
    ConfigOffers X.W w2 X.E.hash c .inline (chars! "std") (chars! "f") ∧
    request.IsRequest 7 (chars! "textDocument/completion") ∧
    request.at [chars! "params", chars! "textDocument", chars! "uri"] = some (.str uri1) ∧
    X.P.completion (request.index (chars! "params")) = some (some (some (chars! "["))) ∧
    w2.Said X.P (Server.dispatch X s2 request w2).2 [reply] ∧ reply.seenItems = some [] :=
  ⟨twoEnv, twoProjects, _, _, _, _, eventJson (chars! "textDocument/didOpen") (docParams (chars! "file:///w/docs/a.[]")),
    eventJson (chars! "textDocument/didOpen") (docParams (chars! "file:///v/docs/a.[]")),
    requestJson 7 (chars! "textDocument/completion") (completionParams ['[']), Server.resultJson 7 (.arr []),
    chars! "file:///w/docs/a.[]", chars! "file:///v/docs/a.[]", sampleConfig, fun _ _ => rfl, twoProjects_config,
    eventJson_is .., rfl, rfl, rfl, eventJson_is .., rfl, rfl, rfl,
    ⟨_, [1], _, rfl, rfl, rfl, by decide⟩, requestJson_is (by decide) _ _, rfl, rfl,
    Server.said_send .., rfl⟩

/-- C82 refuted: opening a document that does not belong to a project leaves everything as it was, so that completion
in it lists the commands of the project before. -/
theorem C82_stray_refuted (X : ServerEnv) (s : Server) (msg : Json) (uri root dir file path : Str) (w : World)
    (hw : w.Healthy) (hm : msg.IsEvent (chars! "textDocument/didOpen"))
    (hp : X.P.didOpen (msg.index (chars! "params")) = some uri) (hf : X.P.toFilePath uri = some path)
    (hd : DocumentPath root dir file path) (hc : ∀ c, ¬ w.ConfigAt X.E.toml root c) :
    ∃ w', Server.dispatch X s msg w = (.ok s, w') ∧ w'.files = w.files ∧ w'.dirs = w.dirs :=
  ⟨_, Server.open_none hw hm hp hf hd hc, rfl, rfl⟩

/-- A document without a project. -/
example : ∃ w', Server.dispatch twoEnv sampleServer
      (eventJson (chars! "textDocument/didOpen") (docParams (chars! "file:///docs/a.[]"))) twoProjects = (.ok sampleServer, w') ∧
    w'.files = twoProjects.files ∧ w'.dirs = twoProjects.dirs := by
  refine C82_stray_refuted twoEnv sampleServer _ (chars! "file:///docs/a.[]") [] (chars! "docs") (chars! "a.[]") (chars! "/docs/a.[]")
    twoProjects (fun _ _ => rfl) (eventJson_is ..) rfl rfl ⟨rfl, by decide, by decide, by decide⟩ ?_
  rintro c ⟨b, t, v, h, _⟩
  have : twoProjects.files.get ([] ++ chars! "/Brack.toml") = none := by decide +kernel
  rw [this] at h
  simp at h

/-! ### C83 -/

/-- C83 (partial): if nothing goes wrong on the file system and the network is steady, the server goes on after a
document `root/dir/file` was opened if and only if each plugin in the configuration of the project is there already,
or there is a directory `plugins` and the plugin can be fetched; otherwise the server fails. -/
theorem C83_continues_partial (X : ServerEnv) (hh : ∀ s, '/' ∉ X.E.hash s) (s : Server) (msg : Json)
    (uri root dir file path : Str) (w : World) (hw : w.Healthy) (hsteady : ∀ n n' url, w.http n url = w.http n' url)
    (hm : msg.IsEvent (chars! "textDocument/didOpen")) (hp : X.P.didOpen (msg.index (chars! "params")) = some uri)
    (hf : X.P.toFilePath uri = some path) (hd : DocumentPath root dir file path)
    (hslash : ∀ c name sch, w.ConfigAt X.E.toml root c → c.plugin name = some sch → '/' ∉ name) :
    ((∃ s' w', Server.dispatch X s msg w = (.ok s', w')) ↔
      ∀ c name sch, w.ConfigAt X.E.toml root c → c.plugin name = some sch →
        w.pathExists (pluginFile X.E.hash name sch) = true ∨
        (chars! "plugins" ∈ w.dirs ∧ (w.http w.clock (pluginUrl c.document.backend name sch)).isSome = true)) ∧
    (Server.dispatch X s msg w).1 ≠ .panic := by
  by_cases hc : ∃ c, w.ConfigAt X.E.toml root c
  · obtain ⟨c, hc⟩ := hc
    have hw' : World.Healthy { w with clock := w.clock + 1 } := healthy_later hw (by simp) rfl
    have hone : ∀ c', w.ConfigAt X.E.toml root c' → c' = c := by
      rintro c' ⟨b, t, v, h1, h2, h3, h4⟩
      obtain ⟨b', t', v', g1, g2, g3, g4⟩ := hc
      rw [g1] at h1
      injection h1 with h1
      subst h1
      rw [g2] at h2
      injection h2 with h2
      subst h2
      rw [g3] at h3
      injection h3 with h3
      subst h3
      rw [g4] at h4
      injection h4 with h4
      exact h4.symm
    have hiff := downloadPlugins_iff hh (fun name sch => hslash c name sch hc) (ConfigAt.names hc) hw' hsteady
    rw [Server.open_run hw hm hp hf hd hc]
    constructor
    · constructor
      · rintro ⟨s', w', h⟩ c' name sch hc' hs
        obtain ⟨md, wd, hdl, _⟩ := IOM.bind_ok.mp h
        rw [hone c' hc'] at hs ⊢
        rcases hiff.mp ⟨md, wd, hdl⟩ name sch hs with h | ⟨h1, h2⟩
        · exact .inl h
        · exact .inr ⟨h1, by rw [hsteady w.clock (w.clock + 1)]; exact h2⟩
      · intro h
        obtain ⟨md, wd, hdl⟩ := hiff.mpr (fun name sch hs => by
          rcases h c name sch hc hs with h | ⟨h1, h2⟩
          · exact .inl h
          · exact .inr ⟨h1, by rw [hsteady w.clock (w.clock + 1)] at h2; exact h2⟩)
        rw [IOM.bind_of_ok hdl]
        exact ⟨_, _, rfl⟩
    · exact IOM.bind_ne_panic (downloadPlugins_ne_panic _ _) fun _ _ => by simp [Pure.pure, IOM.pure]
  · rw [Server.open_none hw hm hp hf hd (fun c h => hc ⟨c, h⟩)]
    exact ⟨⟨fun _ c _ _ h => absurd ⟨c, h⟩ hc, fun _ => ⟨_, _, rfl⟩⟩, by simp⟩

/-- Opening a document of a project whose plugin is there. -/
example : ∃ s' w', Server.dispatch twoEnv {} (eventJson (chars! "textDocument/didOpen") documentParams) twoProjects = (.ok s', w') := by
  have hone : ∀ c, twoProjects.ConfigAt twoEnv.E.toml (chars! "/w") c → c = sampleConfig := by
    rintro c ⟨b, t, v, h1, h2, h3, h4⟩
    injection h1 with h1
    subst h1
    have : fromUtf8 (utf8 (chars! "the configuration")) = some (chars! "the configuration") := fromUtf8_utf8 _
    rw [this] at h2
    injection h2 with h2
    subst h2
    injection h3 with h3
    subst h3
    have : Config.ofToml sampleConfig.toToml = .ok sampleConfig := by decide +kernel
    rw [this] at h4
    injection h4 with h4
    exact h4.symm
  have hstd : ∀ name sch, sampleConfig.plugin name = some sch → name = chars! "std" := by
    intro name s hs
    simp only [Config.plugin, sampleConfig, Option.bind_some, HMap.get] at hs
    by_cases h : chars! "std" = name
    · exact h.symm
    · rw [if_neg h] at hs
      simp at hs
  refine (C83_continues_partial twoEnv (fun _ => by show _ ∉ chars! "00"; decide) {} (eventJson (chars! "textDocument/didOpen") documentParams)
    (chars! "file:///w/docs/a.[]") (chars! "/w") (chars! "docs") (chars! "a.[]") (chars! "/w/docs/a.[]") twoProjects
    (fun _ _ => rfl) (fun _ _ _ => rfl) (eventJson_is ..) rfl rfl ⟨rfl, by decide, by decide, by decide⟩ ?_).1.mpr ?_
  · intro c name sch hc hs
    rw [hone c hc] at hs
    rw [hstd _ _ hs]
    decide
  · intro c name sch hc hs
    rw [hone c hc] at hs
    rw [hstd _ _ hs]
    exact .inl (show twoProjects.pathExists (chars! "plugins/" ++ chars! "std" ++ chars! "_" ++ chars! "00" ++ chars! ".wasm") = true
      by decide +kernel)

/-- C83 refuted without a network: the server fails if a plugin of the project has not been fetched before. -/
theorem C83_offline_refuted (X : ServerEnv) (hh : ∀ s, '/' ∉ X.E.hash s) (s : Server) (msg : Json)
    (uri root dir file path : Str) (w : World) (hw : w.Healthy) (hoff : ∀ n url, w.http n url = none)
    (hm : msg.IsEvent (chars! "textDocument/didOpen")) (hp : X.P.didOpen (msg.index (chars! "params")) = some uri)
    (hf : X.P.toFilePath uri = some path) (hd : DocumentPath root dir file path) (c : Config) (name : Str) (sch : PluginSchema)
    (hc : w.ConfigAt X.E.toml root c) (hs : c.plugin name = some sch) (hname : '/' ∉ name)
    (hno : w.pathExists (pluginFile X.E.hash name sch) = false) :
    ∃ m, (Server.dispatch X s msg w).1 = .err m := by
  rw [Server.open_run hw hm hp hf hd hc]
  rcases h : (do
      let md ← downloadPlugins X.E.hash c
      return { s with project := some md } : IOM Server) { w with clock := w.clock + 1 } with ⟨r, w'⟩
  rcases r with s' | m | _
  · obtain ⟨md, wd, hdl, _⟩ := IOM.bind_ok.mp h
    rcases downloadPlugins_needs hh hs hname (ConfigAt.names hc) hdl with g | ⟨_, n, g⟩
    · exact absurd g (by
        show ¬ w.pathExists (pluginFile X.E.hash name sch) = true
        rw [hno]
        simp)
    · rw [hoff] at g
      simp at g
  · exact ⟨m, rfl⟩
  · have := IOM.bind_ne_panic (f := fun md => (return { s with project := some md } : IOM Server))
      (downloadPlugins_ne_panic (hash := X.E.hash) c { w with clock := w.clock + 1 }) fun _ _ => by simp [Pure.pure, IOM.pure]
    rw [h] at this
    exact absurd rfl this

/-- C83 refuted without a directory `plugins`: the server fails if a plugin of the project is not there, although it can
be fetched. -/
theorem C83_directory_refuted (X : ServerEnv) (hh : ∀ s, '/' ∉ X.E.hash s) (s : Server) (msg : Json)
    (uri root dir file path : Str) (w : World) (hw : w.Healthy) (hdir : chars! "plugins" ∉ w.dirs)
    (hm : msg.IsEvent (chars! "textDocument/didOpen")) (hp : X.P.didOpen (msg.index (chars! "params")) = some uri)
    (hf : X.P.toFilePath uri = some path) (hd : DocumentPath root dir file path) (c : Config) (name : Str) (sch : PluginSchema)
    (hc : w.ConfigAt X.E.toml root c) (hs : c.plugin name = some sch) (hname : '/' ∉ name)
    (hno : w.pathExists (pluginFile X.E.hash name sch) = false) :
    ∃ m, (Server.dispatch X s msg w).1 = .err m := by
  rw [Server.open_run hw hm hp hf hd hc]
  rcases h : (do
      let md ← downloadPlugins X.E.hash c
      return { s with project := some md } : IOM Server) { w with clock := w.clock + 1 } with ⟨r, w'⟩
  rcases r with s' | m | _
  · obtain ⟨md, wd, hdl, _⟩ := IOM.bind_ok.mp h
    rcases downloadPlugins_needs hh hs hname (ConfigAt.names hc) hdl with g | ⟨g, _⟩
    · exact absurd g (by
        show ¬ w.pathExists (pluginFile X.E.hash name sch) = true
        rw [hno]
        simp)
    · exact absurd g hdir
  · exact ⟨m, rfl⟩
  · have := IOM.bind_ne_panic (f := fun md => (return { s with project := some md } : IOM Server))
      (downloadPlugins_ne_panic (hash := X.E.hash) c { w with clock := w.clock + 1 }) fun _ _ => by simp [Pure.pure, IOM.pure]
    rw [h] at this
    exact absurd rfl this

/-- C83 refuted for documents that are not files, such as those that have never been saved: the server fails. -/
theorem C83_unsaved_refuted (X : ServerEnv) (s : Server) (msg : Json) (uri : Str) (w : World)
    (hm : msg.IsEvent (chars! "textDocument/didOpen")) (hp : X.P.didOpen (msg.index (chars! "params")) = some uri)
    (hf : X.P.toFilePath uri = none) : ∃ m, Server.dispatch X s msg w = (.err m, w) := by
  rw [Server.dispatch_event hm, Server.handleNotification, if_neg (by decide), if_pos rfl, hp]
  simp only
  rw [Server.didOpen, hf]
  exact ⟨_, rfl⟩

/-- A project without its plugins: opened while offline, and opened where there is no directory `plugins`; a document
that was never saved. -/
example : (∃ m, (Server.dispatch twoEnv {} (eventJson (chars! "textDocument/didOpen") documentParams)
      { twoProjects with files := [(chars! "/w/Brack.toml", utf8 (chars! "the configuration"))], http := fun _ _ => none }).1 = .err m) ∧
    (∃ m, (Server.dispatch twoEnv {} (eventJson (chars! "textDocument/didOpen") documentParams)
      { twoProjects with files := [(chars! "/w/Brack.toml", utf8 (chars! "the configuration"))], dirs := [] }).1 = .err m) ∧
    ∃ m, Server.dispatch twoEnv {} (eventJson (chars! "textDocument/didOpen") (docParams (chars! "untitled:1"))) twoProjects =
      (.err m, twoProjects) := by
  refine ⟨?_, ?_, ?_⟩
  · exact C83_offline_refuted twoEnv (fun _ => by show _ ∉ chars! "00"; decide) {} _ (chars! "file:///w/docs/a.[]") (chars! "/w") (chars! "docs")
      (chars! "a.[]") (chars! "/w/docs/a.[]") _ (fun _ _ => rfl) (fun _ _ => rfl) (eventJson_is ..) rfl rfl
      ⟨rfl, by decide, by decide, by decide⟩ sampleConfig (chars! "std") _
      ⟨_, chars! "the configuration", sampleConfig.toToml, rfl, by decide +kernel, rfl, by decide +kernel⟩ rfl (by decide)
      (by decide +kernel)
  · exact C83_directory_refuted twoEnv (fun _ => by show _ ∉ chars! "00"; decide) {} _ (chars! "file:///w/docs/a.[]") (chars! "/w") (chars! "docs")
      (chars! "a.[]") (chars! "/w/docs/a.[]") _ (fun _ _ => rfl) (by decide) (eventJson_is ..) rfl rfl
      ⟨rfl, by decide, by decide, by decide⟩ sampleConfig (chars! "std") _
      ⟨_, chars! "the configuration", sampleConfig.toToml, rfl, by decide +kernel, rfl, by decide +kernel⟩ rfl (by decide)
      (by decide +kernel)
  · exact C83_unsaved_refuted twoEnv {} _ (chars! "untitled:1") _ (eventJson_is ..) rfl rfl

end Brack
