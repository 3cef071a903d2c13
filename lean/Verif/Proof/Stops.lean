import Verif.Spec.Stops
import Verif.Props.Editor
import Verif.Props.Opened
import Verif.Proof.Effects
import Verif.Proof.Crash

/-
Lemmas about the reasons why the language server stops.
-/

namespace Brack

open Server hiding dispatch

/-! ### Kinds of messages -/

theorem asI64_some {o : Option Json} {id : Int} (h : o.bind Json.asI64 = some id) :
    o = some (.int id) ∧ (-2 ^ 63 ≤ id ∧ id < 2 ^ 63) := by
  obtain ⟨v, rfl, hv⟩ := Option.bind_eq_some_iff.mp h
  cases v with
  | int n =>
    rw [Json.asI64] at hv
    by_cases hn : -2 ^ 63 ≤ n ∧ n < 2 ^ 63
    · rw [if_pos hn] at hv
      injection hv with hv
      subst hv
      exact ⟨rfl, hn⟩
    · rw [if_neg hn] at hv
      simp at hv
  | _ => simp [Json.asI64] at hv

theorem asStr_some {o : Option Json} {m : Str} (h : o.bind Json.asStr = some m) : o = some (.str m) := by
  obtain ⟨v, rfl, hv⟩ := Option.bind_eq_some_iff.mp h
  cases v with
  | str t =>
    injection hv with hv
    rw [hv]
  | _ => simp [Json.asStr] at hv

/-- A message is a request, a notification, a response or nothing of these. -/
theorem message_cases (msg : Json) : (∃ id method, msg.IsRequest id method) ∨ (∃ method, msg.Notifies method) ∨
    ((msg.get (chars! "method")).bind Json.asStr = none) := by
  rcases hm : (msg.get (chars! "method")).bind Json.asStr with _ | method
  · exact .inr (.inr rfl)
  · have hm' := asStr_some hm
    rcases hi : (msg.get (chars! "id")).bind Json.asI64 with _ | id
    · refine .inr (.inl ⟨method, ?_, hm'⟩)
      intro id h1 h2 h3
      rw [h3, Option.bind_some, Json.asI64, if_pos ⟨h1, h2⟩] at hi
      cases hi
    · obtain ⟨h1, h2⟩ := asI64_some hi
      exact .inl ⟨id, method, h1, h2, hm'⟩

theorem dispatch_notifies {X : ServerEnv} {s : Server} {msg : Json} {method : Str} (h : msg.Notifies method) :
    Server.dispatch X s msg = Server.dispatch X s (eventJson method (msg.index (chars! "params"))) := by
  have h1 : Server.dispatch X s msg = handleNotification X s msg method := by
    rw [Server.dispatch, h.2]
    rcases hi : (msg.get (chars! "id")).bind Json.asI64 with _ | id
    · rfl
    · obtain ⟨h1, h2⟩ := asI64_some hi
      exact absurd h1 (h.1 id h2.1 h2.2)
  rw [h1]
  rfl

theorem dispatch_nothing {X : ServerEnv} {s : Server} {msg : Json} {w : World} (hw : w.Healthy)
    (h : (msg.get (chars! "method")).bind Json.asStr = none) : (Server.dispatch X s msg w).1 = .ok s := by
  rw [Server.dispatch, h]
  rcases (msg.get (chars! "id")).bind Json.asI64 with _ | id
  · simp only
    rw [sendInvalidRequest, sendError, IOM.bind_of_ok (send_run hw)]
    rfl
  · rfl

/-! ### Paths -/

theorem pathOf_concat (names : List Str) (n : Str) : pathOf (names ++ [n]) = pathOf names ++ '/' :: n := by
  simp [pathOf]

theorem absolute_cases {path : Str} (h : AbsolutePath path) :
    TopLevel path ∨ ∃ root dir file, DocumentPath root dir file path := by
  rcases h with rfl | ⟨names, hne, hn, rfl⟩
  · exact .inl ⟨[], by simp, rfl⟩
  rcases List.eq_nil_or_concat names with rfl | ⟨front, file, rfl⟩
  · exact absurd rfl hne
  have hfile := hn file (by simp)
  rcases List.eq_nil_or_concat front with rfl | ⟨front, dir, rfl⟩
  · exact .inl ⟨file, hfile.2, by simp [pathOf]⟩
  have hdir := hn dir (by simp)
  refine .inr ⟨pathOf front, dir, file, ?_, ?_, ⟨hdir.2, hdir.1⟩, hfile.2⟩
  · rw [List.concat_eq_append, List.concat_eq_append, pathOf_concat, pathOf_concat]
    simp
  · intro hr
    rcases front with _ | ⟨a, front⟩
    · simp [pathOf] at hr
    · have ha := hn a (by simp)
      rw [pathOf, List.flatMap_cons] at hr
      rcases a with _ | ⟨x, a⟩
      · exact ha.1 rfl
      · simp at hr

theorem absolute_head {path : Str} (h : AbsolutePath path) : ∃ rest, path = '/' :: rest := by
  rcases h with rfl | ⟨names, hne, _, rfl⟩
  · exact ⟨[], rfl⟩
  · rcases names with _ | ⟨n, names⟩
    · exact absurd rfl hne
    · exact ⟨n ++ pathOf names, by simp [pathOf]⟩

theorem topLevel_parents {path : Str} (h : TopLevel path) : (pathParent path).bind pathParent = none := by
  obtain ⟨name, hn, rfl⟩ := h
  by_cases he : name = []
  · subst he
    rfl
  · rw [pathParent_root hn he]
    rfl

/-! ### One message -/

section
variable {X : ServerEnv} {s : Server} {msg : Json} {w : World}

theorem contains_or_unreadable (w : World) (path : Str) : (∃ text, w.Contains path text) ∨ w.Unreadable path := by
  by_cases h : ∃ text, w.Contains path text
  · exact .inl h
  · exact .inr fun b t hb ht => h ⟨t, b, hb, ht⟩

theorem loose_of {S : Segmenter} {text : Str} {toks : List Token} (ht : tokenizeStr S text = .ok toks)
    (ha : accepts [] .start (toks.map (·.kind)) = true) :
    (∃ e ∈ trace [] toks, e.looseSeparator = true) ↔ LooseText S text := by
  obtain ⟨c, hc⟩ := (C11_accepts_iff toks).mpr ha
  constructor
  · rintro h
    exact ⟨toks, c, ht, hc, h⟩
  · rintro ⟨ts, c', h1, _, h⟩
    rw [ht] at h1
    injection h1 with h1
    subst h1
    exact h

/-- After a save, in a healthy world. -/
theorem save_iff {uri : Str} (hw : w.Healthy) (hm : msg.IsEvent (chars! "textDocument/didSave"))
    (hp : X.P.didSave (msg.index (chars! "params")) = some uri) :
    (∃ s', (Server.dispatch X s msg w).1 = .ok s') ↔ ∃ path, X.P.toFilePath uri = some path ∧
      ∀ text toks, w.Contains path text → tokenizeStr X.E.S text = .ok toks →
        accepts [] .start (toks.map (·.kind)) = true ∧ ¬ LooseText X.E.S text := by
  rcases hf : X.P.toFilePath uri with _ | path
  · have : ∃ e, (Server.dispatch X s msg w).1 = .err e := by
      rw [dispatch_event hm, handleNotification, if_neg (by decide), if_neg (by decide), if_neg (by decide),
        if_pos rfl, hp]
      simp only
      rw [IOM.bind_run, didSave, hf]
      exact ⟨_, rfl⟩
    obtain ⟨e, he⟩ := this
    rw [he]
    simp
  · rcases contains_or_unreadable w path with ⟨text, hc⟩ | hu
    · have ht := tokenizeStr_eq X.E.S text
      rw [C51_continues_iff_partial X s msg uri path text w _ hw hm hp hf hc ht]
      constructor
      · rintro ⟨h1, h2⟩
        refine ⟨path, rfl, fun text' toks' hc' ht' => ?_⟩
        have : text' = text := by
          obtain ⟨b, hb, hbt⟩ := hc
          obtain ⟨b', hb', hbt'⟩ := hc'
          rw [hb] at hb'
          injection hb' with hb'
          subst hb'
          rw [hbt] at hbt'
          injection hbt' with h
          exact h.symm
        subst this
        rw [ht] at ht'
        injection ht' with e
        subst e
        refine ⟨h1, fun hl => ?_⟩
        obtain ⟨e, he, hel⟩ := (loose_of ht h1).mpr hl
        rw [h2 e he] at hel
        simp at hel
      · rintro ⟨path', hpath, h⟩
        injection hpath with hpath
        subst hpath
        obtain ⟨h1, h2⟩ := h text _ hc ht
        refine ⟨h1, fun e he => ?_⟩
        rcases hb : e.looseSeparator with _ | _
        · rfl
        · exact absurd ((loose_of ht h1).mp ⟨e, he, hb⟩) h2
    · obtain ⟨_, _, h, _⟩ := C51_unreadable X s msg uri path w hw hm hp hf hu
      rw [h]
      simp only [Res.ok.injEq, exists_eq', true_iff]
      exact ⟨path, rfl, fun text toks hc => absurd hc (fun ⟨b, hb, hbt⟩ => hu b text hb hbt)⟩

/-- After a document was opened, in a healthy world. -/
theorem open_continues {uri root dir file path : Str} (hh : ∀ s, '/' ∉ X.E.hash s) (hw : w.Healthy)
    (hflat : w.FlatConfigs X.E.toml) (hm : msg.IsEvent (chars! "textDocument/didOpen"))
    (hp : X.P.didOpen (msg.index (chars! "params")) = some uri) (hf : X.P.toFilePath uri = some path)
    (hd : DocumentPath root dir file path)
    (h : ∀ c name sch, w.ConfigAt X.E.toml root c → c.plugin name = some sch →
      w.pathExists (pluginFile X.E.hash name sch) = true ∨
      (chars! "plugins" ∈ w.dirs ∧ ∀ n, (w.http n (pluginUrl c.document.backend name sch)).isSome = true)) :
    ∃ s', (Server.dispatch X s msg w).1 = .ok s' := by
  by_cases hc : ∃ c, w.ConfigAt X.E.toml root c
  · obtain ⟨c, hc⟩ := hc
    have hw' : World.Healthy { w with clock := w.clock + 1 } := healthy_later hw (by simp) rfl
    have hfl : c.Flat := by
      obtain ⟨b, t, v, h1, h2, h3, h4⟩ := hc
      exact hflat _ b t v c ⟨root ++ ['/'], by simp⟩ h1 h2 h3 h4
    obtain ⟨md, wd, hdl⟩ := downloadPlugins_runs hh hfl.2 (ConfigAt.names hc) hw' (fun name sch hs => h c name sch hc hs)
    rw [open_run hw hm hp hf hd hc, IOM.bind_of_ok hdl]
    exact ⟨_, rfl⟩
  · rw [open_none hw hm hp hf hd (fun c h => hc ⟨c, h⟩)]
    exact ⟨_, rfl⟩

theorem not_isSome {α : Type} {o : Option α} (h : ¬ o.isSome = true) : o = none := by
  cases o with
  | none => rfl
  | some a => exact absurd rfl h

/-- A message that is not fatal. -/
theorem continues_of_not_fatal (hpath : ∀ uri path, X.P.toFilePath uri = some path → AbsolutePath path)
    (hh : ∀ s, '/' ∉ X.E.hash s) (hw : w.Healthy) (hflat : w.FlatConfigs X.E.toml)
    (hsize : ∀ id method, msg.IsRequest id method → ¬ Oversized X.P w method (msg.index (chars! "params")))
    (h : ¬ Fatal X w msg) : ∃ s', (Server.dispatch X s msg w).1 = .ok s' := by
  rcases message_cases msg with ⟨id, method, hm⟩ | ⟨method, hm⟩ | hm
  · rw [dispatch_request hm]
    obtain ⟨logs, rs, _, _, hr⟩ := handleRequest_says (X := X) (s := s) (msg := msg) (id := id) (method := method) hw
    rcases hr with ⟨v, _, _, s', h'⟩ | ⟨_, ⟨_, h'⟩ | ⟨_, h'⟩ | ⟨h', _⟩⟩
    · exact ⟨s', h'⟩
    · exact absurd h' (hsize id method hm)
    · exact absurd (.request hm h') h
    · exact ⟨s, h'⟩
  · rw [dispatch_notifies hm]
    have he := eventJson_is method (msg.index (chars! "params"))
    by_cases h1 : method = chars! "textDocument/didOpen"
    · subst h1
      rcases hp : X.P.didOpen (msg.index (chars! "params")) with _ | uri
      · exact absurd (.openParams hm hp) h
      rcases hf : X.P.toFilePath uri with _ | path
      · exact absurd (.openNoFile hm hp hf) h
      rcases absolute_cases (hpath uri path hf) with ht | ⟨root, dir, file, hd⟩
      · exact absurd (.openTop hm hp hf ht) h
      refine open_continues hh hw hflat he hp hf hd fun c name sch hc hs => ?_
      rcases hx : w.pathExists (pluginFile X.E.hash name sch) with _ | _
      · right
        by_cases hdir : chars! "plugins" ∈ w.dirs
        · refine ⟨hdir, fun n => ?_⟩
          by_cases hn : (w.http n (pluginUrl c.document.backend name sch)).isSome = true
          · exact hn
          · exact absurd (.openPlugin (n := n) hm hp hf hd hc hs hx (.inr (not_isSome hn))) h
        · exact absurd (.openPlugin (n := 0) hm hp hf hd hc hs hx (.inl hdir)) h
      · exact .inl rfl
    by_cases h2 : method = chars! "textDocument/didSave"
    · subst h2
      rcases hp : X.P.didSave (msg.index (chars! "params")) with _ | uri
      · exact absurd (.saveParams hm hp) h
      refine (save_iff hw he hp).mpr ?_
      rcases hf : X.P.toFilePath uri with _ | path
      · exact absurd (.saveNoFile hm hp hf) h
      refine ⟨path, rfl, fun text toks hc ht => ?_⟩
      rcases ha : accepts [] .start (toks.map (·.kind)) with _ | _
      · exact absurd (.saveRejected hm hp hf hc ht ha) h
      · exact ⟨ha, fun hl => h (.saveLoose hm hp hf hc hl)⟩
    by_cases h3 : method = chars! "textDocument/didChange"
    · subst h3
      rcases hp : X.P.didChange (msg.index (chars! "params")) with _ | _
      · exact absurd (.changeParams hm hp) h
      · rw [dispatch_event he, handleNotification, if_neg (by decide), if_neg (by decide), if_pos rfl]
        have : X.P.didChange ((eventJson (chars! "textDocument/didChange") (msg.index (chars! "params"))).index (chars! "params")) = true := hp
        rw [this]
        exact ⟨s, rfl⟩
    · rw [dispatch_event he, handleNotification, if_neg h1, if_neg h3, if_neg h2]
      by_cases h4 : method = chars! "initialized"
      · rw [if_pos h4, logMessage, IOM.bind_of_ok (send_run hw)]
        exact ⟨s, rfl⟩
      · rw [if_neg h4]
        exact ⟨s, rfl⟩
  · exact ⟨s, dispatch_nothing hw hm⟩

/-- A fatal message. -/
theorem stops_of_fatal (hh : ∀ s, '/' ∉ X.E.hash s) (hw : w.Healthy) (hflat : w.FlatConfigs X.E.toml)
    (hsteady : ∀ n n' url, w.http n url = w.http n' url) (h : Fatal X w msg) : ¬ ∃ s', (Server.dispatch X s msg w).1 = .ok s' := by
  have no : ∀ {r : Res Server}, (∃ e, r = .err e) → ¬ ∃ s', r = .ok s' := by
    rintro r ⟨e, rfl⟩ ⟨_, h⟩
    cases h
  cases h with
  | request hm h =>
    apply no
    obtain ⟨_, e, _, he, _⟩ := C50_params_refuted X s msg _ _ w hw hm h
    exact ⟨e, he⟩
  | openParams hm hp =>
    apply no
    rw [dispatch_notifies hm, dispatch_event (eventJson_is _ _), handleNotification, if_neg (by decide), if_pos rfl]
    rw [show X.P.didOpen ((eventJson _ (msg.index (chars! "params"))).index (chars! "params")) = none from hp]
    exact ⟨_, rfl⟩
  | changeParams hm hp =>
    apply no
    rw [dispatch_notifies hm, dispatch_event (eventJson_is _ _), handleNotification, if_neg (by decide), if_neg (by decide), if_pos rfl]
    rw [show X.P.didChange ((eventJson _ (msg.index (chars! "params"))).index (chars! "params")) = false from hp]
    exact ⟨_, rfl⟩
  | saveParams hm hp =>
    apply no
    rw [dispatch_notifies hm, dispatch_event (eventJson_is _ _), handleNotification, if_neg (by decide), if_neg (by decide),
      if_neg (by decide), if_pos rfl]
    rw [show X.P.didSave ((eventJson _ (msg.index (chars! "params"))).index (chars! "params")) = none from hp]
    exact ⟨_, rfl⟩
  | openNoFile hm hp hf =>
    apply no
    rw [dispatch_notifies hm]
    obtain ⟨e, he⟩ := C83_unsaved_refuted X s (eventJson _ (msg.index (chars! "params"))) _ w (eventJson_is _ _) hp hf
    exact ⟨e, congrArg Prod.fst he⟩
  | openTop hm hp hf ht =>
    apply no
    rw [dispatch_notifies hm, dispatch_event (eventJson_is _ _), handleNotification, if_neg (by decide), if_pos rfl]
    rw [show X.P.didOpen ((eventJson _ (msg.index (chars! "params"))).index (chars! "params")) = some _ from hp]
    simp only
    rw [didOpen, hf, Option.bind_some, topLevel_parents ht]
    exact ⟨_, rfl⟩
  | @openPlugin uri path root dir file name c sch n hm hp hf hd hc hs hno hfail =>
    rw [dispatch_notifies hm]
    intro hok
    have hone : ∀ c name sch, w.ConfigAt X.E.toml root c → c.plugin name = some sch → '/' ∉ name := by
      rintro c name sch ⟨b, t, v, h1, h2, h3, h4⟩ hs
      exact (hflat _ b t v c ⟨root ++ ['/'], by simp⟩ h1 h2 h3 h4).2 name sch hs
    obtain ⟨s', hok⟩ := hok
    rcases (C83_continues_partial X hh s (eventJson _ (msg.index (chars! "params"))) _ _ _ _ _ w hw hsteady (eventJson_is _ _) hp hf hd hone).1.mp
      ⟨s', _, by rw [← hok]⟩ _ _ _ hc hs with h | ⟨h1, h2⟩
    · rw [hno] at h
      simp at h
    · rcases hfail with h | h
      · exact h h1
      · rw [hsteady w.clock n, h] at h2
        simp at h2
  | saveNoFile hm hp hf =>
    rw [dispatch_notifies hm, save_iff (msg := eventJson _ (msg.index (chars! "params"))) hw (eventJson_is _ _) hp, hf]
    simp
  | saveRejected hm hp hf hc ht ha =>
    rw [dispatch_notifies hm, save_iff (msg := eventJson _ (msg.index (chars! "params"))) hw (eventJson_is _ _) hp]
    rintro ⟨path, hf', h⟩
    rw [hf] at hf'
    injection hf' with hf'
    subst hf'
    rw [(h _ _ hc ht).1] at ha
    simp at ha
  | saveLoose hm hp hf hc hl =>
    rw [dispatch_notifies hm, save_iff (msg := eventJson _ (msg.index (chars! "params"))) hw (eventJson_is _ _) hp]
    rintro ⟨path, hf', h⟩
    rw [hf] at hf'
    injection hf' with hf'
    subst hf'
    exact (h _ _ hc (tokenizeStr_eq _ _)).2 hl

end

/-! ### Sessions -/

/-- What happens to the world while messages are handled. -/
structure Moves (w w' : World) : Prop where
  clock : w.clock ≤ w'.clock
  faults : w'.faults = w.faults
  http : w'.http = w.http
  dirs : ∀ d, d ∈ w'.dirs ↔ d ∈ w.dirs
  files : ∀ p, ¬ (FileIn (chars! "plugins") p ∧ chars! ".wasm" <:+ p) → w'.files.get p = w.files.get p
  keeps : ∀ p, (w.files.get p).isSome → (w'.files.get p).isSome

theorem Rests.moves {w w' : World} (h : Rests w w') : Moves w w' :=
  ⟨h.clock, h.faults, h.http, fun d => by rw [h.dirs], fun p _ => by rw [h.files], fun p hp => by rw [h.files]; exact hp⟩

theorem Moves.trans {a b c : World} (h : Moves a b) (h' : Moves b c) : Moves a c :=
  ⟨Nat.le_trans h.clock h'.clock, h'.faults.trans h.faults, h'.http.trans h.http, fun d => (h'.dirs d).trans (h.dirs d),
    fun p hp => (h'.files p hp).trans (h.files p hp), fun p hp => h'.keeps p (h.keeps p hp)⟩

theorem Moves.flat {w w' : World} (h : Moves w w') {T : Toml} (hf : w.FlatConfigs T) : w'.FlatConfigs T := by
  intro p b t v c hp hb ht hv hc
  rw [h.files p fun hp' => wasm_not_config hp'.2 hp] at hb
  exact hf p b t v c hp hb ht hv hc

theorem didOpen_goes (X : ServerEnv) (s : Server) (uri : Str) : IOM.Keeps Goes (Server.didOpen X s uri) := by
  unfold Server.didOpen
  rcases (X.P.toFilePath uri).bind (fun p => (Server.pathParent p).bind Server.pathParent) with _ | root
  · exact IOM.Keeps.fail Goes.frame _
  · refine IOM.Keeps.bind Goes.frame (Keeps.attempt (IOM.Keeps.bind Goes.frame (readText_goes _) fun _ =>
      IOM.Keeps.lift Goes.frame _)) fun r => ?_
    rcases r with c | e
    · exact IOM.Keeps.pure Goes.frame _
    · exact IOM.Keeps.bind Goes.frame (downloadPlugins_goes _ _) fun _ => IOM.Keeps.pure Goes.frame _

theorem didOpen_moves {X : ServerEnv} (hh : ∀ s, '/' ∉ X.E.hash s) {w : World} (hf : w.FlatConfigs X.E.toml) (s : Server)
    (uri : Str) : Moves w (Server.didOpen X s uri w).2 := by
  have h1 := didOpen_acts (write := fun p => FileIn (chars! "plugins") p ∧ chars! ".wasm" <:+ p) (create := fun _ => False)
    (ask := fun _ => True) (X := X) (w := w) (fun _ _ _ => trivial) (fun root c b t hb ht hc m x hm hx => by
      have hflat := hf.flat (configPath_config root) hb ht hc
      exact ⟨cachePath_fileIn (hflat.mem hm (X.E.toml.readConfig_nodup hc hm) hx) (hh _), cachePath_wasm _ _⟩) s uri
  have h2 := didOpen_goes X s uri w
  exact ⟨h2.clock, h2.faults, h2.http, fun d => ⟨fun h => (h1.dirs d h).elim id False.elim, h1.keepsDirs d⟩, h1.files, h1.keeps⟩

theorem dispatch_moves {X : ServerEnv} (hh : ∀ s, '/' ∉ X.E.hash s) {w : World} (hf : w.FlatConfigs X.E.toml) (s : Server)
    (msg : Json) : Moves w (Server.dispatch X s msg w).2 := by
  rcases message_cases msg with ⟨id, method, hm⟩ | ⟨method, hm⟩ | hm
  · rw [dispatch_request hm]
    exact (handleRequest_rests X s msg id method w).moves
  · by_cases h : method = chars! "textDocument/didOpen"
    · subst h
      rw [dispatch_notifies hm, dispatch_event (eventJson_is _ _), handleNotification, if_neg (by decide), if_pos rfl]
      rcases X.P.didOpen ((eventJson _ (msg.index (chars! "params"))).index (chars! "params")) with _ | uri
      · exact (Rests.frame.refl w).moves
      · exact didOpen_moves hh hf s uri
    · rw [dispatch_notifies hm, dispatch_event (eventJson_is _ _)]
      exact (handleNotification_rests X s _ method h w).moves
  · refine (dispatch_rests X s msg (fun h => ?_) w).moves
    rw [h] at hm
    simp [Json.asStr] at hm

theorem absolute_not_plugin {path : Str} (h : ∃ rest, path = '/' :: rest) :
    ¬ (FileIn (chars! "plugins") path ∧ chars! ".wasm" <:+ path) := by
  obtain ⟨rest, rfl⟩ := h
  rintro ⟨⟨name, _, h⟩, _⟩
  simp at h

/-- A message that is fatal later was fatal before. -/
theorem fatal_before {X : ServerEnv} (hpath : ∀ uri path, X.P.toFilePath uri = some path → AbsolutePath path) {w w' : World}
    (hmv : Moves w w') {msg : Json} (h : Fatal X w' msg) : Fatal X w msg := by
  have hcont : ∀ {uri path text}, X.P.toFilePath uri = some path → w'.Contains path text → w.Contains path text := by
    rintro uri path text hf ⟨b, hb, ht⟩
    exact ⟨b, by rw [← hmv.files _ (absolute_not_plugin (absolute_head (hpath _ _ hf)))]; exact hb, ht⟩
  cases h with
  | request hm h => exact .request hm h
  | openParams hm hp => exact .openParams hm hp
  | changeParams hm hp => exact .changeParams hm hp
  | saveParams hm hp => exact .saveParams hm hp
  | openNoFile hm hp hf => exact .openNoFile hm hp hf
  | openTop hm hp hf ht => exact .openTop hm hp hf ht
  | @openPlugin uri path root dir file name c sch n hm hp hf hd hc hs hno hfail =>
    refine .openPlugin (n := n) hm hp hf hd ?_ hs ?_ ?_
    · obtain ⟨b, t, v, h1, h2⟩ := hc
      exact ⟨b, t, v, by rw [← hmv.files _ fun hp' => wasm_not_config hp'.2 ⟨root ++ ['/'], by simp⟩]; exact h1, h2⟩
    · rw [World.pathExists, Bool.or_eq_false_iff] at hno ⊢
      refine ⟨?_, ?_⟩
      · rcases hb : (w.files.get _).isSome with _ | _
        · rfl
        · have := hmv.keeps _ hb
          rw [hno.1] at this
          simp at this
      · have := hno.2
        simp only [decide_eq_false_iff_not] at this ⊢
        exact fun h => this ((hmv.dirs _).mpr h)
    · rcases hfail with h | h
      · exact .inl fun h' => h ((hmv.dirs _).mpr h')
      · exact .inr (by rw [← hmv.http]; exact h)
  | saveNoFile hm hp hf => exact .saveNoFile hm hp hf
  | saveRejected hm hp hf hc ht ha => exact .saveRejected hm hp hf (hcont hf hc) ht ha
  | saveLoose hm hp hf hc hl => exact .saveLoose hm hp hf (hcont hf hc) hl

theorem oversized_before {X : ServerEnv} (hpath : ∀ uri path, X.P.toFilePath uri = some path → AbsolutePath path) {w w' : World}
    (hmv : Moves w w') {method : Str} {params : Json} (h : Oversized X.P w' method params) : Oversized X.P w method params := by
  obtain ⟨hm, uri, hp, path, b, text, hf, hb, ht, hl⟩ := h
  refine ⟨hm, uri, hp, path, b, text, hf, ?_, ht, hl⟩
  rw [← hmv.files _ (absolute_not_plugin (absolute_head (hpath _ _ hf)))]
  exact hb

theorem handleAll_continues {X : ServerEnv} (hpath : ∀ uri path, X.P.toFilePath uri = some path → AbsolutePath path)
    (hh : ∀ s, '/' ∉ X.E.hash s) : ∀ (vs : List Json) (s : Server) (w : World), w.Healthy → w.FlatConfigs X.E.toml →
    (∀ v ∈ vs, ¬ Fatal X w v ∧ ∀ id method, v.IsRequest id method → ¬ Oversized X.P w method (v.index (chars! "params"))) →
    ∃ s', (handleAll X vs s w).1 = .ok s'
  | [], s, w, _, _, _ => ⟨s, rfl⟩
  | v :: vs, s, w, hw, hflat, h => by
    have hv := h v List.mem_cons_self
    obtain ⟨s1, h1⟩ := continues_of_not_fatal (s := s) hpath hh hw hflat hv.2 hv.1
    have hmv := dispatch_moves hh hflat s v
    rcases hd : Server.dispatch X s v w with ⟨r, w1⟩
    rw [hd] at h1 hmv
    simp only at h1 hmv
    subst h1
    rw [handleAll, IOM.bind_of_ok hd]
    refine handleAll_continues hpath hh vs s1 w1 (healthy_later hw hmv.clock hmv.faults) (hmv.flat hflat) fun v' hv' => ?_
    have := h v' (List.mem_cons_of_mem _ hv')
    exact ⟨fun hf => this.1 (fatal_before hpath hmv hf), fun id method hm ho => this.2 id method hm (oversized_before hpath hmv ho)⟩

/-! ### Crashes -/

theorem send_ne_panic (P : Protocol) (v : Json) (w : World) : (Server.send P v w).1 ≠ .panic := by
  rw [Server.send, IOM.send]
  rcases w.faults w.clock with _ | _ | n <;> simp

theorem attempt_panic {α : Type} {x : IOM α} {w : World} (h : (IOM.attempt x w).1 = .panic) : (x w).1 = .panic := by
  rw [attempt_run] at h
  rcases hx : (x w).1 with a | m | _
  · rw [hx] at h
    simp at h
  · rw [hx] at h
    simp at h
  · rfl

theorem tokenizeFile_ne_panic (S : Segmenter) (path : Str) (w : World) : (tokenizeFile S path w).1 ≠ .panic :=
  IOM.bind_ne_panic (readText_ne_panic path w) fun t w => by
    rw [IOM.lift_run, tokenizeStr_eq]
    simp

/-- A document that could be read. -/
theorem tokenizeFile_ok {S : Segmenter} {path : Str} {w w1 : World} {toks : List Token}
    (h : IOM.attempt (tokenizeFile S path) w = (.ok (.ok toks), w1)) :
    ∃ text, w.Contains path text ∧ tokenizeStr S text = .ok toks := by
  rw [attempt_run] at h
  rcases hx : tokenizeFile S path w with ⟨t | m | _, w2⟩
  · rw [hx] at h
    simp only [Prod.mk.injEq, Res.ok.injEq, Except.ok.injEq] at h
    obtain ⟨text, w3, h1, h2⟩ := IOM.bind_ok.mp hx
    obtain ⟨hb, _⟩ := readText_ok h1
    have h3 := (IOM.lift_ok.mp h2).1
    rw [h.1] at h3
    exact ⟨text, hb, h3⟩
  · rw [hx] at h
    simp at h
  · rw [hx] at h
    simp at h

section
variable {X : ServerEnv} {s : Server} {msg : Json} {w : World}

theorem handleSemanticTokens_panic {uri : Str} (h : (handleSemanticTokens X uri w).1 = .panic) :
    ∃ path b text, X.P.toFilePath uri = some path ∧ w.files.get path = some b ∧ fromUtf8 b = some text ∧ 2 ^ 32 ≤ text.length := by
  unfold handleSemanticTokens at h
  rcases hf : X.P.toFilePath uri with _ | path
  · rw [hf] at h
    simp [IOM.fail] at h
  · rw [hf] at h
    simp only at h
    rcases IOM.bind_panic h with h | ⟨r, w1, h1, h⟩
    · exact absurd (attempt_panic h) (tokenizeFile_ne_panic _ _ _)
    rcases r with e | toks
    · exact absurd h (IOM.bind_ne_panic (send_ne_panic _ _ _) fun _ w => pure_ne_panic _ w)
    · simp only at h
      obtain ⟨text, ⟨b, hb, hbt⟩, ht⟩ := tokenizeFile_ok h1
      refine ⟨path, b, text, rfl, hb, hbt, ?_⟩
      rcases Nat.lt_or_ge text.length (2 ^ 32) with hl | hl
      · obtain ⟨d, hd, _⟩ := semanticTokens_tiles (checks := X.E.checks) ht hl
        rw [hd] at h
        exact absurd h (by simp [IOM.bind_run, IOM.lift_run, Pure.pure, IOM.pure])
      · exact hl

theorem respond_panic {P : Protocol} {id : Int} {failure : Str} {x : IOM (Option Json)} (h : (respond P id failure x w).1 = .panic) :
    (x w).1 = .panic := by
  rcases IOM.bind_panic h with h | ⟨r, w1, _, h⟩
  · exact attempt_panic h
  · rcases r with e | _ | v
    · exact absurd h (send_ne_panic _ _ _)
    · exact absurd h (pure_ne_panic _ _)
    · exact absurd h (send_ne_panic _ _ _)

theorem loadConfigAt_ne_panic (T : Toml) (root : Str) (w : World) : (loadConfigAt T root w).1 ≠ .panic :=
  IOM.bind_ne_panic (readText_ne_panic _ _) fun t w => by
    rw [IOM.lift_run]
    exact readConfig_ne_panic T t

theorem didOpen_ne_panic (X : ServerEnv) (s : Server) (uri : Str) (w : World) : (Server.didOpen X s uri w).1 ≠ .panic := by
  unfold Server.didOpen
  rcases (X.P.toFilePath uri).bind (fun p => (Server.pathParent p).bind Server.pathParent) with _ | root
  · simp [IOM.fail]
  · simp only
    refine IOM.bind_ne_panic (fun h => loadConfigAt_ne_panic _ _ _ (attempt_panic h)) fun r w => ?_
    rcases r with c | e
    · exact pure_ne_panic _ _
    · exact IOM.bind_ne_panic (downloadPlugins_ne_panic _ _) fun _ w => pure_ne_panic _ w

theorem didSave_panic {uri : Str} (h : (Server.didSave X s uri w).1 = .panic) :
    ∃ path text, X.P.toFilePath uri = some path ∧ w.Contains path text ∧ LooseText X.E.S text := by
  unfold Server.didSave at h
  rcases hf : X.P.toFilePath uri with _ | path
  · rw [hf] at h
    simp [IOM.fail] at h
  · rw [hf] at h
    simp only at h
    rcases IOM.bind_panic h with h | ⟨r, w1, h1, h⟩
    · exact absurd (attempt_panic h) (tokenizeFile_ne_panic _ _ _)
    rcases r with e | toks
    · exact absurd h (send_ne_panic _ _ _)
    · simp only at h
      obtain ⟨text, hc, ht⟩ := tokenizeFile_ok h1
      refine ⟨path, text, rfl, hc, ?_⟩
      rcases IOM.bind_panic h with h | ⟨c, w2, h2, h⟩
      · rw [IOM.lift_run] at h
        exact absurd h (C10_no_panic_text X.E.S text toks ht)
      have hp := (IOM.lift_ok.mp h2).1
      rcases IOM.bind_panic h with h | ⟨⟨a, es⟩, w3, h3, h⟩
      · rw [IOM.lift_run] at h
        exact ⟨toks, c, ht, hp, (C17_panic_iff toks c (X.E.ids 0) hp).1.mp h⟩
      · exfalso
        simp only [sendDiagnostics] at h
        by_cases hs : s.publishDiagnostics = true
        · rw [if_pos hs] at h
          exact send_ne_panic _ _ _ h
        · rw [if_neg hs] at h
          exact pure_ne_panic _ _ h

theorem crashing_of_panic (h : (Server.dispatch X s msg w).1 = .panic) : Crashing X w msg := by
  rcases message_cases msg with ⟨id, method, hm⟩ | ⟨method, hm⟩ | hm
  · rw [dispatch_request hm, handleRequest] at h
    by_cases h1 : method = chars! "initialize"
    · rw [if_pos h1] at h
      exfalso
      refine IOM.bind_ne_panic (send_ne_panic _ _ _) (fun _ w => ?_) h
      rcases X.P.initParams (msg.index (chars! "params")) with _ | publish
      · simp [IOM.fail]
      · exact IOM.bind_ne_panic (send_ne_panic _ _ _) fun _ w => pure_ne_panic _ w
    rw [if_neg h1] at h
    by_cases h2 : method = chars! "textDocument/semanticTokens/full"
    · rw [if_pos h2] at h
      rcases hp : X.P.semanticTokens (msg.index (chars! "params")) with _ | uri
      · rw [hp] at h
        simp [IOM.fail] at h
      · rw [hp] at h
        simp only at h
        rcases IOM.bind_panic h with h | ⟨_, w1, _, h⟩
        · exact .inr ⟨id, method, hm, h2, uri, hp, handleSemanticTokens_panic (respond_panic h)⟩
        · exact absurd h (pure_ne_panic _ _)
    rw [if_neg h2] at h
    by_cases h3 : method = chars! "textDocument/completion"
    · rw [if_pos h3] at h
      exfalso
      rcases hp : X.P.completion (msg.index (chars! "params")) with _ | context
      · rw [hp] at h
        simp [IOM.fail] at h
      · rw [hp] at h
        simp only at h
        exact IOM.bind_ne_panic (fun h => handleCompletion_ne_panic _ _ _ _ (respond_panic h)) (fun _ w => pure_ne_panic _ w) h
    · rw [if_neg h3] at h
      exact absurd h (IOM.bind_ne_panic (send_ne_panic _ _ _) fun _ w => pure_ne_panic _ w)
  · rw [dispatch_notifies hm, dispatch_event (eventJson_is _ _), handleNotification] at h
    rw [show (eventJson method (msg.index (chars! "params"))).index (chars! "params") = msg.index (chars! "params") from rfl] at h
    by_cases h1 : method = chars! "initialized"
    · rw [if_pos h1] at h
      exact absurd h (IOM.bind_ne_panic (send_ne_panic _ _ _) fun _ w => pure_ne_panic _ w)
    rw [if_neg h1] at h
    by_cases h2 : method = chars! "textDocument/didOpen"
    · rw [if_pos h2] at h
      rcases hp : X.P.didOpen (msg.index (chars! "params")) with _ | uri
      · rw [hp] at h
        simp [IOM.fail] at h
      · rw [hp] at h
        exact absurd h (didOpen_ne_panic _ _ _ _)
    rw [if_neg h2] at h
    by_cases h3 : method = chars! "textDocument/didChange"
    · rw [if_pos h3] at h
      exfalso
      rcases hp : X.P.didChange (msg.index (chars! "params")) with _ | _
      · rw [hp, if_neg (by simp)] at h
        simp [IOM.fail] at h
      · rw [hp, if_pos rfl] at h
        exact pure_ne_panic _ _ h
    rw [if_neg h3] at h
    by_cases h4 : method = chars! "textDocument/didSave"
    · rw [if_pos h4] at h
      rcases hp : X.P.didSave (msg.index (chars! "params")) with _ | uri
      · rw [hp] at h
        simp [IOM.fail] at h
      · rw [hp] at h
        simp only at h
        rcases IOM.bind_panic h with h | ⟨_, w1, _, h⟩
        · obtain ⟨path, text, h5, h6, h7⟩ := didSave_panic h
          subst h4
          exact .inl ⟨hm, uri, path, text, hp, h5, h6, h7⟩
        · exact absurd h (pure_ne_panic _ _)
    rw [if_neg h4] at h
    exact absurd h (pure_ne_panic _ _)
  · rw [Server.dispatch, hm] at h
    exfalso
    rcases hi : (msg.get (chars! "id")).bind Json.asI64 with _ | id <;> rw [hi] at h <;> simp only at h
    · exact IOM.bind_ne_panic (send_ne_panic _ _ _) (fun _ w => pure_ne_panic _ w) h
    · exact pure_ne_panic _ _ h

end

theorem crashing_before {X : ServerEnv} (hpath : ∀ uri path, X.P.toFilePath uri = some path → AbsolutePath path) {w w' : World}
    (hmv : Moves w w') {msg : Json} (h : Crashing X w' msg) : Crashing X w msg := by
  rcases h with ⟨hm, uri, path, text, hp, hf, ⟨b, hb, ht⟩, hl⟩ | ⟨id, method, hm, ho⟩
  · refine .inl ⟨hm, uri, path, text, hp, hf, ⟨b, ?_, ht⟩, hl⟩
    rw [← hmv.files _ (absolute_not_plugin (absolute_head (hpath _ _ hf)))]
    exact hb
  · exact .inr ⟨id, method, hm, oversized_before hpath hmv ho⟩

theorem handleAll_panic {X : ServerEnv} (hpath : ∀ uri path, X.P.toFilePath uri = some path → AbsolutePath path)
    (hh : ∀ s, '/' ∉ X.E.hash s) : ∀ (vs : List Json) (s : Server) (w : World), w.FlatConfigs X.E.toml →
    (handleAll X vs s w).1 = .panic → ∃ v ∈ vs, Crashing X w v
  | [], s, w, _, h => absurd h (pure_ne_panic _ _)
  | v :: vs, s, w, hflat, h => by
    have hmv := dispatch_moves hh hflat s v
    rcases IOM.bind_panic h with h | ⟨s1, w1, h1, h⟩
    · exact ⟨v, List.mem_cons_self, crashing_of_panic h⟩
    · rw [h1] at hmv
      obtain ⟨v', hv', hc⟩ := handleAll_panic hpath hh vs s1 w1 (hmv.flat hflat) h
      exact ⟨v', List.mem_cons_of_mem _ hv', crashing_before hpath hmv hc⟩

/-! ### Nothing can be written -/

section
variable {X : ServerEnv} {s : Server} {w : World}

theorem send_dead {P : Protocol} {v : Json} (h : w.Dead) : ∃ e w1, Server.send P v w = (.err e, w1) ∧ w1.Dead := by
  rw [Server.send, IOM.send]
  rw [h _ (Nat.le_refl _)]
  exact ⟨_, _, rfl, fun n hn => h n (Nat.le_of_succ_le hn)⟩

theorem bind_dead {α β : Type} {x : IOM α} {f : α → IOM β} (h : ∃ e w1, x w = (.err e, w1) ∧ w1.Dead) :
    ∃ e w1, (x >>= f) w = (.err e, w1) ∧ w1.Dead := by
  obtain ⟨e, w1, h, hd⟩ := h
  exact ⟨e, w1, by rw [IOM.bind_run, h], hd⟩

theorem respond_dead {P : Protocol} {id : Int} {failure : Str} {x : IOM (Option Json)} {r : Res (Option Json)} {w1 : World}
    (hx : x w = (r, w1)) (hd : w1.Dead) (h1 : r ≠ .panic) (h2 : r ≠ .ok none) :
    ∃ e w1, respond P id failure x w = (.err e, w1) ∧ w1.Dead := by
  unfold respond
  rw [IOM.bind_run, attempt_run, hx]
  rcases r with (_ | v) | m | _
  · exact absurd rfl h2
  · exact send_dead hd
  · exact send_dead hd
  · exact absurd rfl h1

theorem readFile_dead {path : Str} (h : w.Dead) : ∃ e w1, IOM.readFile path w = (.err e, w1) ∧ w1.Dead := by
  rw [IOM.readFile, IOM.bind_run]
  rcases step_cases w with ⟨h', _⟩ | ⟨_, h'⟩
  · rw [h _ (Nat.le_refl _)] at h'
    cases h'
  · rw [h']
    exact ⟨_, _, rfl, fun n hn => h n (Nat.le_of_succ_le hn)⟩

theorem request_dead {msg : Json} {id : Int} {method : Str} (hw : w.Dead) (hm : msg.IsRequest id method)
    (hn : ¬ Silenced X.P s method (msg.index (chars! "params"))) : ∃ e, (Server.dispatch X s msg w).1 = .err e := by
  rw [dispatch_request hm, handleRequest]
  have fst : ∀ {x : IOM Server}, (∃ e w1, x w = (.err e, w1) ∧ w1.Dead) → ∃ e, (x w).1 = .err e := by
    rintro x ⟨e, w1, h, _⟩
    exact ⟨e, by rw [h]⟩
  by_cases h1 : method = chars! "initialize"
  · rw [if_pos h1]
    exact fst (bind_dead (send_dead hw))
  rw [if_neg h1]
  by_cases h2 : method = chars! "textDocument/semanticTokens/full"
  · rw [if_pos h2]
    rcases X.P.semanticTokens (msg.index (chars! "params")) with _ | uri
    · exact ⟨_, rfl⟩
    · refine fst (bind_dead ?_)
      unfold handleSemanticTokens
      rcases X.P.toFilePath uri with _ | path
      · exact respond_dead rfl hw (by simp) (by simp)
      · obtain ⟨e, w1, hr, hd⟩ := readFile_dead (path := path) hw
        have ht : tokenizeFile X.E.S path w = (.err e, w1) := by
          rw [tokenizeFile, IOM.bind_run, IOM.readText, IOM.bind_run, hr]
        obtain ⟨e', w2, hs, hd'⟩ := send_dead (P := X.P) (v := logJson (chars! "Failed to tokenize file: " ++ e.toList)) hd
        refine respond_dead (r := .err e') (w1 := w2) ?_ hd' (by simp) (by simp)
        simp only
        rw [IOM.bind_run, attempt_run, ht]
        simp only
        rw [logMessage, IOM.bind_run, hs]
  rw [if_neg h2]
  by_cases h3 : method = chars! "textDocument/completion"
  · rw [if_pos h3]
    rcases hp : X.P.completion (msg.index (chars! "params")) with _ | context
    · exact ⟨_, rfl⟩
    · refine fst (bind_dead ?_)
      rcases hpr : s.project with _ | md
      · exact absurd ⟨h3, context, hp, .inl hpr⟩ hn
      rcases hx : handleCompletion X s context w with ⟨r, w1⟩
      have hne : r ≠ .panic := by
        have := handleCompletion_ne_panic X s context w
        rwa [hx] at this
      have hgo := handleCompletion_rests X s context w
      rw [hx] at hgo
      refine respond_dead hx ?_ hne ?_
      · intro n hn'
        rw [hgo.faults]
        exact hw n (Nat.le_trans hgo.clock hn')
      · rintro rfl
        unfold handleCompletion at hx
        rw [hpr] at hx
        obtain ⟨pl, w2, _, hx⟩ := IOM.bind_ok.mp hx
        obtain ⟨ps, w3, _, hx⟩ := IOM.bind_ok.mp hx
        rcases context with _ | _ | start
        · simp [IOM.fail] at hx
        · exact hn ⟨h3, _, hp, .inr rfl⟩
        · simp only at hx
          obtain ⟨_, _, _, hx⟩ := IOM.bind_ok.mp hx
          simp [Pure.pure, IOM.pure] at hx
  rw [if_neg h3]
  exact fst (bind_dead (send_dead hw))

end

end Brack
