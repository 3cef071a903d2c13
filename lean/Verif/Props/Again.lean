import Verif.Proof.Again
import Verif.Proof.AgainDownload
import Verif.Proof.ProjectCases
import Verif.Proof.Effects

/-
Builds that are repeated after having been interrupted (C111) or after documents were removed (C112).
-/

namespace Brack

/-- C111 (partial): suppose that `brack build` is started in a project the plugin files of which are all there, and
ends in whatever way: it succeeds, fails, is refused some operation or dies in the middle of a write. If it is started
again and nothing goes wrong this time, it succeeds if and only if it would have succeeded had there been no first
attempt, and then all files have the same contents and all directories exist as if there had been none. Missing:
plugins that have to be downloaded (`C111_downloads_partial`, `C111_download_refuted`). -/
theorem C111_again_partial (W : Wasm) (E E1 E2 : Env) (hS : E2.S = E.S) (hK : E2.checks = E.checks)
    (hT : E1.toml = E.toml ∧ E2.toml = E.toml) (hH : E1.hash = E.hash ∧ E2.hash = E.hash) (w u v : World) (hv : w.Valid)
    (hp : w.PluginsPresent E.toml E.hash)
    (hu : w.SameDisk u) (hu2 : u.Healthy) (hd : (buildCommand W E1 w).2.SameDisk v) (hw : v.Healthy) :
    ((buildCommand W E2 v).1 = .ok () ↔ (buildCommand W E u).1 = .ok ()) ∧
    ((buildCommand W E u).1 = .ok () →
      (∀ p, (buildCommand W E2 v).2.files.get p = (buildCommand W E u).2.files.get p) ∧
      ∀ d, d ∈ (buildCommand W E2 v).2.dirs ↔ d ∈ (buildCommand W E u).2.dirs) := by
  have hleft := buildCommand_left (W := W) (E := E1) (w := w) (by rw [hT.1, hH.1]; exact hp)
  rw [hT.1] at hleft
  have hpu : u.PluginsPresent E.toml E.hash := by
    rw [World.PluginsPresent, hu.1]
    simp only [World.pathExists]
    rw [hu.1, hu.2]
    exact hp
  have hvu : u.Valid := by
    rw [World.Valid, hu.1, hu.2]
    exact hv
  -- the configuration is the same, and so are the plugins
  have hcfg : v.files.get (chars! "Brack.toml") = w.files.get (chars! "Brack.toml") ∧
      v.PluginsPresent E.toml E.hash ∧ v.Valid ∧
      ∀ b t c, w.files.get (chars! "Brack.toml") = some b → fromUtf8 b = some t → E.toml.readConfig t = .ok c →
        Near c.document.backend w v := by
    have hvalid : v.Valid := by
      rw [World.Valid, hd.1, hd.2]
      exact buildCommand_valid W E1 w hv
    by_cases hex : ∃ b t c, w.files.get (chars! "Brack.toml") = some b ∧ fromUtf8 b = some t ∧ E.toml.readConfig t = .ok c
    · obtain ⟨b, t, c, hb, ht, hc⟩ := hex
      have hl := hleft.1 b t c hb ht hc
      have hnear : Near c.document.backend w v := hl.near.of_disk ⟨rfl, rfl⟩ hd
      have hbt : v.files.get (chars! "Brack.toml") = w.files.get (chars! "Brack.toml") := by
        refine hnear.files _ ?_
        rintro ⟨stem, _, hs⟩
        simp [outputPath] at hs
      have huniq : ∀ b' t' c', w.files.get (chars! "Brack.toml") = some b' → fromUtf8 b' = some t' →
          E.toml.readConfig t' = .ok c' → c' = c := by
        intro b' t' c' h1 h2 h3
        rw [hb] at h1
        injection h1 with h1
        subst h1
        rw [ht] at h2
        injection h2 with h2
        subst h2
        rw [hc] at h3
        injection h3 with h3
        exact h3.symm
      refine ⟨hbt, ?_, hvalid, ?_⟩
      · intro b' t' x' c' h1 h2 h3 h4 n s hs
        rw [hbt] at h1
        have := hp b' t' x' c' h1 h2 h3 h4 n s hs
        rw [World.pathExists, Bool.or_eq_true, decide_eq_true_eq] at this ⊢
        rw [hnear.files _ (by rintro ⟨stem, _, hs⟩; simp [outputPath, pluginFile] at hs),
          hnear.dirs _ (by simp [pluginFile])]
        exact this
      · intro b' t' c' h1 h2 h3
        rw [huniq b' t' c' h1 h2 h3]
        exact hnear
    · have hsd := hleft.2 fun b t c h1 h2 h3 => hex ⟨b, t, c, h1, h2, h3⟩
      have h1 : v.files = w.files := hd.1.trans hsd.1.symm
      have h2 : v.dirs = w.dirs := hd.2.trans hsd.2.symm
      refine ⟨by rw [h1], ?_, hvalid, fun b t c k1 k2 k3 => absurd ⟨b, t, c, k1, k2, k3⟩ hex⟩
      rw [World.PluginsPresent, h1]
      simp only [World.pathExists]
      rw [h1, h2]
      exact hp
  obtain ⟨c1, c2, c3, c4⟩ := hcfg
  have hnear : ∀ b t c, u.files.get (chars! "Brack.toml") = some b → fromUtf8 b = some t → E.toml.readConfig t = .ok c →
      Near c.document.backend u v := by
    intro b t c h1 h2 h3
    rw [hu.1] at h1
    exact (c4 b t c h1 h2 h3).of_disk hu ⟨rfl, rfl⟩
  have hone : (buildCommand W E u).1 = .ok () → ∃ v', buildCommand W E2 v = (.ok (), v') ∧
      (∀ p, v'.files.get p = (buildCommand W E u).2.files.get p) ∧
      ∀ d, d ∈ v'.dirs ↔ d ∈ (buildCommand W E u).2.dirs := fun h =>
    buildCommand_near hS hK hT.2 hH.2 hvu hpu c2 hnear (Prod.ext h rfl) hw
  refine ⟨⟨fun h => ?_, fun h => ?_⟩, fun h => ?_⟩
  · obtain ⟨u', h', _⟩ := buildCommand_near (E := E2) (E2 := E) (u := v) (v := u) hS.symm hK.symm hT.2.symm hH.2.symm c3
      (by rw [hT.2, hH.2]; exact c2) (by rw [hT.2, hH.2]; exact hpu)
      (by
        intro b t c h1 h2 h3
        rw [hT.2] at h3
        rw [c1] at h1
        exact (hnear b t c (by rw [hu.1]; exact h1) h2 h3).symm)
      (Prod.ext h rfl) hu2
    rw [h']
  · obtain ⟨v', h', _⟩ := hone h
    rw [h']
  · obtain ⟨v', h', h2, h3⟩ := hone h
    rw [h']
    exact ⟨h2, h3⟩

/-- Concrete case of `C111_again_partial`: the first build dies while it writes the output of the second document, the
second one completes it. -/
example :
    let w := interrupted
    let one := buildCommand sampleWasm sampleEnv w
    let v : World := { one.2 with faults := fun _ => .none }
    let u : World := { w with faults := fun _ => .none }
    w.Valid ∧ one.1.isErr = true ∧
      one.2.files.get (chars! "out/a.html") = (buildCommand sampleWasm sampleEnv u).2.files.get (chars! "out/a.html") ∧
      (one.2.files.get (chars! "out/b.c.html")).map List.length = some 2 ∧
      (buildCommand sampleWasm sampleEnv v).1 = .ok () ∧ (buildCommand sampleWasm sampleEnv u).1 = .ok () ∧
      ((buildCommand sampleWasm sampleEnv v).2.files.get (chars! "out/b.c.html")).map List.length ≠ some 2 := by
  simp only [World.Valid]
  decide +kernel

/-- Concrete case of `C111_again_partial`: the plugin file of this project is there. -/
example : interrupted.PluginsPresent sampleEnv.toml sampleEnv.hash := by
  intro b t v c hb ht hv hc n s hs
  have hv' : v = sampleConfig.toToml := by
    simp only [sampleEnv, sampleToml] at hv
    by_cases h : t = chars! "the configuration"
    · rw [if_pos h] at hv
      injection hv with hv
      exact hv.symm
    · rw [if_neg h] at hv
      cases hv
  rw [hv', show Config.ofToml sampleConfig.toToml = .ok sampleConfig from by rfl] at hc
  injection hc with hc
  subst hc
  have h : n = chars! "std" := by
    have := (HMap.get_eq_some (by decide)).mp (show HMap.get n [(chars! "std", _)] = some s from hs)
    simp only [List.mem_singleton, Prod.mk.injEq] at this
    exact this.1
  subst h
  show interrupted.pathExists (chars! "plugins/std_00.wasm") = true
  decide +kernel

/-- C111 (partial), for projects with plugins that have to be downloaded: suppose that a server has a file for each
address, that hashes have no underscores, and that no file of a plugin was left incomplete by the first attempt,
however it ended. Then a second attempt during which nothing goes wrong succeeds if and only if the first one would
have if nothing had gone wrong, and with the same files. Missing: files of plugins left incomplete
(`C111_download_refuted`). -/
theorem C111_downloads_partial (W : Wasm) (E E1 E2 : Env) (hS : E2.S = E.S) (hK : E2.checks = E.checks)
    (hT : E1.toml = E.toml ∧ E2.toml = E.toml) (hH : E1.hash = E.hash ∧ E2.hash = E.hash) (hh : ∀ s, '_' ∉ E.hash s)
    (w u v : World) (hv : w.Valid) (serve : Str → Bytes) (hus : ∀ n url, u.http n url = some (serve url))
    (hvs : ∀ n url, v.http n url = some (serve url))
    (hu : w.SameDisk u) (hu2 : u.Healthy) (hd : (buildCommand W E1 w).2.SameDisk v) (hw : v.Healthy)
    (hwhole : w.GotWhole v E.toml E.hash serve) :
    ((buildCommand W E2 v).1 = .ok () ↔ (buildCommand W E u).1 = .ok ()) ∧
    ((buildCommand W E u).1 = .ok () →
      (∀ p, (buildCommand W E2 v).2.files.get p = (buildCommand W E u).2.files.get p) ∧
      ∀ d, d ∈ (buildCommand W E2 v).2.dirs ↔ d ∈ (buildCommand W E u).2.dirs) := by
  have hvu : u.Valid := by
    rw [World.Valid, hu.1, hu.2]
    exact hv
  have hvv : v.Valid := by
    rw [World.Valid, hd.1, hd.2]
    exact buildCommand_valid W E1 w hv
  have hagree : ∀ b t c, u.files.get (chars! "Brack.toml") = some b → fromUtf8 b = some t →
      E.toml.readConfig t = .ok c → Agree E.hash c serve u v := by
    intro b t c hb ht hc
    rw [hu.1] at hb
    have := buildCommand_leaves (W := W) (E := E1) (serve := serve) hb ht (by rw [hT.1]; exact hc) (by
      intro n s got hcn hex hg
      rw [hH.1] at hex hg
      obtain ⟨x, hx, hxc⟩ := readConfig_iff.mp hc
      exact hwhole b t x c hb ht hx hxc n s got hcn hex (by rw [hd.1]; exact hg))
    rw [hH.1] at this
    exact this.of_disk hu hd
  have hback : ∀ b t c, v.files.get (chars! "Brack.toml") = some b → fromUtf8 b = some t →
      E2.toml.readConfig t = .ok c → Agree E2.hash c serve v u := by
    rw [hT.2, hH.2]
    intro b t c hb ht hc
    refine (hagree b t c ?_ ht hc).symm
    -- the configuration has not changed
    have hsame : v.files.get (chars! "Brack.toml") = u.files.get (chars! "Brack.toml") := by
      rw [hd.1, hu.1]
      exact buildCommand_keeps_toml
    rw [← hsame]
    exact hb
  have hone : (buildCommand W E u).1 = .ok () → ∃ v', buildCommand W E2 v = (.ok (), v') ∧
      (∀ p, v'.files.get p = (buildCommand W E u).2.files.get p) ∧
      ∀ d, d ∈ v'.dirs ↔ d ∈ (buildCommand W E u).2.dirs := fun h =>
    buildCommand_agree hS hK hT.2 hH.2 hh hvu hus hvs hu2 hw hagree (Prod.ext h rfl)
  refine ⟨⟨fun h => ?_, fun h => ?_⟩, fun h => ?_⟩
  · obtain ⟨u', h', _⟩ := buildCommand_agree (E := E2) (E2 := E) hS.symm hK.symm hT.2.symm hH.2.symm
      (by rw [hH.2]; exact hh) hvv hvs hus hw hu2 hback (Prod.ext h rfl)
    rw [h']
  · obtain ⟨v', h', _⟩ := hone h
    rw [h']
  · obtain ⟨v', h', h2, h3⟩ := hone h
    rw [h']
    exact ⟨h2, h3⟩

/-- C111 (partial): this is so if the first attempt is refused whatever operations or gets no answers, but no write is
cut short. -/
theorem C111_refused_partial (W : Wasm) (E E1 E2 : Env) (hS : E2.S = E.S) (hK : E2.checks = E.checks)
    (hT : E1.toml = E.toml ∧ E2.toml = E.toml) (hH : E1.hash = E.hash ∧ E2.hash = E.hash) (hh : ∀ s, '_' ∉ E.hash s)
    (w u v : World) (hv : w.Valid) (serve : Str → Bytes) (hws : ∀ n url b, w.http n url = some b → b = serve url)
    (hcut : w.Uncut) (hus : ∀ n url, u.http n url = some (serve url))
    (hvs : ∀ n url, v.http n url = some (serve url))
    (hu : w.SameDisk u) (hu2 : u.Healthy) (hd : (buildCommand W E1 w).2.SameDisk v) (hw : v.Healthy) :
    ((buildCommand W E2 v).1 = .ok () ↔ (buildCommand W E u).1 = .ok ()) ∧
    ((buildCommand W E u).1 = .ok () →
      (∀ p, (buildCommand W E2 v).2.files.get p = (buildCommand W E u).2.files.get p) ∧
      ∀ d, d ∈ (buildCommand W E2 v).2.dirs ↔ d ∈ (buildCommand W E u).2.dirs) := by
  refine C111_downloads_partial W E E1 E2 hS hK hT hH hh w u v hv serve hus hvs hu hu2 hd hw ?_
  intro b t x c hb ht hx hxc n s got hcn hex hg
  rw [hd.1, ← hH.1] at hg
  refine buildCommand_whole (E := E1) (W := W) (by rw [hH.1]; exact hh) hws hcut hb ht ?_ n s got hcn
    (by rw [hH.1]; exact hex) hg
  rw [hT.1]
  exact readConfig_iff.mpr ⟨x, hx, hxc⟩

/-- Concrete case of `C111_refused_partial` and `C111_downloads_partial`: the first attempt downloads the plugin and is
refused the output; the second one asks for nothing and writes it. -/
example :
    let w : World := { sampleWorld (fun n => if n = 7 then .refused else .none) with dirs := [chars! "docs", chars! "plugins"] }
    let one := buildCommand sampleWasm sampleEnv w
    let v : World := { one.2 with faults := fun _ => .none }
    let u : World := { w with faults := fun _ => .none }
    w.Valid ∧ w.Uncut ∧ (∀ n url, w.http n url = some [1, 2, 3]) ∧ (∀ s, '_' ∉ sampleEnv.hash s) ∧
      w.pathExists (chars! "plugins/std_00.wasm") = false ∧ one.1.isErr = true ∧
      one.2.files.get (chars! "plugins/std_00.wasm") = some [1, 2, 3] ∧
      (buildCommand sampleWasm sampleEnv v).1 = .ok () ∧ (buildCommand sampleWasm sampleEnv u).1 = .ok () := by
  refine ⟨by simp only [World.Valid]; decide +kernel, ?_, fun _ _ => rfl, fun _ => by simp [sampleEnv], ?_⟩
  · intro n k _
    show (if n = 7 then Fault.refused else .none) ≠ .cut k
    split <;> simp
  · decide +kernel

/-- C111 refuted where plugins are downloaded: the process dies while it writes the file of the plugin. From then on
`brack build` fails, although it would have succeeded the first time, and although nothing goes wrong any more. -/
theorem C111_download_refuted :
    let W : Wasm := { sampleWasm with load := fun b => if b.length = 3 then sampleWasm.load b else .error "not a plugin" }
    let w : World := { sampleWorld (fun n => if n = 2 then .cut 1 else .none) with dirs := [chars! "docs", chars! "plugins"] }
    let u : World := { w with faults := fun _ => .none }
    let v : World := { (buildCommand W sampleEnv w).2 with faults := fun _ => .none, http := w.http }
    u.Healthy ∧ v.Healthy ∧ (∀ n url, v.http n url = some [1, 2, 3]) ∧ (buildCommand W sampleEnv u).1 = .ok () ∧
      (buildCommand W sampleEnv v).1.isErr = true ∧
      v.files.get (chars! "plugins/std_00.wasm") = some [1] := by
  intro W w u v
  refine ⟨fun _ _ => rfl, fun _ _ => rfl, fun _ _ => rfl, ?_⟩
  decide +kernel

/-! ### C112 -/

/-- C112 (partial): after a successful `brack build` the files below `out/` are the outputs of the documents there are,
and those that were there before. In particular, if there were none, they are exactly the outputs of the documents.
Missing: outputs of documents that are no longer there (`C112_stale_refuted`). -/
theorem C112_outputs_partial (W : Wasm) (E : Env) (w w' : World) (hv : w.Valid)
    (h : buildCommand W E w = (.ok (), w')) :
    ∃ b t v c, w.files.get (chars! "Brack.toml") = some b ∧ fromUtf8 b = some t ∧ E.toml.parse t = some v ∧
      Config.ofToml v = .ok c ∧
      (∀ p, chars! "out/" <+: p → ((w'.files.get p).isSome = true ↔
        (∃ stem, w.HasDocument stem ∧ p = chars! "out/" ++ stem ++ chars! "." ++ c.document.backend) ∨
          (w.files.get p).isSome = true)) ∧
      ((∀ p, chars! "out/" <+: p → w.files.get p = none) → ∀ p, chars! "out/" <+: p → ((w'.files.get p).isSome = true ↔
        ∃ stem, w.HasDocument stem ∧ p = chars! "out/" ++ stem ++ chars! "." ++ c.document.backend)) := by
  unfold buildCommand at h
  obtain ⟨c, wa, ha, h⟩ := IOM.bind_ok.mp h
  obtain ⟨rfl, b, t, hb, ht, hc⟩ := loadBrackToml_ok ha
  obtain ⟨v, hx, hxc⟩ := readConfig_iff.mp hc
  obtain ⟨md, wb, hb', h⟩ := IOM.bind_ok.mp h
  have hacts := downloadPlugins_acts (write := fun p => chars! "plugins/" <+: p) (create := fun _ => False)
    (ask := fun _ => True) (hash := E.hash) c (fun _ _ => trivial)
    (fun m x _ _ => ⟨x.1 ++ chars! "_" ++ E.hash x.2 ++ chars! ".wasm", by simp [cachePath]⟩) { w with clock := w.clock + 1 }
  rw [hb'] at hacts
  have hvb : wb.Valid := by
    have := downloadPlugins_valid E.hash c { w with clock := w.clock + 1 } hv
    rw [hb'] at this
    exact this
  have hother : ∀ p, p.head? ≠ some 'p' → wb.files.get p = w.files.get p := by
    intro p hp
    refine hacts.files p ?_
    rintro ⟨u, hu⟩
    exact hp (by rw [← hu]; rfl)
  have hdoc : ∀ stem, wb.HasDocument stem ↔ w.HasDocument stem := by
    intro stem
    rw [World.HasDocument, World.HasDocument, hother _ (by simp)]
  obtain ⟨_, _, _, ds, _, _, _, _, h5, h6, _, h8⟩ := C47_outputs W E c md wb w' hvb h
  have key : ∀ p, chars! "out/" <+: p → ((w'.files.get p).isSome = true ↔
        (∃ stem, w.HasDocument stem ∧ p = chars! "out/" ++ stem ++ chars! "." ++ c.document.backend) ∨
          (w.files.get p).isSome = true) := by
    intro p hp
    by_cases hex : ∃ stem, w.HasDocument stem ∧ p = chars! "out/" ++ stem ++ chars! "." ++ c.document.backend
    · refine ⟨fun _ => .inl hex, fun _ => ?_⟩
      obtain ⟨stem, hs, rfl⟩ := hex
      obtain ⟨d, hd, rfl⟩ := List.mem_map.mp ((h5 stem).mpr ((hdoc stem).mpr hs))
      rw [(h6 d hd).2]
      rfl
    · rw [h8 p fun stem hs e => hex ⟨stem, (hdoc stem).mp hs, e⟩, hother p ?_]
      · exact ⟨.inr, fun h => h.resolve_left hex⟩
      · obtain ⟨u, rfl⟩ := hp
        simp
  refine ⟨b, t, v, c, hb, ht, hx, hxc, key, fun hnone p hp => ?_⟩
  rw [key p hp, hnone p hp]
  simp

/-- Concrete case of `C112_outputs_partial`: nothing but the outputs of the two documents. -/
example :
    let w : World := { interrupted with
      files := interrupted.files.filter (fun f => f.1 ≠ chars! "out/old.html"), faults := fun _ => .none }
    let r := buildCommand sampleWasm sampleEnv w
    w.Valid ∧ r.1 = .ok () ∧ r.2.entries (chars! "out") = [chars! "a.html", chars! "b.c.html"] := by
  simp only [World.Valid]
  decide +kernel

/-- C112 refuted: a document is removed, and the next `brack build` succeeds; the output of the document is still there,
as it was, and is listed among the outputs. -/
theorem C112_stale_refuted :
    let w : World := { interrupted with faults := fun _ => .none }
    let one := buildCommand sampleWasm sampleEnv w
    let removed : World := { one.2 with files := one.2.files.filter (fun f => f.1 ≠ chars! "docs/a.[]"), log := [] }
    let two := buildCommand sampleWasm sampleEnv removed
    one.1 = .ok () ∧ two.1 = .ok () ∧ two.2.files.get (chars! "docs/a.[]") = none ∧
      (two.2.files.get (chars! "out/a.html")).isSome = true ∧
      two.2.files.get (chars! "out/a.html") = one.2.files.get (chars! "out/a.html") ∧
      two.2.lines = [chars! "Build succeeded.", chars! "  - ./out/old.html", chars! "  - ./out/a.html",
        chars! "  - ./out/b.c.html"] := by
  decide +kernel

end Brack
