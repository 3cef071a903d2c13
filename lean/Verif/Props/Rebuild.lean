import Verif.Proof.Rebuild
import Verif.Props.Project
import Verif.Props.Cli

/-
Building again (C75) and documents side by side (C76).
-/

namespace Brack

/-! ### C75 -/

/-- C75: building what has just been built, with the same plugins in any order and whatever the identifiers drawn,
succeeds, leaves all files and directories as they are, makes no request and prints the same lines. -/
theorem C75_any_order (W : Wasm) (E E2 : Env) (hS : E2.S = E.S) (hK : E2.checks = E.checks) (c : Config)
    (md md2 : PluginsMetadata) (hn : (md.map (·.1)).Nodup) (hp : md2.Perm md)
    (hout : ∀ x ∈ md, ¬ chars! "out/" <+: x.2.1) (w w1 w2 : World) (hv : w.Valid)
    (h : build W E c md w = (.ok (), w1)) (hd : w1.SameDisk w2) (hw : w2.Healthy) :
    let r := build W E2 c md2 w2
    r.1 = .ok () ∧ r.2.files = w2.files ∧ r.2.dirs = w2.dirs ∧ r.2.requests = w2.requests ∧
      ∃ lines, w1.lines = w.lines ++ lines ∧ r.2.lines = w2.lines ++ lines := by
  intro r
  obtain ⟨plugins, ps, ps', ds, h1, h2, h3, h4, h5, h6, h7, h8, h9, h10⟩ := build_done h
  have hnd : (ds.map (·.stem)).Nodup := by rw [h4]; exact docStems_nodup hv
  have hkeep : ∀ p, ¬ chars! "out/" <+: p → w2.files.get p = w.files.get p := by
    intro p hp
    have := C47_only_out W E c md w p hp
    rw [h] at this
    rw [hd.1]
    exact this
  obtain ⟨plugins2, w3, k1, k2, k3⟩ := loadPlugins_again hp h1 (fun x hx => hkeep _ (hout x hx)) hw
  have hq := loadPlugins_quiet W md2 w2
  have hg := loadPlugins_goes W md2 w2
  rw [k1] at hq hg
  simp only at hq hg
  have hw3 := healthy_of_goes hw hg
  have hord := C39_order plugins plugins2 k2 (by rw [k3]; exact hn)
  have hok : (Plugins.new plugins2).isOk = true := by rw [← hord.1, h2]; rfl
  rcases hps2 : Plugins.new plugins2 with qs | m | _
  case err => rw [hps2] at hok; cases hok
  case panic => rw [hps2] at hok; cases hok
  have hrel : Plugins.Related Eq ps qs := Alike.related (fun _ => rfl) (hord.2 ps qs h2 hps2)
  have hdocs2 : chars! "docs" ∈ w3.dirs := by
    rw [hq.2.1, hd.2]
    rcases h7 with h7 | ⟨_, h7⟩ <;> rw [h7]
    · exact h8
    · exact List.mem_append_left _ h8
  have hentries : (w3.entries (chars! "docs")).filterMap docStem = (w.entries (chars! "docs")).filterMap docStem := by
    congr 1
    rw [World.entries, World.entries, hq.1, hq.2.1, hd.1, hd.2, h6, entries_writeResults]
    congr 1
    rcases h7 with h7 | ⟨_, h7⟩ <;> rw [h7]
    rw [List.filterMap_append]
    simp [entryName]
  obtain ⟨qs', w4, l1, l2, l3, l4, l5, l6⟩ := buildLoop_again (E2 := E2) hS hK (backend := c.document.backend) h3 0 hrel
    (names := w3.entries (chars! "docs")) (by rw [h4, hentries]) (w := { w3 with clock := w3.clock + 1 })
    (fun n hn => hw3 n (by simp only at hn; omega))
    (by
      intro hne
      simp only
      rw [hq.1, hq.2.1, hd.2]
      refine ⟨?_, h9⟩
      rcases ds with _ | ⟨d, ds⟩
      · exact absurd rfl hne
      · rw [hkeep _ (by decide)]
        exact (h5 d List.mem_cons_self).2.2.2)
    (by
      intro d hdm
      obtain ⟨⟨b, hb, ht⟩, j1, j2, _⟩ := h5 d hdm
      simp only [World.hasDir]
      rw [hq.1, hq.2.1, hd.2]
      refine ⟨⟨b, ?_, ht⟩, j1, j2, ?_⟩
      · rw [hkeep _ ?_]
        · exact hb
        · rintro ⟨t, ht⟩
          have := congrArg List.head? ht
          simp at this
      · rw [hd.1, h6]
        exact writeResults_get hnd hdm)
  have hw4 : w4.Healthy := by
    intro n hn
    rw [l4]
    exact hw3 n (by simp only at l5; omega)
  have hp4 : IOM.printLine (chars! "Build succeeded.") w4 =
      (.ok (), { w4 with log := w4.log ++ [.printed (chars! "Build succeeded.")] }) := rfl
  have hout4 : chars! "out" ∈ w4.dirs := by
    rw [l3]
    simp only
    rw [hq.2.1, hd.2]
    exact h9
  obtain ⟨n, m1, m2⟩ := listOutputs_prints (names := w4.entries (chars! "out"))
    (w := { w4 with clock := w4.clock + 1, log := w4.log ++ [.printed (chars! "Build succeeded.")] })
    (fun i hi => hw4 i (by simp only at hi; omega))
  have hrun : build W E2 c md2 w2 = (.ok (), { w4 with
      clock := n
      log := w4.log ++ [.printed (chars! "Build succeeded.")] ++
        (w4.entries (chars! "out")).map (fun x => .printed (chars! "  - ./out/" ++ x)) }) := by
    unfold build
    rw [IOM.bind_of_ok k1, hps2, IOM.bind_of_ok (IOM.lift_run _ _),
      IOM.bind_of_ok (readDir_run (hw3 _ (Nat.le_refl _)) hdocs2), IOM.bind_of_ok l1, IOM.bind_of_ok hp4,
      IOM.bind_of_ok (readDir_run (by exact hw4 _ (Nat.le_refl _)) (by exact hout4))]
    exact m2
  have hf4 : w4.files = w2.files := l2.trans hq.1
  have hd4 : w4.dirs = w2.dirs := l3.trans hq.2.1
  have he4 : w4.entries (chars! "out") = w1.entries (chars! "out") := by
    rw [World.entries, World.entries, hf4, hd4, hd.1, hd.2]
  have hlog : r.2.log = w2.log ++ ds.map (fun d => .wrote (outputPath d.stem c.document.backend) (utf8 d.result)) ++
        [.printed (chars! "Build succeeded.")] ++
        (w1.entries (chars! "out")).map (fun x => .printed (chars! "  - ./out/" ++ x)) := by
    show (build W E2 c md2 w2).2.log = _
    rw [hrun]
    simp only
    rw [he4, l6]
    simp only
    rw [hq.2.2]
  have hwr : ∀ (ds : List Compiled) (f : IOEvent → Option Str) (hf : ∀ p b, f (.wrote p b) = none),
      (ds.map (fun d => IOEvent.wrote (outputPath d.stem c.document.backend) (utf8 d.result))).filterMap f = [] := by
    intro ds f hf
    rw [List.filterMap_eq_nil_iff]
    intro e he
    obtain ⟨d, _, rfl⟩ := List.mem_map.mp he
    exact hf _ _
  refine ⟨by show (build W E2 c md2 w2).1 = _; rw [hrun], by show (build W E2 c md2 w2).2.files = _; rw [hrun]; exact hf4,
    by show (build W E2 c md2 w2).2.dirs = _; rw [hrun]; exact hd4, ?_,
    ([IOEvent.printed (chars! "Build succeeded.")] ++
        (w1.entries (chars! "out")).map (fun x => IOEvent.printed (chars! "  - ./out/" ++ x))).filterMap IOEvent.line?, ?_, ?_⟩
  · rw [World.requests, hlog]
    simp only [List.filterMap_append, hwr _ IOEvent.url? (fun _ _ => rfl)]
    have : ∀ l : List Str, (l.map (fun x => IOEvent.printed (chars! "  - ./out/" ++ x))).filterMap IOEvent.url? = [] := by
      intro l
      rw [List.filterMap_eq_nil_iff]
      intro e he
      obtain ⟨d, _, rfl⟩ := List.mem_map.mp he
      rfl
    rw [this]
    simp [IOEvent.url?, World.requests]
  · rw [World.lines, h10]
    simp only [List.filterMap_append, hwr _ IOEvent.line? (fun _ _ => rfl), World.lines]
    simp
  · rw [World.lines, hlog]
    simp only [List.filterMap_append, hwr _ IOEvent.line? (fun _ _ => rfl), World.lines]
    simp

/-- C75: a second `brack build` on the disk left behind by a successful one succeeds if nothing goes wrong on the
file system, leaves all files and directories as they are, makes no request, whatever the network is like, and prints
the same lines. -/
theorem C75_rebuild (W : Wasm) (E E2 : Env) (hS : E2.S = E.S) (hK : E2.checks = E.checks) (hT : E2.toml = E.toml)
    (hH : E2.hash = E.hash) (w w1 w2 : World) (hv : w.Valid) (h : buildCommand W E w = (.ok (), w1))
    (hd : w1.SameDisk w2) (hw : w2.Healthy) :
    let r := buildCommand W E2 w2
    r.1 = .ok () ∧ r.2.files = w2.files ∧ r.2.dirs = w2.dirs ∧ r.2.requests = w2.requests ∧
      ∃ lines, w1.lines = w.lines ++ lines ∧ r.2.lines = w2.lines ++ lines := by
  intro r
  unfold buildCommand at h
  obtain ⟨c, wa, ha, h⟩ := IOM.bind_ok.mp h
  obtain ⟨rfl, b, t, hb, ht, hc⟩ := loadBrackToml_ok ha
  obtain ⟨md, wb, hb', h⟩ := IOM.bind_ok.mp h
  have hnames : ∀ m, c.plugins = some m → (m.map (·.1)).Nodup := by
    intro m hm
    obtain ⟨v, _, hvc⟩ := readConfig_iff.mp hc
    exact Config.ofToml_nodup hvc hm
  have hmdn := downloadPlugins_nodup hb'
  have hpaths := downloadPlugins_paths hnames hb'
  have hacts := downloadPlugins_acts (write := fun p => chars! "plugins/" <+: p) (create := fun _ => False)
    (ask := fun _ => True) (hash := E.hash) c (fun _ _ => trivial)
    (fun m x _ _ => ⟨x.1 ++ chars! "_" ++ E.hash x.2 ++ chars! ".wasm", by simp [cachePath]⟩) { w with clock := w.clock + 1 }
  rw [hb'] at hacts
  have hvb : wb.Valid := by
    have := downloadPlugins_valid E.hash c { w with clock := w.clock + 1 } hv
    rw [hb'] at this
    exact this
  have hno : ∀ x ∈ md, ¬ chars! "out/" <+: x.2.1 := by
    rintro x hx ⟨u, hu⟩
    obtain ⟨u', hu'⟩ := hpaths x hx
    have := congrArg List.head? (hu.trans hu'.symm)
    simp at this
  have hbt : w2.files.get (chars! "Brack.toml") = some b := by
    have h1 := C47_only_out W E c md wb (chars! "Brack.toml") (by decide)
    rw [h] at h1
    rw [hd.1]
    simp only at h1
    rw [h1, hacts.files _ (by decide)]
    exact hb
  have hload := loadBrackToml_run (T := E.toml) hw hbt ht hc
  have hsame : wb.lines = w.lines := by
    have := downloadPlugins_lines E.hash c { w with clock := w.clock + 1 }
    rw [hb'] at this
    exact this
  obtain ⟨md2, hdl, hperm⟩ : ∃ md2, downloadPlugins E.hash c { w2 with clock := w2.clock + 1 } =
      (.ok md2, { w2 with clock := w2.clock + 1 }) ∧ md2.Perm md := by
    rcases hm : c.plugins with _ | m
    · rw [downloadPlugins_none E.hash hm] at hb' ⊢
      injection hb' with hb' _
      injection hb' with hb'
      subst hb'
      exact ⟨[], rfl, List.Perm.refl _⟩
    · have hcache : ∀ x ∈ m, ({ w2 with clock := w2.clock + 1 } : World).pathExists (cachePath E.hash x.1 x.2) = true := by
        intro x hx
        have h1 := (downloadPlugins_ok E.hash hm (hnames m hm) hb').2 x hx
        have h2 := build_acts (W := W) (write := fun _ => True) (create := fun _ => True) (ask := fun _ => True) E c trivial md
          (fun _ _ _ => trivial) wb
        rw [h] at h2
        rw [World.pathExists, Bool.or_eq_true, decide_eq_true_eq] at h1 ⊢
        simp only
        rw [hd.1, hd.2]
        rcases h1 with h1 | h1
        · exact .inl (h2.keeps _ h1)
        · exact .inr (h2.keepsDirs _ h1)
      have hrun := downloadPlugins_cached E.hash hm hcache
      refine ⟨_, hrun, HMap.perm_of_get hmdn (downloadPlugins_nodup hrun) fun n => ?_⟩
      rw [(downloadPlugins_ok E.hash hm (hnames m hm) hrun).1 n, (downloadPlugins_ok E.hash hm (hnames m hm) hb').1 n]
  have key := C75_any_order W E E2 hS hK c md md2 hmdn hperm hno wb w1 { w2 with clock := w2.clock + 1 } hvb h hd
    (fun n hn => hw n (by simp only at hn; omega))
  have hrun : r = build W E2 c md2 { w2 with clock := w2.clock + 1 } := by
    show buildCommand W E2 w2 = _
    unfold buildCommand
    rw [hT, hH, IOM.bind_of_ok hload, IOM.bind_of_ok hdl]
  rw [hrun, ← hsame]
  exact key

/-- Concrete case of `C75_rebuild`: two documents, and a plugin that is downloaded by the first build; the second
build works without a network. -/
example :
    let w : World := { twoDocuments (fun _ => .none) with
      files := [(chars! "Brack.toml", utf8 (chars! "the configuration")), (chars! "docs/a.[]", utf8 (chars! "é [std.f]")),
        (chars! "docs/b.c.[]", utf8 (chars! "[std.g x]")), (chars! "out/old.html", [65])] }
    let r := buildCommand sampleWasm sampleEnv w
    let r2 := buildCommand sampleWasm sampleEnv { r.2 with http := fun _ _ => none, log := [] }
    w.Valid ∧ r.1 = .ok () ∧ r.2.requests.length = 1 ∧ r.2.files.length = 7 ∧ r2.1 = .ok () ∧ r2.2.requests = [] ∧
      r2.2.files = r.2.files ∧ r2.2.writes.length = 2 ∧ r2.2.lines = r.2.lines ∧
      r2.2.lines = [chars! "Build succeeded.", chars! "  - ./out/old.html", chars! "  - ./out/a.html",
        chars! "  - ./out/b.c.html"] := by
  simp only [World.Valid]
  decide +kernel

/-! ### C76 -/

/-- C76 (partial): the output of a document is the same in two projects in which it has the same contents and that use
the same plugins, in any order, whatever the other documents are and in whatever order they are listed, if both builds
succeed and calls of commands leave no trace (`R` relates the states of a plugin that cannot be told apart). Missing:
plugins that remember calls (`C76_stateful_refuted`), and documents that do not compile (`C76_broken_refuted`,
`C76_before_failure`). -/
theorem C76_output_partial (W : Wasm) (E E2 : Env) (hS : E2.S = E.S) (hK : E2.checks = E.checks) (c c2 : Config)
    (hc : c2.document.backend = c.document.backend) (md md2 : PluginsMetadata) (w w' v v' : World) (hv : w.Valid)
    (hv2 : v.Valid) (h : build W E c md w = (.ok (), w')) (h2 : build W E2 c2 md2 v = (.ok (), v'))
    (plugins plugins2 : List (Plugin W)) (hl : (loadPlugins W md w).1 = .ok plugins)
    (hl2 : (loadPlugins W md2 v).1 = .ok plugins2) (hsame : plugins.Perm plugins2) (hn : (plugins.map (·.name)).Nodup)
    (stem : Str) (hdoc : w.HasDocument stem)
    (hsrc : v.files.get (chars! "docs/" ++ stem ++ chars! ".[]") = w.files.get (chars! "docs/" ++ stem ++ chars! ".[]"))
    (R : W.State → W.State → Prop) (hR : W.Traceless R) (hT : W.SameTexts R) :
    ∃ result, w'.files.get (chars! "out/" ++ stem ++ chars! "." ++ c.document.backend) = some result ∧
      v'.files.get (chars! "out/" ++ stem ++ chars! "." ++ c.document.backend) = some result := by
  obtain ⟨_, ps, ps', ds, h1, hps, h3, _, h5, h6, _, _⟩ := C47_outputs W E c md w w' hv h
  rw [hl] at h1
  injection h1 with h1
  subst h1
  obtain ⟨_, qs, qs', es, k1, hqs, k3, _, k5, k6, _, _⟩ := C47_outputs W E2 c2 md2 v v' hv2 h2
  rw [hl2] at k1
  injection k1 with k1
  subst k1
  have hdoc2 : v.HasDocument stem := ⟨hdoc.1, hdoc.2.1, by rw [hsrc]; exact hdoc.2.2⟩
  obtain ⟨d, hd, rfl⟩ := List.mem_map.mp ((h5 stem).mpr hdoc)
  obtain ⟨e, he, hes⟩ := List.mem_map.mp ((k5 d.stem).mpr hdoc2)
  obtain ⟨⟨b, hb, ht⟩, hout⟩ := h6 d hd
  obtain ⟨⟨b2, hb2, ht2⟩, hout2⟩ := k6 e he
  rw [hes, hsrc, hb] at hb2
  injection hb2 with hb2
  subst hb2
  rw [ht] at ht2
  injection ht2 with ht2
  obtain ⟨j, ps1, ps2, hrel, hcomp⟩ := h3.traceless hR d hd
  obtain ⟨j', qs1, qs2, hrel', hcomp'⟩ := k3.traceless hR e he
  have hord := C39_order plugins plugins2 hsame hn
  have halike : Plugins.Related R ps qs := Alike.related hR.equivalence.refl (hord.2 ps qs hps hqs)
  have htr := fun a b c (h : R a b) (h' : R b c) => hR.equivalence.trans h h'
  have hrel2 : Plugins.Related R ps1 qs1 :=
    Plugins.Related.trans htr (Plugins.Related.symm (fun _ _ h => hR.equivalence.symm h) hrel)
      (Plugins.Related.trans htr halike hrel')
  have hfinal := compileText_same hT (ids' := E2.ids j') hrel2 hcomp
  rw [ht2, ← hS, ← hK, hcomp'] at hfinal
  injection hfinal with hfinal
  refine ⟨utf8 d.result, hout, ?_⟩
  rw [← hfinal, ← hc, ← hes]
  exact hout2

/-- Concrete case: the document `b.c` among others and alone, with the plugins of `C76_output_partial`. -/
example :
    let w := twoDocuments fun _ => .none
    let v : World := { w with files := [(chars! "docs/x.[]", utf8 (chars! "x")), (chars! "docs/b.c.[]", utf8 (chars! "[std.g x]")),
      (chars! "plugins/std_00.wasm", [1])] }
    let r := build sampleWasm sampleEnv sampleConfig sampleMetadata w
    let s := build sampleWasm { sampleEnv with ids := fun _ _ => [] } sampleConfig sampleMetadata v
    w.Valid ∧ v.Valid ∧ w.HasDocument (chars! "b.c") ∧ r.1 = .ok () ∧ s.1 = .ok () ∧
      r.2.files.get (chars! "out/b.c.html") = some (utf8 (chars! "g(x,-,)")) ∧
      s.2.files.get (chars! "out/b.c.html") = some (utf8 (chars! "g(x,-,)")) := by
  simp only [World.Valid, World.HasDocument]
  decide +kernel

/-- Concrete case: the commands of the sample plugin leave no trace and cannot tell its states apart. -/
example : sampleWasm.Traceless (fun _ _ => True) ∧ sampleWasm.SameTexts (fun _ _ => True) :=
  ⟨⟨⟨fun _ => trivial, fun _ => trivial, fun _ _ => trivial⟩, fun _ _ _ => trivial⟩,
    fun _ _ f _ _ => ⟨by by_cases h : f = chars! "bad" <;> simp [sampleWasm, h], trivial⟩⟩

/-- A plugin whose command returns whether it is called for the first time. -/
private def firstCallWasm : Wasm :=
  { sampleWasm with callText := fun (n : Nat) _ _ => (.ok (if n = 0 then chars! "first" else chars! "later"), n + 1) }

/-- C76 refuted for plugins that remember calls: without the document `a`, the output of the document `b` is another. -/
theorem C76_stateful_refuted : ∃ (W : Wasm) (E : Env) (c : Config) (md : PluginsMetadata) (w v w' v' : World) (plugins : List (Plugin W))
    (stem : Str), w.Valid ∧ v.Valid ∧ w.Healthy ∧ v.Healthy ∧ (loadPlugins W md w).1 = .ok plugins ∧
    (loadPlugins W md v).1 = .ok plugins ∧ build W E c md w = (.ok (), w') ∧ build W E c md v = (.ok (), v') ∧ w.HasDocument stem ∧
    v.files.get (chars! "docs/" ++ stem ++ chars! ".[]") = w.files.get (chars! "docs/" ++ stem ++ chars! ".[]") ∧
    v'.files.get (chars! "out/" ++ stem ++ chars! "." ++ c.document.backend) ≠
      w'.files.get (chars! "out/" ++ stem ++ chars! "." ++ c.document.backend) := by
  have h : (build firstCallWasm sampleEnv sampleConfig sampleMetadata (twoDocuments fun _ => .none)).1 = .ok () := by
    decide +kernel
  let v : World := { twoDocuments (fun _ => .none) with
    files := [(chars! "docs/b.c.[]", utf8 (chars! "[std.g x]")), (chars! "plugins/std_00.wasm", [1])] }
  have h2 : (build firstCallWasm sampleEnv sampleConfig sampleMetadata v).1 = .ok () := by
    decide +kernel
  refine ⟨firstCallWasm, sampleEnv, sampleConfig, sampleMetadata, twoDocuments fun _ => .none, v,
    (build firstCallWasm sampleEnv sampleConfig sampleMetadata (twoDocuments fun _ => .none)).2,
    (build firstCallWasm sampleEnv sampleConfig sampleMetadata v).2, _, chars! "b.c", ?_, ?_, fun _ _ => rfl, fun _ _ => rfl,
    rfl, rfl, by rw [← h], by rw [← h2], ?_, ?_, ?_⟩
  · unfold World.Valid; decide +kernel
  · unfold World.Valid; decide +kernel
  · unfold World.HasDocument; decide +kernel
  · decide +kernel
  · decide +kernel

/-- C76: if nothing goes wrong on the file system and nothing is in the way of the outputs, then a build that fails
after the plugins are loaded stops at a document which is not UTF-8 or does not compile with the plugins as they are by
then. The documents before it have their outputs, the others keep those that they had, and nothing is printed. -/
theorem C76_before_failure (W : Wasm) (E : Env) (c : Config) (md : PluginsMetadata) (w w' : World) (hv : w.Valid) (hw : w.Healthy)
    (r : Res Unit) (h : build W E c md w = (r, w')) (hr : r ≠ .ok ()) (plugins : List (Plugin W)) (ps : Plugins W)
    (hl : (loadPlugins W md w).1 = .ok plugins) (hps : Plugins.new plugins = .ok ps)
    (hdocs : chars! "docs" ∈ w.dirs) (hone : ∃ stem, w.HasDocument stem)
    (hnd : ∀ stem, chars! "docs/" ++ stem ++ chars! ".[]" ∉ w.dirs)
    (hbackend : '/' ∉ c.document.backend) (hfile : w.files.get (chars! "out") = none)
    (hout : ∀ stem, w.HasDocument stem → chars! "out/" ++ stem ++ chars! "." ++ c.document.backend ∉ w.dirs) :
    ∃ ds ps' stem b, CompiledInTurn E 0 ds ps ps' ∧ (ds.map (·.stem)).Nodup ∧ stem ∉ ds.map (·.stem) ∧
      (∀ s ∈ stem :: ds.map (·.stem), w.HasDocument s) ∧
      (∀ d ∈ ds, (∃ b, w.files.get (chars! "docs/" ++ d.stem ++ chars! ".[]") = some b ∧ fromUtf8 b = some d.text) ∧
        w'.files.get (chars! "out/" ++ d.stem ++ chars! "." ++ c.document.backend) = some (utf8 d.result)) ∧
      w.files.get (chars! "docs/" ++ stem ++ chars! ".[]") = some b ∧ StopsBuild E ds.length ps' b r ∧
      (∀ path, (∀ d ∈ ds, path ≠ chars! "out/" ++ d.stem ++ chars! "." ++ c.document.backend) →
        w'.files.get path = w.files.get path) ∧
      w'.lines = w.lines := by
  unfold build at h
  have hq := loadPlugins_quiet W md w
  have hg := loadPlugins_goes W md w
  rcases hr' : loadPlugins W md w with ⟨r', w1⟩
  rw [hr'] at hl hq hg
  simp only at hl hq hg
  subst hl
  rw [IOM.bind_of_ok hr', hps, IOM.bind_of_ok (IOM.lift_run _ _)] at h
  have hw1 := healthy_of_goes hw hg
  rw [IOM.bind_of_ok (readDir_run (hw1 _ (Nat.le_refl _)) (by rw [hq.2.1]; exact hdocs))] at h
  have hentries : w1.entries (chars! "docs") = w.entries (chars! "docs") := by
    rw [World.entries, World.entries, hq.1, hq.2.1]
  have hw2 : ({ w1 with clock := w1.clock + 1 } : World).Healthy := fun n hn => hw1 n (by simp only at hn; omega)
  rcases buildLoop_stops (E := E) (i := 0) (ps := ps) (backend := c.document.backend)
    (names := w1.entries (chars! "docs")) (w := { w1 with clock := w1.clock + 1 }) hw2 hbackend
    (by simp only; rw [hq.1]; exact hfile)
    (by
      intro name hn stem hs
      rw [hentries] at hn
      have hm := mem_docStems.mp (List.mem_filterMap.mpr ⟨name, hn, hs⟩)
      have hname := (docStem_iff.mp hs).1
      have hd : w.HasDocument stem := by
        refine ⟨hm.1, hm.2.1, ?_⟩
        have := hm.2.2
        rw [World.pathExists, Bool.or_eq_true, decide_eq_true_eq] at this
        rcases this with this | this
        · exact this
        · exact absurd this (hnd stem)
      obtain ⟨b, hb⟩ := Option.isSome_iff_exists.mp hd.2.2
      refine ⟨(mem_entries.mp hn).2.2, ?_, b, ?_⟩
      · simp only
        rw [hq.2.1]
        exact hout stem hd
      · simp only
        rw [hq.1, hname, ← List.append_assoc]
        exact hb) with ⟨ps', w3, h3, h4⟩ | ⟨ds, stem, rest, b, ps', r', w3, j1, j2, j3, j4, j5, j6, j7, j8, j9⟩
  · exfalso
    rw [IOM.bind_of_ok h3] at h
    obtain ⟨ds, _, hstems, _, _, _, hdir, _⟩ := buildLoop_ok h3
    have hdir : chars! "out" ∈ w3.dirs := by
      apply hdir
      rintro rfl
      obtain ⟨stem, hs⟩ := hone
      have : stem ∈ (w.entries (chars! "docs")).filterMap docStem :=
        mem_docStems.mpr ⟨hs.1, hs.2.1, by rw [World.pathExists, hs.2.2]; rfl⟩
      rw [← hentries, ← hstems] at this
      simp at this
    have hp : IOM.printLine (chars! "Build succeeded.") w3 =
        (.ok (), { w3 with log := w3.log ++ [.printed (chars! "Build succeeded.")] }) := rfl
    rw [IOM.bind_of_ok hp] at h
    have hw3 := healthy_of_goes hw2 h4
    rw [IOM.bind_of_ok (readDir_run (by exact hw3 _ (Nat.le_refl _)) (by exact hdir))] at h
    have hlist := listOutputs_run (names := w3.entries (chars! "out"))
      (w := { w3 with clock := w3.clock + 1, log := w3.log ++ [.printed (chars! "Build succeeded.")] })
      (fun n hn => hw3 n (by simp only at hn; omega))
    apply hr
    rw [← hlist]
    have := congrArg Prod.fst h
    exact this.symm
  · simp only at j5 j6 j8 j9
    rw [hq.1] at j5 j6 j8
    rw [hq.2.2] at j9
    have hnodup : (ds.map (·.stem) ++ stem :: rest).Nodup := by
      rw [← j4, hentries]
      exact docStems_nodup hv
    have hn1 := (List.nodup_append.mp hnodup).1
    have hn2 : stem ∉ ds.map (·.stem) := fun hm => (List.nodup_append.mp hnodup).2.2 stem hm stem List.mem_cons_self rfl
    have hend : (∀ m, r' = .err m → r = .err m) ∧ (r' = .panic → r = .panic) ∧ w' = w3 := by
      rw [IOM.bind_run, j1] at h
      rcases r' with a | m | _
      · exact absurd rfl (j2 a)
      · injection h with h h'
        exact ⟨fun m' hm => by rw [← h]; injection hm with hm; rw [hm], (by intro h; cases h), h'.symm⟩
      · injection h with h h'
        exact ⟨(by intro _ h; cases h), fun _ => h.symm, h'.symm⟩
    obtain ⟨e1, e2, rfl⟩ := hend
    have hdocs' : ∀ s ∈ stem :: ds.map (·.stem), w.HasDocument s := by
      intro s hs
      have hm : s ∈ (w.entries (chars! "docs")).filterMap docStem := by
        rw [← hentries, j4]
        rcases List.mem_cons.mp hs with rfl | hs
        · exact List.mem_append_right _ List.mem_cons_self
        · exact List.mem_append_left _ hs
      have hm := mem_docStems.mp hm
      refine ⟨hm.1, hm.2.1, ?_⟩
      have := hm.2.2
      rw [World.pathExists, Bool.or_eq_true, decide_eq_true_eq] at this
      rcases this with this | this
      · exact this
      · exact absurd this (hnd s)
    refine ⟨ds, ps', stem, b, j3, hn1, hn2, hdocs', fun d hd => ⟨j5 d hd, ?_⟩, j6, ?_, fun path hp => ?_, ?_⟩
    · rw [j8]
      exact writeResults_get hn1 hd
    · rw [Nat.zero_add] at j7
      rcases j7 with ⟨k1, m, k2⟩ | ⟨text, k1, ⟨m, k2, k3⟩ | ⟨k2, k3⟩⟩
      · exact .inl ⟨k1, m, e1 m k2⟩
      · exact .inr ⟨text, k1, .inl ⟨m, k2, e1 m k3⟩⟩
      · exact .inr ⟨text, k1, .inr ⟨k2, e2 k3⟩⟩
    · rw [j8]
      exact writeResults_other hp
    · rw [World.lines, j9, List.filterMap_append]
      have : (ds.map (fun d => IOEvent.wrote (outputPath d.stem c.document.backend) (utf8 d.result))).filterMap
          IOEvent.line? = [] := by
        rw [List.filterMap_eq_nil_iff]
        intro e he
        obtain ⟨d, _, rfl⟩ := List.mem_map.mp he
        rfl
      rw [this, List.append_nil]
      rfl

/-- Three documents; the second one has a bracket that is never closed. -/
private def brokenProject : World :=
  { twoDocuments (fun _ => .none) with
    files := [(chars! "docs/a.[]", utf8 (chars! "é [std.f]")), (chars! "docs/b.[]", utf8 (chars! "[")),
      (chars! "docs/c.[]", utf8 (chars! "[std.g x]")), (chars! "out/c.html", [65]), (chars! "plugins/std_00.wasm", [1])] }

/-- Concrete case of `C76_before_failure`: the first of three documents gets its output, the last one keeps the output
that it had. -/
example :
    let w := brokenProject
    let r := build sampleWasm sampleEnv sampleConfig sampleMetadata w
    w.Valid ∧ w.HasDocument (chars! "a") ∧ w.HasDocument (chars! "b") ∧ w.HasDocument (chars! "c") ∧ r.1.isErr = true ∧
      r.2.writes = [(chars! "out/a.html", utf8 (chars! "é f()"))] ∧ r.2.files.get (chars! "out/c.html") = some [65] ∧ r.2.lines = [] := by
  simp only [World.Valid, World.HasDocument]
  decide +kernel

/-- C76 refuted for documents that do not compile: a document that has its output if it is the only one does not have
one because of another document. -/
theorem C76_broken_refuted : ∃ (W : Wasm) (E : Env) (c : Config) (md : PluginsMetadata) (w v v' : World) (plugins : List (Plugin W))
    (stem : Str), w.Valid ∧ v.Valid ∧ w.Healthy ∧ v.Healthy ∧ (loadPlugins W md w).1 = .ok plugins ∧
    (loadPlugins W md v).1 = .ok plugins ∧ build W E c md v = (.ok (), v') ∧ w.HasDocument stem ∧
    v.files.get (chars! "docs/" ++ stem ++ chars! ".[]") = w.files.get (chars! "docs/" ++ stem ++ chars! ".[]") ∧
    (v'.files.get (chars! "out/" ++ stem ++ chars! "." ++ c.document.backend)).isSome = true ∧
    (build W E c md w).2.files.get (chars! "out/" ++ stem ++ chars! "." ++ c.document.backend) = none := by
  let w : World := { brokenProject with files := brokenProject.files.filter (·.1 ≠ chars! "out/c.html") }
  let v : World := { twoDocuments (fun _ => .none) with
    files := [(chars! "docs/c.[]", utf8 (chars! "[std.g x]")), (chars! "plugins/std_00.wasm", [1])] }
  have h : (build sampleWasm sampleEnv sampleConfig sampleMetadata v).1 = .ok () := by decide +kernel
  refine ⟨sampleWasm, sampleEnv, sampleConfig, sampleMetadata, w, v,
    (build sampleWasm sampleEnv sampleConfig sampleMetadata v).2, _, chars! "c", ?_, ?_, fun _ _ => rfl, fun _ _ => rfl,
    rfl, rfl, by rw [← h], ?_, ?_, ?_, ?_⟩
  · unfold World.Valid; decide +kernel
  · unfold World.Valid; decide +kernel
  · unfold World.HasDocument; decide +kernel
  · decide +kernel
  · decide +kernel
  · decide +kernel

end Brack
