import Verif.Proof.Agree
import Verif.Props.Plugins
import Verif.Proof.Effects

/-
Helper lemmas on building twice.
-/

namespace Brack

theorem HMap.insert_same [DecidableEq κ] {m : HMap κ α} {k : κ} {a : α} (h : m.get k = some a) : m.insert k a = m := by
  induction m with
  | nil => simp [HMap.get] at h
  | cons x m ih =>
    obtain ⟨k', a'⟩ := x
    rw [HMap.get] at h
    rw [HMap.insert]
    by_cases hk : k' = k
    · rw [if_pos hk] at h ⊢
      injection h with h
      rw [hk, h]
    · rw [if_neg hk] at h ⊢
      rw [ih h]

/-- What a document that has been written leaves behind. -/
theorem buildOne_dirs {W : Wasm} {E : Env} {backend : Str} {i : Nat} {name : Str} {ps ps' : Plugins W} {w w' : World}
    (h : buildOne E backend i name ps w = (.ok ps', w')) :
    w'.hasDir (parentDir (outputPath (splitExtension name).1 backend)) = true ∧
      outputPath (splitExtension name).1 backend ∉ w'.dirs ∧
      w'.dirs = (if chars! "out" ∈ w.dirs then w.dirs else w.dirs ++ [chars! "out"]) ∧
      w.files.get (chars! "out") = none := by
  unfold buildOne at h
  obtain ⟨text, w1, h1, h⟩ := IOM.bind_ok.mp h
  obtain ⟨⟨b, hb, ht⟩, rfl, _⟩ := readText_ok h1
  obtain ⟨gen, w2, h2, h⟩ := IOM.bind_ok.mp h
  obtain ⟨hg, rfl⟩ := IOM.lift_ok.mp h2
  obtain ⟨_, w3, h3, h⟩ := IOM.bind_ok.mp h
  have hnone : w.files.get (chars! "out") = none := by
    rcases hf : w.files.get (chars! "out") with _ | f
    · rfl
    · exfalso
      unfold IOM.createDirAll at h3
      obtain ⟨_, w0, h0, h3⟩ := IOM.bind_ok.mp h3
      obtain ⟨rfl, _⟩ := step_ok h0
      simp [hf] at h3
  have h3 := createDirAll_ok h3
  obtain ⟨_, w4, h4, h⟩ := IOM.bind_ok.mp h
  have h4' := writeFile_ok h4
  rw [IOM.pure_run] at h
  injection h with h5 h6
  subst h6
  rcases writeFile_cases (outputPath (splitExtension name).1 backend) (utf8 gen) w3 with
    ⟨_, _, k1, k2, _⟩ | ⟨⟨m, k⟩, _⟩ | ⟨k, ⟨m, k'⟩, _⟩
  · rw [h4']
    refine ⟨k1, k2, ?_, hnone⟩
    simp only
    rw [h3]
  · rw [h4] at k; cases k
  · rw [h4] at k'; cases k'

/-- What the loop leaves behind. -/
theorem buildLoop_dirs {W : Wasm} {E : Env} {backend : Str} {i : Nat} {names : List Str} {ps ps' : Plugins W}
    {w w' : World} (h : buildLoop E backend i names ps w = (.ok ps', w')) :
    (w'.dirs = w.dirs ∨ chars! "out" ∉ w.dirs ∧ w'.dirs = w.dirs ++ [chars! "out"]) ∧
    ∀ stem ∈ names.filterMap docStem, w'.hasDir (parentDir (outputPath stem backend)) = true ∧
      outputPath stem backend ∉ w'.dirs ∧ w.files.get (chars! "out") = none := by
  induction names generalizing i ps w with
  | nil =>
    rw [buildLoop] at h
    injection h with _ h2
    subst h2
    exact ⟨.inl rfl, by simp⟩
  | cons name rest ih =>
    rw [buildLoop_cons] at h
    obtain ⟨_, w1, h1, h⟩ := IOM.bind_ok.mp h
    obtain ⟨rfl, hf⟩ := step_ok h1
    by_cases he : (splitExtension name).2 = some (chars! "[]")
    · rw [if_pos he] at h
      obtain ⟨ps1, w2, h2, h3⟩ := IOM.bind_ok.mp h
      obtain ⟨k1, k2, k3, k4⟩ := buildOne_dirs h2
      obtain ⟨_, _, _, _, _, _, hfiles, _, hout⟩ := buildOne_ok h2
      obtain ⟨j1, j2⟩ := ih h3
      have hdirs : w'.dirs = w2.dirs := by
        rcases j1 with j1 | j1
        · exact j1
        · exact absurd hout j1.1
      constructor
      · rw [hdirs, k3]
        simp only
        by_cases ho : chars! "out" ∈ w.dirs
        · rw [if_pos ho]; exact .inl rfl
        · rw [if_neg ho]; exact .inr ⟨ho, rfl⟩
      · have hstem : docStem name = some (splitExtension name).1 := by rw [docStem, if_pos he]
        rw [List.filterMap_cons, hstem]
        intro stem hs
        rcases List.mem_cons.mp hs with rfl | hs
        · rw [hdirs]
          refine ⟨?_, k2, k4⟩
          rw [World.hasDir, hdirs]
          exact k1
        · obtain ⟨l1, l2, _⟩ := j2 stem hs
          exact ⟨l1, l2, k4⟩
    · rw [if_neg he] at h
      obtain ⟨j1, j2⟩ := ih h
      refine ⟨j1, ?_⟩
      rw [List.filterMap_cons, docStem, if_neg he]
      exact j2

/-- A document that compiles does so with plugins that cannot be told apart, and leaves such behind. -/
theorem compileText_again {W : Wasm} {R : W.State → W.State → Prop} (hT : W.SameTexts R) {S : Segmenter}
    {ids : Nat → Str} (ids' : Nat → Str) {checks : Bool} {text gen : Str} {ps ps' qs : Plugins W} (hrel : Plugins.Related R ps qs)
    (h : compileText S ids checks text ps = (.ok gen, ps')) :
    ∃ qs', compileText S ids' checks text qs = (.ok gen, qs') ∧ Plugins.Related R ps' qs' := by
  have hok := compileText_same hT (ids' := ids') hrel h
  obtain ⟨ts, c, a, es, h1, h2, h3, hm, _⟩ := compileText_ok h
  have hsame := (compileText_rel (R := R) hT S (ids := ids) (ids' := ids') checks text (by
    intro ts' c' a' es' k1 k2 k3 k4
    rw [h1] at k1
    injection k1 with k1
    subst k1
    rw [h2] at k2
    injection k2 with k2
    subst k2
    rw [h3] at k3
    injection k3 with k3
    injection k3 with k3 _
    subst k3
    exact absurd hm k4) ps qs hrel).2
  rw [h] at hsame
  exact ⟨_, Prod.ext hok rfl, hsame⟩

/-- The loop over documents that are already written writes the same again. -/
theorem buildLoop_again {W : Wasm} {E E2 : Env} (hS : E2.S = E.S) (hK : E2.checks = E.checks) {backend : Str} {i : Nat}
    {ds : List Compiled} {ps ps' : Plugins W} (h : CompiledInTurn E i ds ps ps') (j : Nat) {qs : Plugins W}
    (hrel : Plugins.Related Eq ps qs) {names : List Str} (hn : ds.map (·.stem) = names.filterMap docStem) {w : World}
    (hw : w.Healthy) (hout : ds ≠ [] → w.files.get (chars! "out") = none ∧ chars! "out" ∈ w.dirs)
    (hds : ∀ d ∈ ds, (∃ b, w.files.get (chars! "docs/" ++ d.stem ++ chars! ".[]") = some b ∧ fromUtf8 b = some d.text) ∧
      w.hasDir (parentDir (outputPath d.stem backend)) = true ∧ outputPath d.stem backend ∉ w.dirs ∧
      w.files.get (outputPath d.stem backend) = some (utf8 d.result)) :
    ∃ qs' w', buildLoop E2 backend j names qs w = (.ok qs', w') ∧ w'.files = w.files ∧ w'.dirs = w.dirs ∧
      w'.faults = w.faults ∧ w.clock ≤ w'.clock ∧
      w'.log = w.log ++ ds.map (fun d => .wrote (outputPath d.stem backend) (utf8 d.result)) := by
  induction names generalizing i j ds ps qs w with
  | nil =>
    rcases ds with _ | ⟨d, ds⟩
    · exact ⟨qs, w, rfl, rfl, rfl, rfl, Nat.le_refl _, by simp⟩
    · simp at hn
  | cons name rest ih =>
    rw [buildLoop_cons, IOM.bind_of_ok (step_run (hw _ (Nat.le_refl _)))]
    have hw1 : ({ w with clock := w.clock + 1 } : World).Healthy := fun n hn => hw n (by simp only at hn; omega)
    by_cases he : (splitExtension name).2 = some (chars! "[]")
    · rw [if_pos he]
      have hstem : docStem name = some (splitExtension name).1 := by rw [docStem, if_pos he]
      rw [List.filterMap_cons, hstem] at hn
      rcases ds with _ | ⟨d, ds⟩
      · simp at hn
      simp only [List.map_cons, List.cons.injEq] at hn
      obtain ⟨hn1, hn2⟩ := hn
      cases h with
      | cons hc t =>
      obtain ⟨⟨b, hb, ht⟩, k1, k2, k3⟩ := hds d List.mem_cons_self
      obtain ⟨o1, o2⟩ := hout (by simp)
      obtain ⟨qs1, hc2, hrel1⟩ := compileText_again sameTexts_eq (E2.ids j) hrel hc
      have hname : chars! "docs/" ++ name = chars! "docs/" ++ d.stem ++ chars! ".[]" := by
        rw [(docStem_iff.mp hstem).1, hn1, List.append_assoc]
      have hone : buildOne E2 backend j name qs { w with clock := w.clock + 1 } = (.ok qs1,
          { w with
            clock := w.clock + 1 + 1 + 1 + 1, log := w.log ++ [.wrote (outputPath d.stem backend) (utf8 d.result)] }) := by
        unfold buildOne
        rw [IOM.bind_of_ok (readText_run (by rw [hname]; exact hb) ht (hw1 _ (Nat.le_refl _))), hS, hK, hc2]
        simp only
        rw [IOM.bind_of_ok (IOM.lift_run _ _),
          IOM.bind_of_ok (createDirAll_run (by exact hw1 _ (by simp)) (by exact o1))]
        simp only
        rw [if_pos o2, ← hn1, IOM.bind_of_ok (writeFile_run (by exact hw1 _ (by simp only; omega)) (by exact k1) (by exact k2))]
        simp only
        rw [HMap.insert_same k3]
        rfl
      rw [IOM.bind_of_ok hone]
      obtain ⟨qs', w', h1, h2, h3, h4, h5, h6⟩ := ih (ds := ds) t (j + 1) hrel1 hn2
        (w := { w with clock := w.clock + 1 + 1 + 1 + 1, log := w.log ++ [.wrote (outputPath d.stem backend) (utf8 d.result)] })
        (fun n hn => hw n (by simp only at hn; omega)) (fun _ => ⟨o1, o2⟩) (fun d' hd' => hds d' (List.mem_cons_of_mem _ hd'))
      refine ⟨qs', w', h1, h2, h3, h4, by simp only at h5; omega, ?_⟩
      rw [h6]
      simp
    · rw [if_neg he]
      rw [List.filterMap_cons, docStem, if_neg he] at hn
      obtain ⟨qs', w', h1, h2, h3, h4, h5, h6⟩ := ih h j hrel hn (w := { w with clock := w.clock + 1 }) hw1 hout hds
      exact ⟨qs', w', h1, h2, h3, h4, by simp only at h5; omega, h6⟩

/-- The list of outputs is printed. -/
theorem listOutputs_prints {names : List Str} {w : World} (hw : w.Healthy) :
    ∃ n, w.clock ≤ n ∧ listOutputs names w = (.ok (), { w with
      clock := n, log := w.log ++ names.map (fun x => .printed (chars! "  - ./out/" ++ x)) }) := by
  induction names generalizing w with
  | nil => exact ⟨w.clock, Nat.le_refl _, by rw [listOutputs, IOM.pure_run]; simp⟩
  | cons x names ih =>
    rw [listOutputs, IOM.bind_of_ok (step_run (hw _ (Nat.le_refl _)))]
    have hp : IOM.printLine (chars! "  - ./out/" ++ x) { w with clock := w.clock + 1 } =
        (.ok (), { w with clock := w.clock + 1, log := w.log ++ [.printed (chars! "  - ./out/" ++ x)] }) := rfl
    rw [IOM.bind_of_ok hp]
    obtain ⟨n, h1, h2⟩ := ih (w := { w with clock := w.clock + 1, log := w.log ++ [.printed (chars! "  - ./out/" ++ x)] })
      (fun i hi => hw i (by simp only at hi; omega))
    exact ⟨n, by simp only at h1; omega, by rw [h2]; simp⟩

/-- The list of outputs, when it has been printed. -/
theorem listOutputs_ok {names : List Str} {w w' : World} {u : Unit} (h : listOutputs names w = (.ok u, w')) :
    w'.files = w.files ∧ w'.dirs = w.dirs ∧
      w'.log = w.log ++ names.map (fun x => .printed (chars! "  - ./out/" ++ x)) := by
  induction names generalizing w with
  | nil =>
    rw [listOutputs, IOM.pure_run] at h
    injection h with _ h
    subst h
    exact ⟨rfl, rfl, by simp⟩
  | cons x names ih =>
    rw [listOutputs] at h
    obtain ⟨_, w1, h1, h⟩ := IOM.bind_ok.mp h
    obtain ⟨rfl, _⟩ := step_ok h1
    have hp : IOM.printLine (chars! "  - ./out/" ++ x) { w with clock := w.clock + 1 } =
        (.ok (), { w with clock := w.clock + 1, log := w.log ++ [.printed (chars! "  - ./out/" ++ x)] }) := rfl
    rw [IOM.bind_of_ok hp] at h
    obtain ⟨h1, h2, h3⟩ := ih h
    exact ⟨h1, h2, by rw [h3]; simp⟩

/-- Everything about a successful build. -/
theorem build_done {W : Wasm} {E : Env} {c : Config} {md : PluginsMetadata} {w w' : World} {u : Unit}
    (h : build W E c md w = (.ok u, w')) :
    ∃ plugins ps ps' ds, (loadPlugins W md w).1 = .ok plugins ∧ Plugins.new plugins = .ok ps ∧
      CompiledInTurn (W := W) E 0 ds ps ps' ∧ ds.map (·.stem) = (w.entries (chars! "docs")).filterMap docStem ∧
      (∀ d ∈ ds, (∃ b, w.files.get (chars! "docs/" ++ d.stem ++ chars! ".[]") = some b ∧ fromUtf8 b = some d.text) ∧
        w'.hasDir (parentDir (outputPath d.stem c.document.backend)) = true ∧
        outputPath d.stem c.document.backend ∉ w'.dirs ∧ w.files.get (chars! "out") = none) ∧
      w'.files = writeResults c.document.backend ds w.files ∧
      (w'.dirs = w.dirs ∨ chars! "out" ∉ w.dirs ∧ w'.dirs = w.dirs ++ [chars! "out"]) ∧
      chars! "docs" ∈ w.dirs ∧ chars! "out" ∈ w'.dirs ∧
      w'.log = w.log ++ ds.map (fun d => .wrote (outputPath d.stem c.document.backend) (utf8 d.result)) ++
        [.printed (chars! "Build succeeded.")] ++
        (w'.entries (chars! "out")).map (fun x => .printed (chars! "  - ./out/" ++ x)) := by
  unfold build at h
  obtain ⟨plugins, w1, h1, h⟩ := IOM.bind_ok.mp h
  have hq := loadPlugins_quiet W md w
  rw [h1] at hq
  obtain ⟨ps, w2, h2, h⟩ := IOM.bind_ok.mp h
  obtain ⟨hps, rfl⟩ := IOM.lift_ok.mp h2
  obtain ⟨entries, w3, h3, h⟩ := IOM.bind_ok.mp h
  obtain ⟨rfl, rfl, hdocs, _⟩ := readDir_ok h3
  obtain ⟨ps', w4, h4, h⟩ := IOM.bind_ok.mp h
  obtain ⟨ds, hds, hstems, htexts, hfiles, hlog, _, _⟩ := buildLoop_ok h4
  obtain ⟨hd1, hd2⟩ := buildLoop_dirs h4
  obtain ⟨_, w5, h5, h⟩ := IOM.bind_ok.mp h
  have hw5 : w5 = { w4 with log := w4.log ++ [.printed (chars! "Build succeeded.")] } := by
    injection h5 with _ h5; exact h5.symm
  obtain ⟨outs, w6, h6, h⟩ := IOM.bind_ok.mp h
  obtain ⟨hl, hw6, ho, _⟩ := readDir_ok h6
  obtain ⟨k1, k2, k3⟩ := listOutputs_ok h
  have hf : w'.files = w4.files := by rw [k1, hw6, hw5]
  have hd : w'.dirs = w4.dirs := by rw [k2, hw6, hw5]
  simp only at hq hd1 hd2 hdocs
  have hentries : w1.entries (chars! "docs") = w.entries (chars! "docs") := by
    rw [World.entries, World.entries, hq.1, hq.2.1]
  rw [hq.1] at hd2
  rw [hq.2.1] at hd1 hdocs
  refine ⟨plugins, ps, ps', ds, by rw [h1], hps, hds, by rw [hstems, hentries], ?_, ?_, ?_, hdocs, ?_, ?_⟩
  · intro d hd'
    obtain ⟨b, hb, ht⟩ := htexts d hd'
    obtain ⟨l1, l2, l3⟩ := hd2 d.stem (by rw [← hstems]; exact List.mem_map.mpr ⟨d, hd', rfl⟩)
    refine ⟨⟨b, by rw [← hq.1]; exact hb, ht⟩, ?_, by rw [hd]; exact l2, l3⟩
    rw [World.hasDir, hd]
    exact l1
  · rw [hf, hfiles]
    simp only
    rw [hq.1]
  · rw [hd]; exact hd1
  · rw [hd]
    rw [hw5] at ho
    exact ho
  · have he : w'.entries (chars! "out") = outs := by
      rw [hl, World.entries, World.entries, hf, hd, hw5]
    rw [he, k3, hw6]
    simp only
    rw [hw5]
    simp only
    rw [hlog]
    simp only
    rw [hq.2.2]

/-- The same plugins can be loaded in any order. -/
theorem loadPlugins_again {W : Wasm} {md md2 : PluginsMetadata} (hp : md2.Perm md) {w w2 : World}
    {plugins : List (Plugin W)} (h : (loadPlugins W md w).1 = .ok plugins)
    (hf : ∀ x ∈ md, w2.files.get x.2.1 = w.files.get x.2.1) (hw : w2.Healthy) :
    ∃ plugins2 w3, loadPlugins W md2 w2 = (.ok plugins2, w3) ∧ plugins.Perm plugins2 ∧
      plugins.map (·.name) = md.map (·.1) := by
  have h1 : loadPlugins W md w = (.ok plugins, (loadPlugins W md w).2) := Prod.ext h rfl
  have h2 := loadPlugins_ok h1
  have hmap : ∀ l : PluginsMetadata, (∀ x ∈ l, x ∈ md) →
      l.map (fun x => (w2.files.get x.2.1).map (fun b => Plugin.new W x.1 b x.2.2)) =
      l.map (fun x => (w.files.get x.2.1).map (fun b => Plugin.new W x.1 b x.2.2)) := by
    intro l hl
    refine List.map_congr_left fun x hx => ?_
    rw [hf x (hl x hx)]
  have hall : ∀ x ∈ md2, ∃ b p, w2.files.get x.2.1 = some b ∧ Plugin.new W x.1 b x.2.2 = .ok p := by
    intro x hx
    have hx := hp.mem_iff.mp hx
    have : (w.files.get x.2.1).map (fun b => Plugin.new W x.1 b x.2.2) ∈ plugins.map (fun p => some (Res.ok p)) := by
      rw [← h2]
      exact List.mem_map.mpr ⟨x, hx, rfl⟩
    obtain ⟨p, _, he⟩ := List.mem_map.mp this
    rw [hf x hx]
    rcases hb : w.files.get x.2.1 with _ | b
    · rw [hb] at he; cases he
    · rw [hb] at he
      simp only [Option.map_some, Option.some.injEq] at he
      exact ⟨b, p, rfl, he.symm⟩
  obtain ⟨plugins2, w3, h3⟩ := loadPlugins_run hw hall
  refine ⟨plugins2, w3, h3, ?_, names_of_loaded h2⟩
  have h4 := loadPlugins_ok h3
  rw [hmap md2 fun x hx => hp.mem_iff.mp hx] at h4
  have h5 := hp.map (fun x => (w.files.get x.2.1).map (fun b => Plugin.new W x.1 b x.2.2))
  rw [h2, h4] at h5
  have h6 := h5.filterMap (fun o : Option (Res (Plugin W)) => match o with | some (.ok p) => some p | _ => none)
  have key : ∀ l : List (Plugin W), (l.map (fun p => some (Res.ok p))).filterMap
      (fun o : Option (Res (Plugin W)) => match o with | some (.ok p) => some p | _ => none) = l := by
    intro l
    induction l with
    | nil => rfl
    | cons p l ih => simp only [List.map_cons, List.filterMap_cons]; rw [ih]
  rw [key, key] at h6
  exact h6.symm

theorem HMap.keys_insert_of_mem [DecidableEq κ] {k : κ} {a : α} {m : HMap κ α} (h : (m.get k).isSome) :
    (m.insert k a).map (·.1) = m.map (·.1) := by
  induction m with
  | nil => simp [HMap.get] at h
  | cons x m ih =>
    obtain ⟨k', a'⟩ := x
    rw [HMap.get] at h
    rw [HMap.insert]
    by_cases hk : k' = k
    · rw [if_pos hk]; simp [hk]
    · rw [if_neg hk] at h ⊢
      simp [ih h]

/-- A write leaves a valid file system valid. -/
theorem writeFile_valid (p : Str) (b : Bytes) : IOM.Keeps (fun w w' => w.Valid → w'.Valid) (IOM.writeFile p b) := by
  intro w hv
  have key : ∀ b : Bytes, p ∉ w.dirs → ((w.files.insert p b).map (·.1) ++ w.dirs).Nodup := by
    intro b hp
    rcases hg : w.files.get p with _ | b'
    · rw [HMap.insert_new (HMap.get_none.mp hg)]
      have hn := HMap.get_none.mp hg
      rw [List.map_append, List.map_cons, List.map_nil]
      have hperm : (List.map (fun x => x.1) w.files ++ [p] ++ w.dirs).Perm
          (p :: (List.map (fun x => x.1) w.files ++ w.dirs)) := by
        rw [List.append_assoc]
        exact List.perm_middle
      rw [hperm.nodup_iff, List.nodup_cons]
      refine ⟨?_, hv⟩
      rw [List.mem_append]
      rintro (h | h)
      · exact hn h
      · exact hp h
    · rw [HMap.keys_insert_of_mem (by rw [hg]; rfl)]
      exact hv
  rcases writeFile_cases p b w with ⟨_, _, _, h', h⟩ | ⟨_, h, _⟩ | ⟨k, _, _, _, h', h⟩ <;> rw [h]
  · exact key _ h'
  · exact hv
  · exact key _ h'

theorem Valid.frame : IOM.Frame (fun w w' : World => w.Valid → w'.Valid) where
  refl _ := fun h => h
  trans h h' := fun hv => h' (h hv)

theorem storeLoop_valid (rs : List (Task × Option Bytes)) (md : PluginsMetadata) :
    IOM.Keeps (fun w w' => w.Valid → w'.Valid) (storeLoop rs md) := by
  induction rs generalizing md with
  | nil => exact IOM.Keeps.pure Valid.frame _
  | cons r rs ih =>
    obtain ⟨t, _ | b⟩ := r
    · exact IOM.Keeps.fail Valid.frame _
    · exact IOM.Keeps.bind Valid.frame (writeFile_valid _ _) fun _ => ih _

theorem downloadPlugins_valid (hash : PluginSchema → Str) (c : Config) :
    IOM.Keeps (fun w w' => w.Valid → w'.Valid) (downloadPlugins hash c) := by
  intro w hv
  rcases hm : c.plugins with _ | m
  · rw [downloadPlugins_none hash hm]
    exact hv
  · obtain ⟨rs, w1, h1, _, _, _, h4, h5, _⟩ := downloadPlugins_some hash hm w
    rw [h1]
    refine storeLoop_valid rs _ w1 ?_
    rw [World.Valid, h4, h5]
    exact hv

theorem cachedMeta_nodup (hash : PluginSchema → Str) (w : World) (m : List (Str × PluginSchema)) (md : PluginsMetadata)
    (h : (md.map (·.1)).Nodup) : ((cachedMeta hash w m md).map (·.1)).Nodup := by
  induction m generalizing md with
  | nil => exact h
  | cons x m ih =>
    rw [cachedMeta]
    apply ih
    split
    · exact HMap.nodup_insert h
    · exact h

theorem storedMeta_nodup (ts : List Task) (md : PluginsMetadata)
    (h : (md.map (·.1)).Nodup) : ((storedMeta ts md).map (·.1)).Nodup := by
  induction ts generalizing md with
  | nil => exact h
  | cons x m ih =>
    rw [storedMeta]
    exact ih _ (HMap.nodup_insert h)

/-- The metadata list each plugin once. -/
theorem downloadPlugins_nodup {hash : PluginSchema → Str} {c : Config} {w w' : World} {md : PluginsMetadata}
    (h : downloadPlugins hash c w = (.ok md, w')) : (md.map (·.1)).Nodup := by
  rcases hm : c.plugins with _ | m
  · rw [downloadPlugins_none hash hm] at h
    injection h with h _
    injection h with h
    subst h
    simp
  · obtain ⟨rs, w1, h1, _⟩ := downloadPlugins_some hash hm w
    rw [h1] at h
    rw [(storeLoop_ok h).1]
    exact storedMeta_nodup _ _ (cachedMeta_nodup _ _ _ _ (by simp))

theorem HMap.perm_of_get [DecidableEq κ] {m m' : HMap κ α} (h : (m.map (·.1)).Nodup) (h' : (m'.map (·.1)).Nodup)
    (hg : ∀ k, m'.get k = m.get k) : m'.Perm m := by
  refine perm_of_members (List.Pairwise.of_map Prod.fst (fun a b hn e => hn (congrArg Prod.fst e)) h')
    (List.Pairwise.of_map Prod.fst (fun a b hn e => hn (congrArg Prod.fst e)) h) ?_
  rintro ⟨k, a⟩
  rw [← HMap.get_eq_some h, ← HMap.get_eq_some h', hg]

theorem entryName_outputPath (stem backend : Str) : entryName (chars! "docs") (outputPath stem backend) = none := by
  rcases h : entryName (chars! "docs") (outputPath stem backend) with _ | n
  · rfl
  · have := congrArg List.head? (entryName_iff.mp h).1
    simp [outputPath] at this

theorem entries_insert {f : HMap Str Bytes} {p : Str} {b : Bytes} (hp : entryName (chars! "docs") p = none) :
    ((f.insert p b).map (·.1)).filterMap (entryName (chars! "docs")) =
      (f.map (·.1)).filterMap (entryName (chars! "docs")) := by
  rcases hg : f.get p with _ | b'
  · rw [HMap.insert_new (HMap.get_none.mp hg), List.map_append, List.filterMap_append]
    simp [hp]
  · rw [HMap.keys_insert_of_mem (by rw [hg]; rfl)]

/-- Outputs are not documents. -/
theorem entries_writeResults (backend : Str) (ds : List Compiled) (f : HMap Str Bytes) :
    ((writeResults backend ds f).map (·.1)).filterMap (entryName (chars! "docs")) =
      (f.map (·.1)).filterMap (entryName (chars! "docs")) := by
  induction ds generalizing f with
  | nil => rfl
  | cons d ds ih => rw [writeResults, ih, entries_insert (entryName_outputPath _ _)]

theorem loadBrackToml_ok {T : Toml} {w w' : World} {c : Config} (h : loadBrackToml T w = (.ok c, w')) :
    w' = { w with clock := w.clock + 1 } ∧ ∃ b t, w.files.get (chars! "Brack.toml") = some b ∧ fromUtf8 b = some t ∧
      T.readConfig t = .ok c := by
  unfold loadBrackToml at h
  obtain ⟨t, w1, h1, h⟩ := IOM.bind_ok.mp h
  obtain ⟨⟨b, hb, ht⟩, rfl, _⟩ := readText_ok h1
  obtain ⟨hc, rfl⟩ := IOM.lift_ok.mp h
  exact ⟨rfl, b, t, hb, ht, hc⟩

theorem loadBrackToml_run {T : Toml} {w : World} {c : Config} {b : Bytes} {t : Str} (hw : w.Healthy)
    (hb : w.files.get (chars! "Brack.toml") = some b) (ht : fromUtf8 b = some t) (hc : T.readConfig t = .ok c) :
    loadBrackToml T w = (.ok c, { w with clock := w.clock + 1 }) := by
  unfold loadBrackToml
  rw [IOM.bind_of_ok (readText_run hb ht (hw _ (Nat.le_refl _))), hc]
  rfl

/-- The configuration is kept and the plugins of a run are in the cache. -/
theorem downloadPlugins_paths {hash : PluginSchema → Str} {c : Config} {w w' : World} {md : PluginsMetadata}
    (hn : ∀ m, c.plugins = some m → (m.map (·.1)).Nodup) (h : downloadPlugins hash c w = (.ok md, w')) :
    ∀ x ∈ md, chars! "plugins/" <+: x.2.1 := by
  intro x hx
  rcases hm : c.plugins with _ | m
  · rw [downloadPlugins_none hash hm] at h
    injection h with h _
    injection h with h
    subst h
    simp at hx
  · have hg := (downloadPlugins_ok hash hm (hn m hm) h).1 x.1
    rw [(HMap.get_eq_some (downloadPlugins_nodup h)).mpr hx] at hg
    rcases hs : m.get x.1 with _ | s
    · rw [hs] at hg; cases hg
    · rw [hs] at hg
      injection hg with hg
      rw [hg]
      exact ⟨x.1 ++ chars! "_" ++ hash s ++ chars! ".wasm", by simp [metaOf, cachePath]⟩

theorem Lines.frame : IOM.Frame (fun w w' : World => w'.lines = w.lines) where
  refl _ := rfl
  trans h h' := h'.trans h

theorem writeFile_lines (p : Str) (b : Bytes) : IOM.Keeps (fun w w' => w'.lines = w.lines) (IOM.writeFile p b) := by
  intro w
  rcases writeFile_cases p b w with ⟨_, _, _, _, h⟩ | ⟨_, h, _⟩ | ⟨k, _, _, _, _, h⟩ <;> rw [h] <;>
    simp [World.lines, IOEvent.line?]

theorem storeLoop_lines (rs : List (Task × Option Bytes)) (md : PluginsMetadata) :
    IOM.Keeps (fun w w' => w'.lines = w.lines) (storeLoop rs md) := by
  induction rs generalizing md with
  | nil => exact IOM.Keeps.pure Lines.frame _
  | cons r rs ih =>
    obtain ⟨t, _ | b⟩ := r
    · exact IOM.Keeps.fail Lines.frame _
    · exact IOM.Keeps.bind Lines.frame (writeFile_lines _ _) fun _ => ih _

/-- Downloads print nothing. -/
theorem downloadPlugins_lines (hash : PluginSchema → Str) (c : Config) :
    IOM.Keeps (fun w w' => w'.lines = w.lines) (downloadPlugins hash c) := by
  intro w
  rcases hm : c.plugins with _ | m
  · rw [downloadPlugins_none hash hm]
  · obtain ⟨rs, w1, h1, _, _, _, _, _, _, _, _, h9⟩ := downloadPlugins_some hash hm w
    rw [h1, storeLoop_lines rs _ w1, World.lines, h9, List.filterMap_append]
    have : ∀ l : List Task, (l.map (fun t => IOEvent.request t.url)).filterMap IOEvent.line? = [] := by
      intro l
      rw [List.filterMap_eq_nil_iff]
      intro e he
      obtain ⟨d, _, rfl⟩ := List.mem_map.mp he
      rfl
    rw [this, List.append_nil]
    rfl

/-- A document that stops the build writes nothing. -/
theorem buildOne_stops {W : Wasm} {E : Env} {backend : Str} {i : Nat} {name : Str} {ps : Plugins W} {w : World}
    {b : Bytes} (hw : w.Healthy) (hb : w.files.get (chars! "docs/" ++ name) = some b)
    (h : ∀ text, fromUtf8 b = some text → ∀ gen, (compileText E.S (E.ids i) E.checks text ps).1 ≠ .ok gen) :
    ∃ r : Res (Plugins W), buildOne E backend i name ps w = (r, { w with clock := w.clock + 1 }) ∧
      (∀ ps', r ≠ .ok ps') ∧ StopsBuild E i ps b r := by
  unfold buildOne
  rcases ht : fromUtf8 b with _ | text
  · refine ⟨.err "stream did not contain valid UTF-8", ?_, (by intro _ h; cases h), .inl ⟨ht, _, rfl⟩⟩
    rw [IOM.bind_run, IOM.readText, IOM.bind_of_ok (readFile_run hb (hw _ (Nat.le_refl _)))]
    simp only [ht]
    rfl
  · rw [IOM.bind_of_ok (readText_run hb ht (hw _ (Nat.le_refl _)))]
    have h := h text ht
    rcases hc : compileText E.S (E.ids i) E.checks text ps with ⟨r, ps1⟩
    rw [hc] at h
    simp only
    rcases r with gen | m | _
    · exact absurd rfl (h gen)
    · exact ⟨.err m, rfl, (by intro _ h; cases h), .inr ⟨text, ht, .inl ⟨m, by rw [hc], rfl⟩⟩⟩
    · exact ⟨.panic, rfl, (by intro _ h; cases h), .inr ⟨text, ht, .inr ⟨by rw [hc], rfl⟩⟩⟩

/-- If nothing is in the way, then the loop ends, or it stops at a document, with the results of those before it
written. -/
theorem buildLoop_stops {W : Wasm} {E : Env} {backend : Str} {i : Nat} {names : List Str} {ps : Plugins W}
    {w : World} (hw : w.Healthy) (h2 : '/' ∉ backend) (hout : w.files.get (chars! "out") = none)
    (hnames : ∀ name ∈ names, ∀ stem, docStem name = some stem → '/' ∉ name ∧ outputPath stem backend ∉ w.dirs ∧
      ∃ b, w.files.get (chars! "docs/" ++ name) = some b) :
    (∃ ps' w', buildLoop E backend i names ps w = (.ok ps', w') ∧ Goes w w') ∨
    ∃ ds stem rest b ps' r w', buildLoop E backend i names ps w = (r, w') ∧ (∀ ps', r ≠ .ok ps') ∧
      CompiledInTurn E i ds ps ps' ∧ names.filterMap docStem = ds.map (·.stem) ++ stem :: rest ∧
      (∀ d ∈ ds, ∃ b, w.files.get (chars! "docs/" ++ d.stem ++ chars! ".[]") = some b ∧ fromUtf8 b = some d.text) ∧
      w.files.get (chars! "docs/" ++ stem ++ chars! ".[]") = some b ∧ StopsBuild E (i + ds.length) ps' b r ∧
      w'.files = writeResults backend ds w.files ∧
      w'.log = w.log ++ ds.map (fun d => .wrote (outputPath d.stem backend) (utf8 d.result)) := by
  induction names generalizing i ps w with
  | nil => exact .inl ⟨ps, w, rfl, Goes.frame.refl w⟩
  | cons name rest ih =>
    rw [buildLoop_cons, IOM.bind_of_ok (step_run (hw _ (Nat.le_refl _)))]
    have hgoes1 : Goes w { w with clock := w.clock + 1 } :=
      ⟨Nat.le_succ _, rfl, rfl, ⟨[], by simp⟩, fun _ h => h, fun _ h => h⟩
    have hw1 := healthy_of_goes hw hgoes1
    by_cases he : (splitExtension name).2 = some (chars! "[]")
    · rw [if_pos he]
      have hstem : docStem name = some (splitExtension name).1 := by rw [docStem, if_pos he]
      have hname := (docStem_iff.mp hstem).1
      obtain ⟨h1, h3, b, hb⟩ := hnames name List.mem_cons_self _ hstem
      have hb' : w.files.get (chars! "docs/" ++ (splitExtension name).1 ++ chars! ".[]") = some b := by
        rw [List.append_assoc, ← hname]
        exact hb
      by_cases hc : ∃ text gen, fromUtf8 b = some text ∧ (compileText E.S (E.ids i) E.checks text ps).1 = .ok gen
      · obtain ⟨text, gen, ht, hc⟩ := hc
        have h1' : '/' ∉ (splitExtension name).1 := by
          intro h
          apply h1
          rw [hname]
          exact List.mem_append_left _ h
        obtain ⟨w2, h4, h5, h6, h7⟩ := buildOne_run (backend := backend) (name := name)
          (ps' := (compileText E.S (E.ids i) E.checks text ps).2) hw1 hb ht (by rw [← hc]) hout h1' h2 h3
        rw [IOM.bind_of_ok h4]
        obtain ⟨text', gen', b', hb'', ht'', hc'', _, hlog, _⟩ := buildOne_ok h4
        have : b' = b := by rw [hb] at hb''; injection hb'' with h; exact h.symm
        subst this
        rw [ht] at ht''
        injection ht'' with ht''
        subst ht''
        rw [hc''] at hc
        simp only at hc
        injection hc with hc
        subst hc
        rcases ih (i := i + 1) (ps := (compileText E.S (E.ids i) E.checks text ps).2) (w := w2) (healthy_of_goes hw1 h5)
          (by
            rw [h6, HMap.get_insert_ne]
            · exact hout
            · simp [outputPath])
          (by
            intro name' hn' stem' hs'
            obtain ⟨k1, k2, b', k3⟩ := hnames name' (List.mem_cons_of_mem _ hn') stem' hs'
            refine ⟨k1, ?_, b', ?_⟩
            · rw [h7]
              simp only
              split
              · exact k2
              · simp only [List.mem_append, List.mem_singleton, not_or]
                refine ⟨k2, ?_⟩
                simp [outputPath]
            · rw [h6, HMap.get_insert_ne (docPath_ne_outputPath _ _ _)]
              exact k3) with ⟨ps', w', h8, h9⟩ | ⟨ds, stem, more, c, ps', r, w', j1, j2, j3, j4, j5, j6, j7, j8, j9⟩
        · exact .inl ⟨ps', w', h8, Goes.frame.trans hgoes1 (Goes.frame.trans h5 h9)⟩
        · have hdoc : ∀ s, w2.files.get (chars! "docs/" ++ s ++ chars! ".[]") =
              w.files.get (chars! "docs/" ++ s ++ chars! ".[]") := by
            intro s
            rw [h6, List.append_assoc, HMap.get_insert_ne (docPath_ne_outputPath _ _ _)]
          refine .inr ⟨⟨(splitExtension name).1, text, gen'⟩ :: ds, stem, more, c, ps', r, w', j1, j2, .cons hc'' j3, ?_, ?_, ?_,
            ?_, ?_, ?_⟩
          · rw [List.filterMap_cons, hstem, j4]
            rfl
          · intro d hd
            rcases List.mem_cons.mp hd with rfl | hd
            · exact ⟨b', hb', ht⟩
            · rw [← hdoc]; exact j5 d hd
          · rw [← hdoc]; exact j6
          · rw [List.length_cons, Nat.add_comm ds.length 1, ← Nat.add_assoc]
            exact j7
          · rw [j8, h6]
            rfl
          · rw [j9, hlog]
            simp
      · obtain ⟨r, k1, k2, k3⟩ := buildOne_stops (E := E) (backend := backend) (i := i) (ps := ps) hw1 hb
          (fun text ht gen hg => hc ⟨text, gen, ht, hg⟩)
        refine .inr ⟨[], (splitExtension name).1, rest.filterMap docStem, b, ps, r, { w with clock := w.clock + 1 + 1 }, ?_, k2,
          .nil i ps, ?_, by simp, hb', k3, rfl, by simp⟩
        · rw [IOM.bind_run, k1]
          rcases r with ps' | m | _
          · exact absurd rfl (k2 ps')
          · rfl
          · rfl
        · rw [List.filterMap_cons, hstem]
          rfl
    · rw [if_neg he]
      rcases ih (i := i) (ps := ps) (w := { w with clock := w.clock + 1 }) hw1 hout
        (fun name' hn' => hnames name' (List.mem_cons_of_mem _ hn')) with ⟨ps', w', h8, h9⟩ | h
      · exact .inl ⟨ps', w', h8, Goes.frame.trans hgoes1 h9⟩
      · rw [List.filterMap_cons, docStem, if_neg he]
        exact .inr h

end Brack
