import Verif.Proof.Rebuild
import Verif.Props.Project
import Verif.Spec.Again
import Verif.Proof.ProjectCases

/-
Helper lemmas on builds that are repeated after having been interrupted.
-/

namespace Brack

/-- The paths of the outputs of some documents. -/
def OutputOf (names : List Str) (backend p : Str) : Prop :=
  ∃ stem ∈ names.filterMap docStem, p = outputPath stem backend

/-- At most outputs have been written, and the directory for them has been created. -/
structure Left (D : Str → Prop) (w w' : World) : Prop where
  files : ∀ p, ¬ D p → w'.files.get p = w.files.get p
  listed : (w'.files.map (·.1)).filterMap (entryName (chars! "docs")) =
    (w.files.map (·.1)).filterMap (entryName (chars! "docs"))
  dirs : w'.dirs = w.dirs ∨ chars! "out" ∉ w.dirs ∧ (∃ p, D p) ∧ w'.dirs = w.dirs ++ [chars! "out"]

theorem Left.frame (D : Str → Prop) : IOM.Frame (Left D) where
  refl _ := ⟨fun _ _ => rfl, rfl, .inl rfl⟩
  trans := by
    intro w w' w'' h h'
    refine ⟨fun p hp => (h'.files p hp).trans (h.files p hp), h'.listed.trans h.listed, ?_⟩
    rcases h.dirs with h1 | ⟨h1, h2, h3⟩ <;> rcases h'.dirs with h4 | ⟨h4, h5, h6⟩
    · exact .inl (h4.trans h1)
    · rw [h1] at h4 h6
      exact .inr ⟨h4, h5, h6⟩
    · exact .inr ⟨h1, h2, h4.trans h3⟩
    · rw [h3] at h4
      simp at h4

theorem Quiet.left {α : Type} {D : Str → Prop} {x : IOM α} (h : IOM.Keeps Quiet x) : IOM.Keeps (Left D) x := by
  intro w
  exact ⟨fun p _ => by rw [(h w).1], by rw [(h w).1], .inl (h w).2.1⟩

theorem createDirAll_left {D : Str → Prop} (hD : ∃ p, D p) : IOM.Keeps (Left D) (IOM.createDirAll (chars! "out")) := by
  intro w
  rcases createDirAll_cases (chars! "out") w with ⟨_, _, h⟩ | ⟨_, h, _⟩ <;> rw [h]
  · refine ⟨fun _ _ => rfl, rfl, ?_⟩
    simp only
    by_cases ho : chars! "out" ∈ w.dirs
    · rw [if_pos ho]; exact .inl rfl
    · rw [if_neg ho]; exact .inr ⟨ho, hD, rfl⟩
  · exact ⟨fun _ _ => rfl, rfl, .inl rfl⟩

theorem writeFile_left {D : Str → Prop} {stem backend : Str} (hD : D (outputPath stem backend)) (b : Bytes) :
    IOM.Keeps (Left D) (IOM.writeFile (outputPath stem backend) b) := by
  intro w
  have key : ∀ b : Bytes, ∀ w' : World, w'.files = w.files.insert (outputPath stem backend) b → w'.dirs = w.dirs →
      Left D w w' := by
    intro b w' h1 h2
    refine ⟨fun p hp => ?_, by rw [h1, entries_insert (entryName_outputPath _ _)], .inl h2⟩
    rw [h1]
    exact HMap.get_insert_ne (fun e => hp (by rw [e]; exact hD)) _ _
  rcases writeFile_cases (outputPath stem backend) b w with ⟨_, _, _, _, h⟩ | ⟨_, h, _⟩ | ⟨k, _, _, _, _, h⟩ <;> rw [h]
  · exact key _ _ rfl rfl
  · exact ⟨fun _ _ => rfl, rfl, .inl rfl⟩
  · exact key _ _ rfl rfl

theorem buildOne_left {W : Wasm} {D : Str → Prop} (E : Env) (backend : Str) (i : Nat) (name : Str) (ps : Plugins W)
    (hD : D (outputPath (splitExtension name).1 backend)) : IOM.Keeps (Left D) (buildOne E backend i name ps) := by
  unfold buildOne
  refine IOM.Keeps.bind (Left.frame D) (Quiet.left (readText_quiet _)) fun _ => ?_
  refine IOM.Keeps.bind (Left.frame D) (IOM.Keeps.lift (Left.frame D) _) fun _ => ?_
  refine IOM.Keeps.bind (Left.frame D) (createDirAll_left ⟨_, hD⟩) fun _ => ?_
  exact IOM.Keeps.bind (Left.frame D) (writeFile_left hD _) fun _ => IOM.Keeps.pure (Left.frame D) _

theorem buildLoop_left {W : Wasm} {D : Str → Prop} (E : Env) (backend : Str) (i : Nat) (names : List Str) (ps : Plugins W)
    (hD : ∀ p, OutputOf names backend p → D p) : IOM.Keeps (Left D) (buildLoop E backend i names ps) := by
  induction names generalizing i ps with
  | nil => exact IOM.Keeps.pure (Left.frame D) _
  | cons name rest ih =>
    have hrest : ∀ p, OutputOf rest backend p → D p := by
      rintro p ⟨stem, hs, rfl⟩
      refine hD _ ⟨stem, ?_, rfl⟩
      rw [List.filterMap_cons]
      rcases docStem name with _ | s
      · exact hs
      · exact List.mem_cons_of_mem _ hs
    rw [buildLoop_cons]
    refine IOM.Keeps.bind (Left.frame D) (Quiet.left step_quiet) fun _ => ?_
    by_cases he : (splitExtension name).2 = some (chars! "[]")
    · rw [if_pos he]
      refine IOM.Keeps.bind (Left.frame D) (buildOne_left _ _ _ _ _ (hD _ ⟨(splitExtension name).1, ?_, rfl⟩)) fun _ => ih _ _ hrest
      rw [List.filterMap_cons, docStem, if_pos he]
      exact List.mem_cons_self
    · rw [if_neg he]
      exact ih _ _ hrest

theorem IOM.bind_at {P : World → Prop} {x : IOM α} {f : α → IOM β} {w : World} (hx : P (x w).2)
    (hf : ∀ a w1, x w = (.ok a, w1) → P w1 → P (f a w1).2) : P ((x >>= f) w).2 := by
  rw [IOM.bind_run]
  rcases h : x w with ⟨a | m | _, w1⟩ <;> rw [h] at hx <;> simp only
  · exact hf a w1 h hx
  · exact hx
  · exact hx

theorem listOutputs_left (D : Str → Prop) (names : List Str) : IOM.Keeps (Left D) (listOutputs names) := by
  have hF := Left.frame D
  induction names with
  | nil => exact IOM.Keeps.pure hF _
  | cons name rest ih =>
    rw [listOutputs]
    refine IOM.Keeps.bind hF (Quiet.left step_quiet) fun _ => ?_
    exact IOM.Keeps.bind hF (fun w => ⟨fun _ _ => rfl, rfl, .inl rfl⟩) fun _ => ih

/-- A build, however it ends, leaves at most outputs behind. -/
theorem build_left (W : Wasm) (E : Env) (c : Config) (md : PluginsMetadata) (w : World) :
    Left (OutputOf (w.entries (chars! "docs")) c.document.backend) w (build W E c md w).2 := by
  have hF := Left.frame (OutputOf (w.entries (chars! "docs")) c.document.backend)
  have hq := loadPlugins_quiet W md w
  unfold build
  refine IOM.bind_at (Quiet.left (loadPlugins_quiet W md) w) fun plugins w1 h1 _ => ?_
  rw [h1] at hq
  have h01 : Left (OutputOf (w.entries (chars! "docs")) c.document.backend) w w1 :=
    ⟨fun p _ => by rw [hq.1], by rw [hq.1], .inl hq.2.1⟩
  have hen : w1.entries (chars! "docs") = w.entries (chars! "docs") := by
    rw [World.entries, World.entries, hq.1, hq.2.1]
  refine IOM.bind_at h01 fun ps w2 h2 _ => ?_
  obtain ⟨_, rfl⟩ := IOM.lift_ok.mp h2
  refine IOM.bind_at (hF.trans h01 (Quiet.left (readDir_quiet _) _)) fun names w3 h3 h03 => ?_
  obtain ⟨rfl, _⟩ := readDir_ok h3
  refine hF.trans h03 ?_
  refine IOM.Keeps.bind hF (buildLoop_left _ _ _ _ _ (by rw [hen]; exact fun _ h => h)) (fun _ => ?_) w3
  refine IOM.Keeps.bind hF (fun w => ⟨fun _ _ => rfl, rfl, .inl rfl⟩) fun _ => ?_
  refine IOM.Keeps.bind hF (Quiet.left (readDir_quiet _)) fun outs w => ?_
  exact listOutputs_left _ outs w

/-- Two disks that differ only in outputs. -/
structure Near (backend : Str) (u v : World) : Prop where
  files : ∀ p, ¬ OutputOf (u.entries (chars! "docs")) backend p → v.files.get p = u.files.get p
  listed : v.entries (chars! "docs") = u.entries (chars! "docs")
  dirs : ∀ d, d ≠ chars! "out" → (d ∈ v.dirs ↔ d ∈ u.dirs)
  out : (chars! "out" ∈ v.dirs ↔ chars! "out" ∈ u.dirs) ∨ (u.entries (chars! "docs")).filterMap docStem ≠ []

theorem Near.symm {backend : Str} {u v : World} (h : Near backend u v) : Near backend v u :=
  ⟨fun p hp => (h.files p (by rw [← h.listed]; exact hp)).symm, h.listed.symm, fun d hd => (h.dirs d hd).symm, by
    rw [h.listed]
    exact h.out.imp Iff.symm id⟩

theorem Left.near {backend : Str} {w w' : World} (h : Left (OutputOf (w.entries (chars! "docs")) backend) w w') :
    Near backend w w' := by
  refine ⟨h.files, ?_, ?_, ?_⟩
  · rw [World.entries, World.entries, h.listed]
    congr 1
    rcases h.dirs with h | ⟨_, _, h⟩ <;> rw [h]
    rw [List.filterMap_append]
    simp [entryName]
  · intro d hd
    rcases h.dirs with h | ⟨_, _, h⟩ <;> rw [h]
    simp [hd]
  · rcases h.dirs with h | ⟨_, ⟨p, stem, hs, _⟩, h⟩
    · exact .inl (by rw [h])
    · exact .inr (List.ne_nil_of_mem hs)

theorem Near.of_disk {backend : Str} {u v u' v' : World} (h : Near backend u v) (hu : u.SameDisk u') (hv : v.SameDisk v') :
    Near backend u' v' := by
  have h1 : u'.entries (chars! "docs") = u.entries (chars! "docs") := by rw [World.entries, World.entries, hu.1, hu.2]
  have h2 : v'.entries (chars! "docs") = v.entries (chars! "docs") := by rw [World.entries, World.entries, hv.1, hv.2]
  refine ⟨?_, by rw [h1, h2]; exact h.listed, by rw [hu.2, hv.2]; exact h.dirs, by rw [h1, hu.2, hv.2]; exact h.out⟩
  rw [h1, hu.1, hv.1]
  exact h.files

/-- The loop over documents that compile. -/
theorem buildLoop_redo {W : Wasm} {E E2 : Env} (hS : E2.S = E.S) (hK : E2.checks = E.checks) {backend : Str} {i : Nat}
    {ds : List Compiled} {ps ps' : Plugins W} (h : CompiledInTurn E i ds ps ps') (j : Nat) {qs : Plugins W}
    (hrel : Plugins.Related Eq ps qs) {names : List Str} (hn : ds.map (·.stem) = names.filterMap docStem) {w : World}
    (hw : w.Healthy) (hout : ds ≠ [] → w.files.get (chars! "out") = none)
    (hds : ∀ d ∈ ds, (∃ b, w.files.get (chars! "docs/" ++ d.stem ++ chars! ".[]") = some b ∧ fromUtf8 b = some d.text) ∧
      (parentDir (outputPath d.stem backend) = chars! "out" ∨ w.hasDir (parentDir (outputPath d.stem backend)) = true) ∧
      outputPath d.stem backend ∉ w.dirs) :
    ∃ qs' w', buildLoop E2 backend j names qs w = (.ok qs', w') ∧ w'.files = writeResults backend ds w.files ∧
      (w'.dirs = if ds = [] ∨ chars! "out" ∈ w.dirs then w.dirs else w.dirs ++ [chars! "out"]) ∧
      w'.faults = w.faults ∧ w.clock ≤ w'.clock := by
  induction names generalizing i j ds ps qs w with
  | nil =>
    rcases ds with _ | ⟨d, ds⟩
    · exact ⟨qs, w, rfl, rfl, by simp, rfl, Nat.le_refl _⟩
    · simp at hn
  | cons name rest ih =>
    rw [buildLoop_cons, IOM.bind_of_ok (step_run (hw _ (Nat.le_refl _)))]
    have hw1 : ({ w with clock := w.clock + 1 } : World).Healthy := fun n hn => hw n (by simp only at hn; omega)
    by_cases he : (splitExtension name).2 = some (chars! "[]")
    · rw [if_pos he]
      have hstem : docStem name = some (splitExtension name).1 := by rw [docStem, if_pos he]
      rw [List.filterMap_cons, hstem] at hn
      rcases ds with _ | ⟨d, ds⟩
      · simp at hn
      simp only [List.map_cons, List.cons.injEq] at hn
      obtain ⟨hn1, hn2⟩ := hn
      cases h with
      | cons hc t =>
      obtain ⟨⟨b, hb, ht⟩, k1, k2⟩ := hds d List.mem_cons_self
      have o1 := hout (by simp)
      obtain ⟨qs1, hc2, hrel1⟩ := compileText_again sameTexts_eq (E2.ids j) hrel hc
      have hname : chars! "docs/" ++ name = chars! "docs/" ++ d.stem ++ chars! ".[]" := by
        rw [(docStem_iff.mp hstem).1, hn1, List.append_assoc]
      have hne : ∀ s, outputPath s backend ≠ chars! "out" := by
        intro s hs
        simp [outputPath] at hs
      have hdirs : chars! "out" ∈ (if chars! "out" ∈ w.dirs then w.dirs else w.dirs ++ [chars! "out"]) := by
        by_cases ho : chars! "out" ∈ w.dirs
        · rw [if_pos ho]; exact ho
        · rw [if_neg ho]; simp
      have hsub : ∀ x, x ∈ w.dirs → x ∈ (if chars! "out" ∈ w.dirs then w.dirs else w.dirs ++ [chars! "out"]) := by
        intro x hx
        by_cases ho : chars! "out" ∈ w.dirs
        · rw [if_pos ho]; exact hx
        · rw [if_neg ho]; exact List.mem_append_left _ hx
      have hback : ∀ x, x ≠ chars! "out" → x ∉ w.dirs →
          x ∉ (if chars! "out" ∈ w.dirs then w.dirs else w.dirs ++ [chars! "out"]) := by
        intro x hx hn hm
        by_cases ho : chars! "out" ∈ w.dirs
        · rw [if_pos ho] at hm; exact hn hm
        · rw [if_neg ho] at hm
          rcases List.mem_append.mp hm with hm | hm
          · exact hn hm
          · exact hx (List.mem_singleton.mp hm)
      have hone : buildOne E2 backend j name qs { w with clock := w.clock + 1 } = (.ok qs1,
          { w with
            files := w.files.insert (outputPath d.stem backend) (utf8 d.result)
            dirs := if chars! "out" ∈ w.dirs then w.dirs else w.dirs ++ [chars! "out"]
            clock := w.clock + 1 + 1 + 1 + 1, log := w.log ++ [.wrote (outputPath d.stem backend) (utf8 d.result)] }) := by
        unfold buildOne
        rw [IOM.bind_of_ok (readText_run (by rw [hname]; exact hb) ht (hw1 _ (Nat.le_refl _))), hS, hK, hc2]
        simp only
        rw [IOM.bind_of_ok (IOM.lift_run _ _),
          IOM.bind_of_ok (createDirAll_run (by exact hw1 _ (by simp)) (by exact o1))]
        simp only
        rw [← hn1, IOM.bind_of_ok (writeFile_run (by exact hw1 _ (by simp only; omega)) (by
          simp only [World.hasDir, Bool.or_eq_true, decide_eq_true_eq] at k1 ⊢
          rcases k1 with k1 | k1 | k1
          · rw [k1]; exact .inr hdirs
          · exact .inl k1
          · exact .inr (hsub _ k1)) (by exact hback _ (hne _) k2))]
        rfl
      rw [IOM.bind_of_ok hone]
      have hother : ∀ s, (w.files.insert (outputPath d.stem backend) (utf8 d.result)).get (chars! "docs/" ++ s ++ chars! ".[]") =
          w.files.get (chars! "docs/" ++ s ++ chars! ".[]") := by
        intro s
        refine HMap.get_insert_ne ?_ _ _
        rw [List.append_assoc]
        exact docPath_ne_outputPath _ _ _
      obtain ⟨qs', w', h1, h2, h3, h4, h5⟩ := ih (ds := ds) t (j + 1) hrel1 hn2
        (w := { w with
            files := w.files.insert (outputPath d.stem backend) (utf8 d.result)
            dirs := if chars! "out" ∈ w.dirs then w.dirs else w.dirs ++ [chars! "out"]
            clock := w.clock + 1 + 1 + 1 + 1, log := w.log ++ [.wrote (outputPath d.stem backend) (utf8 d.result)] })
        (fun n hn => hw n (by simp only at hn; omega))
        (fun _ => by
          simp only
          rw [HMap.get_insert_ne (fun e => hne _ e.symm)]
          exact o1)
        (fun d' hd' => by
          obtain ⟨⟨b, hb, ht⟩, l1, l2⟩ := hds d' (List.mem_cons_of_mem _ hd')
          refine ⟨⟨b, by simp only; rw [hother]; exact hb, ht⟩, ?_, hback _ (hne _) l2⟩
          simp only [World.hasDir, Bool.or_eq_true, decide_eq_true_eq] at l1 ⊢
          exact l1.imp id (Or.imp id (hsub _)))
      refine ⟨qs', w', h1, h2, ?_, h4, by simp only at h5; omega⟩
      rw [h3]
      simp only
      rw [if_pos (.inr hdirs)]
      simp
    · rw [if_neg he]
      rw [List.filterMap_cons, docStem, if_neg he] at hn
      obtain ⟨qs', w', h1, h2, h3, h4, h5⟩ := ih h j hrel hn (w := { w with clock := w.clock + 1 }) hw1 hout hds
      exact ⟨qs', w', h1, h2, h3, h4, by simp only at h5; omega⟩

/-- A build that succeeds does so, with the same result, on a disk that differs only in outputs. -/
theorem build_near {W : Wasm} {E E2 : Env} (hS : E2.S = E.S) (hK : E2.checks = E.checks) {c : Config}
    {md md2 : PluginsMetadata} (hn : (md.map (·.1)).Nodup) (hp : md2.Perm md) (hout : ∀ x ∈ md, ¬ chars! "out/" <+: x.2.1)
    {u v u' : World} (hv : u.Valid) (hnear : Near c.document.backend u v) (h : build W E c md u = (.ok (), u'))
    (hw : v.Healthy) :
    ∃ v', build W E2 c md2 v = (.ok (), v') ∧ (∀ p, v'.files.get p = u'.files.get p) ∧ (∀ d, d ∈ v'.dirs ↔ d ∈ u'.dirs) := by
  obtain ⟨plugins, ps, ps', ds, h1, h2, h3, h4, h5, h6, h7, h8, h9, h10⟩ := build_done h
  have hnd : (ds.map (·.stem)).Nodup := by rw [h4]; exact docStems_nodup hv
  have hkeep : ∀ p, ¬ chars! "out/" <+: p → v.files.get p = u.files.get p := by
    intro p hp
    refine hnear.files p ?_
    rintro ⟨stem, _, rfl⟩
    exact hp ⟨stem ++ chars! "." ++ c.document.backend, by simp [outputPath]⟩
  obtain ⟨plugins2, w3, k1, k2, k3⟩ := loadPlugins_again hp h1 (fun x hx => hkeep _ (hout x hx)) hw
  have hq := loadPlugins_quiet W md2 v
  have hg := loadPlugins_goes W md2 v
  rw [k1] at hq hg
  simp only at hq hg
  have hw3 := healthy_of_goes hw hg
  have hord := C39_order plugins plugins2 k2 (by rw [k3]; exact hn)
  have hok : (Plugins.new plugins2).isOk = true := by rw [← hord.1, h2]; rfl
  rcases hps2 : Plugins.new plugins2 with qs | m | _
  case err => rw [hps2] at hok; cases hok
  case panic => rw [hps2] at hok; cases hok
  have hrel : Plugins.Related Eq ps qs := Alike.related (fun _ => rfl) (hord.2 ps qs h2 hps2)
  have hdocs2 : chars! "docs" ∈ w3.dirs := by
    rw [hq.2.1]
    exact (hnear.dirs _ (by decide)).mpr h8
  have hen : w3.entries (chars! "docs") = u.entries (chars! "docs") := by
    rw [← hnear.listed, World.entries, World.entries, hq.1, hq.2.1]
  have hne : ∀ s, outputPath s c.document.backend ≠ chars! "out" := by
    intro s hs
    simp [outputPath] at hs
  have hdirsu : ∀ d, d ≠ chars! "out" → (d ∈ u'.dirs ↔ d ∈ u.dirs) := by
    intro d hd
    rcases h7 with h7 | ⟨_, h7⟩ <;> rw [h7]
    simp [hd]
  obtain ⟨qs', w4, l1, l2, l3, l4, l5⟩ := buildLoop_redo (E2 := E2) hS hK (backend := c.document.backend) h3 0 hrel
    (names := w3.entries (chars! "docs")) (by rw [h4, hen]) (w := { w3 with clock := w3.clock + 1 })
    (fun n hn => hw3 n (by simp only at hn; omega))
    (by
      intro hne
      simp only
      rw [hq.1, hkeep _ (by decide)]
      rcases ds with _ | ⟨d, ds⟩
      · exact absurd rfl hne
      · exact (h5 d List.mem_cons_self).2.2.2)
    (by
      intro d hdm
      obtain ⟨⟨b, hb, ht⟩, j1, j2, _⟩ := h5 d hdm
      simp only [World.hasDir, Bool.or_eq_true, decide_eq_true_eq] at j1 ⊢
      rw [hq.1, hq.2.1]
      refine ⟨⟨b, ?_, ht⟩, ?_, ?_⟩
      · rw [hkeep _ ?_]
        · exact hb
        · rintro ⟨t, ht⟩
          have := congrArg List.head? ht
          simp at this
      · by_cases ho : parentDir (outputPath d.stem c.document.backend) = chars! "out"
        · exact .inl ho
        · exact .inr (j1.imp id fun j => (hnear.dirs _ ho).mpr ((hdirsu _ ho).mp j))
      · intro hm
        exact j2 ((hdirsu _ (hne _)).mpr ((hnear.dirs _ (hne _)).mp hm)))
  have hw4 : w4.Healthy := by
    intro n hn
    rw [l4]
    exact hw3 n (by simp only at l5; omega)
  have hp4 : IOM.printLine (chars! "Build succeeded.") w4 =
      (.ok (), { w4 with log := w4.log ++ [.printed (chars! "Build succeeded.")] }) := rfl
  simp only at l2 l3
  rw [hq.1] at l2
  rw [hq.2.1] at l3
  have hdne : ds = [] ↔ (u.entries (chars! "docs")).filterMap docStem = [] := by
    rw [← h4, List.map_eq_nil_iff]
  have hout4 : chars! "out" ∈ w4.dirs := by
    rw [l3]
    by_cases ho : chars! "out" ∈ v.dirs
    · rw [if_pos (.inr ho)]; exact ho
    · by_cases hd : ds = []
      · exfalso
        rcases hnear.out with hx | hx
        · have : chars! "out" ∉ u.dirs := fun h => ho (hx.mpr h)
          have hu := build_left W E c md u
          rw [h] at hu
          rcases hu.dirs with hu | ⟨_, ⟨p, stem, hs, _⟩, _⟩
          · rw [hu] at h9; exact this h9
          · rw [hdne.mp hd] at hs; cases hs
        · exact hx (hdne.mp hd)
      · rw [if_neg (fun h => h.elim hd ho)]
        simp
  obtain ⟨n, m1, m2⟩ := listOutputs_prints (names := w4.entries (chars! "out"))
    (w := { w4 with clock := w4.clock + 1, log := w4.log ++ [.printed (chars! "Build succeeded.")] })
    (fun i hi => hw4 i (by simp only at hi; omega))
  refine ⟨{ w4 with
      clock := n
      log := w4.log ++ [.printed (chars! "Build succeeded.")] ++
        (w4.entries (chars! "out")).map (fun x => .printed (chars! "  - ./out/" ++ x)) }, ?_, ?_, ?_⟩
  · unfold build
    rw [IOM.bind_of_ok k1, hps2, IOM.bind_of_ok (IOM.lift_run _ _),
      IOM.bind_of_ok (readDir_run (hw3 _ (Nat.le_refl _)) hdocs2), IOM.bind_of_ok l1, IOM.bind_of_ok hp4,
      IOM.bind_of_ok (readDir_run (by exact hw4 _ (Nat.le_refl _)) (by exact hout4))]
    exact m2
  · intro p
    simp only
    rw [l2, h6]
    by_cases hpd : ∃ d ∈ ds, p = outputPath d.stem c.document.backend
    · obtain ⟨d, hd, rfl⟩ := hpd
      rw [writeResults_get hnd hd, writeResults_get hnd hd]
    · have hno : ∀ d ∈ ds, p ≠ outputPath d.stem c.document.backend := fun d hd e => hpd ⟨d, hd, e⟩
      rw [writeResults_other hno, writeResults_other hno]
      refine hnear.files p ?_
      rintro ⟨stem, hs, rfl⟩
      rw [← h4] at hs
      obtain ⟨d, hd, rfl⟩ := List.mem_map.mp hs
      exact hno d hd rfl
  · intro d
    simp only
    by_cases hd : d = chars! "out"
    · subst hd
      exact ⟨fun _ => h9, fun _ => hout4⟩
    · rw [hdirsu d hd, ← hnear.dirs d hd, l3]
      by_cases hx : ds = [] ∨ chars! "out" ∈ v.dirs
      · rw [if_pos hx]
      · rw [if_neg hx]; simp [hd]

/-- The plugins are found, and nothing changes. -/
theorem downloadPlugins_present {hash : PluginSchema → Str} {c : Config} (hn : ∀ m, c.plugins = some m → (m.map (·.1)).Nodup)
    {w : World} (hp : ∀ n s, c.plugin n = some s → w.pathExists (pluginFile hash n s) = true) :
    ∃ md, downloadPlugins hash c w = (.ok md, w) ∧ (md.map (·.1)).Nodup ∧ (∀ x ∈ md, ¬ chars! "out/" <+: x.2.1) ∧
      ∀ w2 : World, (∀ n s, c.plugin n = some s → w2.pathExists (pluginFile hash n s) = true) →
        ∃ md2, downloadPlugins hash c w2 = (.ok md2, w2) ∧ md2.Perm md := by
  have hno : ∀ {w w' : World} {md : PluginsMetadata}, downloadPlugins hash c w = (.ok md, w') →
      ∀ x ∈ md, ¬ chars! "out/" <+: x.2.1 := by
    rintro w w' md h x hx ⟨u, hu⟩
    obtain ⟨u', hu'⟩ := downloadPlugins_paths hn h x hx
    have := congrArg List.head? (hu.trans hu'.symm)
    simp at this
  rcases hm : c.plugins with _ | m
  · have hrun : ∀ w, downloadPlugins hash c w = (.ok [], w) := downloadPlugins_none hash hm
    exact ⟨[], hrun w, by simp, by simp, fun w2 _ => ⟨[], hrun w2, List.Perm.refl _⟩⟩
  · have key : ∀ w2 : World, (∀ n s, c.plugin n = some s → w2.pathExists (pluginFile hash n s) = true) →
        ∃ md2, downloadPlugins hash c w2 = (.ok md2, w2) := by
      intro w2 h2
      refine ⟨_, downloadPlugins_cached hash hm fun x hx => h2 x.1 x.2 ?_⟩
      rw [Config.plugin, hm]
      exact (HMap.get_eq_some (hn m hm)).mpr hx
    obtain ⟨md, h1⟩ := key w hp
    refine ⟨md, h1, downloadPlugins_nodup h1, hno h1, fun w2 h2 => ?_⟩
    obtain ⟨md2, h3⟩ := key w2 h2
    refine ⟨md2, h3, HMap.perm_of_get (downloadPlugins_nodup h1) (downloadPlugins_nodup h3) fun n => ?_⟩
    rw [(downloadPlugins_ok hash hm (hn m hm) h3).1 n, (downloadPlugins_ok hash hm (hn m hm) h1).1 n]

theorem buildCommand_near {W : Wasm} {E E2 : Env} (hS : E2.S = E.S) (hK : E2.checks = E.checks) (hT : E2.toml = E.toml)
    (hH : E2.hash = E.hash) {u v u' : World} (hv : u.Valid)
    (hu : u.PluginsPresent E.toml E.hash) (hpv : v.PluginsPresent E.toml E.hash)
    (hnear : ∀ b t c, u.files.get (chars! "Brack.toml") = some b → fromUtf8 b = some t → E.toml.readConfig t = .ok c →
      Near c.document.backend u v)
    (h : buildCommand W E u = (.ok (), u')) (hw : v.Healthy) :
    ∃ v', buildCommand W E2 v = (.ok (), v') ∧ (∀ p, v'.files.get p = u'.files.get p) ∧
      (∀ d, d ∈ v'.dirs ↔ d ∈ u'.dirs) := by
  unfold buildCommand at h
  obtain ⟨c, wa, ha, h⟩ := IOM.bind_ok.mp h
  obtain ⟨rfl, b, t, hb, ht, hc⟩ := loadBrackToml_ok ha
  obtain ⟨x, hx, hxc⟩ := readConfig_iff.mp hc
  have hn := hnear b t c hb ht hc
  have hbv : v.files.get (chars! "Brack.toml") = some b := by
    rw [hn.files _ ?_]
    · exact hb
    · rintro ⟨stem, _, hs⟩
      simp [outputPath] at hs
  obtain ⟨md, hd1, hd2, hd3, hd4⟩ := downloadPlugins_present (hash := E.hash)
    (fun m hm => Config.ofToml_nodup hxc hm) (w := { u with clock := u.clock + 1 }) (hu b t x c hb ht hx hxc)
  rw [IOM.bind_of_ok hd1] at h
  obtain ⟨md2, he1, he2⟩ := hd4 { v with clock := v.clock + 1 } (hpv b t x c hbv ht hx hxc)
  have hload := loadBrackToml_run (T := E.toml) hw hbv ht hc
  obtain ⟨v', k1, k2⟩ := build_near (E2 := E2) (v := { v with clock := v.clock + 1 }) hS hK hd2 he2 hd3 (u := { u with clock := u.clock + 1 }) hv
    (hn.of_disk ⟨rfl, rfl⟩ ⟨rfl, rfl⟩) h (fun n hn => hw n (by simp only at hn; omega))
  refine ⟨v', ?_, k2⟩
  unfold buildCommand
  rw [hT, hH, IOM.bind_of_ok hload, IOM.bind_of_ok he1]
  exact k1

/-- What an interrupted `brack build` leaves behind if it has nothing to download. -/
theorem buildCommand_left {W : Wasm} {E : Env} {w : World} (hp : w.PluginsPresent E.toml E.hash) :
    (∀ b t c, w.files.get (chars! "Brack.toml") = some b → fromUtf8 b = some t → E.toml.readConfig t = .ok c →
      Left (OutputOf (w.entries (chars! "docs")) c.document.backend) w (buildCommand W E w).2) ∧
    ((∀ b t c, w.files.get (chars! "Brack.toml") = some b → fromUtf8 b = some t → E.toml.readConfig t ≠ .ok c) →
      (buildCommand W E w).2.SameDisk w) := by
  have hquiet : IOM.Keeps Quiet (loadBrackToml E.toml) := by
    unfold loadBrackToml
    exact IOM.Keeps.bind Quiet.frame (readText_quiet _) fun _ => IOM.Keeps.lift Quiet.frame _
  have hq := hquiet w
  unfold buildCommand
  constructor
  · intro b t c hb ht hc
    refine IOM.bind_at (Quiet.left hquiet w) fun c2 w2 h2 h02 => ?_
    obtain ⟨rfl, b2, t2, hb2, ht2, hc2⟩ := loadBrackToml_ok h2
    rw [hb] at hb2
    injection hb2 with hb2
    subst hb2
    rw [ht] at ht2
    injection ht2 with ht2
    subst ht2
    rw [hc] at hc2
    injection hc2 with hc2
    subst hc2
    obtain ⟨x, hx, hxc⟩ := readConfig_iff.mp hc
    obtain ⟨md, hd1, _⟩ := downloadPlugins_present (hash := E.hash)
      (fun m hm => Config.ofToml_nodup hxc hm) (w := { w with clock := w.clock + 1 }) (hp b t x c hb ht hx hxc)
    rw [IOM.bind_of_ok hd1]
    have := build_left W E c md { w with clock := w.clock + 1 }
    exact ⟨this.files, this.listed, this.dirs⟩
  · intro hno
    refine IOM.bind_at (P := fun w' => w'.SameDisk w) ⟨hq.1.symm, hq.2.1.symm⟩ fun c2 w2 h2 _ => ?_
    obtain ⟨rfl, b2, t2, hb2, ht2, hc2⟩ := loadBrackToml_ok h2
    exact absurd hc2 (hno b2 t2 c2 hb2 ht2)

theorem Quiet.valid {α : Type} {x : IOM α} (h : IOM.Keeps Quiet x) : IOM.Keeps (fun w w' => w.Valid → w'.Valid) x := by
  intro w hv
  rw [World.Valid, (h w).1, (h w).2.1]
  exact hv

theorem createDirAll_valid (d : Str) : IOM.Keeps (fun w w' => w.Valid → w'.Valid) (IOM.createDirAll d) := by
  refine IOM.Keeps.bind Valid.frame (Quiet.valid step_quiet) fun _ w hv => ?_
  rcases hf : w.files.get d with _ | b
  · simp only [Option.isSome_none, Bool.false_eq_true, if_false]
    by_cases hd : d ∈ w.dirs
    · rw [if_pos hd]; exact hv
    · rw [if_neg hd, World.Valid, ← List.append_assoc]
      refine List.nodup_append.mpr ⟨hv, by simp, ?_⟩
      intro a ha b hb
      rw [List.mem_singleton] at hb
      subst hb
      rintro rfl
      rcases List.mem_append.mp ha with ha | ha
      · exact HMap.get_none.mp hf ha
      · exact hd ha
  · simp only [Option.isSome_some, if_true]
    exact hv

theorem buildLoop_valid {W : Wasm} (E : Env) (backend : Str) (i : Nat) (names : List Str) (ps : Plugins W) :
    IOM.Keeps (fun w w' => w.Valid → w'.Valid) (buildLoop E backend i names ps) := by
  induction names generalizing i ps with
  | nil => exact IOM.Keeps.pure Valid.frame _
  | cons name rest ih =>
    rw [buildLoop_cons]
    refine IOM.Keeps.bind Valid.frame (Quiet.valid step_quiet) fun _ => ?_
    split
    · refine IOM.Keeps.bind Valid.frame ?_ fun _ => ih _ _
      unfold buildOne
      refine IOM.Keeps.bind Valid.frame (Quiet.valid (readText_quiet _)) fun _ => ?_
      refine IOM.Keeps.bind Valid.frame (IOM.Keeps.lift Valid.frame _) fun _ => ?_
      refine IOM.Keeps.bind Valid.frame (createDirAll_valid _) fun _ => ?_
      exact IOM.Keeps.bind Valid.frame (writeFile_valid _ _) fun _ => IOM.Keeps.pure Valid.frame _
    · exact ih _ _

theorem listOutputs_valid (names : List Str) : IOM.Keeps (fun w w' => w.Valid → w'.Valid) (listOutputs names) := by
  induction names with
  | nil => exact IOM.Keeps.pure Valid.frame _
  | cons name rest ih =>
    rw [listOutputs]
    refine IOM.Keeps.bind Valid.frame (Quiet.valid step_quiet) fun _ => ?_
    exact IOM.Keeps.bind Valid.frame (fun w h => h) fun _ => ih

theorem buildCommand_valid (W : Wasm) (E : Env) : IOM.Keeps (fun w w' => w.Valid → w'.Valid) (buildCommand W E) := by
  unfold buildCommand
  refine IOM.Keeps.bind Valid.frame ?_ fun c => ?_
  · unfold loadBrackToml
    exact IOM.Keeps.bind Valid.frame (Quiet.valid (readText_quiet _)) fun _ => IOM.Keeps.lift Valid.frame _
  refine IOM.Keeps.bind Valid.frame (downloadPlugins_valid _ _) fun md => ?_
  unfold build
  refine IOM.Keeps.bind Valid.frame (Quiet.valid (loadPlugins_quiet _ _)) fun _ => ?_
  refine IOM.Keeps.bind Valid.frame (IOM.Keeps.lift Valid.frame _) fun _ => ?_
  refine IOM.Keeps.bind Valid.frame (Quiet.valid (readDir_quiet _)) fun _ => ?_
  refine IOM.Keeps.bind Valid.frame (buildLoop_valid _ _ _ _ _) fun _ => ?_
  refine IOM.Keeps.bind Valid.frame (fun w h => h) fun _ => ?_
  refine IOM.Keeps.bind Valid.frame (Quiet.valid (readDir_quiet _)) fun outs => ?_
  exact listOutputs_valid outs

/-- A project with two documents, and a system on which the write of the second output is cut short. -/
def interrupted : World :=
  { twoDocuments (fun n => if n = 10 then .cut 2 else .none) with
    files := (chars! "Brack.toml", utf8 (chars! "the configuration")) :: (twoDocuments fun _ => .none).files }

end Brack
