import Verif.Proof.NewProject
import Verif.Props.Project
import Verif.Props.Pipeline

/-
Building a new project.
-/

namespace Brack

theorem only_main {p : World} {text : Str}
    (hf : p.files = [(chars! "docs/main.[]", []), (chars! "Brack.toml", utf8 text),
      (chars! ".gitignore", utf8 (chars! "plugins\nout\n"))]) (stem : Str) (b : Bytes) :
    p.files.get (chars! "docs/" ++ stem ++ chars! ".[]") = some b ↔ stem = chars! "main" ∧ b = [] := by
  rw [hf]
  constructor
  · intro h
    by_cases he : chars! "docs/main.[]" = chars! "docs/" ++ stem ++ chars! ".[]"
    · have he' : chars! "docs/" ++ (chars! "main" ++ chars! ".[]") = chars! "docs/" ++ (stem ++ chars! ".[]") := by
        rw [← List.append_assoc _ stem]
        exact he
      have := List.append_cancel_right (List.append_cancel_left he')
      subst this
      refine ⟨rfl, ?_⟩
      simp [HMap.get] at h
      exact h
    · simp only [HMap.get] at h
      rw [if_neg he] at h
      simp at h
  · rintro ⟨rfl, rfl⟩
    simp [HMap.get]

theorem newProject_build {W : Wasm} {E : Env} {p : World} {text value : Str}
    (hf : p.files = [(chars! "docs/main.[]", []), (chars! "Brack.toml", utf8 text),
      (chars! ".gitignore", utf8 (chars! "plugins\nout\n"))]) (hd : p.dirs = [chars! "docs"]) (hw : p.Healthy)
    (hc : E.toml.readConfig text = .ok (newConfigOf value)) :
    ∃ w2, buildCommand W E p = (.ok (), w2) ∧ w2.files.get (chars! "out/main.") = some [] ∧
      w2.writes = p.writes ++ [(chars! "out/main.", [])] ∧ w2.requests = p.requests := by
  have hg : p.files.get (chars! "Brack.toml") = some (utf8 text) := by rw [hf]; simp [HMap.get]
  have hl : loadBrackToml E.toml p = (.ok (newConfigOf value), { p with clock := p.clock + 1 }) := by
    rw [loadBrackToml, IOM.bind_of_ok (readText_run hg (fromUtf8_utf8 _) (hw _ (Nat.le_refl _))), hc]
    rfl
  have hdl : ∀ w, downloadPlugins E.hash (newConfigOf value) w = (.ok [], w) := fun w => rfl
  rw [buildCommand, IOM.bind_of_ok hl, IOM.bind_of_ok (hdl _)]
  have hw1 : ({ p with clock := p.clock + 1 } : World).Healthy := fun n hn => hw n (Nat.le_of_succ_le hn)
  have e1 : ({ p with clock := p.clock + 1 } : World).writes = p.writes := rfl
  have e2 : ({ p with clock := p.clock + 1 } : World).requests = p.requests := rfl
  rw [← e1, ← e2]
  generalize hp1 : ({ p with clock := p.clock + 1 } : World) = p1 at hw1
  have hf1 : p1.files = p.files := by rw [← hp1]
  have hd1 : p1.dirs = p.dirs := by rw [← hp1]
  rw [hf] at hf1
  rw [hd] at hd1
  have hdoc : ∀ stem, p1.HasDocument stem ↔ stem = chars! "main" := by
    intro stem
    constructor
    · rintro ⟨_, _, h⟩
      obtain ⟨b, hb⟩ := Option.isSome_iff_exists.mp h
      exact ((only_main hf1 stem b).mp hb).1
    · rintro rfl
      refine ⟨by decide, by decide, ?_⟩
      rw [(only_main hf1 _ _).mpr ⟨rfl, rfl⟩]
      rfl
  have hplain : ∀ i (ps : Plugins W), NoHooks ps → compileText E.S (E.ids i) E.checks [] ps = (.ok [], ps) := by
    intro i ps h
    exact C36_plain_partial E.S (E.ids i) E.checks ps h [] (by simp) (by simp) (by simp)
  have hok := C47_succeeds W E (newConfigOf value) [] p1 hw1 [] ⟨[], none, none, none, none, []⟩ rfl rfl NoHooks
    ⟨rfl, rfl, rfl, rfl⟩ (by rw [hd1]; simp) ⟨_, (hdoc _).mpr rfl⟩
    (by rw [hd1]; simp) (by simp [newConfigOf]) (by rw [hf1]; simp [HMap.get]) (by rw [hd1]; simp)
    (by
      intro stem b _ hb
      obtain ⟨_, rfl⟩ := (only_main hf1 stem b).mp hb
      exact ⟨[], rfl, fun i ps h => ⟨[], ps, h, hplain i ps h⟩⟩)
  rcases hr : build W E (newConfigOf value) [] p1 with ⟨r, w2⟩
  rw [hr] at hok
  simp only at hok
  subst hok
  have hv : p1.Valid := by
    rw [World.Valid, hf1, hd1]
    simp only [List.map]
    decide
  obtain ⟨plugins, ps, ps', ds, h1, h2, h3, h4, h5, h6, h7, _⟩ := C47_outputs W E _ [] p1 w2 hv hr
  have hds : ∃ d, ds = [d] ∧ d.stem = chars! "main" := by
    have hmem : ∀ d ∈ ds, d.stem = chars! "main" := fun d hd => (hdoc _).mp ((h5 _).mp (List.mem_map_of_mem hd))
    match ds, h4, h5, hmem with
    | [], _, h5, _ => exact absurd ((h5 _).mpr ((hdoc _).mpr rfl)) (by simp)
    | [d], _, _, hmem => exact ⟨d, rfl, hmem d List.mem_cons_self⟩
    | d :: e :: _, h4, _, hmem =>
      rw [List.map_cons, List.map_cons, hmem d (by simp), hmem e (by simp)] at h4
      simp at h4
  obtain ⟨d, rfl, hstem⟩ := hds
  obtain ⟨⟨b, hb, ht⟩, hout⟩ := h6 d (by simp)
  obtain ⟨_, rfl⟩ := (only_main hf1 _ b).mp hb
  have htext : d.text = [] := by
    have : fromUtf8 [] = some [] := rfl
    rw [this] at ht
    injection ht with ht
    exact ht.symm
  have hl : (loadPlugins W [] p1).1 = .ok [] := rfl
  rw [hl] at h1
  injection h1 with h1
  subst h1
  injection h2 with h2
  subst h2
  have hres : d.result = [] := by
    cases h3 with
    | cons h t =>
      rw [htext, hplain 0 _ ⟨rfl, rfl, rfl, rfl⟩] at h
      injection h with h _
      injection h with h
      exact h.symm
  refine ⟨w2, rfl, ?_, ?_, ?_⟩
  · rw [hstem, hres] at hout
    exact hout
  · rw [h7]
    simp [hstem, hres, newConfigOf]
    rfl
  · obtain ⟨l, hlog, _, hno⟩ := (build_acts (W := W) (write := fun _ => True) (create := fun _ => True)
      (ask := fun _ => False) E (newConfigOf value) trivial [] (fun _ _ _ => trivial) p1).log
    rw [hr] at hlog
    simp only at hlog
    rw [World.requests, World.requests, hlog, List.filterMap_append]
    have : l.filterMap IOEvent.url? = [] := by
      rw [List.filterMap_eq_nil_iff]
      intro e he
      cases e with
      | request u => exact absurd he (hno u)
      | _ => rfl
    rw [this, List.append_nil]

end Brack
