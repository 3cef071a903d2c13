import Verif.Proof.ConfigRead
import Verif.Proof.Crash

/-
What is read from a configuration file.
-/

namespace Brack

/-- C102: a configuration is read only from a file that states it. -/
theorem C102_stated (T : Toml) (hT : ∀ t v, T.parse t = some v → v.Unique) (text : Str) (c : Config)
    (h : T.readConfig text = .ok c) : ∃ v, T.parse text = some v ∧ c.StatedBy v := by
  obtain ⟨v, hv, hc⟩ := readConfig_iff.mp h
  exact ⟨v, hv, Config.ofToml_stated (hT _ _ hv) hc⟩

/-- C102: from a file that states a configuration, this configuration is read. -/
theorem C102_read (T : Toml) (hT : ∀ t v, T.parse t = some v → v.Unique) (text : Str) (v : TVal) (c : Config)
    (hv : T.parse text = some v) (h : c.StatedBy v) : ∃ c', T.readConfig text = .ok c' ∧ c'.Equal c := by
  obtain ⟨c', hc⟩ := Config.stated_ofToml (hT _ _ hv) h
  exact ⟨c', readConfig_iff.mpr ⟨v, hv, hc⟩, Config.StatedBy.equal (hT _ _ hv) (Config.ofToml_stated (hT _ _ hv) hc) h⟩

/-- C102: if Brack.toml is missing, is not UTF-8, is not TOML or states no configuration, then `brack build` reports
an error and leaves everything as it was. -/
theorem C102_build_refused (W : Wasm) (E : Env) (hT : ∀ t v, E.toml.parse t = some v → v.Unique) (w : World)
    (h : ∀ bytes text v c, w.files.get (chars! "Brack.toml") = some bytes → fromUtf8 bytes = some text →
      E.toml.parse text = some v → ¬ Config.StatedBy c v) :
    (∃ m, (buildCommand W E w).1 = .err m) ∧ (buildCommand W E w).2.files = w.files ∧
      (buildCommand W E w).2.dirs = w.dirs ∧ (buildCommand W E w).2.log = w.log := by
  have hn : ∀ c, ¬ w.HasConfig E.toml c := by
    rintro c ⟨b, t, v, hb, ht, hv, hc⟩
    exact h b t v c hb ht hv (Config.ofToml_stated (hT _ _ hv) hc)
  obtain ⟨m, hm⟩ := loadBrackToml_refused hn
  have hq := loadBrackToml_quiet E.toml w
  rcases hl : loadBrackToml E.toml w with ⟨r, w1⟩
  rw [hl] at hm hq
  simp only at hm
  subst hm
  have : buildCommand W E w = (.err m, w1) := by
    rw [buildCommand, IOM.bind_run, hl]
  rw [this]
  exact ⟨⟨m, rfl⟩, hq⟩

/-- C102: likewise `brack add`. -/
theorem C102_add_refused (T : Toml) (hT : ∀ t v, T.parse t = some v → v.Unique) (schema : Str) (w : World)
    (h : ∀ bytes text v c, w.files.get (chars! "Brack.toml") = some bytes → fromUtf8 bytes = some text →
      T.parse text = some v → ¬ Config.StatedBy c v) :
    (∃ m, (addPlugin T schema w).1 = .err m) ∧ (addPlugin T schema w).2.files = w.files ∧
      (addPlugin T schema w).2.dirs = w.dirs ∧ (addPlugin T schema w).2.log = w.log := by
  rcases addPlugin_plan T schema w with ⟨hn, hq⟩ | ⟨t, c, repository, name, hplan, _⟩
  · refine ⟨?_, hq⟩
    rcases hr : (addPlugin T schema w).1 with u | m | _
    · exact absurd hr (hn u)
    · exact ⟨m, rfl⟩
    · exact absurd hr (addPlugin_ne_panic T schema w)
  · obtain ⟨b, t, v, hb, ht, hv, hc⟩ := hplan.config
    exact absurd (Config.ofToml_stated (hT _ _ hv) hc) (h b t v c hb ht hv)

/-- A configuration with keys of other tools and in another order. -/
private def mixed : TVal := .table
  [(chars! "plugins", .table [(chars! "std", .table [(chars! "text_hook", .bool true), (chars! "version", .str (chars! "v1")),
      (chars! "repo", .str (chars! "r")), (chars! "schema", .str (chars! "github")), (chars! "owner", .str (chars! "o"))])]),
   (chars! "tool", .other),
   (chars! "document", .table [(chars! "authors", .array [.str (chars! "a"), .str (chars! "b")]), (chars! "title", .bool true),
      (chars! "backend", .str (chars! "html")), (chars! "version", .str (chars! "1")), (chars! "name", .str (chars! "n"))])]

/-- Concrete case: it states a configuration, -/
example : mixed.Unique ∧ Config.StatedBy ⟨⟨chars! "n", chars! "1", chars! "html", [chars! "a", chars! "b"]⟩,
    some [(chars! "std", ⟨chars! "o", chars! "r", chars! "v1", none, none, none, some true⟩)]⟩ mixed := by
  have hu : mixed.Unique := by
    simp [mixed, TVal.Unique, TVal.UniqueValues, TVal.UniqueItems]
  exact ⟨hu, Config.ofToml_stated hu (by decide +kernel)⟩

/-- which is read. -/
example : Config.ofToml mixed = .ok ⟨⟨chars! "n", chars! "1", chars! "html", [chars! "a", chars! "b"]⟩,
    some [(chars! "std", ⟨chars! "o", chars! "r", chars! "v1", none, none, none, some true⟩)]⟩ := by decide +kernel

/-- Concrete case: without a backend no configuration is stated. -/
example (c : Config) : ¬ c.StatedBy (.table [(chars! "document", .table [(chars! "name", .str (chars! "n")),
    (chars! "version", .str (chars! "1")), (chars! "authors", .array [])])]) := by
  intro h
  obtain ⟨c', hc⟩ := Config.stated_ofToml (by simp [TVal.Unique, TVal.UniqueValues, TVal.UniqueItems]) h
  have : Config.ofToml (.table [(chars! "document", .table [(chars! "name", .str (chars! "n")),
    (chars! "version", .str (chars! "1")), (chars! "authors", .array [])])]) = .err "missing field" := by decide +kernel
  rw [this] at hc
  cases hc

end Brack
