import Verif.Props.Project
import Verif.Spec.Config
import Verif.Proof.Opened
import Verif.Proof.Effects

/-
Reading of configurations.
-/

namespace Brack

theorem fieldOf_some {key : Str} {kvs : List (Str × TVal)} (hn : (kvs.map (·.1)).Nodup) {x : TVal} :
    fieldOf key kvs = some x ↔ (TVal.table kvs).Has key x := by
  rw [fieldOf, HMap.get_eq_some hn]
  constructor
  · exact fun h => ⟨kvs, rfl, h⟩
  · rintro ⟨k, he, h⟩
    cases he
    exact h

theorem fieldOf_none {key : Str} {kvs : List (Str × TVal)} : fieldOf key kvs = none ↔ (TVal.table kvs).Lacks key := by
  rw [fieldOf, HMap.get_none]
  constructor
  · exact fun h => ⟨kvs, rfl, fun x hx => h (List.mem_map.mpr ⟨_, hx, rfl⟩)⟩
  · rintro ⟨k, he, h⟩ hm
    cases he
    obtain ⟨⟨a, x⟩, hx, rfl⟩ := List.mem_map.mp hm
    exact h x hx

theorem TVal.Has.inj {v : TVal} (hu : v.Unique) {key : Str} {x y : TVal} (h1 : v.Has key x) (h2 : v.Has key y) : x = y := by
  obtain ⟨kvs, rfl, h⟩ := h1
  have hn : (kvs.map (·.1)).Nodup := hu.1
  have e1 := (fieldOf_some hn).mpr ⟨kvs, rfl, h⟩
  have e2 := (fieldOf_some hn).mpr h2
  rw [e1] at e2
  injection e2

theorem TVal.uniqueValues_mem {kvs : List (Str × TVal)} (h : TVal.UniqueValues kvs) {key : Str} {x : TVal}
    (hx : (key, x) ∈ kvs) : x.Unique := by
  induction kvs with
  | nil => cases hx
  | cons y kvs ih =>
    obtain ⟨k, z⟩ := y
    rcases List.mem_cons.mp hx with he | hx
    · cases he; exact h.1
    · exact ih h.2 hx

theorem TVal.Has.unique {v : TVal} (hu : v.Unique) {key : Str} {x : TVal} (h : v.Has key x) : x.Unique := by
  obtain ⟨kvs, rfl, h⟩ := h
  exact TVal.uniqueValues_mem hu.2 h

theorem strField_ok {key : Str} {kvs : List (Str × TVal)} (hn : (kvs.map (·.1)).Nodup) {s : Str} :
    strField key kvs = .ok s ↔ (TVal.table kvs).Has key (.str s) := by
  rw [← fieldOf_some hn, strField]
  rcases h : fieldOf key kvs with _ | v
  · simp
  · cases v <;> simp

theorem strItems_ok {vs : List TVal} {ss : List Str} : strItems vs = .ok ss ↔ vs = ss.map .str := by
  induction vs generalizing ss with
  | nil => cases ss <;> simp [strItems]
  | cons v vs ih =>
    cases v with
    | str s =>
      rw [strItems]
      constructor
      · intro h
        obtain ⟨r, h1, h2⟩ := Res.bind_ok.mp h
        injection h2 with h2
        subst h2
        rw [List.map_cons, ih.mp h1]
      · intro h
        cases ss with
        | nil => simp at h
        | cons a ss =>
          rw [List.map_cons] at h
          injection h with h1 h2
          injection h1 with h1
          subst h1
          exact Res.bind_ok.mpr ⟨ss, ih.mpr h2, rfl⟩
    | _ => cases ss <;> simp [strItems]

theorem authorsField_ok {kvs : List (Str × TVal)} (hn : (kvs.map (·.1)).Nodup) {ss : List Str} :
    authorsField kvs = .ok ss ↔ (TVal.table kvs).Has (chars! "authors") (.array (ss.map .str)) := by
  rw [← fieldOf_some hn, authorsField]
  rcases h : fieldOf (chars! "authors") kvs with _ | v
  · simp
  · cases v <;> simp [strItems_ok]

theorem Document.ofToml_iff {v : TVal} (hu : v.Unique) {d : Document} :
    Document.ofToml v = .ok d ↔ d.StatedBy v := by
  obtain ⟨n, ver, b, as⟩ := d
  cases v with
  | table kvs =>
    have hn : (kvs.map (·.1)).Nodup := hu.1
    rw [Document.ofToml]
    constructor
    · intro h
      obtain ⟨n', h1, h⟩ := Res.bind_ok.mp h
      obtain ⟨v', h2, h⟩ := Res.bind_ok.mp h
      obtain ⟨b', h3, h⟩ := Res.bind_ok.mp h
      obtain ⟨a', h4, h⟩ := Res.bind_ok.mp h
      injection h with h
      cases h
      exact .inl ⟨(strField_ok hn).mp h1, (strField_ok hn).mp h2, (strField_ok hn).mp h3, (authorsField_ok hn).mp h4⟩
    · rintro (⟨h1, h2, h3, h4⟩ | ⟨more, he⟩)
      · exact Res.bind_ok.mpr ⟨_, (strField_ok hn).mpr h1, Res.bind_ok.mpr ⟨_, (strField_ok hn).mpr h2,
          Res.bind_ok.mpr ⟨_, (strField_ok hn).mpr h3, Res.bind_ok.mpr ⟨_, (authorsField_ok hn).mpr h4, rfl⟩⟩⟩⟩
      · cases he
  | array vs =>
    rw [Document.ofToml]
    constructor
    · intro h
      unfold Document.ofItems at h
      split at h
      · obtain ⟨a', h4, h⟩ := Res.bind_ok.mp h
        injection h with h
        cases h
        rw [strItems_ok.mp h4]
        exact .inr ⟨_, rfl⟩
      · cases h
    · rintro (⟨⟨_, he, _⟩, _⟩ | ⟨more, he⟩)
      · cases he
      · cases he
        exact Res.bind_ok.mpr ⟨_, strItems_ok.mpr rfl, rfl⟩
  | _ =>
    constructor
    · intro h; cases h
    · rintro (⟨⟨_, he, _⟩, _⟩ | ⟨more, he⟩) <;> cases he

theorem PluginSchema.ofToml_iff {v : TVal} {s : PluginSchema} : PluginSchema.ofToml v = .ok s ↔ s.StatedBy v := by
  cases v with
  | table fields =>
    rw [PluginSchema.ofToml, C41_accepts_exactly]
    constructor
    · exact fun h => ⟨fields, rfl, h⟩
    · rintro ⟨f, he, h⟩
      cases he
      exact h
  | _ =>
    constructor
    · intro h; cases h
    · rintro ⟨f, he, _⟩; cases he

theorem pluginEntries_get {l : List (Str × TVal)} {m m' : HMap Str PluginSchema} (hn : (l.map (·.1)).Nodup)
    (h : pluginEntries l m = .ok m') (k : Str) :
    (∀ x, (k, x) ∈ l → ∃ s, m'.get k = some s ∧ PluginSchema.ofToml x = .ok s) ∧
      (k ∉ l.map (·.1) → m'.get k = m.get k) := by
  induction l generalizing m with
  | nil =>
    injection h with h
    subst h
    exact ⟨fun x hx => by (cases hx), fun _ => rfl⟩
  | cons y l ih =>
    obtain ⟨n, v⟩ := y
    rw [List.map_cons, List.nodup_cons] at hn
    rw [pluginEntries] at h
    obtain ⟨s, hs, h⟩ := Res.bind_ok.mp h
    obtain ⟨i1, i2⟩ := ih hn.2 h
    refine ⟨fun x hx => ?_, fun hk => ?_⟩
    · rcases List.mem_cons.mp hx with he | hx
      · cases he
        refine ⟨s, ?_, hs⟩
        rw [i2 hn.1, HMap.get_insert_self]
      · exact i1 x hx
    · rw [List.map_cons, List.mem_cons, not_or] at hk
      rw [i2 hk.2, HMap.get_insert_ne hk.1]

theorem pluginEntries_total {l : List (Str × TVal)} (h : ∀ k x, (k, x) ∈ l → ∃ s, PluginSchema.ofToml x = .ok s)
    (m : HMap Str PluginSchema) : ∃ m', pluginEntries l m = .ok m' := by
  induction l generalizing m with
  | nil => exact ⟨m, rfl⟩
  | cons y l ih =>
    obtain ⟨n, v⟩ := y
    obtain ⟨s, hs⟩ := h n v (List.mem_cons_self ..)
    obtain ⟨m', hm⟩ := ih (fun k x hx => h k x (List.mem_cons_of_mem _ hx)) (m.insert n s)
    exact ⟨m', by rw [pluginEntries]; exact Res.bind_ok.mpr ⟨s, hs, hm⟩⟩

theorem Config.ofToml_stated {v : TVal} (hu : v.Unique) {c : Config} (h : Config.ofToml v = .ok c) : c.StatedBy v := by
  obtain ⟨d, ps⟩ := c
  cases v with
  | table kvs =>
    have hn : (kvs.map (·.1)).Nodup := hu.1
    rw [Config.ofToml] at h
    obtain ⟨d', h1, h⟩ := Res.bind_ok.mp h
    obtain ⟨ps', h2, h⟩ := Res.bind_ok.mp h
    injection h with h
    cases h
    refine ⟨?_, ?_⟩
    · rw [documentField] at h1
      rcases hd : fieldOf (chars! "document") kvs with _ | x
      · rw [hd] at h1; cases h1
      · rw [hd] at h1
        have hx := (fieldOf_some hn).mp hd
        exact ⟨x, hx, (Document.ofToml_iff (hx.unique hu)).mp h1⟩
    · rw [pluginsField] at h2
      rcases hp : fieldOf (chars! "plugins") kvs with _ | x
      · rw [hp] at h2
        injection h2 with h2
        subst h2
        exact fieldOf_none.mp hp
      · rw [hp] at h2
        have hx := (fieldOf_some hn).mp hp
        cases x with
        | table entries =>
          obtain ⟨m, h3, h2⟩ := Res.bind_ok.mp h2
          injection h2 with h2
          subst h2
          have hne : (entries.map (·.1)).Nodup := (hx.unique hu).1
          refine ⟨entries, hx, fun name x hx => ?_, fun name s hs => ?_⟩
          · obtain ⟨s, hs, ho⟩ := (pluginEntries_get hne h3 name).1 x hx
            exact ⟨s, hs, PluginSchema.ofToml_iff.mp ho⟩
          · by_cases hk : name ∈ entries.map (·.1)
            · obtain ⟨⟨a, x⟩, hx, rfl⟩ := List.mem_map.mp hk
              exact ⟨x, hx⟩
            · rw [(pluginEntries_get hne h3 name).2 hk] at hs
              cases hs
        | _ => cases h2
  | _ => cases h

theorem Config.stated_ofToml {v : TVal} (hu : v.Unique) {c : Config} (h : c.StatedBy v) :
    ∃ c', Config.ofToml v = .ok c' := by
  obtain ⟨d, ps⟩ := c
  obtain ⟨⟨dv, ⟨kvs, rfl, hdv⟩, hds⟩, hp⟩ := h
  have hn : (kvs.map (·.1)).Nodup := hu.1
  have hx : (TVal.table kvs).Has (chars! "document") dv := ⟨kvs, rfl, hdv⟩
  have hd : documentField kvs = .ok d := by
    rw [documentField, (fieldOf_some hn).mpr hx]
    exact (Document.ofToml_iff (hx.unique hu)).mpr hds
  have hq : ∃ q, pluginsField kvs = .ok q := by
    rw [pluginsField]
    cases ps with
    | none =>
      rw [fieldOf_none.mpr hp]
      exact ⟨_, rfl⟩
    | some m =>
      obtain ⟨entries, he, h1, _⟩ := hp
      rw [(fieldOf_some hn).mpr he]
      obtain ⟨m', hm⟩ := pluginEntries_total (l := entries) (fun k x hx => by
        obtain ⟨s, _, hs⟩ := h1 k x hx
        exact ⟨s, PluginSchema.ofToml_iff.mpr hs⟩) []
      exact ⟨some m', Res.bind_ok.mpr ⟨m', hm, rfl⟩⟩
  obtain ⟨q, hq⟩ := hq
  exact ⟨⟨d, q⟩, by rw [Config.ofToml]; exact Res.bind_ok.mpr ⟨d, hd, Res.bind_ok.mpr ⟨q, hq, rfl⟩⟩⟩

theorem PluginSchema.StatedBy.inj {v : TVal} {s s' : PluginSchema} (h : s.StatedBy v) (h' : s'.StatedBy v) : s = s' := by
  have h1 := PluginSchema.ofToml_iff.mpr h
  rw [PluginSchema.ofToml_iff.mpr h'] at h1
  injection h1 with h1
  exact h1.symm

theorem Config.StatedBy.equal {v : TVal} (hu : v.Unique) {c c' : Config} (h : c.StatedBy v) (h' : c'.StatedBy v) :
    c.Equal c' := by
  obtain ⟨d, ps⟩ := c
  obtain ⟨d', ps'⟩ := c'
  obtain ⟨⟨dv, hdv, hd⟩, hp⟩ := h
  obtain ⟨⟨dv', hdv', hd'⟩, hp'⟩ := h'
  have := TVal.Has.inj hu hdv hdv'
  subst this
  have e1 := (Document.ofToml_iff (hdv.unique hu)).mpr hd
  rw [(Document.ofToml_iff (hdv.unique hu)).mpr hd'] at e1
  injection e1 with e1
  subst e1
  have no : ∀ {x}, v.Has (chars! "plugins") x → v.Lacks (chars! "plugins") → False := by
    rintro x ⟨k, rfl, hx⟩ ⟨k', he, hl⟩
    cases he
    exact hl x hx
  rcases ps with _ | m <;> rcases ps' with _ | m'
  · exact ⟨rfl, rfl, fun _ _ => Iff.rfl⟩
  · obtain ⟨_, he, _⟩ := hp'
    exact (no he hp).elim
  · obtain ⟨_, he, _⟩ := hp
    exact (no he hp').elim
  · refine ⟨rfl, rfl, fun name s => ?_⟩
    obtain ⟨es, he, h1, h2⟩ := hp
    obtain ⟨es', he', h1', h2'⟩ := hp'
    have := TVal.Has.inj hu he he'
    injection this with this
    subst this
    have hne : (es.map (·.1)).Nodup := (he.unique hu).1
    constructor
    · rintro ⟨m0, e, hg⟩
      cases e
      obtain ⟨x, hx⟩ := h2 name s hg
      obtain ⟨s1, hg1, hs1⟩ := h1 name x hx
      obtain ⟨s2, hg2, hs2⟩ := h1' name x hx
      rw [hg] at hg1
      injection hg1 with hg1
      subst hg1
      exact ⟨m', rfl, by rw [hg2, hs2.inj hs1]⟩
    · rintro ⟨m0, e, hg⟩
      cases e
      obtain ⟨x, hx⟩ := h2' name s hg
      obtain ⟨s1, hg1, hs1⟩ := h1 name x hx
      obtain ⟨s2, hg2, hs2⟩ := h1' name x hx
      rw [hg] at hg2
      injection hg2 with hg2
      subst hg2
      exact ⟨m, rfl, by rw [hg1, hs2.inj hs1]⟩

/-- Loading of a configuration that is not there or cannot be read: an error, and nothing is changed. -/
theorem loadBrackToml_refused {T : Toml} {w : World} (h : ∀ c, ¬ w.HasConfig T c) :
    ∃ m, (loadBrackToml T w).1 = .err m := by
  rcases hl : loadBrackToml T w with ⟨r, w1⟩
  cases r with
  | ok c =>
    obtain ⟨b, t, hb, ht, hr⟩ := readConfig_at hl
    obtain ⟨v, hv, hc⟩ := readConfig_iff.mp hr
    exact absurd ⟨b, t, v, hb, ht, hv, hc⟩ (h c)
  | err m => exact ⟨m, rfl⟩
  | panic =>
    exfalso
    rw [loadBrackToml, IOM.bind_run] at hl
    rcases hx : IOM.readText (chars! "Brack.toml") w with ⟨r, w2⟩
    rw [hx] at hl
    cases r with
    | ok t =>
      have : T.readConfig t = .panic := by
        have := congrArg Prod.fst hl
        exact this
      rw [Toml.readConfig] at this
      rcases hp : T.parse t with _ | v
      · rw [hp] at this; cases this
      · rw [hp] at this
        exact Config.ofToml_ne_panic v this
    | err m => cases hl
    | panic =>
      rw [IOM.readText, IOM.bind_run] at hx
      rcases hy : IOM.readFile (chars! "Brack.toml") w with ⟨r, w3⟩
      rw [hy] at hx
      cases r with
      | ok b =>
        rcases hz : fromUtf8 b with _ | t
        · simp only [hz, IOM.fail] at hx; cases hx
        · simp only [hz] at hx; cases hx
      | err m => cases hx
      | panic =>
        rw [IOM.readFile, IOM.bind_run] at hy
        rcases step_cases w with ⟨_, hs⟩ | ⟨_, hs⟩
        · rw [hs] at hy
          rcases hg : w.files.get (chars! "Brack.toml") with _ | b
          · simp only [hg] at hy; cases hy
          · simp only [hg] at hy; cases hy
        · rw [hs] at hy; cases hy

end Brack
