import Verif.Proof.Effects
import Verif.Proof.TomlText

/-
Helper lemmas on `brack new`.
-/

namespace Brack

/-- The outcome of `new`. -/
theorem newProject_ok {name : Str} {w w' : World} {u : Unit} (h : newProject name w = (.ok u, w')) :
    w.pathExists name = false ∧ name ≠ [] ∧
    w' = { w with
      clock := w.clock + 5
      dirs := w.dirs ++ [name, name ++ chars! "/docs"]
      files := ((w.files.insert (name ++ chars! "/docs/main.[]") []).insert (name ++ chars! "/Brack.toml")
        (utf8 (newConfigText name))).insert (name ++ chars! "/.gitignore") (utf8 (chars! "plugins\nout\n"))
      log := w.log ++ [.wrote (name ++ chars! "/docs/main.[]") [], .wrote (name ++ chars! "/Brack.toml")
        (utf8 (newConfigText name)), .wrote (name ++ chars! "/.gitignore") (utf8 (chars! "plugins\nout\n"))] } := by
  unfold newProject at h
  obtain ⟨_, w1, h1, h⟩ := IOM.bind_ok.mp h
  obtain ⟨_, w2, h2, h⟩ := IOM.bind_ok.mp h
  obtain ⟨_, w3, h3, h⟩ := IOM.bind_ok.mp h
  obtain ⟨_, w4, h4, h⟩ := IOM.bind_ok.mp h
  have k1 : w.pathExists name = false ∧ name ≠ [] ∧ w1 = { w with clock := w.clock + 1, dirs := w.dirs ++ [name] } := by
    rcases createDir_cases name w with ⟨_, _, k1, _, k2, k⟩ | ⟨⟨m, k⟩, _⟩
    · rw [h1] at k; exact ⟨k1, k2, k⟩
    · rw [h1] at k; simp at k
  have k2 : w2 = { w1 with clock := w1.clock + 1, dirs := w1.dirs ++ [name ++ chars! "/docs"] } := by
    rcases createDir_cases (name ++ chars! "/docs") w1 with ⟨_, _, _, _, _, k⟩ | ⟨⟨m, k⟩, _⟩
    · rw [h2] at k; exact k
    · rw [h2] at k; simp at k
  have k3 := writeFile_ok h3
  have k4 := writeFile_ok h4
  have k5 := writeFile_ok h
  obtain ⟨e1, e2, k1⟩ := k1
  refine ⟨e1, e2, ?_⟩
  rw [k5, k4, k3, k2, k1]
  simp

/-- Nothing exists below a path that does not exist. -/
theorem rooted_below {w : World} (hr : w.Rooted) {name : Str} (hne : name ≠ []) (hn : w.pathExists name = false) :
    ∀ k (rest : Str), rest.length ≤ k → w.pathExists (name ++ '/' :: rest) = false := by
  have hdir : name ∉ w.dirs := by
    intro h
    rw [World.pathExists, Bool.or_eq_false_iff] at hn
    simp [h] at hn
  intro k
  induction k with
  | zero =>
    intro rest hk
    have : rest = [] := List.length_eq_zero_iff.mp (by omega)
    subst this
    by_cases h : w.pathExists (name ++ ['/']) = true
    · have := hr _ h
      rw [parentDir_slash name (s := []) (by simp)] at this
      rcases this with h | h
      · exact absurd h hne
      · exact absurd h hdir
    · simpa using h
  | succ k ih =>
    intro rest hk
    by_cases h : w.pathExists (name ++ '/' :: rest) = true
    · have hp := hr _ h
      by_cases hs : '/' ∈ rest
      · obtain ⟨a, b, hb, rfl⟩ : ∃ a b : Str, '/' ∉ b ∧ rest = a ++ '/' :: b := by
          clear ih hk h hp
          induction rest with
          | nil => simp at hs
          | cons c rest ih =>
            by_cases h' : '/' ∈ rest
            · obtain ⟨a, b, h1, h2⟩ := ih h'
              exact ⟨c :: a, b, h1, by rw [h2]; rfl⟩
            · have : c = '/' := by
                rcases List.mem_cons.mp hs with h | h
                · exact h.symm
                · exact absurd h h'
              subst this
              exact ⟨[], rest, h', rfl⟩
        have e : name ++ '/' :: (a ++ '/' :: b) = (name ++ '/' :: a) ++ '/' :: b := by simp
        rw [e, parentDir_slash _ hb] at hp
        rcases hp with hp | hp
        · simp at hp
        · have := ih a (by simp at hk; omega)
          rw [World.pathExists, Bool.or_eq_false_iff] at this
          simp [hp] at this
      · rw [parentDir_slash name hs] at hp
        rcases hp with hp | hp
        · exact absurd hp hne
        · exact absurd hp hdir
    · simpa using h

theorem below_iff {dir path rest : Str} : below dir path = some rest ↔ path = dir ++ '/' :: rest := by
  unfold below
  constructor
  · intro h
    split at h
    · next hp =>
      obtain ⟨t, rfl⟩ := hp
      injection h with h
      rw [← h]
      simp
    · simp at h
  · rintro rfl
    rw [if_pos ⟨rest, by simp⟩]
    simp

theorem pathExists_of_mem {w : World} {f : Str × Bytes} (h : f ∈ w.files) : w.pathExists f.1 = true := by
  have : (w.files.get f.1).isSome := by
    have : ∀ m : HMap Str Bytes, f ∈ m → (m.get f.1).isSome := by
      intro m
      induction m with
      | nil => simp
      | cons x m ih =>
        intro h
        rw [HMap.get]
        split
        · rfl
        · rcases List.mem_cons.mp h with rfl | h
          · next hx => exact absurd rfl hx
          · exact ih h
    exact this _ h
  rw [World.pathExists, this]
  rfl

theorem insert_fresh {m : HMap Str Bytes} {p : Str} {b : Bytes} (h : m.get p = none) : m.insert p b = m ++ [(p, b)] := by
  induction m with
  | nil => rfl
  | cons x m ih =>
    obtain ⟨q, c⟩ := x
    rw [HMap.get] at h
    by_cases hq : q = p
    · rw [if_pos hq] at h
      simp at h
    · rw [if_neg hq] at h
      rw [HMap.insert, if_neg hq, ih h]
      rfl

/-- Where `new` can succeed. -/
theorem newProject_run {name : Str} {w : World} (hw : w.Healthy) (hr : w.Rooted) (hne : name ≠ [])
    (hn : w.pathExists name = false) (hp : w.hasDir (parentDir name) = true) : (newProject name w).1 = .ok () := by
  have hb := fun rest => rooted_below hr hne hn rest.length rest (Nat.le_refl _)
  have hnd : ∀ rest, name ++ '/' :: rest ∉ w.dirs := by
    intro rest h
    have := hb rest
    rw [World.pathExists, Bool.or_eq_false_iff] at this
    simp [h] at this
  have hf : ∀ n, w.clock ≤ n → w.faults n = .none := hw
  unfold newProject
  have h1 : IOM.createDir name w = (.ok (), { w with clock := w.clock + 1, dirs := w.dirs ++ [name] }) := by
    rcases createDir_cases name w with ⟨k1, _, _, _, _, k2⟩ | ⟨_, _, k⟩
    · exact Prod.ext k1 k2
    · exact absurd (hf _ (Nat.le_refl _)) (k hn hp hne)
  rw [IOM.bind_of_ok h1]
  have hd1 : parentDir (name ++ chars! "/docs") = name := parentDir_slash name (s := chars! "docs") (by decide)
  generalize hw1 : ({ w with clock := w.clock + 1, dirs := w.dirs ++ [name] } : World) = w1
  have h2 : IOM.createDir (name ++ chars! "/docs") w1 =
      (.ok (), { w1 with clock := w1.clock + 1, dirs := w1.dirs ++ [name ++ chars! "/docs"] }) := by
    rcases createDir_cases (name ++ chars! "/docs") w1 with ⟨k1, _, _, _, _, k2⟩ | ⟨_, _, k⟩
    · exact Prod.ext k1 k2
    · refine absurd (by rw [← hw1]; exact hf _ (by simp)) (k ?_ ?_ (by simp))
      · have := hb (chars! "docs")
        rw [World.pathExists, Bool.or_eq_false_iff] at this ⊢
        rw [← hw1]
        refine ⟨this.1, ?_⟩
        have h3 := this.2
        simp only [decide_eq_false_iff_not] at h3 ⊢
        simp only [List.mem_append, List.mem_singleton, not_or]
        refine ⟨h3, fun e => ?_⟩
        have := congrArg List.length e
        simp at this
      · rw [hd1, ← hw1]
        simp [World.hasDir]
  rw [IOM.bind_of_ok h2]
  have hd2 : parentDir (name ++ chars! "/docs/main.[]") = name ++ chars! "/docs" := by
    have : name ++ chars! "/docs/main.[]" = (name ++ chars! "/docs") ++ '/' :: chars! "main.[]" := by simp
    rw [this, parentDir_slash _ (by decide)]
  have hlen : ∀ rest : Str, rest ≠ chars! "docs" → name ++ '/' :: rest ∉ w.dirs ++ [name] ++ [name ++ chars! "/docs"] := by
    intro rest hrest h
    simp only [List.mem_append, List.mem_singleton] at h
    rcases h with (h | h) | h
    · exact hnd rest h
    · have := congrArg List.length h
      simp at this
    · have := List.append_cancel_left h
      injection this with _ this
      exact hrest this
  subst hw1
  rw [IOM.bind_of_ok (writeFile_run (by exact hf _ (by simp; omega)) (by rw [hd2]; simp [World.hasDir])
    (by exact hlen (chars! "docs/main.[]") (by decide)))]
  rw [IOM.bind_of_ok (writeFile_run (by exact hf _ (by simp; omega))
    (by rw [show parentDir (name ++ chars! "/Brack.toml") = name from parentDir_slash name (s := chars! "Brack.toml") (by decide)]
        simp [World.hasDir])
    (by exact hlen (chars! "Brack.toml") (by decide)))]
  rw [writeFile_run (by exact hf _ (by simp; omega))
    (by rw [show parentDir (name ++ chars! "/.gitignore") = name from parentDir_slash name (s := chars! ".gitignore") (by decide)]
        simp [World.hasDir])
    (by exact hlen (chars! ".gitignore") (by decide))]

/-- The new project from inside. -/
theorem newProject_enter {name : Str} {w w' : World} {u : Unit} (hr : w.Rooted)
    (h : newProject name w = (.ok u, w')) :
    (w'.enter name).files = [(chars! "docs/main.[]", []), (chars! "Brack.toml", utf8 (newConfigText name)),
      (chars! ".gitignore", utf8 (chars! "plugins\nout\n"))] ∧ (w'.enter name).dirs = [chars! "docs"] ∧
      (w'.enter name).clock = w.clock + 5 ∧ (w'.enter name).faults = w.faults ∧ (w'.enter name).log = w'.log := by
  obtain ⟨hn, hne, rfl⟩ := newProject_ok h
  have hb := fun rest => rooted_below hr hne hn rest.length rest (Nat.le_refl _)
  have hnone : ∀ rest, w.files.get (name ++ '/' :: rest) = none := by
    intro rest
    have := hb rest
    rw [World.pathExists, Bool.or_eq_false_iff] at this
    simpa using this.1
  have e1 : name ++ chars! "/docs/main.[]" = name ++ '/' :: chars! "docs/main.[]" := rfl
  have e2 : name ++ chars! "/Brack.toml" = name ++ '/' :: chars! "Brack.toml" := rfl
  have e3 : name ++ chars! "/.gitignore" = name ++ '/' :: chars! ".gitignore" := rfl
  have e4 : name ++ chars! "/docs" = name ++ '/' :: chars! "docs" := rfl
  have hbelow : ∀ rest, below name (name ++ '/' :: rest) = some rest := fun rest => below_iff.mpr rfl
  refine ⟨?_, ?_, rfl, rfl, rfl⟩
  · simp only [World.enter]
    rw [insert_fresh (m := w.files) (by rw [e1]; exact hnone _),
      insert_fresh (p := name ++ chars! "/Brack.toml") (by
        rw [← insert_fresh (m := w.files) (by rw [e1]; exact hnone _), HMap.get_insert_ne (by simp), e2]
        exact hnone _),
      insert_fresh (p := name ++ chars! "/.gitignore") (by
        rw [← insert_fresh (m := w.files ++ _) (by
          rw [← insert_fresh (m := w.files) (by rw [e1]; exact hnone _), HMap.get_insert_ne (by simp), e2]
          exact hnone _), HMap.get_insert_ne (by simp),
          ← insert_fresh (m := w.files) (by rw [e1]; exact hnone _), HMap.get_insert_ne (by simp), e3]
        exact hnone _)]
    have hold : w.files.filterMap (fun f => (below name f.1).map fun path => (path, f.2)) = [] := by
      rw [List.filterMap_eq_nil_iff]
      intro f hf
      rcases hbf : below name f.1 with _ | rest
      · rfl
      · have := pathExists_of_mem hf
        rw [below_iff.mp hbf, hb] at this
        simp at this
    simp only [List.filterMap_append, hold]
    simp [e1, e2, e3, hbelow]
  · simp only [World.enter]
    have hold : w.dirs.filterMap (below name) = [] := by
      rw [List.filterMap_eq_nil_iff]
      intro d hd
      rcases hbf : below name d with _ | rest
      · rfl
      · have := hb rest
        rw [World.pathExists, Bool.or_eq_false_iff, ← below_iff.mp hbf] at this
        simp [hd] at this
    have hself : below name name = none := by
      rcases hbf : below name name with _ | rest
      · rfl
      · have := congrArg List.length (below_iff.mp hbf)
        simp at this
    simp only [List.filterMap_append, hold]
    simp [e4, hbelow, hself]

open TomlGrammar in
/-- The configuration of a new project in TOML, by what its name stands for in a basic string. -/
theorem newConfig_toml {name value : Str} (h : IsChars name value) :
    IsToml (newConfigText name) (.table [
      (chars! "document", .table [(chars! "name", .str value), (chars! "version", .str (chars! "0.1.0")),
        (chars! "backend", .str []), (chars! "authors", .array [.str (chars! "your name <your email>")])]),
      (chars! "plugins", .table [])]) := by
  have hplain : ∀ s : Str, (∀ c ∈ s, Unescaped c) → IsChars s s := by
    intro s
    induction s with
    | nil => exact fun _ => .nil
    | cons c s ih =>
      exact fun h => .plain (h c List.mem_cons_self) (ih fun d hd => h d (List.mem_cons_of_mem _ hd))
  have key : ∀ s : Str, s ≠ [] → (∀ c ∈ s, KeyChar c) → IsKey s := fun s h1 h2 => ⟨h1, h2⟩
  have body := IsLines.field (key (chars! "name") (by decide) (by decide)) (IsValue.str h)
    (IsLines.field (key (chars! "version") (by decide) (by decide)) (IsValue.str (hplain (chars! "0.1.0") (by decide)))
      (IsLines.field (key (chars! "backend") (by decide) (by decide)) (IsValue.str IsChars.nil)
        (IsLines.field (key (chars! "authors") (by decide) (by decide))
          (IsValue.array (IsElements.one (hplain (chars! "your name <your email>") (by decide))))
            (IsLines.blank IsLines.nil))))
  have doc := IsTables.table (key (chars! "document") (by decide) (by decide)) body (by simp only [List.map]; decide)
    (IsTables.table (key (chars! "plugins") (by decide) (by decide)) IsLines.nil (by decide) IsTables.nil)
  refine ⟨_, ?_, ?_, rfl⟩
  · have cast : ∀ {a b : Str} {ts}, a = b → IsTables b ts → IsTables a ts := fun e h => e ▸ h
    exact cast (by simp [newConfigText]) doc
  · simp only [List.map]
    decide

/-- The configuration of a new project. -/
def newConfigOf (value : Str) : Config :=
  ⟨⟨value, chars! "0.1.0", [], [chars! "your name <your email>"]⟩, some []⟩

theorem newConfig_readConfig {T : Toml} (hT : T.Conforms) {name value : Str} (h : TomlGrammar.IsChars name value) :
    T.readConfig (newConfigText name) = .ok (newConfigOf value) :=
  readConfig_iff.mpr ⟨_, hT _ _ (newConfig_toml h), rfl⟩

end Brack
