import Verif.Proof.Add
import Verif.Proof.ProjectCases

/-
What `brack add` keeps of the configuration file.
-/

namespace Brack

/-- C96 refuted: after a successful `add`, Brack.toml is the printed form of a table with the sections `document`
and `plugins` only, and `name`, `version`, `backend` and `authors` in the former. Sections and keys of other tools
are gone. -/
theorem C96_other_keys_refuted (T : Toml) (schema : Str) (w w' : World) (h : addPlugin T schema w = (.ok (), w')) :
    ∃ sections, w'.files.get (chars! "Brack.toml") = some (utf8 (T.print (.table sections))) ∧
      (∀ k v, (k, v) ∈ sections → k = chars! "document" ∨ k = chars! "plugins") ∧
      ∀ fields, (chars! "document", .table fields) ∈ sections → ∀ k v, (k, v) ∈ fields →
        k ∈ [chars! "name", chars! "version", chars! "backend", chars! "authors"] := by
  obtain ⟨t, c, repository, name, bytes, hp, hd⟩ := addPlugin_ok h
  refine ⟨_, by rw [hd.files, HMap.get_insert_self]; rfl, ?_, ?_⟩
  · intro k v hk
    simp only [AddTarget.newConfig, Config.insertPlugin, List.mem_cons, Prod.mk.injEq, List.not_mem_nil, or_false] at hk
    rcases hk with hk | hk
    · exact .inl hk.1
    · exact .inr hk.1
  · intro fields hf k v hk
    simp only [AddTarget.newConfig, Config.insertPlugin, List.mem_cons, Prod.mk.injEq, List.not_mem_nil, or_false,
      Document.toToml, TVal.table.injEq] at hf
    rcases hf with ⟨_, rfl⟩ | ⟨hf, _⟩
    · simp only [List.mem_cons, Prod.mk.injEq, List.not_mem_nil, or_false] at hk ⊢
      rcases hk with hk | hk | hk | hk
      · exact .inl hk.1
      · exact .inr (.inl hk.1)
      · exact .inr (.inr (.inl hk.1))
      · exact .inr (.inr (.inr hk.1))
    · exact absurd hf (by decide)

/-- C96 refuted: two files that stand for the same configuration, however different their comments, their layout
and the order of their sections, become the same file. -/
theorem C96_layout_refuted (T : Toml) (schema : Str) (w1 w2 w1' w2' : World) (c : Config) (hc1 : w1.HasConfig T c)
    (hc2 : w2.HasConfig T c) (h1 : addPlugin T schema w1 = (.ok (), w1')) (h2 : addPlugin T schema w2 = (.ok (), w2')) :
    w1'.files.get (chars! "Brack.toml") = w2'.files.get (chars! "Brack.toml") := by
  have key : ∀ (w w' : World), w.HasConfig T c → addPlugin T schema w = (.ok (), w') →
      ∃ t repository name, parseTarget schema = .ok t ∧ repositoryName t.url = .ok repository ∧
        pluginName repository = .ok name ∧
        w'.files.get (chars! "Brack.toml") = some (utf8 (T.printConfig (t.newConfig c name))) := by
    intro w w' hc h
    obtain ⟨t, c', repository, name, bytes, hp, hd⟩ := addPlugin_ok h
    obtain ⟨b1, t1, v1, e1, e2, e3, e4⟩ := hc
    obtain ⟨b2, t2, f1, f2, f3⟩ := hp.file
    rw [e1] at f1; cases f1
    rw [e2] at f2; cases f2
    rw [Toml.readConfig, e3] at f3
    simp only at f3
    rw [e4] at f3; cases f3
    exact ⟨t, repository, name, hp.target, hp.lastPart, hp.firstPart, by rw [hd.files, HMap.get_insert_self]⟩
  obtain ⟨t1, r1, n1, a1, b1, c1, d1⟩ := key w1 w1' hc1 h1
  obtain ⟨t2, r2, n2, a2, b2, c2, d2⟩ := key w2 w2' hc2 h2
  rw [a1] at a2; cases a2
  rw [b1] at b2; cases b2
  rw [c1] at c2; cases c2
  rw [d1, d2]

/-- C96 (partial): if the TOML crate reads what it has printed, the next command finds the former configuration with
one plugin more: the document section is as it was, and so are all other plugins. Missing: what is not part of the
configuration, see `C96_other_keys_refuted` and `C96_layout_refuted`. -/
theorem C96_known_partial (T : Toml) (hT : ∀ v, T.parse (T.print v) = some v) (schema : Str) (w w' : World)
    (h : addPlugin T schema w = (.ok (), w')) :
    ∃ c c' name, w.HasConfig T c ∧ w'.HasConfig T c' ∧ c'.document = c.document ∧ c.plugin name = none ∧
      (c'.plugin name).isSome ∧ ∀ n, n ≠ name → c'.plugin n = c.plugin n := by
  obtain ⟨t, c, repository, name, bytes, hp, hd⟩ := addPlugin_ok h
  obtain ⟨v, hv, hr⟩ := hd.written hp
  refine ⟨c, t.newConfig c name, name, hp.config, ⟨_, _, v, hv, fromUtf8_utf8 _, hT v, hr⟩, rfl, hp.fresh, ?_, ?_⟩
  · rw [AddTarget.newConfig, Config.plugin_insertPlugin, if_pos rfl]; rfl
  · intro n hn
    rw [AddTarget.newConfig, Config.plugin_insertPlugin, if_neg hn]

/-- A TOML crate for which a note after the configuration is a comment, and which knows a section of another tool. -/
private def commentToml : Toml where
  parse text :=
    if text = chars! "the configuration" ∨ text = chars! "the configuration # of my book" then some sampleConfig.toToml
    else if text = chars! "the configuration and more" then
      match sampleConfig.toToml with
      | .table kvs => some (.table (kvs ++ [(chars! "editor", .table [(chars! "font", .str (chars! "serif"))])]))
      | v => some v
    else none
  print := showVal

private def commented (text : Str) : World :=
  { sampleWorld (fun _ => .none) with files := [(chars! "Brack.toml", utf8 text)] }

/-- Concrete case: the comment and the section of the editor are lost. -/
example :
    let plain := addPlugin commentToml (chars! "github:o/r@v1") (commented (chars! "the configuration"))
    let note := addPlugin commentToml (chars! "github:o/r@v1") (commented (chars! "the configuration # of my book"))
    let more := addPlugin commentToml (chars! "github:o/r@v1") (commented (chars! "the configuration and more"))
    plain.1 = .ok () ∧ note.1 = .ok () ∧ more.1 = .ok () ∧
      note.2.files.get (chars! "Brack.toml") = plain.2.files.get (chars! "Brack.toml") ∧
      more.2.files.get (chars! "Brack.toml") = plain.2.files.get (chars! "Brack.toml") := by decide +kernel

/-! A TOML crate that reads what it has printed. -/

private def codeStr : Str → Str
  | [] => ['.']
  | c :: s => '-' :: c :: codeStr s

mutual
private def code : TVal → Str
  | .str s => 's' :: codeStr s
  | .bool b => ['b', if b then '1' else '0']
  | .array vs => 'a' :: codes vs
  | .table kvs => 't' :: codeFields kvs
  | .other => ['o']
private def codes : List TVal → Str
  | [] => ['.']
  | v :: vs => ',' :: (code v ++ codes vs)
private def codeFields : List (Str × TVal) → Str
  | [] => ['.']
  | (k, v) :: kvs => ',' :: (codeStr k ++ code v ++ codeFields kvs)
end

private theorem codeStr_inj : ∀ (s s' r r' : Str), codeStr s ++ r = codeStr s' ++ r' → s = s' ∧ r = r'
  | [], [], r, r', h => by simpa [codeStr] using h
  | [], _ :: _, r, r', h => by simp [codeStr] at h
  | _ :: _, [], r, r', h => by simp [codeStr] at h
  | c :: s, c' :: s', r, r', h => by
    simp only [codeStr, List.cons_append, List.cons.injEq, true_and] at h
    obtain ⟨rfl, h⟩ := h
    obtain ⟨rfl, rfl⟩ := codeStr_inj s s' r r' h
    exact ⟨rfl, rfl⟩

mutual
private theorem code_inj : ∀ (v v' : TVal) (r r' : Str), code v ++ r = code v' ++ r' → v = v' ∧ r = r' := by
  intro v v' r r' h
  cases v <;> cases v' <;> simp only [code, List.cons_append, List.cons.injEq, List.nil_append] at h <;>
    first
    | exact absurd h.1 (by decide)
    | skip
  · obtain ⟨rfl, rfl⟩ := codeStr_inj _ _ _ _ h.2
    exact ⟨rfl, rfl⟩
  · rename_i b b'
    obtain ⟨_, h, rfl⟩ := h
    refine ⟨?_, rfl⟩
    revert h
    cases b <;> cases b' <;> simp
  · obtain ⟨rfl, rfl⟩ := codes_inj _ _ _ _ h.2
    exact ⟨rfl, rfl⟩
  · obtain ⟨rfl, rfl⟩ := codeFields_inj _ _ _ _ h.2
    exact ⟨rfl, rfl⟩
  · exact ⟨rfl, h.2⟩
private theorem codes_inj : ∀ (v v' : List TVal) (r r' : Str), codes v ++ r = codes v' ++ r' → v = v' ∧ r = r'
  | [], [], r, r', h => by simpa [codes] using h
  | [], _ :: _, r, r', h => by simp [codes] at h
  | _ :: _, [], r, r', h => by simp [codes] at h
  | v :: vs, v' :: vs', r, r', h => by
    simp only [codes, List.cons_append, List.cons.injEq, true_and, List.append_assoc] at h
    obtain ⟨rfl, h1⟩ := code_inj v v' _ _ h
    obtain ⟨rfl, rfl⟩ := codes_inj vs vs' r r' h1
    exact ⟨rfl, rfl⟩
private theorem codeFields_inj : ∀ (v v' : List (Str × TVal)) (r r' : Str),
    codeFields v ++ r = codeFields v' ++ r' → v = v' ∧ r = r'
  | [], [], r, r', h => by simpa [codeFields] using h
  | [], _ :: _, r, r', h => by simp [codeFields] at h
  | _ :: _, [], r, r', h => by simp [codeFields] at h
  | (k, v) :: vs, (k', v') :: vs', r, r', h => by
    simp only [codeFields, List.cons_append, List.cons.injEq, true_and, List.append_assoc] at h
    obtain ⟨rfl, h0⟩ := codeStr_inj k k' _ _ h
    obtain ⟨rfl, h1⟩ := code_inj v v' _ _ h0
    obtain ⟨rfl, rfl⟩ := codeFields_inj vs vs' r r' h1
    exact ⟨rfl, rfl⟩
end

/-- Concrete case: the hypothesis of `C96_known_partial` is met by a crate that prints such codes. -/
example : ∃ T : Toml, T.print = code ∧ ∀ v, T.parse (T.print v) = some v := by
  classical
  refine ⟨⟨fun text => if h : ∃ v, code v = text then some h.choose else none, code⟩, rfl, fun v => ?_⟩
  have h : ∃ v', code v' = code v := ⟨v, rfl⟩
  simp only [dif_pos h, Option.some.injEq]
  exact (code_inj _ _ [] [] (by simpa using h.choose_spec)).1

end Brack
