import Verif.Proof.IOLemmas
import Verif.Proof.Utf8
import Verif.Spec.Project

/-
Helper lemmas on `add_plugin`.
-/

namespace Brack

theorem takeWhile_prop {p : Char → Bool} {s : Str} {c : Char} (h : c ∈ s.takeWhile p) : p c = true := by
  induction s with
  | nil => simp at h
  | cons d s ih =>
    by_cases hd : p d = true
    · rw [List.takeWhile_cons_of_pos hd] at h
      rcases List.mem_cons.mp h with rfl | h
      · exact hd
      · exact ih h
    · rw [List.takeWhile_cons_of_neg hd] at h
      simp at h

theorem splitOn_ne_nil (sep : Char) (s : Str) : splitOn sep s ≠ [] := by
  cases s with
  | nil => simp [splitOn]
  | cons c s =>
    rw [splitOn]
    split
    · simp
    · split <;> simp

theorem splitOn_plain {sep : Char} {s : Str} (h : sep ∉ s) : splitOn sep s = [s] := by
  induction s with
  | nil => rfl
  | cons c s ih =>
    simp only [List.mem_cons, not_or] at h
    rw [splitOn, if_neg (fun e => h.1 e.symm), ih h.2]

theorem splitOn_sep {sep : Char} {a b : Str} (h : sep ∉ a) : splitOn sep (a ++ sep :: b) = a :: splitOn sep b := by
  induction a with
  | nil => rw [List.nil_append, splitOn, if_pos rfl]
  | cons c a ih =>
    simp only [List.mem_cons, not_or] at h
    rw [List.cons_append, splitOn, if_neg (fun e => h.1 e.symm), ih h.2]

/-- The first part of a text split at a separator. -/
theorem splitOn_head (sep : Char) (s : Str) : (splitOn sep s).head? = some (s.takeWhile (· ≠ sep)) := by
  induction s with
  | nil => rfl
  | cons c s ih =>
    rw [splitOn]
    by_cases h : c = sep
    · simp [h]
    · rw [if_neg h, List.takeWhile_cons_of_pos (by simpa using h)]
      rcases hs : splitOn sep s with _ | ⟨p, ps⟩
      · exact absurd hs (splitOn_ne_nil sep s)
      · rw [hs] at ih
        simp only [List.head?_cons, Option.some.injEq] at ih ⊢
        rw [ih]

theorem splitOn_last {sep : Char} {a b : Str} (h : sep ∉ b) :
    (splitOn sep (a ++ sep :: b)).getLast? = some b := by
  induction a with
  | nil => rw [List.nil_append, splitOn, if_pos rfl, splitOn_plain h]; rfl
  | cons c a ih =>
    rw [List.cons_append, splitOn]
    rcases hs : splitOn sep (a ++ sep :: b) with _ | ⟨p, ps⟩
    · exact absurd hs (splitOn_ne_nil _ _)
    · rw [hs] at ih
      by_cases hc : c = sep
      · rw [if_pos hc, List.getLast?_cons_cons]
        exact ih
      · rw [if_neg hc]
        simp only
        rcases ps with _ | ⟨q, qs⟩
        · exfalso
          have : (splitOn sep (a ++ sep :: b)).length ≥ 2 := by
            clear ih hs
            induction a with
            | nil =>
              rw [List.nil_append, splitOn, if_pos rfl]
              have := splitOn_ne_nil sep b
              rcases h' : splitOn sep b with _ | ⟨x, xs⟩
              · exact absurd h' this
              · simp
            | cons d a ih =>
              rw [List.cons_append, splitOn]
              split
              · simp only [List.length_cons]; omega
              · rcases h' : splitOn sep (a ++ sep :: b) with _ | ⟨x, xs⟩
                · rw [h'] at ih; simp at ih
                · rw [h'] at ih
                  simpa using ih
          rw [hs] at this
          simp at this
        · rw [List.getLast?_cons_cons] at ih ⊢
          exact ih

theorem trimEnd_none {c : Char} {s : Str} (h : ∀ x, s.getLast? = some x → x ≠ c) : trimEnd c s = s := by
  rw [trimEnd]
  rcases hr : s.reverse with _ | ⟨d, r⟩
  · have : s = [] := by simpa using hr
    simp [this]
  · have hs : s = r.reverse ++ [d] := by
      have := congrArg List.reverse hr
      simpa using this
    rw [List.dropWhile_cons_of_neg, ← hr, List.reverse_reverse]
    have := h d (by rw [hs]; simp)
    simpa using this

theorem parseTarget_components {kind owner repo version : Str} (hk : Component kind) (ho : Component owner)
    (hr : Component repo) (hv : Component version) :
    parseTarget (kind ++ ':' :: (owner ++ '/' :: (repo ++ '@' :: version))) =
      if kind = chars! "github" then
        .ok ⟨chars! "https://github.com/" ++ owner ++ chars! "/" ++ repo, owner, repo, version⟩
      else .err "Repository type is not supported." := by
  have h1 : (splitOn ':' (kind ++ ':' :: (owner ++ '/' :: (repo ++ '@' :: version)))).head? = some kind := by
    rw [splitOn_sep hk.1]; rfl
  have h2 : splitOn '/' (kind ++ ':' :: (owner ++ '/' :: (repo ++ '@' :: version))) =
      [kind ++ ':' :: owner, repo ++ '@' :: version] := by
    have : kind ++ ':' :: (owner ++ '/' :: (repo ++ '@' :: version)) =
        (kind ++ ':' :: owner) ++ '/' :: (repo ++ '@' :: version) := by simp
    rw [this, splitOn_sep (by simp [hk.2.1, ho.2.1]), splitOn_plain (by simp [hr.2.1, hv.2.1])]
  have h3 : splitOn ':' (kind ++ ':' :: owner) = [kind, owner] := by
    rw [splitOn_sep hk.1, splitOn_plain ho.1]
  have h4 : (splitOn '@' (repo ++ '@' :: version)).head? = some repo := by
    rw [splitOn_sep hr.2.2]; rfl
  have h5 : splitOn '@' (kind ++ ':' :: (owner ++ '/' :: (repo ++ '@' :: version))) =
      [kind ++ ':' :: (owner ++ '/' :: repo), version] := by
    have : kind ++ ':' :: (owner ++ '/' :: (repo ++ '@' :: version)) =
        (kind ++ ':' :: (owner ++ '/' :: repo)) ++ '@' :: version := by simp
    rw [this, splitOn_sep (by simp [hk.2.2, ho.2.2, hr.2.2]), splitOn_plain hv.2.2]
  rw [parseTarget, h1, h2]
  simp only [orErr, Bind.bind, Res.bind, List.head?_cons, h3, h5, List.getElem?_cons_succ,
    List.getElem?_cons_zero, h4]
  rfl

theorem repositoryName_repo {owner repo : Str} (hne : repo ≠ []) (hr : '/' ∉ repo) :
    repositoryName (chars! "https://github.com/" ++ owner ++ chars! "/" ++ repo) = .ok repo := by
  have htrim : trimEnd '/' (chars! "https://github.com/" ++ owner ++ chars! "/" ++ repo) =
      chars! "https://github.com/" ++ owner ++ chars! "/" ++ repo := by
    apply trimEnd_none
    intro x hx hx'
    rw [List.getLast?_append] at hx
    rcases hl : repo.getLast? with _ | y
    · exact hne (by simpa using hl)
    · rw [hl] at hx
      simp at hx
      subst hx
      exact hr (hx' ▸ List.mem_of_getLast? hl)
  rw [repositoryName, htrim, List.append_assoc, show chars! "/" ++ repo = '/' :: repo from rfl, splitOn_last hr]
  rfl

theorem pluginName_eq (repository : Str) : pluginName repository = .ok (repository.takeWhile (· ≠ '.')) := by
  rw [pluginName, splitOn_head]
  rfl

/-- What `add` does up to its request: the argument, the configuration and the names. -/
structure AddPlan (T : Toml) (schema : Str) (w : World) (t : AddTarget) (c : Config) (repository name : Str) :
    Prop where
  file : ∃ b text, w.files.get (chars! "Brack.toml") = some b ∧ fromUtf8 b = some text ∧
    T.readConfig text = .ok c
  target : parseTarget schema = .ok t
  lastPart : repositoryName t.url = .ok repository
  firstPart : pluginName repository = .ok name
  fresh : c.plugin name = none

/-- The address `add` requests. -/
def AddTarget.request (t : AddTarget) (repository : Str) : Str :=
  t.url ++ chars! "/releases/download/" ++ t.version ++ chars! "/" ++ repository ++ chars! ".wasm"

/-- The file `add` stores the plugin in. -/
def addPath (repository : Str) : Str := chars! "plugins/" ++ repository ++ chars! ".wasm"

/-- The configuration `add` writes. -/
def AddTarget.newConfig (t : AddTarget) (c : Config) (name : Str) : Config :=
  c.insertPlugin name ⟨t.owner, t.repo, t.version, none, none, none, none⟩

theorem Res.not_ok_cases {r : Res α} : (∃ a, r = .ok a) ∨ (∀ a, r ≠ .ok a) := by
  rcases r with a | m | _
  · exact .inl ⟨a, rfl⟩
  · exact .inr (by simp)
  · exact .inr (by simp)

theorem IOM.bind_cases (x : IOM α) (f : α → IOM β) (w : World) :
    (∃ a w1, x w = (.ok a, w1) ∧ (x >>= f) w = f a w1) ∨
    ((∀ a, (x w).1 ≠ .ok a) ∧ (∀ b, ((x >>= f) w).1 ≠ .ok b) ∧ ((x >>= f) w).2 = (x w).2) := by
  rw [IOM.bind_run]
  rcases hx : x w with ⟨r, w1⟩
  rcases r with a | m | _
  · exact .inl ⟨a, w1, rfl, rfl⟩
  · exact .inr ⟨by simp, by simp, rfl⟩
  · exact .inr ⟨by simp, by simp, rfl⟩

/-- The part of `add_plugin` after the checks. -/
def addFetch (T : Toml) (t : AddTarget) (config : Config) (repository name : Str) : IOM Unit := do
  match ← IOM.httpGet (t.request repository) with
  | none => IOM.fail "Failed to download plugin."
  | some bytes =>
    IOM.createDirAll (chars! "plugins")
    IOM.writeFile (addPath repository) bytes
    IOM.writeFile (chars! "Brack.toml") (utf8 (T.printConfig (t.newConfig config name)))

/-- Before its request `add` changes nothing. -/
theorem addPlugin_plan (T : Toml) (schema : Str) (w : World) :
    ((∀ a, (addPlugin T schema w).1 ≠ .ok a) ∧ Quiet w (addPlugin T schema w).2) ∨
    ∃ t c repository name, AddPlan T schema w t c repository name ∧
      addPlugin T schema w = addFetch T t c repository name { w with clock := w.clock + 1 } := by
  have hex : IOM.pathExists (chars! "Brack.toml") w = (.ok (w.pathExists (chars! "Brack.toml")), w) := rfl
  rw [addPlugin, IOM.bind_of_ok hex]
  rcases he : w.pathExists (chars! "Brack.toml") with _ | _
  · exact .inl ⟨by simp [IOM.fail], Quiet.frame.refl w⟩
  simp only [Bool.not_true, Bool.false_eq_true, if_false]
  rcases IOM.bind_cases (IOM.lift (parseTarget schema)) _ w with ⟨t, w1, h1, h2⟩ | ⟨_, hn, h2⟩
  case inr => exact .inl ⟨hn, by rw [h2]; exact Quiet.frame.refl w⟩
  obtain ⟨ht, rfl⟩ := IOM.lift_ok.mp h1
  rw [h2]
  clear h1 h2
  rcases IOM.bind_cases (IOM.readText (chars! "Brack.toml")) _ w with ⟨text, w1, h1, h2⟩ | ⟨_, hn, h2⟩
  case inr => exact .inl ⟨hn, by rw [h2]; exact readText_quiet _ w⟩
  obtain ⟨⟨b, hb, hbt⟩, rfl, hf⟩ := readText_ok h1
  rw [h2]
  clear h1 h2
  generalize hw1 : ({ w with clock := w.clock + 1 } : World) = w1
  have hq : Quiet w w1 := by rw [← hw1]; exact ⟨rfl, rfl, rfl⟩
  rcases IOM.bind_cases (IOM.lift (T.readConfig text)) _ w1 with ⟨c, w2, h1, h2⟩ | ⟨_, hn, h2⟩
  case inr => exact .inl ⟨hn, by rw [h2]; exact hq⟩
  obtain ⟨hc, rfl⟩ := IOM.lift_ok.mp h1
  rw [h2]
  clear h1 h2
  rcases IOM.bind_cases (IOM.lift (repositoryName t.url)) _ w1 with ⟨repository, w3, h1, h2⟩ | ⟨_, hn, h2⟩
  case inr => exact .inl ⟨hn, by rw [h2]; exact hq⟩
  obtain ⟨hr, rfl⟩ := IOM.lift_ok.mp h1
  rw [h2]
  clear h1 h2
  rcases IOM.bind_cases (IOM.lift (pluginName repository)) _ w1 with ⟨name, w4, h1, h2⟩ | ⟨_, hn, h2⟩
  case inr => exact .inl ⟨hn, by rw [h2]; exact hq⟩
  obtain ⟨hname, rfl⟩ := IOM.lift_ok.mp h1
  rw [h2]
  clear h1 h2
  rcases hp : c.plugin name with _ | s
  · refine .inr ⟨t, c, repository, name, ⟨⟨b, text, hb, hbt, hc⟩, ht, hr, hname, hp⟩, ?_⟩
    simp only [Option.isSome_none, Bool.false_eq_true, if_false]
    rfl
  · refine .inl ⟨?_, ?_⟩ <;> simp only [Option.isSome_some, if_true]
    · simp [IOM.fail]
    · exact hq

/-- After its request `add` writes the plugin, then the configuration. -/
theorem addFetch_outcome (T : Toml) (t : AddTarget) (c : Config) (repository name : Str) (w : World) :
    ((∀ a, (addFetch T t c repository name w).1 ≠ .ok a) ∧
      (∀ q, q ≠ addPath repository →
        (addFetch T t c repository name w).2.files.get q = w.files.get q) ∧
      ∃ l, (addFetch T t c repository name w).2.log = w.log ++ .request (t.request repository) :: l ∧
        (l = [] ∨ ∃ b, l = [.wrote (addPath repository) b])) ∨
    ∃ bytes w3, w.http w.clock (t.request repository) = some bytes ∧
      w3.files = w.files.insert (addPath repository) bytes ∧
      w3.log = w.log ++ [.request (t.request repository), .wrote (addPath repository) bytes] ∧
      Goes w w3 ∧
      addFetch T t c repository name w =
        IOM.writeFile (chars! "Brack.toml") (utf8 (T.printConfig (t.newConfig c name))) w3 := by
  rw [addFetch, IOM.bind_of_ok (httpGet_run _ w)]
  have hg : Goes w { w with clock := w.clock + 1, log := w.log ++ [.request (t.request repository)] } :=
    httpGet_goes (t.request repository) w
  generalize hw2 : ({ w with clock := w.clock + 1, log := w.log ++ [.request (t.request repository)] } : World) = w2
    at hg ⊢
  have hf2 : w2.files = w.files := by rw [← hw2]
  have hl2 : w2.log = w.log ++ [.request (t.request repository)] := by rw [← hw2]
  rcases hh : w.http w.clock (t.request repository) with _ | bytes
  · simp only
    exact .inl ⟨by simp [IOM.fail], fun q _ => by rw [← hf2]; rfl, [], by rw [← hl2]; rfl, .inl rfl⟩
  simp only
  have hd := createDirAll_files (chars! "plugins") w2
  have hdg := createDirAll_goes (chars! "plugins") w2
  rcases IOM.bind_cases (IOM.createDirAll (chars! "plugins")) (fun _ => do
      IOM.writeFile (addPath repository) bytes
      IOM.writeFile (chars! "Brack.toml") (utf8 (T.printConfig (t.newConfig c name)))) w2 with
    ⟨u, w3, h1, h2⟩ | ⟨_, hn, h2⟩
  case inr =>
    refine .inl ⟨hn, fun q _ => ?_, [], ?_, .inl rfl⟩
    · rw [h2, hd.1, hf2]
    · rw [h2, hd.2, hl2]
  rw [h2]
  rw [h1] at hd hdg
  simp only at hd hdg
  have hwc := writeFile_cases (addPath repository) bytes w3
  have hwg := writeFile_goes (addPath repository) bytes w3
  rcases IOM.bind_cases (IOM.writeFile (addPath repository) bytes) (fun _ =>
      IOM.writeFile (chars! "Brack.toml") (utf8 (T.printConfig (t.newConfig c name)))) w3 with
    ⟨u, w4, h3, h4⟩ | ⟨hno, hn, h4⟩
  · right
    have h5 := writeFile_ok h3
    rw [h3] at hwg
    refine ⟨bytes, w4, rfl, ?_, ?_, Goes.frame.trans hg (Goes.frame.trans hdg hwg), h4⟩
    · rw [h5]
      simp only
      rw [hd.1, hf2]
    · rw [h5]
      simp only
      rw [hd.2, hl2, List.append_assoc]
      rfl
  · left
    refine ⟨hn, fun q hq => ?_, ?_⟩
    · rw [h4, writeFile_other hq, hd.1, hf2]
    · rw [h4]
      rcases hwc with ⟨h5, _⟩ | ⟨_, h5, _⟩ | ⟨k, _, _, _, _, h5⟩
      · exact absurd h5 (hno _)
      · rw [h5]
        exact ⟨[], by simp only; rw [hd.2, hl2], .inl rfl⟩
      · rw [h5]
        refine ⟨[.wrote (addPath repository) (bytes.take k)], ?_, .inr ⟨_, rfl⟩⟩
        simp only
        rw [hd.2, hl2, List.append_assoc]
        rfl

theorem brackToml_ne_addPath (repository : Str) : chars! "Brack.toml" ≠ addPath repository := by
  intro h
  have := congrArg List.head? h
  simp [addPath] at this

/-- What a successful `add` has done. -/
structure AddDone (T : Toml) (w w' : World) (t : AddTarget) (c : Config) (repository name : Str)
    (bytes : Bytes) : Prop where
  response : ∃ n, w.http n (t.request repository) = some bytes
  log : w'.log = w.log ++ [.request (t.request repository), .wrote (addPath repository) bytes,
    .wrote (chars! "Brack.toml") (utf8 (T.printConfig (t.newConfig c name)))]
  files : w'.files = (w.files.insert (addPath repository) bytes).insert (chars! "Brack.toml")
    (utf8 (T.printConfig (t.newConfig c name)))
  goes : Goes w w'

theorem addPlugin_ok {T : Toml} {schema : Str} {w w' : World} {u : Unit} (h : addPlugin T schema w = (.ok u, w')) :
    ∃ t c repository name bytes, AddPlan T schema w t c repository name ∧
      AddDone T w w' t c repository name bytes := by
  rcases addPlugin_plan T schema w with ⟨hn, _⟩ | ⟨t, c, repository, name, hplan, he⟩
  · rw [h] at hn; exact absurd rfl (hn _)
  rw [he] at h
  rcases addFetch_outcome T t c repository name { w with clock := w.clock + 1 } with
    ⟨hn, _⟩ | ⟨bytes, w3, hh, hfiles, hlog, hgoes, h2⟩
  · rw [h] at hn; exact absurd rfl (hn _)
  rw [h2] at h
  have h3 := writeFile_ok h
  have hg3 := writeFile_goes (chars! "Brack.toml") (utf8 (T.printConfig (t.newConfig c name))) w3
  rw [h] at hg3
  refine ⟨t, c, repository, name, bytes, hplan, ⟨_, hh⟩, ?_, ?_, ?_⟩
  · rw [h3]
    simp only
    rw [hlog, List.append_assoc]
    rfl
  · rw [h3]
    simp only
    rw [hfiles]
  · refine Goes.frame.trans ?_ (Goes.frame.trans hgoes hg3)
    exact ⟨Nat.le_succ _, rfl, rfl, ⟨[], by simp⟩, fun _ h => h, fun _ h => h⟩

/-- A failing `add` changes Brack.toml only if writing it is cut short. -/
theorem addPlugin_fails {T : Toml} {schema : Str} {w : World} (h : ∀ u, (addPlugin T schema w).1 ≠ .ok u) :
    (addPlugin T schema w).2.files.get (chars! "Brack.toml") = w.files.get (chars! "Brack.toml") ∨
    ∃ n k t c repository name, w.clock ≤ n ∧ w.faults n = .cut k ∧ AddPlan T schema w t c repository name ∧
      (addPlugin T schema w).2.files.get (chars! "Brack.toml") =
        some ((utf8 (T.printConfig (t.newConfig c name))).take k) := by
  rcases addPlugin_plan T schema w with ⟨_, hq⟩ | ⟨t, c, repository, name, hplan, he⟩
  · left; rw [hq.1]
  rw [he] at h ⊢
  rcases addFetch_outcome T t c repository name { w with clock := w.clock + 1 } with
    ⟨_, hf, _⟩ | ⟨bytes, w3, hh, hfiles, hlog, hgoes, h2⟩
  · left
    rw [hf _ (brackToml_ne_addPath repository)]
  rw [h2] at h ⊢
  have hb : w3.files.get (chars! "Brack.toml") = w.files.get (chars! "Brack.toml") := by
    rw [hfiles]
    exact HMap.get_insert_ne (brackToml_ne_addPath repository) _ _
  rcases writeFile_cases (chars! "Brack.toml") (utf8 (T.printConfig (t.newConfig c name))) w3 with
    ⟨h3, _⟩ | ⟨_, h3, _⟩ | ⟨k, _, hk, _, _, h3⟩
  · exact absurd h3 (h _)
  · left; rw [h3]; exact hb
  · right
    refine ⟨w3.clock, k, t, c, repository, name, ?_, ?_, hplan, ?_⟩
    · have := hgoes.clock
      simp only at this
      omega
    · rw [← hk, hgoes.faults]
    · rw [h3]
      exact HMap.get_insert_self _ _ _

/-- `add` touches only the plugin file and Brack.toml. -/
theorem addPlugin_others {T : Toml} {schema : Str} {w : World} {q : Str} (hq : ∀ repository, q ≠ addPath repository)
    (hb : q ≠ chars! "Brack.toml") : (addPlugin T schema w).2.files.get q = w.files.get q := by
  rcases addPlugin_plan T schema w with ⟨_, hq⟩ | ⟨t, c, repository, name, hplan, he⟩
  · rw [hq.1]
  rw [he]
  rcases addFetch_outcome T t c repository name { w with clock := w.clock + 1 } with
    ⟨_, hf, _⟩ | ⟨bytes, w3, hh, hfiles, hlog, hgoes, h2⟩
  · exact hf _ (hq repository)
  rw [h2, writeFile_other hb, hfiles]
  exact HMap.get_insert_ne (hq repository) _ _

theorem Config.plugin_insertPlugin (c : Config) (name n : Str) (s : PluginSchema) :
    (c.insertPlugin name s).plugin n = if n = name then some s else c.plugin n := by
  rcases c with ⟨d, _ | m⟩
  · simp only [Config.insertPlugin, Config.plugin, Option.getD_none, Option.bind_some, Option.bind_none]
    exact HMap.get_insert name n s []
  · simp only [Config.insertPlugin, Config.plugin, Option.getD_some, Option.bind_some]
    exact HMap.get_insert name n s m

theorem Toml.readConfig_nodup {T : Toml} {text : Str} {c : Config} (h : T.readConfig text = .ok c) {m}
    (hm : c.plugins = some m) : (m.map (·.1)).Nodup := by
  unfold Toml.readConfig at h
  split at h
  · exact Config.ofToml_nodup h hm
  · simp at h

theorem newConfig_reads {T : Toml} {text : Str} {c : Config} (h : T.readConfig text = .ok c) (t : AddTarget)
    (name : Str) : Config.ofToml (t.newConfig c name).toToml = .ok (t.newConfig c name) := by
  apply Config.ofToml_toToml
  intro m hm
  simp only [AddTarget.newConfig, Config.insertPlugin, Option.some.injEq] at hm
  rw [← hm]
  apply HMap.nodup_insert
  rcases hc : c.plugins with _ | m'
  · simp
  · exact Toml.readConfig_nodup h hc

theorem readConfig_iff {T : Toml} {text : Str} {c : Config} :
    T.readConfig text = .ok c ↔ ∃ v, T.parse text = some v ∧ Config.ofToml v = .ok c := by
  unfold Toml.readConfig
  rcases h : T.parse text with _ | v <;> simp

theorem AddPlan.config {T : Toml} {schema : Str} {w : World} {t : AddTarget} {c : Config} {repository name : Str}
    (h : AddPlan T schema w t c repository name) : w.HasConfig T c := by
  obtain ⟨b, text, hb, ht, hc⟩ := h.file
  obtain ⟨v, hv, hvc⟩ := readConfig_iff.mp hc
  exact ⟨b, text, v, hb, ht, hv, hvc⟩

theorem HasConfig.unique {T : Toml} {w : World} {c c' : Config} (h : w.HasConfig T c) (h' : w.HasConfig T c') :
    c = c' := by
  obtain ⟨b, t, v, h1, h2, h3, h4⟩ := h
  obtain ⟨b', t', v', h1', h2', h3', h4'⟩ := h'
  rw [h1] at h1'; injection h1' with h1'; subst h1'
  rw [h2] at h2'; injection h2' with h2'; subst h2'
  rw [h3] at h3'; injection h3' with h3'; subst h3'
  rw [h4] at h4'; injection h4' with h4'

theorem AddDone.written {T : Toml} {schema : Str} {w w' : World} {t : AddTarget} {c : Config}
    {repository name : Str} {bytes : Bytes} (hp : AddPlan T schema w t c repository name)
    (hd : AddDone T w w' t c repository name bytes) : w'.WrittenConfig T (t.newConfig c name) := by
  obtain ⟨b, text, hb, ht, hc⟩ := hp.file
  refine ⟨(t.newConfig c name).toToml, ?_, newConfig_reads hc t name⟩
  rw [hd.files]
  exact HMap.get_insert_self _ _ _

/-- `add` succeeds if nothing stands in its way. -/
theorem addPlugin_run {T : Toml} {schema : Str} {w : World} {t : AddTarget} {c : Config} {repository name : Str}
    {bytes : Bytes} (hp : AddPlan T schema w t c repository name) (hh : w.Healthy)
    (hr : w.http (w.clock + 1) (t.request repository) = some bytes)
    (hslash : '/' ∉ repository) (hfile : w.files.get (chars! "plugins") = none)
    (hdir : addPath repository ∉ w.dirs) (hbrack : chars! "Brack.toml" ∉ w.dirs) :
    ∃ w', addPlugin T schema w = (.ok (), w') := by
  obtain ⟨b, text, hb, ht, hc⟩ := hp.file
  have hfault : ∀ n, w.faults (w.clock + n) = .none := fun n => hh _ (Nat.le_add_right _ _)
  have hex : w.pathExists (chars! "Brack.toml") = true := by simp [World.pathExists, hb]
  have heq : addPlugin T schema w = addFetch T t c repository name { w with clock := w.clock + 1 } := by
    have h0 : IOM.pathExists (chars! "Brack.toml") w = (.ok true, w) := by
      rw [← hex]; rfl
    rw [addPlugin, IOM.bind_of_ok h0]
    simp only [Bool.not_true, Bool.false_eq_true, if_false]
    rw [IOM.bind_of_ok (IOM.lift_ok.mpr ⟨hp.target, rfl⟩),
      IOM.bind_of_ok (readText_run hb ht (hfault 0)),
      IOM.bind_of_ok (IOM.lift_ok.mpr ⟨hc, rfl⟩), IOM.bind_of_ok (IOM.lift_ok.mpr ⟨hp.lastPart, rfl⟩),
      IOM.bind_of_ok (IOM.lift_ok.mpr ⟨hp.firstPart, rfl⟩)]
    simp only [hp.fresh, Option.isSome_none, Bool.false_eq_true, if_false]
    rfl
  rw [heq, addFetch, IOM.bind_of_ok (httpGet_run _ _)]
  simp only [hr]
  rw [IOM.bind_of_ok (createDirAll_run (by exact hfault 2) (by exact hfile))]
  have hpl : ∀ l : List Str, chars! "plugins" ∈ (if chars! "plugins" ∈ l then l else l ++ [chars! "plugins"]) := by
    intro l
    split
    · assumption
    · simp
  have hpar : parentDir (addPath repository) = chars! "plugins" := by
    have : addPath repository = chars! "plugins" ++ '/' :: (repository ++ chars! ".wasm") := by
      simp [addPath]
    rw [this]
    exact parentDir_slash _ (by simp [hslash])
  have hnot : ∀ q : Str, q ∉ w.dirs → q ≠ chars! "plugins" →
      q ∉ (if chars! "plugins" ∈ w.dirs then w.dirs else w.dirs ++ [chars! "plugins"]) := by
    intro q h1 h2
    split
    · exact h1
    · simp [h1, h2]
  rw [IOM.bind_of_ok (writeFile_run (by exact hfault 3)
    (by rw [hpar]; simp only [World.hasDir, Bool.or_eq_true, decide_eq_true_eq]; exact .inr (hpl _))
    (hnot _ hdir (by
      intro h
      have := congrArg List.length h
      simp [addPath] at this)))]
  refine ⟨_, writeFile_run (by exact hfault 4) ?_ (hnot _ hbrack (by decide))⟩
  rw [parentDir_plain (by decide)]
  rfl

end Brack
