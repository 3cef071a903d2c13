import Verif.Proof.Download

/-
Helper lemmas on `build`.
-/

namespace Brack

theorem loadPlugins_quiet (W : Wasm) (md : PluginsMetadata) : IOM.Keeps Quiet (loadPlugins W md) := by
  induction md with
  | nil => exact IOM.Keeps.pure Quiet.frame _
  | cons x md ih =>
    obtain ⟨name, path, flag⟩ := x
    refine IOM.Keeps.bind Quiet.frame (readFile_quiet _) fun _ => ?_
    refine IOM.Keeps.bind Quiet.frame (IOM.Keeps.lift Quiet.frame _) fun _ => ?_
    exact IOM.Keeps.bind Quiet.frame ih fun _ => IOM.Keeps.pure Quiet.frame _

theorem loadPlugins_goes (W : Wasm) (md : PluginsMetadata) : IOM.Keeps Goes (loadPlugins W md) := by
  induction md with
  | nil => exact IOM.Keeps.pure Goes.frame _
  | cons x md ih =>
    obtain ⟨name, path, flag⟩ := x
    refine IOM.Keeps.bind Goes.frame (readFile_goes _) fun _ => ?_
    refine IOM.Keeps.bind Goes.frame (IOM.Keeps.lift Goes.frame _) fun _ => ?_
    exact IOM.Keeps.bind Goes.frame ih fun _ => IOM.Keeps.pure Goes.frame _

theorem dropWhile_append_of_all {p : Char → Bool} {l r : Str} (h : ∀ c ∈ l, p c = true) :
    (l ++ r).dropWhile p = r.dropWhile p := by
  induction l with
  | nil => rfl
  | cons c l ih =>
    rw [List.cons_append, List.dropWhile_cons_of_pos (h c List.mem_cons_self)]
    exact ih fun c hc => h c (List.mem_cons_of_mem _ hc)

theorem takeWhile_append_of_all {p : Char → Bool} {l r : Str} (h : ∀ c ∈ l, p c = true) :
    (l ++ r).takeWhile p = l ++ r.takeWhile p := by
  induction l with
  | nil => rfl
  | cons c l ih =>
    rw [List.cons_append, List.takeWhile_cons_of_pos (h c List.mem_cons_self),
      ih fun c hc => h c (List.mem_cons_of_mem _ hc)]
    rfl

/-- The extension is what follows the last dot, which is not the first character. -/
theorem splitExtension_iff {name stem ext : Str} (hext : '.' ∉ ext) :
    splitExtension name = (stem, some ext) ↔ name = stem ++ '.' :: ext ∧ stem ≠ [] := by
  constructor
  · intro h
    unfold splitExtension at h
    have hsplit : name.reverse = name.reverse.takeWhile (· ≠ '.') ++ name.reverse.dropWhile (· ≠ '.') :=
      (List.takeWhile_append_dropWhile).symm
    rcases hd : name.reverse.dropWhile (· ≠ '.') with _ | ⟨c, before⟩
    · simp only [hd] at h
      simp at h
    · rcases before with _ | ⟨b, before⟩
      · simp only [hd] at h
        simp at h
      · simp only [hd] at h
        injection h with h1 h2
        injection h2 with h2
        have hc : c = '.' := by
          have := List.head?_dropWhile_not (fun x : Char => decide (x ≠ '.')) name.reverse
          rw [hd] at this
          simpa using this
        subst hc
        have := congrArg List.reverse hsplit
        rw [List.reverse_reverse, List.reverse_append, hd, List.reverse_cons, h1, h2] at this
        refine ⟨by simpa using this, ?_⟩
        rw [← h1]
        simp
  · rintro ⟨rfl, hs⟩
    unfold splitExtension
    have hr : (stem ++ '.' :: ext).reverse = ext.reverse ++ '.' :: stem.reverse := by simp
    have hall : ∀ c ∈ ext.reverse, (decide (c ≠ '.')) = true := by
      intro c hc
      simp only [List.mem_reverse] at hc
      simp only [decide_eq_true_eq]
      rintro rfl
      exact hext hc
    have hd : (stem ++ '.' :: ext).reverse.dropWhile (fun c => decide (c ≠ '.')) = '.' :: stem.reverse := by
      rw [hr, dropWhile_append_of_all hall, List.dropWhile_cons_of_neg (by simp)]
    have ht : (stem ++ '.' :: ext).reverse.takeWhile (fun c => decide (c ≠ '.')) = ext.reverse := by
      rw [hr, takeWhile_append_of_all hall, List.takeWhile_cons_of_neg (by simp), List.append_nil]
    simp only [hd, ht]
    rcases hsr : stem.reverse with _ | ⟨c, r⟩
    · exact absurd (by simpa using hsr) hs
    · simp only [List.reverse_reverse]
      rw [← hsr, List.reverse_reverse]

/-- The stem of a document among the names of a directory. -/
def docStem (name : Str) : Option Str :=
  if (splitExtension name).2 = some (chars! "[]") then some (splitExtension name).1 else none

theorem docStem_iff {name stem : Str} : docStem name = some stem ↔ name = stem ++ chars! ".[]" ∧ stem ≠ [] := by
  unfold docStem
  have h : ∀ s, splitExtension name = (s, some (chars! "[]")) ↔ name = s ++ '.' :: chars! "[]" ∧ s ≠ [] :=
    fun s => splitExtension_iff (by decide)
  constructor
  · intro h1
    split at h1
    · next h2 =>
      injection h1 with h1
      exact (h stem).mp (Prod.ext h1 h2)
    · simp at h1
  · intro h1
    have := (h stem).mpr h1
    rw [this]
    simp

theorem entryName_iff {dir path name : Str} :
    entryName dir path = some name ↔ path = dir ++ '/' :: name ∧ name ≠ [] ∧ '/' ∉ name := by
  unfold entryName
  constructor
  · intro h
    by_cases hp : (dir ++ ['/']).isPrefixOf path = true
    · rw [if_pos hp] at h
      simp only at h
      rw [List.isPrefixOf_iff_prefix] at hp
      obtain ⟨t, rfl⟩ := hp
      have : (dir ++ ['/'] ++ t).drop (dir.length + 1) = t := by
        have : dir.length + 1 = (dir ++ ['/']).length := by simp
        rw [this, List.drop_left]
      rw [this] at h
      split at h
      · simp at h
      · next hn =>
        injection h with h
        subst h
        simp only [not_or] at hn
        exact ⟨by simp, hn.1, hn.2⟩
    · rw [if_neg hp] at h
      simp at h
  · rintro ⟨rfl, h1, h2⟩
    have hp : (dir ++ ['/']).isPrefixOf (dir ++ '/' :: name) = true := by
      rw [List.isPrefixOf_iff_prefix]
      exact ⟨name, by simp⟩
    rw [if_pos hp]
    have : (dir ++ '/' :: name).drop (dir.length + 1) = name := by
      have h3 : dir ++ '/' :: name = (dir ++ ['/']) ++ name := by simp
      have h4 : dir.length + 1 = (dir ++ ['/']).length := by simp
      rw [h3, h4, List.drop_left]
    simp only [this]
    rw [if_neg (by simp [h1, h2])]

theorem mem_entries {w : World} {dir name : Str} :
    name ∈ w.entries dir ↔
      w.pathExists (dir ++ '/' :: name) = true ∧ name ≠ [] ∧ '/' ∉ name := by
  simp only [World.entries, List.mem_append, List.mem_filterMap, entryName_iff, World.pathExists, Bool.or_eq_true,
    decide_eq_true_eq]
  have hk : ∀ p, (w.files.get p).isSome = true ↔ p ∈ w.files.map (·.1) := by
    intro p
    rcases h : w.files.get p with _ | b
    · have := HMap.get_none.mp h
      simp only [Option.isSome_none, Bool.false_eq_true, false_iff]
      exact this
    · simp only [Option.isSome_some, true_iff]
      apply Classical.byContradiction
      intro hn
      rw [HMap.get_none.mpr hn] at h
      simp at h
  rw [hk]
  constructor
  · rintro (⟨p, hp, rfl, h1, h2⟩ | ⟨p, hp, rfl, h1, h2⟩)
    · exact ⟨.inl hp, h1, h2⟩
    · exact ⟨.inr hp, h1, h2⟩
  · rintro ⟨h | h, h1, h2⟩
    · exact .inl ⟨_, h, rfl, h1, h2⟩
    · exact .inr ⟨_, h, rfl, h1, h2⟩

theorem filterMap_nodup {α β : Type} {f : α → Option β} (hf : ∀ a b c, f a = some c → f b = some c → a = b)
    {l : List α} (h : l.Nodup) : (l.filterMap f).Nodup := by
  induction l with
  | nil => simp
  | cons a l ih =>
    simp only [List.nodup_cons] at h
    rw [List.filterMap_cons]
    split
    · exact ih h.2
    · next b hb =>
      simp only [List.nodup_cons, List.mem_filterMap]
      refine ⟨?_, ih h.2⟩
      rintro ⟨a', ha', hb'⟩
      exact h.1 (hf _ _ _ hb hb' ▸ ha')

theorem entries_nodup {w : World} (h : w.Valid) (dir : Str) : (w.entries dir).Nodup := by
  rw [World.entries, ← List.filterMap_append]
  refine filterMap_nodup ?_ h
  intro a b c ha hb
  rw [(entryName_iff.mp ha).1, (entryName_iff.mp hb).1]

/-- The files after writing the results. -/
def writeResults (backend : Str) : List Compiled → HMap Str Bytes → HMap Str Bytes
  | [], f => f
  | d :: ds, f => writeResults backend ds (f.insert (outputPath d.stem backend) (utf8 d.result))

theorem outputPath_inj {a b backend : Str} (h : outputPath a backend = outputPath b backend) : a = b := by
  simp only [outputPath, List.append_assoc] at h
  exact List.append_cancel_right (List.append_cancel_left h)

theorem writeResults_other {backend : Str} {ds : List Compiled} {f : HMap Str Bytes} {p : Str}
    (h : ∀ d ∈ ds, p ≠ outputPath d.stem backend) : (writeResults backend ds f).get p = f.get p := by
  induction ds generalizing f with
  | nil => rfl
  | cons d ds ih =>
    rw [writeResults, ih fun d hd => h d (List.mem_cons_of_mem _ hd),
      HMap.get_insert_ne (h d List.mem_cons_self)]

theorem writeResults_get {backend : Str} {ds : List Compiled} {f : HMap Str Bytes}
    (hn : (ds.map (·.stem)).Nodup) {d : Compiled} (hd : d ∈ ds) :
    (writeResults backend ds f).get (outputPath d.stem backend) = some (utf8 d.result) := by
  induction ds generalizing f with
  | nil => simp at hd
  | cons e ds ih =>
    simp only [List.map_cons, List.nodup_cons] at hn
    rw [writeResults]
    rcases List.mem_cons.mp hd with rfl | hd
    · rw [writeResults_other, HMap.get_insert_self]
      intro d' hd' h
      exact hn.1 (List.mem_map.mpr ⟨d', hd', (outputPath_inj h).symm⟩)
    · exact ih hn.2 hd

theorem docPath_ne_outputPath (name stem backend : Str) : chars! "docs/" ++ name ≠ outputPath stem backend := by
  intro h
  have := congrArg List.head? h
  simp [outputPath] at this

/-- One document of the loop. -/
def buildOne {W : Wasm} (E : Env) (backend : Str) (i : Nat) (name : Str) (ps : Plugins W) : IOM (Plugins W) := do
  let text ← IOM.readText (chars! "docs/" ++ name)
  let gen ← IOM.lift (compileText E.S (E.ids i) E.checks text ps).1
  IOM.createDirAll (chars! "out")
  IOM.writeFile (outputPath (splitExtension name).1 backend) (utf8 gen)
  return (compileText E.S (E.ids i) E.checks text ps).2

theorem buildLoop_cons {W : Wasm} (E : Env) (backend : Str) (i : Nat) (name : Str) (rest : List Str) (ps : Plugins W) :
    buildLoop E backend i (name :: rest) ps = (do
      IOM.step
      if (splitExtension name).2 = some (chars! "[]") then do
        let ps ← buildOne E backend i name ps
        buildLoop E backend (i + 1) rest ps
      else buildLoop E backend i rest ps) := by
  funext w
  rw [buildLoop]
  rcases step_cases w with ⟨_, h⟩ | ⟨_, h⟩
  case inr => rw [IOM.bind_run, IOM.bind_run, h]
  rw [IOM.bind_of_ok h, IOM.bind_of_ok h]
  simp only
  by_cases he : (splitExtension name).2 = some (chars! "[]")
  case neg => rw [if_neg he, if_neg he]
  rw [if_pos he, if_pos he, buildOne]
  generalize ({ w with clock := w.clock + 1 } : World) = w1
  simp only [IOM.bind_run]
  rcases IOM.readText (chars! "docs/" ++ name) w1 with ⟨text | m | _, w2⟩
  case err => rfl
  case panic => rfl
  simp only
  rw [IOM.lift_run]
  rcases (compileText E.S (E.ids i) E.checks text ps) with ⟨r, ps2⟩
  simp only
  rcases r with gen | m | _
  case err => rfl
  case panic => rfl
  simp only
  rcases IOM.createDirAll (chars! "out") w2 with ⟨u | m | _, w3⟩
  case err => rfl
  case panic => rfl
  simp only
  rcases IOM.writeFile (outputPath (splitExtension name).1 backend) (utf8 gen) w3 with ⟨u | m | _, w4⟩ <;> rfl

/-- A document compiled and written. -/
theorem buildOne_ok {W : Wasm} {E : Env} {backend : Str} {i : Nat} {name : Str} {ps ps' : Plugins W} {w w' : World}
    (h : buildOne E backend i name ps w = (.ok ps', w')) :
    ∃ text gen b, w.files.get (chars! "docs/" ++ name) = some b ∧ fromUtf8 b = some text ∧
      compileText E.S (E.ids i) E.checks text ps = (.ok gen, ps') ∧
      w'.files = w.files.insert (outputPath (splitExtension name).1 backend) (utf8 gen) ∧
      w'.log = w.log ++ [.wrote (outputPath (splitExtension name).1 backend) (utf8 gen)] ∧
      chars! "out" ∈ w'.dirs := by
  unfold buildOne at h
  obtain ⟨text, w1, h1, h⟩ := IOM.bind_ok.mp h
  obtain ⟨⟨b, hb, ht⟩, rfl, _⟩ := readText_ok h1
  obtain ⟨gen, w2, h2, h⟩ := IOM.bind_ok.mp h
  obtain ⟨hg, rfl⟩ := IOM.lift_ok.mp h2
  obtain ⟨_, w3, h3, h⟩ := IOM.bind_ok.mp h
  have h3 := createDirAll_ok h3
  obtain ⟨_, w4, h4, h⟩ := IOM.bind_ok.mp h
  have h4 := writeFile_ok h4
  rw [IOM.pure_run] at h
  injection h with h5 h6
  injection h5 with h5
  subst h6
  refine ⟨text, gen, b, hb, ht, Prod.ext hg h5, ?_, ?_, ?_⟩
  · rw [h4, h3]
  · rw [h4, h3]
  · rw [h4, h3]
    simp only
    split
    · assumption
    · simp

theorem buildLoop_ok {W : Wasm} {E : Env} {backend : Str} {i : Nat} {names : List Str} {ps ps' : Plugins W}
    {w w' : World} (h : buildLoop E backend i names ps w = (.ok ps', w')) :
    ∃ ds : List Compiled, CompiledInTurn E i ds ps ps' ∧ ds.map (·.stem) = names.filterMap docStem ∧
      (∀ d ∈ ds, ∃ b, w.files.get (chars! "docs/" ++ d.stem ++ chars! ".[]") = some b ∧ fromUtf8 b = some d.text) ∧
      w'.files = writeResults backend ds w.files ∧
      w'.log = w.log ++ ds.map (fun d => .wrote (outputPath d.stem backend) (utf8 d.result)) ∧
      (ds ≠ [] → chars! "out" ∈ w'.dirs) ∧ Goes w w' := by
  induction names generalizing i ps w with
  | nil =>
    rw [buildLoop] at h
    injection h with h1 h2
    injection h1 with h1
    subst h1 h2
    exact ⟨[], .nil i ps, rfl, by simp, rfl, by simp, by simp, Goes.frame.refl w⟩
  | cons name rest ih =>
    rw [buildLoop_cons] at h
    obtain ⟨_, w1, h1, h⟩ := IOM.bind_ok.mp h
    obtain ⟨rfl, hf⟩ := step_ok h1
    have hgoes1 : Goes w { w with clock := w.clock + 1 } :=
      ⟨Nat.le_succ _, rfl, rfl, ⟨[], by simp⟩, fun _ h => h, fun _ h => h⟩
    by_cases he : (splitExtension name).2 = some (chars! "[]")
    · rw [if_pos he] at h
      obtain ⟨ps1, w2, h2, h3⟩ := IOM.bind_ok.mp h
      have hgoes2 : Goes w w2 := by
        have hg : IOM.Keeps Goes (buildOne E backend i name ps) := by
          unfold buildOne
          refine IOM.Keeps.bind Goes.frame (readText_goes _) fun _ => ?_
          refine IOM.Keeps.bind Goes.frame (IOM.Keeps.lift Goes.frame _) fun _ => ?_
          refine IOM.Keeps.bind Goes.frame (createDirAll_goes _) fun _ => ?_
          exact IOM.Keeps.bind Goes.frame (writeFile_goes _ _) fun _ => IOM.Keeps.pure Goes.frame _
        have := hg { w with clock := w.clock + 1 }
        rw [h2] at this
        exact Goes.frame.trans hgoes1 this
      obtain ⟨text, gen, b, hb, ht, hc, hfiles, hlog, hout⟩ := buildOne_ok h2
      obtain ⟨ds, h4, h5, h6, h7, h8, h9, h10⟩ := ih h3
      have hstem : docStem name = some (splitExtension name).1 := by rw [docStem, if_pos he]
      have hname := (docStem_iff.mp hstem).1
      refine ⟨⟨(splitExtension name).1, text, gen⟩ :: ds, .cons hc h4, ?_, ?_, ?_, ?_, ?_,
        Goes.frame.trans hgoes2 h10⟩
      · rw [List.map_cons, List.filterMap_cons, hstem, h5]
      · intro d hd
        rcases List.mem_cons.mp hd with rfl | hd
        · refine ⟨b, ?_, ht⟩
          simp only
          rw [List.append_assoc, ← hname]
          exact hb
        · obtain ⟨b', hb', ht'⟩ := h6 d hd
          refine ⟨b', ?_, ht'⟩
          rw [hfiles, HMap.get_insert_ne] at hb'
          · exact hb'
          · rw [List.append_assoc]
            exact docPath_ne_outputPath _ _ _
      · rw [h7, hfiles]
        rfl
      · rw [h8, hlog]
        simp
      · intro _
        exact h10.dirs _ hout
    · rw [if_neg he] at h
      obtain ⟨ds, h4, h5, h6, h7, h8, h9, h10⟩ := ih h
      refine ⟨ds, h4, ?_, h6, h7, h8, h9, Goes.frame.trans hgoes1 h10⟩
      rw [List.filterMap_cons, docStem, if_neg he, h5]

theorem listOutputs_files (names : List Str) (w : World) :
    (listOutputs names w).2.files = w.files ∧ (listOutputs names w).2.writes = w.writes ∧
      (listOutputs names w).2.requests = w.requests := by
  induction names generalizing w with
  | nil => exact ⟨rfl, rfl, rfl⟩
  | cons n names ih =>
    rw [listOutputs]
    rcases step_cases w with ⟨_, h⟩ | ⟨_, h⟩
    · rw [IOM.bind_of_ok h]
      have hp : IOM.printLine (chars! "  - ./out/" ++ n) { w with clock := w.clock + 1 } =
          (.ok (), { w with clock := w.clock + 1, log := w.log ++ [.printed (chars! "  - ./out/" ++ n)] }) := rfl
      rw [IOM.bind_of_ok hp]
      obtain ⟨h1, h2, h3⟩ := ih { w with clock := w.clock + 1, log := w.log ++ [.printed (chars! "  - ./out/" ++ n)] }
      refine ⟨h1, ?_, ?_⟩
      · rw [h2, World.writes, World.writes, List.filterMap_append]
        simp [IOEvent.write?]
      · rw [h3, World.requests, World.requests, List.filterMap_append]
        simp [IOEvent.url?]
    · rw [IOM.bind_run, h]
      exact ⟨rfl, rfl, rfl⟩

/-- A successful build. -/
theorem build_ok {W : Wasm} {E : Env} {c : Config} {md : PluginsMetadata} {w w' : World} {u : Unit}
    (h : build W E c md w = (.ok u, w')) :
    ∃ plugins ps ps' ds, (loadPlugins W md w).1 = .ok plugins ∧ Plugins.new plugins = .ok ps ∧
      CompiledInTurn (W := W) E 0 ds ps ps' ∧ ds.map (·.stem) = (w.entries (chars! "docs")).filterMap docStem ∧
      (∀ d ∈ ds, ∃ b, w.files.get (chars! "docs/" ++ d.stem ++ chars! ".[]") = some b ∧ fromUtf8 b = some d.text) ∧
      w'.files = writeResults c.document.backend ds w.files ∧
      w'.writes = w.writes ++ ds.map (fun d => (outputPath d.stem c.document.backend, utf8 d.result)) := by
  unfold build at h
  obtain ⟨plugins, w1, h1, h⟩ := IOM.bind_ok.mp h
  have hq := loadPlugins_quiet W md w
  rw [h1] at hq
  obtain ⟨ps, w2, h2, h⟩ := IOM.bind_ok.mp h
  obtain ⟨hps, rfl⟩ := IOM.lift_ok.mp h2
  obtain ⟨entries, w3, h3, h⟩ := IOM.bind_ok.mp h
  obtain ⟨rfl, rfl, _⟩ := readDir_ok h3
  obtain ⟨ps', w4, h4, h⟩ := IOM.bind_ok.mp h
  obtain ⟨ds, hds, hstems, htexts, hfiles, hlog, _, _⟩ := buildLoop_ok h4
  obtain ⟨_, w5, h5, h⟩ := IOM.bind_ok.mp h
  have hw5 : w5 = { w4 with log := w4.log ++ [.printed (chars! "Build succeeded.")] } := by
    injection h5 with _ h5; exact h5.symm
  obtain ⟨outs, w6, h6, h⟩ := IOM.bind_ok.mp h
  obtain ⟨_, hw6, _⟩ := readDir_ok h6
  obtain ⟨h7, h8, _⟩ := listOutputs_files outs w6
  rw [h] at h7 h8
  simp only at h7 h8 hq
  have hentries : w1.entries (chars! "docs") = w.entries (chars! "docs") := by
    rw [World.entries, World.entries, hq.1, hq.2.1]
  refine ⟨plugins, ps, ps', ds, by rw [h1], hps, hds, ?_, ?_, ?_, ?_⟩
  · rw [hstems, hentries]
  · intro d hd
    obtain ⟨b, hb, ht⟩ := htexts d hd
    exact ⟨b, by rw [← hq.1]; exact hb, ht⟩
  · rw [h7, hw6, hw5]
    simp only
    rw [hfiles, ← hq.1]
  · rw [h8, hw6, hw5, World.writes]
    simp only
    rw [hlog, hq.2.2]
    simp only [List.filterMap_append, List.filterMap_map, World.writes]
    simp only [List.filterMap_cons, List.filterMap_nil, IOEvent.write?, List.append_nil]
    congr 1
    generalize ds = l
    induction l with
    | nil => rfl
    | cons d l ih => rw [List.filterMap_cons, List.map_cons, ih]; rfl

theorem mem_docStems {w : World} {stem : Str} :
    stem ∈ (w.entries (chars! "docs")).filterMap docStem ↔
      stem ≠ [] ∧ '/' ∉ stem ∧ w.pathExists (chars! "docs/" ++ stem ++ chars! ".[]") = true := by
  rw [List.mem_filterMap]
  have hp : ∀ s : Str, chars! "docs" ++ '/' :: (s ++ chars! ".[]") = chars! "docs/" ++ s ++ chars! ".[]" := by
    intro s; simp
  constructor
  · rintro ⟨name, hn, hs⟩
    obtain ⟨rfl, hne⟩ := docStem_iff.mp hs
    obtain ⟨h1, _, h2⟩ := mem_entries.mp hn
    rw [hp] at h1
    exact ⟨hne, fun h => h2 (List.mem_append_left _ h), h1⟩
  · rintro ⟨h1, h2, h3⟩
    refine ⟨stem ++ chars! ".[]", mem_entries.mpr ⟨by rw [hp]; exact h3, by simp, ?_⟩, docStem_iff.mpr ⟨rfl, h1⟩⟩
    simp [h2]

theorem docStems_nodup {w : World} (h : w.Valid) : ((w.entries (chars! "docs")).filterMap docStem).Nodup := by
  refine filterMap_nodup ?_ (entries_nodup h _)
  intro a b c ha hb
  rw [(docStem_iff.mp ha).1, (docStem_iff.mp hb).1]

/-- Nothing outside of `out` changes. -/
def OnlyOut (w w' : World) : Prop :=
  ∀ p, ¬ chars! "out/" <+: p → w'.files.get p = w.files.get p

theorem OnlyOut.frame : IOM.Frame OnlyOut where
  refl _ := fun _ _ => rfl
  trans h h' := fun p hp => (h' p hp).trans (h p hp)

theorem Quiet.onlyOut {α : Type} {x : IOM α} (h : IOM.Keeps Quiet x) : IOM.Keeps OnlyOut x :=
  fun w _ _ => by rw [(h w).1]

theorem createDirAll_onlyOut (d : Str) : IOM.Keeps OnlyOut (IOM.createDirAll d) := by
  intro w p _
  rcases createDirAll_cases d w with ⟨_, _, h⟩ | ⟨_, h, _⟩ <;> rw [h]

theorem writeFile_onlyOut (stem backend : Str) (b : Bytes) :
    IOM.Keeps OnlyOut (IOM.writeFile (outputPath stem backend) b) := by
  intro w p hp
  have hne : p ≠ outputPath stem backend := by
    rintro rfl
    exact hp ⟨stem ++ chars! "." ++ backend, by simp [outputPath]⟩
  rcases writeFile_cases (outputPath stem backend) b w with ⟨_, _, _, _, h⟩ | ⟨_, h, _⟩ | ⟨k, _, _, _, _, h⟩
  · rw [h]; exact HMap.get_insert_ne hne _ _
  · rw [h]
  · rw [h]; exact HMap.get_insert_ne hne _ _

theorem buildOne_onlyOut {W : Wasm} (E : Env) (backend : Str) (i : Nat) (name : Str) (ps : Plugins W) :
    IOM.Keeps OnlyOut (buildOne E backend i name ps) := by
  unfold buildOne
  refine IOM.Keeps.bind OnlyOut.frame (Quiet.onlyOut (readText_quiet _)) fun _ => ?_
  refine IOM.Keeps.bind OnlyOut.frame (IOM.Keeps.lift OnlyOut.frame _) fun _ => ?_
  refine IOM.Keeps.bind OnlyOut.frame (createDirAll_onlyOut _) fun _ => ?_
  exact IOM.Keeps.bind OnlyOut.frame (writeFile_onlyOut _ _ _) fun _ => IOM.Keeps.pure OnlyOut.frame _

theorem buildLoop_onlyOut {W : Wasm} (E : Env) (backend : Str) (i : Nat) (names : List Str) (ps : Plugins W) :
    IOM.Keeps OnlyOut (buildLoop E backend i names ps) := by
  induction names generalizing i ps with
  | nil => exact IOM.Keeps.pure OnlyOut.frame _
  | cons name rest ih =>
    rw [buildLoop_cons]
    refine IOM.Keeps.bind OnlyOut.frame (Quiet.onlyOut step_quiet) fun _ => ?_
    split
    · exact IOM.Keeps.bind OnlyOut.frame (buildOne_onlyOut _ _ _ _ _) fun _ => ih _ _
    · exact ih _ _

theorem build_onlyOut (W : Wasm) (E : Env) (c : Config) (md : PluginsMetadata) : IOM.Keeps OnlyOut (build W E c md) := by
  unfold build
  refine IOM.Keeps.bind OnlyOut.frame (Quiet.onlyOut (loadPlugins_quiet _ _)) fun _ => ?_
  refine IOM.Keeps.bind OnlyOut.frame (IOM.Keeps.lift OnlyOut.frame _) fun _ => ?_
  refine IOM.Keeps.bind OnlyOut.frame (Quiet.onlyOut (readDir_quiet _)) fun _ => ?_
  refine IOM.Keeps.bind OnlyOut.frame (buildLoop_onlyOut _ _ _ _ _) fun _ => ?_
  refine IOM.Keeps.bind OnlyOut.frame (fun _ _ _ => rfl) fun _ => ?_
  refine IOM.Keeps.bind OnlyOut.frame (Quiet.onlyOut (readDir_quiet _)) fun outs w p _ => ?_
  rw [(listOutputs_files outs w).1]

theorem outputPath_parent {stem backend : Str} (h1 : '/' ∉ stem) (h2 : '/' ∉ backend) :
    parentDir (outputPath stem backend) = chars! "out" := by
  have : outputPath stem backend = chars! "out" ++ '/' :: (stem ++ chars! "." ++ backend) := by simp [outputPath]
  rw [this, parentDir_slash]
  simp [h1, h2]

theorem listOutputs_run {names : List Str} {w : World} (hw : w.Healthy) :
    (listOutputs names w).1 = .ok () := by
  induction names generalizing w with
  | nil => rfl
  | cons n names ih =>
    rw [listOutputs, IOM.bind_of_ok (step_run (hw _ (Nat.le_refl _)))]
    have hp : IOM.printLine (chars! "  - ./out/" ++ n) { w with clock := w.clock + 1 } =
        (.ok (), { w with clock := w.clock + 1, log := w.log ++ [.printed (chars! "  - ./out/" ++ n)] }) := rfl
    rw [IOM.bind_of_ok hp]
    exact ih fun i hi => hw i (by simp only at hi; omega)

theorem healthy_of_goes {w w' : World} (hw : w.Healthy) (h : Goes w w') : w'.Healthy := by
  intro n hn
  rw [h.faults]
  exact hw n (Nat.le_trans h.clock hn)

theorem buildOne_run {W : Wasm} {E : Env} {backend : Str} {i : Nat} {name : Str} {ps ps' : Plugins W} {w : World}
    {b : Bytes} {text gen : Str} (hw : w.Healthy) (hb : w.files.get (chars! "docs/" ++ name) = some b)
    (ht : fromUtf8 b = some text) (hc : compileText E.S (E.ids i) E.checks text ps = (.ok gen, ps'))
    (hout : w.files.get (chars! "out") = none) (h1 : '/' ∉ (splitExtension name).1) (h2 : '/' ∉ backend)
    (hd : outputPath (splitExtension name).1 backend ∉ w.dirs) :
    ∃ w', buildOne E backend i name ps w = (.ok ps', w') ∧ Goes w w' ∧
      w'.files = w.files.insert (outputPath (splitExtension name).1 backend) (utf8 gen) ∧
      w'.dirs = (if chars! "out" ∈ w.dirs then w.dirs else w.dirs ++ [chars! "out"]) := by
  have hg : IOM.Keeps Goes (buildOne E backend i name ps) := by
    unfold buildOne
    refine IOM.Keeps.bind Goes.frame (readText_goes _) fun _ => ?_
    refine IOM.Keeps.bind Goes.frame (IOM.Keeps.lift Goes.frame _) fun _ => ?_
    refine IOM.Keeps.bind Goes.frame (createDirAll_goes _) fun _ => ?_
    exact IOM.Keeps.bind Goes.frame (writeFile_goes _ _) fun _ => IOM.Keeps.pure Goes.frame _
  have hg := hg w
  unfold buildOne at hg ⊢
  rw [IOM.bind_of_ok (readText_run hb ht (hw _ (Nat.le_refl _)))] at hg ⊢
  rw [hc] at hg ⊢
  simp only at hg ⊢
  rw [IOM.bind_of_ok (IOM.lift_run _ _)] at hg ⊢
  rw [IOM.bind_of_ok (createDirAll_run (by exact hw _ (by simp)) (by exact hout))] at hg ⊢
  have hdir : chars! "out" ∈ (if chars! "out" ∈ w.dirs then w.dirs else w.dirs ++ [chars! "out"]) := by
    split
    · assumption
    · simp
  rw [IOM.bind_of_ok (writeFile_run (by exact hw _ (by simp only; omega)) (by
      rw [outputPath_parent h1 h2, World.hasDir]
      simp [hdir]) (by
      simp only
      split
      · exact hd
      · simp only [List.mem_append, List.mem_singleton, not_or]
        refine ⟨hd, ?_⟩
        simp [outputPath]))] at hg ⊢
  rw [IOM.pure_run] at hg ⊢
  exact ⟨_, rfl, hg, rfl, rfl⟩

theorem buildLoop_run {W : Wasm} {E : Env} {backend : Str} {i : Nat} {names : List Str} {ps : Plugins W}
    {w : World} (P : Plugins W → Prop) (hps : P ps) (hw : w.Healthy) (h2 : '/' ∉ backend)
    (hout : w.files.get (chars! "out") = none)
    (hnames : ∀ name ∈ names, ∀ stem, docStem name = some stem → '/' ∉ name ∧ outputPath stem backend ∉ w.dirs ∧
      ∃ b text, w.files.get (chars! "docs/" ++ name) = some b ∧ fromUtf8 b = some text ∧
        ∀ i ps, P ps → ∃ gen ps', P ps' ∧ compileText E.S (E.ids i) E.checks text ps = (.ok gen, ps')) :
    ∃ ps' w', buildLoop E backend i names ps w = (.ok ps', w') ∧ Goes w w' := by
  induction names generalizing i ps w with
  | nil => exact ⟨ps, w, rfl, Goes.frame.refl w⟩
  | cons name rest ih =>
    rw [buildLoop_cons, IOM.bind_of_ok (step_run (hw _ (Nat.le_refl _)))]
    have hgoes1 : Goes w { w with clock := w.clock + 1 } :=
      ⟨Nat.le_succ _, rfl, rfl, ⟨[], by simp⟩, fun _ h => h, fun _ h => h⟩
    have hw1 := healthy_of_goes hw hgoes1
    by_cases he : (splitExtension name).2 = some (chars! "[]")
    · rw [if_pos he]
      have hstem : docStem name = some (splitExtension name).1 := by rw [docStem, if_pos he]
      obtain ⟨h1, h3, b, text, hb, ht, hc⟩ := hnames name List.mem_cons_self _ hstem
      have h1' : '/' ∉ (splitExtension name).1 := by
        intro h
        apply h1
        rw [(docStem_iff.mp hstem).1]
        exact List.mem_append_left _ h
      obtain ⟨gen, ps1, hp1, hc1⟩ := hc i ps hps
      obtain ⟨w2, h4, h5, h6, h7⟩ := buildOne_run (backend := backend) (name := name) hw1 hb ht hc1 hout h1' h2 h3
      rw [IOM.bind_of_ok h4]
      obtain ⟨ps', w', h8, h9⟩ := ih (i := i + 1) (ps := ps1) (w := w2) hp1 (healthy_of_goes hw1 h5)
        (by
          rw [h6, HMap.get_insert_ne]
          · exact hout
          · simp [outputPath])
        (by
          intro name' hn' stem' hs'
          obtain ⟨k1, k2, b', text', k3, k4, k5⟩ := hnames name' (List.mem_cons_of_mem _ hn') stem' hs'
          refine ⟨k1, ?_, b', text', ?_, k4, k5⟩
          · rw [h7]
            simp only
            split
            · exact k2
            · simp only [List.mem_append, List.mem_singleton, not_or]
              refine ⟨k2, ?_⟩
              simp [outputPath]
          · rw [h6, HMap.get_insert_ne (docPath_ne_outputPath _ _ _)]
            exact k3)
      exact ⟨ps', w', h8, Goes.frame.trans hgoes1 (Goes.frame.trans h5 h9)⟩
    · rw [if_neg he]
      obtain ⟨ps', w', h8, h9⟩ := ih (i := i) (ps := ps) (w := { w with clock := w.clock + 1 }) hps hw1 hout
        (fun name' hn' => hnames name' (List.mem_cons_of_mem _ hn'))
      exact ⟨ps', w', h8, Goes.frame.trans hgoes1 h9⟩

end Brack
