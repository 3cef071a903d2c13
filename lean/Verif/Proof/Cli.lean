import Verif.Spec.Cli
import Verif.Proof.Build
import Verif.Proof.Relational

/-
Helper lemmas on `run_compile`.
-/

namespace Brack

theorem isAlpha_iff {c : Char} : isAlpha c = true ↔ IsLetter c := by
  simp [isAlpha, IsLetter]

theorem isAlnum_iff {c : Char} : isAlnum c = true ↔ IsAlphanumeric c := by
  simp [isAlnum, IsAlphanumeric, isAlpha_iff]

theorem not_isAlpha_underscore : isAlpha '_' = false := by decide

theorem matchesTail_hash {h : Str} (hh : ∀ c ∈ h, isAlnum c = true) : matchesTail (h ++ chars! ".wasm") = true := by
  induction h with
  | nil => decide
  | cons c h ih =>
    rw [List.cons_append, matchesTail, ih fun c hc => hh c (List.mem_cons_of_mem _ hc), hh c List.mem_cons_self]
    simp

theorem moduleAt_cached {name hash : Str} (hn : name ≠ []) (ha : ∀ c ∈ name, isAlpha c = true) (hh : hash ≠ [])
    (hah : ∀ c ∈ hash, isAlnum c = true) :
    moduleAt (name ++ '_' :: (hash ++ chars! ".wasm")) = some name := by
  unfold moduleAt
  rcases hash with _ | ⟨c, hash⟩
  · exact absurd rfl hh
  · have h1 : (name ++ '_' :: (c :: hash ++ chars! ".wasm")).takeWhile isAlpha = name := by
      rw [takeWhile_append_of_all ha, List.takeWhile_cons_of_neg (by simp [not_isAlpha_underscore]), List.append_nil]
    have h2 : (name ++ '_' :: (c :: hash ++ chars! ".wasm")).dropWhile isAlpha = '_' :: c :: (hash ++ chars! ".wasm") := by
      rw [dropWhile_append_of_all ha, List.dropWhile_cons_of_neg (by simp [not_isAlpha_underscore])]
      rfl
    simp only [h1, h2]
    rw [if_pos ⟨hn, hah c List.mem_cons_self, matchesTail_hash fun c hc => hah c (List.mem_cons_of_mem _ hc)⟩]

theorem moduleName_of_at {s name : Str} (h : moduleAt s = some name) : moduleName s = some name := by
  rcases s with _ | ⟨c, s⟩
  · simp [moduleAt] at h
  · rw [moduleName, h]

/-- What matches begins with the name and an underscore. -/
theorem moduleAt_some {s name : Str} (h : moduleAt s = some name) :
    name ≠ [] ∧ (∀ c ∈ name, isAlpha c = true) ∧ ∃ t, s = name ++ '_' :: t := by
  unfold moduleAt at h
  simp only at h
  split at h
  · next c rest hd =>
    split at h
    · next hc =>
      injection h with h
      subst h
      refine ⟨hc.1, fun c hc => takeWhile_prop hc, c :: rest, ?_⟩
      have := (List.takeWhile_append_dropWhile (p := isAlpha) (l := s)).symm
      rw [hd] at this
      exact this
    · simp at h
  · simp at h

theorem moduleName_some {s name : Str} (h : moduleName s = some name) :
    name ≠ [] ∧ (∀ c ∈ name, isAlpha c = true) ∧ ∃ a b, s = a ++ name ++ '_' :: b := by
  induction s with
  | nil => simp [moduleName] at h
  | cons c s ih =>
    rw [moduleName] at h
    split at h
    · next n hn =>
      injection h with h
      subst h
      obtain ⟨h1, h2, t, ht⟩ := moduleAt_some hn
      exact ⟨h1, h2, [], t, by simpa using ht⟩
    · obtain ⟨h1, h2, a, b, hs⟩ := ih h
      exact ⟨h1, h2, c :: a, b, by simp [hs]⟩

theorem matchesTail_iff {s : Str} : matchesTail s = true ↔
    ∃ h c rest, (∀ d ∈ h, isAlnum d = true) ∧ c ≠ '\n' ∧ s = h ++ [c] ++ chars! "wasm" ++ rest := by
  induction s with
  | nil => simp [matchesTail]
  | cons c s ih =>
    rw [matchesTail, Bool.or_eq_true, Bool.and_eq_true, Bool.and_eq_true, ih]
    constructor
    · rintro (⟨h1, h2⟩ | ⟨h1, h, d, rest, h2, h3, h4⟩)
      · obtain ⟨rest, h2⟩ := List.isPrefixOf_iff_prefix.mp h2
        exact ⟨[], c, rest, by simp, by simpa using h1, by simp [← h2]⟩
      · exact ⟨c :: h, d, rest, by simpa [h1] using h2, h3, by simp [h4]⟩
    · rintro ⟨_ | ⟨e, h⟩, d, rest, h2, h3, h4⟩
      · simp only [List.nil_append, List.cons_append, List.cons.injEq] at h4
        refine .inl ⟨by simpa [h4.1] using h3, List.isPrefixOf_iff_prefix.mpr ⟨rest, ?_⟩⟩
        rw [h4.2]; rfl
      · simp only [List.cons_append, List.cons.injEq] at h4
        simp only [List.mem_cons, forall_eq_or_imp] at h2
        exact .inr ⟨by rw [h4.1]; exact h2.1, h, d, rest, h2.2, h3, h4.2⟩

theorem moduleAt_iff {s name : Str} : moduleAt s = some name ↔ FitsPattern s name := by
  constructor
  · intro h
    unfold moduleAt at h
    simp only at h
    split at h
    · next c rest hd =>
      split at h
      · next hc =>
        injection h with h
        subst h
        refine ⟨hc.1, fun c hc => isAlpha_iff.mp (takeWhile_prop hc), ?_⟩
        obtain ⟨h, d, r, h1, h2, h3⟩ := matchesTail_iff.mp hc.2.2
        refine ⟨c :: h, d, r, by simp, ?_, h2, ?_⟩
        · intro e he
          rcases List.mem_cons.mp he with he | he
          · rw [he]; exact isAlnum_iff.mp hc.2.1
          · exact isAlnum_iff.mp (h1 e he)
        · have := (List.takeWhile_append_dropWhile (p := isAlpha) (l := s)).symm
          rw [hd, h3] at this
          simpa using this
      · simp at h
    · simp at h
  · rintro ⟨hn, ha, hash, c, rest, hh, hah, hc, rfl⟩
    have ha' : ∀ c ∈ name, isAlpha c = true := fun c hc => isAlpha_iff.mpr (ha c hc)
    rcases hash with _ | ⟨d, hash⟩
    · exact absurd rfl hh
    · have e : name ++ chars! "_" ++ d :: hash ++ [c] ++ chars! "wasm" ++ rest =
          name ++ '_' :: d :: (hash ++ [c] ++ chars! "wasm" ++ rest) := by simp
      rw [e]
      unfold moduleAt
      have h1 : (name ++ '_' :: d :: (hash ++ [c] ++ chars! "wasm" ++ rest)).takeWhile isAlpha = name := by
        rw [takeWhile_append_of_all ha', List.takeWhile_cons_of_neg (by simp [not_isAlpha_underscore]), List.append_nil]
      have h2 : (name ++ '_' :: d :: (hash ++ [c] ++ chars! "wasm" ++ rest)).dropWhile isAlpha =
          '_' :: d :: (hash ++ [c] ++ chars! "wasm" ++ rest) := by
        rw [dropWhile_append_of_all ha', List.dropWhile_cons_of_neg (by simp [not_isAlpha_underscore])]
      simp only [h1, h2]
      rw [if_pos ⟨hn, isAlnum_iff.mpr (hah d List.mem_cons_self), matchesTail_iff.mpr ⟨hash, c, rest, fun e he =>
        isAlnum_iff.mpr (hah e (List.mem_cons_of_mem _ he)), hc, rfl⟩⟩]

theorem moduleName_iff {s name : Str} : moduleName s = some name ↔ Captured s name := by
  induction s with
  | nil =>
    constructor
    · intro h; simp [moduleName] at h
    · rintro ⟨before, s, h, ⟨h1, _, hash, c, rest, _, _, _, h2⟩, _⟩
      rw [h2] at h
      simp at h
  | cons c s ih =>
    rw [moduleName]
    rcases hm : moduleAt (c :: s) with _ | n
    · simp only
      rw [ih]
      have hno : ∀ n, ¬ FitsPattern (c :: s) n := fun n h => by rw [moduleAt_iff.mpr h] at hm; cases hm
      constructor
      · rintro ⟨before, t, h, h1, h2⟩
        refine ⟨c :: before, t, by rw [h]; rfl, h1, ?_⟩
        rintro (_ | ⟨d, before'⟩) s' n h3 h4
        · rw [List.nil_append] at h3
          rw [← h3]
          exact hno n
        · simp only [List.cons_append, List.cons.injEq] at h3
          exact h2 before' s' n h3.2 (by simpa using h4)
      · rintro ⟨_ | ⟨d, before⟩, t, h, h1, h2⟩
        · rw [List.nil_append] at h
          rw [← h] at h1
          exact absurd h1 (hno name)
        · simp only [List.cons_append, List.cons.injEq] at h
          refine ⟨before, t, h.2, h1, fun before' s' n h3 h4 => ?_⟩
          exact h2 (c :: before') s' n (by rw [h3]; rfl) (by simpa using h4)
    · simp only [Option.some.injEq]
      constructor
      · rintro rfl
        exact ⟨[], c :: s, rfl, moduleAt_iff.mp hm, fun _ _ _ _ h => absurd h (Nat.not_lt_zero _)⟩
      · rintro ⟨_ | ⟨d, before⟩, t, h, h1, h2⟩
        · rw [List.nil_append] at h
          rw [← h, ← moduleAt_iff, hm] at h1
          injection h1
        · exact absurd (moduleAt_iff.mp hm) (h2 [] (c :: s) n rfl (Nat.zero_lt_succ _))

/-- Nothing matches before a slash if there is no underscore there. -/
theorem moduleName_dir {dir t : Str} (hu : '_' ∉ dir) : moduleName (dir ++ '/' :: t) = moduleName t := by
  have key : ∀ x : Str, '_' ∉ x → moduleAt (x ++ '/' :: t) = none := by
    intro x hx
    rcases hm : moduleAt (x ++ '/' :: t) with _ | name
    · rfl
    · obtain ⟨h0, h2, r, hr⟩ := moduleAt_some hm
      exfalso
      clear hm h0
      induction x generalizing name with
      | nil =>
        rcases name with _ | ⟨n, name⟩
        · simp at hr
        · simp only [List.nil_append, List.cons_append, List.cons.injEq] at hr
          have := h2 n List.mem_cons_self
          rw [← hr.1] at this
          exact absurd this (by decide)
      | cons c x ih =>
        simp only [List.mem_cons, not_or] at hx
        rcases name with _ | ⟨n, name⟩
        · simp only [List.nil_append, List.cons_append, List.cons.injEq] at hr
          exact hx.1 hr.1.symm
        · simp only [List.cons_append, List.cons.injEq] at hr
          exact ih hx.2 name (fun c hc => h2 c (List.mem_cons_of_mem _ hc)) hr.2
  induction dir with
  | nil =>
    rw [List.nil_append, moduleName]
    have := key [] (by simp)
    rw [List.nil_append] at this
    rw [this]
  | cons c dir ih =>
    have := key (c :: dir) hu
    simp only [List.mem_cons, not_or] at hu
    rw [List.cons_append, moduleName]
    rw [List.cons_append] at this
    rw [this]
    exact ih hu.2

theorem moduleName_infix {dir e name : Str} (hu : '_' ∉ dir) (h : moduleName (dir ++ '/' :: e) = some name) :
    (name ++ chars! "_") <:+: e := by
  rw [moduleName_dir hu] at h
  obtain ⟨_, _, a, b, hs⟩ := moduleName_some h
  exact ⟨a, b, by simp [hs]⟩

theorem scanPlugins_quiet (dir : Str) (names : List Str) (md : PluginsMetadata) :
    IOM.Keeps Quiet (scanPlugins dir names md) := by
  induction names generalizing md with
  | nil => exact IOM.Keeps.pure Quiet.frame _
  | cons n names ih =>
    rw [scanPlugins]
    refine IOM.Keeps.bind Quiet.frame step_quiet fun _ => ?_
    simp only
    split <;> exact ih _

theorem scanPlugins_goes (dir : Str) (names : List Str) (md : PluginsMetadata) :
    IOM.Keeps Goes (scanPlugins dir names md) := by
  induction names generalizing md with
  | nil => exact IOM.Keeps.pure Goes.frame _
  | cons n names ih =>
    rw [scanPlugins]
    refine IOM.Keeps.bind Goes.frame step_goes fun _ => ?_
    simp only
    split <;> exact ih _

theorem compilePlugins_quiet (W : Wasm) (dir : Str) : IOM.Keeps Quiet (compilePlugins W dir) :=
  IOM.Keeps.bind Quiet.frame (readDir_quiet _) fun _ =>
    IOM.Keeps.bind Quiet.frame (scanPlugins_quiet _ _ _) fun _ => loadPlugins_quiet _ _

theorem compilePlugins_goes (W : Wasm) (dir : Str) : IOM.Keeps Goes (compilePlugins W dir) :=
  IOM.Keeps.bind Goes.frame (readDir_goes _) fun _ =>
    IOM.Keeps.bind Goes.frame (scanPlugins_goes _ _ _) fun _ => loadPlugins_goes _ _

/-- The result of the scan: the last entry giving a name counts. -/
def scanned (dir : Str) : List Str → PluginsMetadata → PluginsMetadata
  | [], md => md
  | name :: rest, md =>
    match moduleName (dir ++ chars! "/" ++ name) with
    | some m => scanned dir rest (md.insert m (dir ++ chars! "/" ++ name, {}))
    | none => scanned dir rest md

theorem scanPlugins_ok {dir : Str} {names : List Str} {md md' : PluginsMetadata} {w w' : World}
    (h : scanPlugins dir names md w = (.ok md', w')) : md' = scanned dir names md := by
  induction names generalizing md w with
  | nil =>
    rw [scanPlugins] at h
    injection h with h _
    injection h with h
    exact h.symm
  | cons n names ih =>
    rw [scanPlugins] at h
    obtain ⟨_, w1, _, h⟩ := IOM.bind_ok.mp h
    rw [scanned]
    generalize moduleName (dir ++ chars! "/" ++ n) = o at *
    rcases o with _ | m
    · exact ih h
    · exact ih h

theorem scanPlugins_run {dir : Str} {names : List Str} {md : PluginsMetadata} {w : World} (hw : w.Healthy) :
    ∃ w', scanPlugins dir names md w = (.ok (scanned dir names md), w') ∧ Goes w w' ∧ Quiet w w' := by
  induction names generalizing md w with
  | nil => exact ⟨w, rfl, Goes.frame.refl w, Quiet.frame.refl w⟩
  | cons n names ih =>
    rw [scanPlugins, IOM.bind_of_ok (step_run (hw _ (Nat.le_refl _))), scanned]
    have hw' : ({ w with clock := w.clock + 1 } : World).Healthy := fun i hi => hw i (by simp only at hi; omega)
    have hg : Goes w { w with clock := w.clock + 1 } :=
      ⟨Nat.le_succ _, rfl, rfl, ⟨[], by simp⟩, fun _ h => h, fun _ h => h⟩
    have hq : Quiet w { w with clock := w.clock + 1 } := ⟨rfl, rfl, rfl⟩
    generalize moduleName (dir ++ chars! "/" ++ n) = o
    rcases o with _ | m
    rotate_left
    · obtain ⟨w', h1, h2, h3⟩ := ih (md := md.insert m (dir ++ chars! "/" ++ n, {})) hw'
      exact ⟨w', h1, Goes.frame.trans hg h2, Quiet.frame.trans hq h3⟩
    · obtain ⟨w', h1, h2, h3⟩ := ih (md := md) hw'
      exact ⟨w', h1, Goes.frame.trans hg h2, Quiet.frame.trans hq h3⟩

/-- Where the entries of the scan come from. -/
theorem scanned_from {dir : Str} {names : List Str} {md : PluginsMetadata} {m : Str} {x : Str × FeatureFlag}
    (h : (m, x) ∈ scanned dir names md) :
    (m, x) ∈ md ∨ ∃ e ∈ names, x = (dir ++ chars! "/" ++ e, {}) ∧ moduleName (dir ++ chars! "/" ++ e) = some m := by
  induction names generalizing md with
  | nil => exact .inl h
  | cons n names ih =>
    rw [scanned] at h
    have hins : ∀ (md : PluginsMetadata) k (y : Str × FeatureFlag), (m, x) ∈ md.insert k y → (m, x) ∈ md ∨ (m = k ∧ x = y) := by
      intro md k y h
      induction md with
      | nil => simp only [HMap.insert, List.mem_singleton, Prod.mk.injEq] at h; exact .inr h
      | cons z md ih =>
        obtain ⟨k', z⟩ := z
        rw [HMap.insert] at h
        split at h
        · rcases List.mem_cons.mp h with h | h
          · exact .inr (by simpa using h)
          · exact .inl (List.mem_cons_of_mem _ h)
        · rcases List.mem_cons.mp h with h | h
          · exact .inl (h ▸ List.mem_cons_self)
          · rcases ih h with h | h
            · exact .inl (List.mem_cons_of_mem _ h)
            · exact .inr h
    split at h
    · next m' hm =>
      rcases ih h with h | ⟨e, he, h1, h2⟩
      · rcases hins _ _ _ h with h | ⟨rfl, rfl⟩
        · exact .inl h
        · exact .inr ⟨n, List.mem_cons_self, rfl, hm⟩
      · exact .inr ⟨e, List.mem_cons_of_mem _ he, h1, h2⟩
    · rcases ih h with h | ⟨e, he, h1, h2⟩
      · exact .inl h
      · exact .inr ⟨e, List.mem_cons_of_mem _ he, h1, h2⟩

/-- Every name found is among the entries of the scan. -/
theorem scanned_key {dir : Str} {names : List Str} {md : PluginsMetadata} {m : Str}
    (h : (md.get m).isSome = true ∨ ∃ e ∈ names, moduleName (dir ++ chars! "/" ++ e) = some m) :
    ((scanned dir names md).get m).isSome = true := by
  induction names generalizing md with
  | nil =>
    rcases h with h | ⟨e, he, _⟩
    · exact h
    · cases he
  | cons n names ih =>
    rw [scanned]
    have hins : ∀ k x, (md.get m).isSome = true → ((md.insert k x).get m).isSome = true := by
      intro k x h
      by_cases hk : m = k
      · rw [hk, HMap.get_insert_self]; rfl
      · rw [HMap.get_insert_ne hk]; exact h
    rcases hn : moduleName (dir ++ chars! "/" ++ n) with _ | m'
    · refine ih ?_
      rcases h with h | ⟨e, he, hm⟩
      · exact .inl h
      · rcases List.mem_cons.mp he with rfl | he
        · rw [hn] at hm; cases hm
        · exact .inr ⟨e, he, hm⟩
    · refine ih ?_
      rcases h with h | ⟨e, he, hm⟩
      · exact .inl (hins _ _ h)
      · rcases List.mem_cons.mp he with rfl | he
        · rw [hn] at hm
          injection hm with hm
          rw [hm, HMap.get_insert_self]
          exact .inl rfl
        · exact .inr ⟨e, he, hm⟩

theorem scanned_get {dir : Str} {names : List Str} {md : PluginsMetadata} {m e : Str} (he : e ∈ names)
    (hm : moduleName (dir ++ chars! "/" ++ e) = some m)
    (hu : ∀ e' ∈ names, e' ≠ e → moduleName (dir ++ chars! "/" ++ e') ≠ some m) :
    (scanned dir names md).get m = some (dir ++ chars! "/" ++ e, {}) := by
  have hrest : ∀ (names : List Str) (md : PluginsMetadata), (∀ e' ∈ names, e' ≠ e → moduleName (dir ++ chars! "/" ++ e') ≠ some m) →
      md.get m = some (dir ++ chars! "/" ++ e, {}) → (scanned dir names md).get m = some (dir ++ chars! "/" ++ e, {}) := by
    intro names
    induction names with
    | nil => intro md _ h; exact h
    | cons n names ih =>
      intro md hu h
      have hu' := fun e' he' => hu e' (List.mem_cons_of_mem _ he')
      rw [scanned]
      split
      · next m' hm' =>
        refine ih _ hu' ?_
        by_cases hne : m = m'
        · subst hne
          rw [HMap.get_insert_self]
          by_cases hn : n = e
          · rw [hn]
          · exact absurd hm' (hu n List.mem_cons_self hn)
        · rw [HMap.get_insert_ne hne]; exact h
      · exact ih _ hu' h
  induction names generalizing md with
  | nil => simp at he
  | cons n names ih =>
    have hu' := fun e' he' => hu e' (List.mem_cons_of_mem _ he')
    rw [scanned]
    rcases List.mem_cons.mp he with rfl | he
    · rw [hm]
      exact hrest _ _ hu' (HMap.get_insert_self _ _ _)
    · split
      · exact ih he hu'
      · exact ih he hu'

theorem loadPlugins_ok {W : Wasm} {md : PluginsMetadata} {w w' : World} {plugins : List (Plugin W)}
    (h : loadPlugins W md w = (.ok plugins, w')) :
    md.map (fun x => (w.files.get x.2.1).map (fun b => Plugin.new W x.1 b x.2.2)) = plugins.map (fun p => some (.ok p)) := by
  induction md generalizing w w' plugins with
  | nil =>
    rw [loadPlugins] at h
    injection h with h _
    injection h with h
    subst h
    rfl
  | cons x md ih =>
    obtain ⟨name, path, flag⟩ := x
    rw [loadPlugins] at h
    obtain ⟨b, w1, h1, h⟩ := IOM.bind_ok.mp h
    have hq := readFile_quiet path w
    rw [h1] at hq
    have hb := (readFile_ok h1).1
    obtain ⟨p, w2, h2, h⟩ := IOM.bind_ok.mp h
    obtain ⟨hp, rfl⟩ := IOM.lift_ok.mp h2
    obtain ⟨ps, w3, h3, h⟩ := IOM.bind_ok.mp h
    rw [IOM.pure_run] at h
    injection h with h _
    injection h with h
    subst h
    have := ih h3
    rw [hq.1] at this
    rw [List.map_cons, List.map_cons, ← this]
    simp only [hb, Option.map_some, hp]

theorem loadPlugins_run {W : Wasm} {md : PluginsMetadata} {w : World} (hw : w.Healthy)
    (h : ∀ x ∈ md, ∃ b p, w.files.get x.2.1 = some b ∧ Plugin.new W x.1 b x.2.2 = .ok p) :
    ∃ plugins w', loadPlugins W md w = (.ok plugins, w') := by
  induction md generalizing w with
  | nil => exact ⟨[], w, rfl⟩
  | cons x md ih =>
    obtain ⟨name, path, flag⟩ := x
    obtain ⟨b, p, h1, h2⟩ := h _ List.mem_cons_self
    obtain ⟨ps, w', h3⟩ := ih (w := { w with clock := w.clock + 1 }) (fun i hi => hw i (by simp only at hi; omega))
      fun y hy => h y (List.mem_cons_of_mem _ hy)
    refine ⟨p :: ps, w', ?_⟩
    rw [loadPlugins, IOM.bind_of_ok (readFile_run h1 (hw _ (Nat.le_refl _))), h2, IOM.bind_of_ok (IOM.lift_run _ _),
      IOM.bind_of_ok h3]
    rfl

theorem printLines_run (ls : List Str) (w : World) :
    printLines ls w = (.ok (), { w with log := w.log ++ ls.map .printed }) := by
  induction ls generalizing w with
  | nil => rw [printLines, IOM.pure_run]; simp
  | cons l ls ih =>
    rw [printLines]
    have hp : IOM.printLine l w = (.ok (), { w with log := w.log ++ [.printed l] }) := rfl
    rw [IOM.bind_of_ok hp, ih]
    simp

theorem lines_printed (w : World) (ls : List Str) :
    ({ w with log := w.log ++ ls.map .printed } : World).lines = w.lines ++ ls := by
  simp only [World.lines, List.filterMap_append, List.filterMap_map]
  congr 1
  induction ls with
  | nil => rfl
  | cons l ls ih => rw [List.filterMap_cons, ih]; rfl

theorem endsWith_iff {suffix s : Str} : endsWith suffix s = true ↔ ∃ t, s = t ++ suffix := by
  rw [endsWith, List.isPrefixOf_iff_prefix, List.reverse_prefix]
  exact ⟨fun ⟨t, h⟩ => ⟨t, h.symm⟩, fun ⟨t, h⟩ => ⟨t, h.symm⟩⟩

/-- The work at an output level up to what is printed. -/
def stageLines {W : Wasm} (E : Env) (F : Formats) (args : CompileArgs) (ps : Plugins W) (text : Str) : Res (List Str) :=
  match args.level with
  | 1 => do
    let ts ← tokenizeStr E.S text
    return F.tokens args.json ts
  | 2 => do
    let ts ← tokenizeStr E.S text
    let c ← parse ts
    return F.cst args.json c
  | 3 => do
    let ts ← tokenizeStr E.S text
    let c ← parse ts
    let x ← transform (E.ids 0) c
    return if args.json then F.ast true x.1 else if x.2 ≠ [] then F.errors x.2 else F.ast false x.1
  | 4 => do
    let ts ← tokenizeStr E.S text
    let c ← parse ts
    let x ← transform (E.ids 0) c
    let b ← (expander x.1 ps).1
    return F.ast args.json b
  | 5 => do
    let gen ← (compileText E.S (E.ids 0) E.checks text ps).1
    return [gen]
  | _ => .err "Invalid output level."

theorem Res.bind_match {α β : Type} (x : Res α) (f : α → Res β) :
    (x >>= f) = match x with
      | .ok a => f a
      | .err m => .err m
      | .panic => .panic := by
  rcases x <;> rfl

theorem runStage_run {W : Wasm} {E : Env} {F : Formats} {args : CompileArgs} {ps : Plugins W} {w : World} {b : Bytes}
    {text : Str} (hw : w.faults w.clock = .none) (hname : endsWith (chars! ".[]") args.filename = true)
    (hb : w.files.get args.filename = some b) (ht : fromUtf8 b = some text)
    (hlevel : 1 ≤ args.level ∧ args.level ≤ 5) (hjson : args.level = 5 → args.json = false) :
    runStage E F args ps w = match stageLines E F args ps text with
      | .ok ls => (.ok (), { w with clock := w.clock + 1, log := w.log ++ ls.map .printed })
      | .err m => (.err m, { w with clock := w.clock + 1 })
      | .panic => (.panic, { w with clock := w.clock + 1 }) := by
  unfold runStage stageLines
  rw [hname]
  simp only [Bool.not_true, Bool.false_eq_true, if_false]
  have hread := readText_run (w := w) hb ht hw
  have hlev : args.level = 1 ∨ args.level = 2 ∨ args.level = 3 ∨ args.level = 4 ∨ args.level = 5 := by omega
  rcases hlev with h | h | h | h | h <;> simp only [h]
  · rw [IOM.bind_of_ok hread]
    simp only [IOM.bind_run, IOM.lift_run, Res.bind_match]
    generalize tokenizeStr E.S text = o
    rcases o with ts | m | _ <;> try rfl
    exact printLines_run _ _
  · rw [IOM.bind_of_ok hread]
    simp only [IOM.bind_run, IOM.lift_run, Res.bind_match]
    generalize tokenizeStr E.S text = o
    rcases o with ts | m | _ <;> try rfl
    simp only
    generalize parse ts = o
    rcases o with c | m | _ <;> try rfl
    exact printLines_run _ _
  · rw [IOM.bind_of_ok hread]
    simp only [IOM.bind_run, IOM.lift_run, Res.bind_match]
    generalize tokenizeStr E.S text = o
    rcases o with ts | m | _ <;> try rfl
    simp only
    generalize parse ts = o
    rcases o with c | m | _ <;> try rfl
    simp only
    generalize transform (E.ids 0) c = o
    rcases o with ⟨a, es⟩ | m | _ <;> try rfl
    simp only
    split
    · exact printLines_run _ _
    · split
      · exact printLines_run _ _
      · exact printLines_run _ _
  · rw [IOM.bind_of_ok hread]
    simp only [IOM.bind_run, IOM.lift_run, Res.bind_match]
    generalize tokenizeStr E.S text = o
    rcases o with ts | m | _ <;> try rfl
    simp only
    generalize parse ts = o
    rcases o with c | m | _ <;> try rfl
    simp only
    generalize transform (E.ids 0) c = o
    rcases o with ⟨a, es⟩ | m | _ <;> try rfl
    simp only
    generalize (expander a ps).1 = o
    rcases o with a' | m | _ <;> try rfl
    exact printLines_run _ _
  · rw [hjson h]
    simp only [Bool.false_eq_true, if_false]
    rw [IOM.bind_of_ok hread, compileText]
    simp only [IOM.bind_run, IOM.lift_run, Res.bind_match, PM.bind_run, PM.lift_run]
    generalize tokenizeStr E.S text = o
    rcases o with ts | m | _ <;> try rfl
    simp only
    generalize parse ts = o
    rcases o with c | m | _ <;> try rfl
    simp only
    generalize transform (E.ids 0) c = o
    rcases o with ⟨a, es⟩ | m | _ <;> try rfl
    simp only
    generalize expander a ps = o
    obtain ⟨o, ps'⟩ := o
    rcases o with a' | m | _ <;> try rfl
    simp only
    generalize (generate E.checks a' ps').1 = o
    rcases o with g | m | _ <;> rfl

theorem runCompile_run {W : Wasm} {E : Env} {F : Formats} {envDir : Option Str} {args : CompileArgs} {w w1 : World}
    {plugins : List (Plugin W)} {ps : Plugins W}
    (hl : compilePlugins W (args.pluginsDir.getD (envDir.getD [])) w = (.ok plugins, w1))
    (hps : Plugins.new plugins = .ok ps) : runCompile W E F envDir args w = runStage E F args ps w1 := by
  rw [runCompile, IOM.bind_of_ok hl, hps, IOM.bind_of_ok (IOM.lift_run _ _)]

/-- Files, directories and requests stay as they are and nothing is written. -/
def Still (w w' : World) : Prop :=
  w'.files = w.files ∧ w'.dirs = w.dirs ∧ w'.requests = w.requests ∧ w'.writes = w.writes

theorem Still.frame : IOM.Frame Still where
  refl _ := ⟨rfl, rfl, rfl, rfl⟩
  trans h h' := ⟨h'.1.trans h.1, h'.2.1.trans h.2.1, h'.2.2.1.trans h.2.2.1, h'.2.2.2.trans h.2.2.2⟩

theorem Quiet.still {α : Type} {x : IOM α} (h : IOM.Keeps Quiet x) : IOM.Keeps Still x := fun w =>
  ⟨(h w).1, (h w).2.1, by rw [World.requests, World.requests, (h w).2.2], by rw [World.writes, World.writes, (h w).2.2]⟩

theorem printLine_still (l : Str) : IOM.Keeps Still (IOM.printLine l) := fun w =>
  ⟨rfl, rfl, by simp [IOM.printLine, World.requests, IOEvent.url?], by simp [IOM.printLine, World.writes, IOEvent.write?]⟩

theorem printLines_still (ls : List Str) : IOM.Keeps Still (printLines ls) := by
  induction ls with
  | nil => exact IOM.Keeps.pure Still.frame _
  | cons l ls ih => exact IOM.Keeps.bind Still.frame (printLine_still l) fun _ => ih

theorem fail_quiet {α : Type} (m : String) : IOM.Keeps Quiet (IOM.fail m : IOM α) := fun _ => ⟨rfl, rfl, rfl⟩

theorem runStage_still {W : Wasm} (E : Env) (F : Formats) (args : CompileArgs) (ps : Plugins W) :
    IOM.Keeps Still (runStage E F args ps) := by
  have hlift : ∀ {α : Type} (r : Res α), IOM.Keeps Still (IOM.lift r) := fun r => IOM.Keeps.lift Still.frame r
  have hread : IOM.Keeps Still (IOM.readText args.filename) := Quiet.still (readText_quiet _)
  unfold runStage
  split
  · exact Quiet.still (fail_quiet _)
  · split
    · exact IOM.Keeps.bind Still.frame hread fun _ => IOM.Keeps.bind Still.frame (hlift _) fun _ => printLines_still _
    · exact IOM.Keeps.bind Still.frame hread fun _ => IOM.Keeps.bind Still.frame (hlift _) fun _ =>
        IOM.Keeps.bind Still.frame (hlift _) fun _ => printLines_still _
    · refine IOM.Keeps.bind Still.frame hread fun _ => IOM.Keeps.bind Still.frame (hlift _) fun _ =>
        IOM.Keeps.bind Still.frame (hlift _) fun _ => IOM.Keeps.bind Still.frame (hlift _) fun x => ?_
      simp only
      split
      · exact printLines_still _
      · split <;> exact printLines_still _
    · exact IOM.Keeps.bind Still.frame hread fun _ => IOM.Keeps.bind Still.frame (hlift _) fun _ =>
        IOM.Keeps.bind Still.frame (hlift _) fun _ => IOM.Keeps.bind Still.frame (hlift _) fun x =>
          IOM.Keeps.bind Still.frame (hlift _) fun _ => printLines_still _
    · split
      · exact Quiet.still (fail_quiet _)
      · exact IOM.Keeps.bind Still.frame hread fun _ => IOM.Keeps.bind Still.frame (hlift _) fun _ =>
          IOM.Keeps.bind Still.frame (hlift _) fun _ => IOM.Keeps.bind Still.frame (hlift _) fun x =>
            IOM.Keeps.bind Still.frame (hlift _) fun _ => IOM.Keeps.bind Still.frame (hlift _) fun _ => printLine_still _
    · exact Quiet.still (fail_quiet _)

theorem runCompile_still (W : Wasm) (E : Env) (F : Formats) (envDir : Option Str) (args : CompileArgs) :
    IOM.Keeps Still (runCompile W E F envDir args) :=
  IOM.Keeps.bind Still.frame (Quiet.still (compilePlugins_quiet _ _)) fun _ =>
    IOM.Keeps.bind Still.frame (IOM.Keeps.lift Still.frame _) fun _ => runStage_still _ _ _ _

/-- A stage that fails at once. -/
theorem runCompile_refused {W : Wasm} {E : Env} {F : Formats} {envDir : Option Str} {args : CompileArgs}
    (h : ∀ ps : Plugins W, ∃ m, runStage E F args ps = IOM.fail m) (w : World) :
    (∀ u, (runCompile W E F envDir args w).1 ≠ .ok u) ∧ (runCompile W E F envDir args w).2.log = w.log := by
  unfold runCompile
  have hq := compilePlugins_quiet W (args.pluginsDir.getD (envDir.getD [])) w
  rw [IOM.bind_run]
  generalize compilePlugins W (args.pluginsDir.getD (envDir.getD [])) w = o at *
  obtain ⟨o, w1⟩ := o
  rcases o with plugins | m | _
  · simp only [IOM.bind_run, IOM.lift_run]
    generalize Plugins.new plugins = o
    rcases o with ps | m | _
    · simp only
      obtain ⟨m, hm⟩ := h ps
      rw [hm]
      exact ⟨by intro u h; exact absurd h (by simp [IOM.fail]), hq.2.2⟩
    · exact ⟨by simp, hq.2.2⟩
    · exact ⟨by simp, hq.2.2⟩
  · exact ⟨by simp, hq.2.2⟩
  · exact ⟨by simp, hq.2.2⟩

theorem plugin_new_name {W : Wasm} {name : Str} {b : Bytes} {flag : FeatureFlag} {p : Plugin W}
    (h : Plugin.new W name b flag = .ok p) : p.name = name := by
  unfold Plugin.new at h
  repeat' split at h
  all_goals first | (injection h with h; rw [← h]) | cases h

theorem compilePlugins_ok {W : Wasm} {dir : Str} {w w' : World} {plugins : List (Plugin W)}
    (h : compilePlugins W dir w = (.ok plugins, w')) :
    (scanned dir (w.entries dir) []).map (fun x => (w.files.get x.2.1).map (fun b => Plugin.new W x.1 b x.2.2)) =
      plugins.map (fun p => some (.ok p)) := by
  unfold compilePlugins at h
  obtain ⟨entries, w1, h1, h'⟩ := IOM.bind_ok.mp h
  obtain ⟨md, w2, h2, h3⟩ := IOM.bind_ok.mp h'
  obtain ⟨rfl, rfl, _, _⟩ := readDir_ok h1
  have hmd := scanPlugins_ok h2
  have hq := scanPlugins_quiet dir (w.entries dir) [] { w with clock := w.clock + 1 }
  rw [h2] at hq
  have := loadPlugins_ok h3
  rw [hmd, hq.1] at this
  exact this

theorem scanned_nodup {dir : Str} {names : List Str} {md : PluginsMetadata} (h : (md.map (·.1)).Nodup) :
    ((scanned dir names md).map (·.1)).Nodup := by
  induction names generalizing md with
  | nil => exact h
  | cons n names ih =>
    rw [scanned]
    split
    · exact ih (HMap.nodup_insert h)
    · exact ih h

/-- `Plugins.new` on what is loaded with the default flags succeeds. -/
theorem names_of_loaded {W : Wasm} {files : HMap Str Bytes} {md : PluginsMetadata} {plugins : List (Plugin W)}
    (h : md.map (fun x => (files.get x.2.1).map (fun b => Plugin.new W x.1 b x.2.2)) = plugins.map (fun p => some (.ok p))) :
    plugins.map (·.name) = md.map (·.1) := by
  induction md generalizing plugins with
  | nil =>
    rcases plugins with _ | ⟨p, plugins⟩
    · rfl
    · cases h
  | cons x md ih =>
    rcases plugins with _ | ⟨p, plugins⟩
    · cases h
    · simp only [List.map_cons, List.cons.injEq] at h ⊢
      refine ⟨?_, ih h.2⟩
      have h1 := h.1
      generalize files.get x.2.1 = o at h1
      rcases o with _ | b
      · cases h1
      · simp only [Option.map_some, Option.some.injEq] at h1
        exact (plugin_new_name h1)

theorem eq_of_nodup_map {α β : Type} {f : α → β} {l : List α} (h : (l.map f).Nodup) {a b : α} (ha : a ∈ l) (hb : b ∈ l)
    (hf : f a = f b) : a = b := by
  induction l with
  | nil => simp at ha
  | cons x l ih =>
    simp only [List.map_cons, List.nodup_cons, List.mem_map, not_exists, not_and] at h
    rcases List.mem_cons.mp ha with ha1 | ha1 <;> rcases List.mem_cons.mp hb with hb1 | hb1
    · rw [ha1, hb1]
    · exact absurd (by rw [← ha1, hf]) (h.1 b hb1)
    · exact absurd (by rw [← hb1, hf]) (h.1 a ha1)
    · exact ih h.2 ha1 hb1

end Brack
