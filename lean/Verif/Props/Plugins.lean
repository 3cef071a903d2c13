import Verif.Proof.Registry
import Verif.Proof.PluginCases

/-
Properties of loading plugins and of the calls that reach them (C38–C40, C61).
-/

namespace Brack

variable {W : Wasm}

/-! ### C38 -/

/-- C38: a list of plugins is accepted exactly if no two of them enable the same hook; otherwise an
error is returned. -/
theorem C38_one_plugin (plugins : List (Plugin W)) :
    ((∃ ps, Plugins.new plugins = .ok ps) ↔
      ∀ (k : Hook) (i j : Nat) p q, plugins[i]? = some p → plugins[j]? = some q →
        k.enabled p.flag = true → k.enabled q.flag = true → i = j) ∧
    Plugins.new plugins ≠ .panic := by
  rcases newLoop_spec plugins ⟨[], none, none, none, none, []⟩ with ⟨qs, h1, h2, _⟩ | ⟨⟨m, h1⟩, k, h2⟩
  · exact ⟨⟨fun _ k => (h2 k).1, fun _ => ⟨qs, h1⟩⟩, by rw [Plugins.new, h1]; simp⟩
  · refine ⟨⟨?_, ?_⟩, by rw [Plugins.new, h1]; simp⟩
    · rintro ⟨ps, h⟩
      rw [Plugins.new, h1] at h
      cases h
    · intro h
      refine absurd ⟨h k, ?_⟩ h2
      intro p _ _
      rcases k <;> rfl

/-- C38: and then each hook is bound to the plugin enabling it, and to none if no plugin does. -/
theorem C38_bound (plugins : List (Plugin W)) (ps : Plugins W) (h : Plugins.new plugins = .ok ps)
    (k : Hook) (n : Str) :
    ps.hook k = some n ↔ ∃ p ∈ plugins, k.enabled p.flag = true ∧ p.name = n := by
  rcases newLoop_spec plugins ⟨[], none, none, none, none, []⟩ with ⟨qs, h1, h2, _⟩ | ⟨⟨m, h1⟩, _⟩
  · rw [Plugins.new, h1] at h
    injection h with h
    subst h
    rw [(h2 k).2.2 n]
    rcases k <;> simp [Plugins.hook]
  · rw [Plugins.new, h1] at h
    cases h

/-- The sample plugin with a given name and flags. -/
def named (n : Str) (f : FeatureFlag) : Plugin sampleWasm :=
  match samplePlugin f with
  | .ok p => { p with name := n }
  | _ => ⟨n, (0 : Nat), [], f⟩

/-- Two plugins with different hooks are accepted, two with the same hook are not. -/
example : (Plugins.new [named ['a'] ⟨true, false, false, false⟩, named ['b'] ⟨false, true, true, false⟩]).isOk = true ∧
    (Plugins.new [named ['a'] ⟨true, false, false, false⟩, named ['b'] ⟨true, true, true, false⟩]).isErr = true := by
  decide +kernel

/-! ### C39 -/

/-- C39: for plugins with distinct names, the order of the list does not matter: one list is accepted
if and only if the other is, and the resulting sets cannot be told apart. -/
theorem C39_order (plugins plugins' : List (Plugin W)) (hp : plugins.Perm plugins')
    (hn : (plugins.map (·.name)).Nodup) :
    ((Plugins.new plugins).isOk = (Plugins.new plugins').isOk) ∧
    ∀ ps qs, Plugins.new plugins = .ok ps → Plugins.new plugins' = .ok qs → Alike ps qs := by
  have key : ∀ (l l' : List (Plugin W)), l.Perm l' → ∀ k : Hook,
      AtMostOne (fun p => k.enabled p.flag) l → AtMostOne (fun p => k.enabled p.flag) l' := by
    intro l l' h k
    induction h with
    | nil => exact fun h => h
    | cons a _ ih =>
      intro h
      rw [atMostOne_cons] at h ⊢
      exact ⟨fun ha x hx => h.1 ha x ((List.Perm.mem_iff ‹_›).mpr hx), ih h.2⟩
    | swap a b l =>
      intro h
      simp only [atMostOne_cons, List.mem_cons] at h ⊢
      obtain ⟨h1, h2, h3⟩ := h
      refine ⟨?_, fun hb x hx => h1 hb x (.inr hx), h3⟩
      rintro ha x (rfl | hx)
      · rcases hx : Hook.enabled x.flag k with _ | _
        · rfl
        · have := h1 hx a (.inl rfl); rw [this] at ha; cases ha
      · exact h2 ha x hx
    | trans _ _ ih1 ih2 => exact fun h => ih2 (ih1 h)
  constructor
  · have h1 := (C38_one_plugin plugins).1
    have h2 := (C38_one_plugin plugins').1
    have e : (∃ ps, Plugins.new plugins = .ok ps) ↔ ∃ ps, Plugins.new plugins' = .ok ps := by
      rw [h1, h2]
      exact ⟨fun h k => key _ _ hp k (h k), fun h k => key _ _ hp.symm k (h k)⟩
    rcases ha : Plugins.new plugins with _ | _ | _ <;> rcases hb : Plugins.new plugins' with _ | _ | _ <;>
      rw [ha, hb] at e <;> simp [Res.isOk] at e ⊢
  · intro ps qs h1 h2
    have hks : ∀ k, ps.hook k = qs.hook k := by
      intro k
      have e : ∀ n, ps.hook k = some n ↔ qs.hook k = some n := by
        intro n
        rw [C38_bound plugins ps h1, C38_bound plugins' qs h2]
        exact ⟨fun ⟨p, hm, h⟩ => ⟨p, hp.mem_iff.mp hm, h⟩, fun ⟨p, hm, h⟩ => ⟨p, hp.mem_iff.mpr hm, h⟩⟩
      rcases ha : ps.hook k with _ | n
      · rcases hb : qs.hook k with _ | n
        · rfl
        · have := (e n).mpr hb; rw [ha] at this; cases this
      · exact ((e n).mp ha).symm
    rcases newLoop_spec plugins ⟨[], none, none, none, none, []⟩ with ⟨ps1, g1, _, g2, g2'⟩ | ⟨⟨m, g1⟩, _⟩
    rotate_left
    · rw [Plugins.new, g1] at h1; cases h1
    rcases newLoop_spec plugins' ⟨[], none, none, none, none, []⟩ with ⟨qs1, g3, _, g4, g4'⟩ | ⟨⟨m, g3⟩, _⟩
    rotate_left
    · rw [Plugins.new, g3] at h2; cases h2
    rw [Plugins.new, g1] at h1
    rw [Plugins.new, g3] at h2
    injection h1 with h1
    injection h2 with h2
    subst h1 h2
    refine ⟨?_, hks, by rw [g2', g4']⟩
    intro n
    rw [g2, g4]
    have hn' : (plugins'.map (·.name)).Nodup := (hp.map _).nodup hn
    have e : plugins.reverse.find? (fun p => decide (p.name = n)) =
        plugins'.reverse.find? (fun p => decide (p.name = n)) := by
      apply Option.ext
      intro p
      rw [find_name _ hn, find_name _ hn', hp.mem_iff]
    rw [e]

/-- C39, consequence: with such sets expansion and generation return the same and make the same
calls. -/
theorem C39_same_result (checks : Bool) (a : AST) (ps qs : Plugins W) (h : Alike ps qs) :
    (expander a ps).1 = (expander a qs).1 ∧ (expander a ps).2.log = (expander a qs).2.log ∧
    (generate checks a ps).1 = (generate checks a qs).1 ∧
    (generate checks a ps).2.log = (generate checks a qs).2.log := by
  have h1 := blind_closed.expander a ps qs h
  have h2 := blind_closed.generate checks a ps qs h
  exact ⟨h1.1, h1.2.log, h2.1, h2.2.log⟩

/-- Two plugins in both orders: the hash maps differ. -/
example : [named ['a'] allHooks, named ['b'] noHooks].Perm [named ['b'] noHooks, named ['a'] allHooks] ∧
    ([named ['a'] allHooks, named ['b'] noHooks].map (·.name)).Nodup ∧
    (Plugins.new [named ['a'] allHooks, named ['b'] noHooks]).isOk = true :=
  ⟨List.Perm.swap _ _ _, by decide, by decide +kernel⟩

/-- For two plugins with the same name the order does matter: the last one counts. -/
theorem C39_same_name_refuted : ∃ (p q : Plugin sampleWasm) (ps qs : Plugins sampleWasm),
    Plugins.new [p, q] = .ok ps ∧ Plugins.new [q, p] = .ok qs ∧
    ps.signature ['a'] ['f'] .inline ≠ qs.signature ['a'] ['f'] .inline := by
  refine ⟨named ['a'] noHooks, ⟨['a'], (0 : Nat), [], noHooks⟩, _, _, rfl, rfl, ?_⟩
  intro h
  cases h

/-! ### C40 -/

/-- C40: exactly when a plugin is accepted: the file loads and reports metadata in which each enabled
hook occurs, with the required return type only. Otherwise an error is returned. -/
theorem C40_loads_iff (W : Wasm) (name : Str) (file : Bytes) (flag : FeatureFlag) :
    ((∃ p, Plugin.new W name file flag = .ok p) ↔ ∃ ms, W.reports file = some ms ∧ Loadable ms flag) ∧
    Plugin.new W name file flag ≠ .panic := by
  rcases plugin_new_cases W name file flag with ⟨h1, e, h2⟩ | ⟨ms, h1, ⟨s, sigs, h2, h3, _⟩ | ⟨⟨e, h2⟩, h3⟩⟩
  · rw [h1, h2]; simp
  · rw [h1, h2]
    exact ⟨⟨fun _ => ⟨ms, rfl, h3⟩, fun _ => ⟨_, rfl⟩⟩, by simp⟩
  · rw [h1, h2]
    simp [h3]

/-- C40: an accepted plugin has the given name and flags, and offers exactly the reported commands (the
last one for each name and return type). -/
theorem C40_loaded (W : Wasm) (name : Str) (file : Bytes) (flag : FeatureFlag) (p : Plugin W)
    (h : Plugin.new W name file flag = .ok p) :
    p.name = name ∧ p.flag = flag ∧ ∃ ms, W.reports file = some ms ∧
      ∀ c t, p.signatures.get (c, t) = declared ms c t := by
  rcases plugin_new_cases W name file flag with ⟨h1, e, h2⟩ | ⟨ms, h1, ⟨s, sigs, h2, h3, h4⟩ | ⟨⟨e, h2⟩, h3⟩⟩
  · rw [h2] at h; cases h
  · rw [h2] at h
    injection h with h
    subst h
    exact ⟨rfl, rfl, ms, h1, h4⟩
  · rw [h2] at h; cases h

/-- C40: so each enabled hook is a command it offers, with the required return type. -/
theorem C40_hook_exists (W : Wasm) (name : Str) (file : Bytes) (flag : FeatureFlag) (p : Plugin W)
    (h : Plugin.new W name file flag = .ok p) (k : Hook) (hk : k.enabled flag = true) :
    ∃ ms m, W.reports file = some ms ∧ m ∈ ms ∧ m.commandName = k.command ∧ m.returnType = k.typ ∧
      p.signatures.get (k.command, k.typ) = some m := by
  obtain ⟨ms, h1, h2⟩ := (C40_loads_iff W name file flag).1.mp ⟨p, h⟩
  obtain ⟨_, _, ms', h3, h4⟩ := C40_loaded W name file flag p h
  rw [h1] at h3
  injection h3 with h3
  subst h3
  obtain ⟨⟨m, hm, hc⟩, hr⟩ := h2 k hk
  rcases hf : declared ms k.command k.typ with _ | x
  · have := List.find?_eq_none.mp hf m (by simpa using hm)
    exact absurd (decide_eq_true ⟨hc, hr m hm hc⟩) this
  · have hx : x.commandName = k.command ∧ x.returnType = k.typ := by
      have := List.find?_some hf
      simpa using this
    exact ⟨ms, x, h1, by simpa using List.mem_of_find?_eq_some hf, hx.1, hx.2, by rw [h4, hf]⟩

/-- C40 (partial): if plugins with distinct names are loaded, the plugin of each hook exists and offers
the hook. Missing: plugins with the same name (`C40_missing_refuted`). -/
theorem C40_hook_found_partial (W : Wasm) (files : List (Str × Bytes × FeatureFlag))
    (plugins : List (Plugin W)) (ps : Plugins W)
    (hl : files.map (fun f => Plugin.new W f.1 f.2.1 f.2.2) = plugins.map .ok)
    (hn : (files.map (·.1)).Nodup) (h : Plugins.new plugins = .ok ps) : ps.HooksExist := by
  have hall : ∀ p ∈ plugins, ∃ f ∈ files, Plugin.new W f.1 f.2.1 f.2.2 = .ok p := by
    intro p hp
    have : Res.ok p ∈ plugins.map Res.ok := List.mem_map.mpr ⟨p, hp, rfl⟩
    rw [← hl] at this
    obtain ⟨f, hf, h⟩ := List.mem_map.mp this
    exact ⟨f, hf, h⟩
  have hnames : plugins.map (·.name) = files.map (·.1) := by
    clear hn h hall
    induction files generalizing plugins with
    | nil =>
      rcases plugins with _ | ⟨p, plugins⟩
      · rfl
      · cases hl
    | cons f fs ih =>
      rcases plugins with _ | ⟨p, plugins⟩
      · cases hl
      · simp only [List.map_cons, List.cons.injEq] at hl ⊢
        exact ⟨(C40_loaded W _ _ _ p hl.1).1, ih plugins hl.2⟩
  have hn' : (plugins.map (·.name)).Nodup := by rw [hnames]; exact hn
  have key : ∀ (k : Hook) n, ps.hook k = some n → (ps.signature n k.command k.typ).isSome = true := by
    intro k n hk
    obtain ⟨p, hp, hf, hname⟩ := (C38_bound plugins ps h k n).mp hk
    obtain ⟨f, hfm, hload⟩ := hall p hp
    obtain ⟨e1, e2, _⟩ := C40_loaded W _ _ _ p hload
    obtain ⟨ms, m, _, _, _, _, hsig⟩ := C40_hook_exists W _ _ _ p hload k (by rw [← e2]; exact hf)
    rcases newLoop_spec plugins ⟨[], none, none, none, none, []⟩ with ⟨ps1, g1, _, g2, _⟩ | ⟨⟨m, g1⟩, _⟩
    · rw [Plugins.new, g1] at h
      injection h with h
      subst h
      have hget : ps1.nameToPlugin.get n = some p := by
        rw [g2, (find_name plugins hn' n p).mpr ⟨hp, hname⟩]
        rfl
      rw [Plugins.signature, hget]
      simp [hsig]
    · rw [Plugins.new, g1] at h; cases h
  exact ⟨key .document, key .stmt, key .expr, key .text⟩

/-- C40: and then calling a hook always reaches the plugin: the call is made, and its result is
returned. -/
theorem C40_hook_call (ps : Plugins W) (h : ps.HooksExist) (k : Hook) (args : List Value) :
    (ps.hook k = none ∧ Hook.call args k ps = (.ok none, ps)) ∨
    ∃ n out, ps.hook k = some n ∧
      (Hook.call args k ps).2.log = ps.log ++ [⟨n, k.command, k.typ, .values args, out⟩] ∧
      ((∃ s, out = .text s ∧ (Hook.call args k ps).1 = .ok (some s)) ∨
        (out = .failed ∧ (Hook.call args k ps).1.isErr = true)) := by
  have key : ∀ n c t, (ps.signature n c t).isSome = true → ∃ out,
      (Plugins.callText n c t args ps).2.log = ps.log ++ [⟨n, c, t, .values args, out⟩] ∧
      ((∃ s, out = .text s ∧ (Plugins.callText n c t args ps).1 = .ok s) ∨
        (out = .failed ∧ ∃ m, (Plugins.callText n c t args ps).1 = .err m)) := by
    intro n c t hs
    rw [Plugins.signature] at hs
    rw [Plugins.callText]
    generalize ps.nameToPlugin.get n = o at hs
    rcases o with _ | p
    · cases hs
    simp only at hs ⊢
    generalize p.signatures.get (c, t) = o at hs
    rcases o with _ | m
    · cases hs
    simp only
    rcases W.callText p.extism m.callName args with ⟨_ | s, st⟩
    · exact ⟨.failed, rfl, .inr ⟨rfl, _, rfl⟩⟩
    · exact ⟨.text s, rfl, .inl ⟨s, rfl, rfl⟩⟩
  have lifted : ∀ n c t, (ps.signature n c t).isSome = true → ∃ out,
      ((do return some (← Plugins.callText n c t args) : PM W _) ps).2.log =
        ps.log ++ [⟨n, c, t, .values args, out⟩] ∧
      ((∃ s, out = .text s ∧ ((do return some (← Plugins.callText n c t args) : PM W _) ps).1 = .ok (some s)) ∨
        (out = .failed ∧ ((do return some (← Plugins.callText n c t args) : PM W _) ps).1.isErr = true)) := by
    intro n c t hs
    obtain ⟨out, h1, h2⟩ := key n c t hs
    rw [PM.bind_run]
    rcases hr : Plugins.callText n c t args ps with ⟨s | m | _, ps'⟩
    · rw [hr] at h1 h2
      refine ⟨out, h1, ?_⟩
      rcases h2 with ⟨s', h3, h4⟩ | ⟨_, m, h4⟩
      · injection h4 with h4
        subst h4
        exact .inl ⟨s, h3, rfl⟩
      · cases h4
    · rw [hr] at h1 h2
      refine ⟨out, h1, ?_⟩
      rcases h2 with ⟨s', h3, h4⟩ | ⟨h3, _⟩
      · cases h4
      · exact .inr ⟨h3, rfl⟩
    · rw [hr] at h2
      rcases h2 with ⟨s', h3, h4⟩ | ⟨h3, _, h4⟩ <;> cases h4
  rcases hk : ps.hook k with _ | n
  · refine .inl ⟨rfl, ?_⟩
    rcases k <;> simp only [Plugins.hook] at hk <;>
      simp only [Hook.call, Plugins.callDocumentHook, Plugins.callStmtHook, Plugins.callExprHook,
        Plugins.callTextHook, hk]
  · refine .inr ?_
    rcases k <;> simp only [Plugins.hook] at hk <;>
      simp only [Hook.call, Plugins.callDocumentHook, Plugins.callStmtHook, Plugins.callExprHook,
        Plugins.callTextHook, hk]
    · obtain ⟨out, h1⟩ := lifted n _ _ (h.1 n hk)
      exact ⟨n, out, rfl, h1⟩
    · obtain ⟨out, h1⟩ := lifted n _ _ (h.2.1 n hk)
      exact ⟨n, out, rfl, h1⟩
    · obtain ⟨out, h1⟩ := lifted n _ _ (h.2.2.1 n hk)
      exact ⟨n, out, rfl, h1⟩
    · obtain ⟨out, h1⟩ := lifted n _ _ (h.2.2.2 n hk)
      exact ⟨n, out, rfl, h1⟩

/-- The sample plugin loads with all hooks. -/
example : ∃ p ps, Plugin.new sampleWasm ['p'] [1] allHooks = .ok p ∧ Plugins.new [p] = .ok ps ∧
    ps.hook .expr = some ['p'] := ⟨_, _, rfl, rfl, rfl⟩

/-- WebAssembly for the next theorem: a file starting with 1 offers the document hook, others
nothing. -/
def pickyWasm : Wasm where
  State := Bytes
  load b := .ok b
  metadata b := (.ok (if b = [1] then [⟨chars! "document", chars! "d", [(['x'], .inline)], .block⟩] else []), b)
  callText b _ _ := (.ok [], b)
  callMacro b _ a _ := (.ok a, b)

/-- C40 refuted for plugins with the same name: both are accepted, the hook is bound to the name, but
the second plugin of that name does not offer it, and so calling the hook fails although no plugin
was called. -/
theorem C40_missing_refuted : ∃ (p q : Plugin pickyWasm) (ps : Plugins pickyWasm),
    Plugin.new pickyWasm ['a'] [1] ⟨true, false, false, false⟩ = .ok p ∧
    Plugin.new pickyWasm ['a'] [2] noHooks = .ok q ∧ Plugins.new [p, q] = .ok ps ∧
    (Hook.call [.text []] .document ps).1.isErr = true ∧
    (Hook.call [.text []] .document ps).2.log = [] := by
  refine ⟨_, _, _, rfl, rfl, rfl, rfl, rfl⟩

/-! ### C61 -/

/-- C61: all calls recorded during expansion and generation are answered by the plugin of that name,
by the function it declares for the command and return type, in the state its previous calls left
it in, and the recorded output is what this function returned. Calls to one plugin do not affect
the others. -/
theorem C61_served (checks : Bool) (a : AST) (ps : Plugins W) :
    (∃ calls, (expander a ps).2.log = ps.log ++ calls ∧
      Served (fun n => ps.nameToPlugin.get n) calls (fun n => (expander a ps).2.nameToPlugin.get n)) ∧
    (∃ calls, (generate checks a ps).2.log = ps.log ++ calls ∧
      Served (fun n => ps.nameToPlugin.get n) calls (fun n => (generate checks a ps).2.nameToPlugin.get n)) :=
  ⟨serves_closed.expander a ps, serves_closed.generate checks a ps⟩

/-- Two commands of one plugin, whose state counts the calls. -/
example : (generate true (docOf [commandWith .square ['p'] ['f'] [], commandWith .square ['p'] ['f'] []])
    (sampleSet noHooks)).2.log.length = 2 ∧
    ((generate true (docOf [commandWith .square ['p'] ['f'] [], commandWith .square ['p'] ['f'] []])
    (sampleSet noHooks)).2.nameToPlugin.get ['p']).map (fun p => (p.extism : Nat)) = some 2 := by
  decide +kernel

end Brack
