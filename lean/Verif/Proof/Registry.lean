import Verif.Proof.PMLemmas
import Verif.Spec.Registry

/-
Helper lemmas on loading plugins and on plugin sets that cannot be told apart.
-/

namespace Brack

variable {W : Wasm}

/-! ### `Plugins::new` -/

theorem claimHook_eq (en : Bool) (n : Str) (cur : Option Str) (msg : String) :
    claimHook en n cur msg =
      if en = true ∧ cur.isSome = true then .err msg else .ok (if en then some n else cur) := by
  rcases en with _ | _ <;> rcases cur with _ | _ <;> simp [claimHook]

/-- The set with one more plugin. -/
def withPlugin (ps : Plugins W) (p : Plugin W) : Plugins W :=
  ⟨ps.nameToPlugin.insert p.name p, if p.flag.documentHook then some p.name else ps.documentHook,
    if p.flag.stmtHook then some p.name else ps.stmtHook,
    if p.flag.exprHook then some p.name else ps.exprHook,
    if p.flag.textHook then some p.name else ps.textHook, ps.log⟩

theorem newLoop_cons (p : Plugin W) (rest : List (Plugin W)) (ps : Plugins W) :
    ((∃ k : Hook, k.enabled p.flag = true ∧ (ps.hook k).isSome = true) ∧
      ∃ m, Plugins.newLoop (p :: rest) ps = .err m) ∨
    ((∀ k : Hook, k.enabled p.flag = true → ps.hook k = none) ∧
      Plugins.newLoop (p :: rest) ps = Plugins.newLoop rest (withPlugin ps p)) := by
  by_cases hd : p.flag.documentHook = true ∧ ps.documentHook.isSome = true
  · exact .inl ⟨⟨.document, hd⟩, _, by rw [Plugins.newLoop, claimHook_eq, if_pos hd]; rfl⟩
  by_cases hs : p.flag.stmtHook = true ∧ ps.stmtHook.isSome = true
  · exact .inl ⟨⟨.stmt, hs⟩, _, by
      rw [Plugins.newLoop]; simp only [claimHook_eq]; rw [if_neg hd, if_pos hs]; rfl⟩
  by_cases he : p.flag.exprHook = true ∧ ps.exprHook.isSome = true
  · exact .inl ⟨⟨.expr, he⟩, _, by
      rw [Plugins.newLoop]; simp only [claimHook_eq]; rw [if_neg hd, if_neg hs, if_pos he]; rfl⟩
  by_cases ht : p.flag.textHook = true ∧ ps.textHook.isSome = true
  · exact .inl ⟨⟨.text, ht⟩, _, by
      rw [Plugins.newLoop]; simp only [claimHook_eq]; rw [if_neg hd, if_neg hs, if_neg he, if_pos ht]; rfl⟩
  refine .inr ⟨?_, ?_⟩
  · intro k hk
    rcases k <;> simp only [Hook.enabled, Plugins.hook] at hk ⊢
    · rcases h : ps.documentHook with _ | _
      · rfl
      · exact absurd ⟨hk, by rw [h]; rfl⟩ hd
    · rcases h : ps.stmtHook with _ | _
      · rfl
      · exact absurd ⟨hk, by rw [h]; rfl⟩ hs
    · rcases h : ps.exprHook with _ | _
      · rfl
      · exact absurd ⟨hk, by rw [h]; rfl⟩ he
    · rcases h : ps.textHook with _ | _
      · rfl
      · exact absurd ⟨hk, by rw [h]; rfl⟩ ht
  · rw [Plugins.newLoop]
    simp only [claimHook_eq]
    rw [if_neg hd, if_neg hs, if_neg he, if_neg ht]
    rfl

theorem withPlugin_hook (ps : Plugins W) (p : Plugin W) (k : Hook) :
    (withPlugin ps p).hook k = if k.enabled p.flag then some p.name else ps.hook k := by
  rcases k <;> rfl

theorem withPlugin_get (ps : Plugins W) (p : Plugin W) (n : Str) :
    (withPlugin ps p).nameToPlugin.get n = if n = p.name then some p else ps.nameToPlugin.get n := by
  rw [withPlugin]; simp only [HMap.get_insert]

/-- No two elements satisfy the predicate. -/
def AtMostOne (f : α → Bool) (l : List α) : Prop :=
  ∀ (i j : Nat) x y, l[i]? = some x → l[j]? = some y → f x = true → f y = true → i = j

theorem atMostOne_cons (f : α → Bool) (a : α) (l : List α) :
    AtMostOne f (a :: l) ↔ (f a = true → ∀ x ∈ l, f x = false) ∧ AtMostOne f l := by
  constructor
  · intro h
    refine ⟨?_, ?_⟩
    · intro ha x hx
      obtain ⟨j, hj⟩ := List.getElem?_of_mem hx
      rcases hf : f x with _ | _
      · rfl
      · have := h 0 (j + 1) a x rfl (by simpa using hj) ha hf
        omega
    · intro i j x y hx hy h1 h2
      have := h (i + 1) (j + 1) x y (by simpa using hx) (by simpa using hy) h1 h2
      omega
  · rintro ⟨h1, h2⟩ i j x y hx hy hfx hfy
    rcases i with _ | i <;> rcases j with _ | j
    · rfl
    · simp at hx hy; subst hx
      have := h1 hfx y (List.mem_of_getElem? hy)
      rw [this] at hfy; cases hfy
    · simp at hx hy; subst hy
      have := h1 hfy x (List.mem_of_getElem? hx)
      rw [this] at hfx; cases hfx
    · simp at hx hy
      have := h2 i j x y hx hy hfx hfy
      omega

theorem newLoop_spec : ∀ (pl : List (Plugin W)) (ps : Plugins W),
    (∃ qs, Plugins.newLoop pl ps = .ok qs ∧
      (∀ k : Hook, AtMostOne (fun p => k.enabled p.flag) pl ∧
        (∀ p ∈ pl, k.enabled p.flag = true → ps.hook k = none) ∧
        ∀ n, qs.hook k = some n ↔ ps.hook k = some n ∨ ∃ p ∈ pl, k.enabled p.flag = true ∧ p.name = n) ∧
      (∀ n, qs.nameToPlugin.get n = ((pl.reverse.find? (fun p => decide (p.name = n))).or (ps.nameToPlugin.get n))) ∧
      qs.log = ps.log) ∨
    ((∃ m, Plugins.newLoop pl ps = .err m) ∧ ∃ k : Hook, ¬ (AtMostOne (fun p => k.enabled p.flag) pl ∧
        (∀ p ∈ pl, k.enabled p.flag = true → ps.hook k = none)))
  | [], ps => .inl ⟨ps, rfl, fun k => ⟨by intro i j x y h; simp at h, by simp, by simp⟩, by simp, rfl⟩
  | p :: rest, ps => by
    rcases newLoop_cons p rest ps with ⟨⟨k, hk, hs⟩, hm⟩ | ⟨hn, he⟩
    · refine .inr ⟨hm, k, ?_⟩
      rintro ⟨_, h⟩
      rw [h p (by simp) hk] at hs
      cases hs
    · rw [he]
      rcases newLoop_spec rest (withPlugin ps p) with ⟨qs, h1, h2, h3, h4⟩ | ⟨h1, k, h2⟩
      · refine .inl ⟨qs, h1, ?_, ?_, h4⟩
        · intro k
          obtain ⟨ha, hb, hc⟩ := h2 k
          have hoff : k.enabled p.flag = true → ∀ x ∈ rest, k.enabled x.flag = false := by
            intro hk x hx
            rcases hf : k.enabled x.flag with _ | _
            · rfl
            · have := hb x hx hf
              rw [withPlugin_hook, if_pos hk] at this
              cases this
          refine ⟨(atMostOne_cons _ _ _).mpr ⟨hoff, ha⟩, ?_, ?_⟩
          · intro x hx hxk
            rcases List.mem_cons.mp hx with rfl | hx
            · exact hn k hxk
            · have := hb x hx hxk
              rw [withPlugin_hook] at this
              split at this
              · cases this
              · exact this
          · intro n
            rw [hc n, withPlugin_hook]
            by_cases hk : k.enabled p.flag = true
            · rw [if_pos hk, hn k hk]
              simp [hk]
            · rw [if_neg hk]
              simp [hk]
        · intro n
          rw [h3, withPlugin_get, List.reverse_cons, List.find?_append]
          generalize rest.reverse.find? (fun p => decide (p.name = n)) = o
          rcases o with _ | x
          · by_cases hp : p.name = n
            · subst hp; simp
            · simp [hp, Ne.symm hp]
          · simp
      · refine .inr ⟨h1, k, ?_⟩
        rintro ⟨ha, hb⟩
        apply h2
        obtain ⟨hc, hd⟩ := (atMostOne_cons _ _ _).mp ha
        refine ⟨hd, ?_⟩
        intro x hx hxk
        rw [withPlugin_hook]
        split
        · next hk => rw [hc hk x hx] at hxk; cases hxk
        · exact hb x (by simp [hx]) hxk

/-! ### `Plugin::new` -/

theorem newStep_spec (f : FeatureFlag) (m : Metadata) (seen : HooksSeen) (sigs : HMap (Str × PType) Metadata) :
    (∃ seen', newStep f m seen sigs = .ok (seen', sigs.insert (m.commandName, m.returnType) m) ∧
      (∀ k : Hook, k.enabled f = true → m.commandName = k.command → m.returnType = k.typ) ∧
      ∀ k : Hook, k.enabled seen' = (k.enabled seen || (decide (m.commandName = k.command) && k.enabled f))) ∨
    ((∃ e, newStep f m seen sigs = .err e) ∧
      ∃ k : Hook, k.enabled f = true ∧ m.commandName = k.command ∧ m.returnType ≠ k.typ) := by
  unfold newStep
  simp only
  by_cases h1 : (m.commandName = chars! "document" ∧ f.documentHook = true) ∧ m.returnType ≠ .block
  · exact .inr ⟨⟨_, if_pos h1⟩, .document, h1.1.2, h1.1.1, h1.2⟩
  rw [if_neg h1]
  by_cases h2 : (m.commandName = chars! "stmt" ∧ f.stmtHook = true) ∧ m.returnType ≠ .block
  · exact .inr ⟨⟨_, if_pos h2⟩, .stmt, h2.1.2, h2.1.1, h2.2⟩
  rw [if_neg h2]
  by_cases h3 : (m.commandName = chars! "expr" ∧ f.exprHook = true) ∧ m.returnType ≠ .inline
  · exact .inr ⟨⟨_, if_pos h3⟩, .expr, h3.1.2, h3.1.1, h3.2⟩
  rw [if_neg h3]
  by_cases h4 : (m.commandName = chars! "text" ∧ f.textHook = true) ∧ m.returnType ≠ .inline
  · exact .inr ⟨⟨_, if_pos h4⟩, .text, h4.1.2, h4.1.1, h4.2⟩
  rw [if_neg h4]
  refine .inl ⟨_, rfl, ?_, ?_⟩
  · intro k hk hc
    apply Classical.byContradiction
    intro hr
    rcases k
    · exact h1 ⟨⟨hc, hk⟩, hr⟩
    · exact h2 ⟨⟨hc, hk⟩, hr⟩
    · exact h3 ⟨⟨hc, hk⟩, hr⟩
    · exact h4 ⟨⟨hc, hk⟩, hr⟩
  · intro k
    rcases k <;> simp only [Hook.enabled, Hook.command]
    · by_cases hc : m.commandName = chars! "document" <;> simp [hc]
    · by_cases hc : m.commandName = chars! "stmt" <;> simp [hc]
    · by_cases hc : m.commandName = chars! "expr" <;> simp [hc]
    · by_cases hc : m.commandName = chars! "text" <;> simp [hc]

theorem newLoop_meta (f : FeatureFlag) : ∀ (ms : List Metadata) (seen : HooksSeen)
    (sigs : HMap (Str × PType) Metadata),
    (∃ seen' sigs', newLoop f ms seen sigs = .ok (seen', sigs') ∧
      (∀ k : Hook, k.enabled f = true → ∀ m ∈ ms, m.commandName = k.command → m.returnType = k.typ) ∧
      (∀ k : Hook, k.enabled f = true → (k.enabled seen' = true ↔
        k.enabled seen = true ∨ ∃ m ∈ ms, m.commandName = k.command)) ∧
      ∀ c t, sigs'.get (c, t) = (declared ms c t).or (sigs.get (c, t))) ∨
    ((∃ e, newLoop f ms seen sigs = .err e) ∧
      ∃ k : Hook, k.enabled f = true ∧ ∃ m ∈ ms, m.commandName = k.command ∧ m.returnType ≠ k.typ)
  | [], seen, sigs => .inl ⟨seen, sigs, rfl, by simp, by simp, by simp [declared]⟩
  | m :: ms, seen, sigs => by
    rcases newStep_spec f m seen sigs with ⟨seen1, h1, h2, h3⟩ | ⟨⟨e, h1⟩, k, h2, h3, h4⟩
    · simp only [newLoop, h1]
      rcases newLoop_meta f ms seen1 (sigs.insert (m.commandName, m.returnType) m) with
        ⟨seen', sigs', g1, g2, g3, g4⟩ | ⟨g1, k, g2, x, gx, g3⟩
      · refine .inl ⟨seen', sigs', g1, ?_, ?_, ?_⟩
        · intro k hk x hx hc
          rcases List.mem_cons.mp hx with rfl | hx
          · exact h2 k hk hc
          · exact g2 k hk x hx hc
        · intro k hk
          rw [g3 k hk, h3 k, hk]
          simp [or_assoc]
        · intro c t
          rw [g4, declared, declared, List.reverse_cons, List.find?_append, HMap.get_insert]
          generalize ms.reverse.find? (fun m => decide (m.commandName = c ∧ m.returnType = t)) = o
          rcases o with _ | x
          · by_cases hm : m.commandName = c ∧ m.returnType = t
            · obtain ⟨rfl, rfl⟩ := hm; simp
            · have : ¬ (c, t) = (m.commandName, m.returnType) := by
                intro h
                injection h with ha hb
                exact hm ⟨ha.symm, hb.symm⟩
              simp [hm, this]
          · simp
      · exact .inr ⟨g1, k, g2, x, by simp [gx], g3⟩
    · refine .inr ⟨⟨e, by simp only [newLoop, h1]⟩, k, h2, m, by simp, h3, h4⟩

/-- `Plugin::new` after the metadata have been read. -/
theorem plugin_new_cases (W : Wasm) (name : Str) (file : Bytes) (flag : FeatureFlag) :
    (W.reports file = none ∧ ∃ e, Plugin.new W name file flag = .err e) ∨
    ∃ ms, W.reports file = some ms ∧
      ((∃ s sigs, Plugin.new W name file flag = .ok ⟨name, s, sigs, flag⟩ ∧ Loadable ms flag ∧
        ∀ c t, sigs.get (c, t) = declared ms c t) ∨
      (∃ e, Plugin.new W name file flag = .err e) ∧ ¬ Loadable ms flag) := by
  rcases hl : W.load file with e | s
  · exact .inl ⟨by simp only [Wasm.reports, hl], e, by simp only [Plugin.new, hl]⟩
  rcases hm : W.metadata s with ⟨e | ms, s'⟩
  · exact .inl ⟨by simp only [Wasm.reports, hl, hm], e, by simp only [Plugin.new, hl, hm]⟩
  refine .inr ⟨ms, by simp only [Wasm.reports, hl, hm], ?_⟩
  rcases newLoop_meta flag ms ⟨false, false, false, false⟩ [] with
    ⟨seen', sigs', g1, g2, g3, g4⟩ | ⟨⟨e, g1⟩, k, g2, x, gx, g3, g4⟩
  · simp only [Plugin.new, hl, hm, g1]
    have gs : ∀ k : Hook, k.enabled flag = true →
        (k.enabled seen' = true ↔ ∃ m ∈ ms, m.commandName = k.command) := by
      intro k hk
      rw [g3 k hk]
      rcases k <;> simp [Hook.enabled]
    have bad : ∀ k : Hook, k.enabled flag = true → k.enabled seen' = false → ¬ Loadable ms flag := by
      intro k hk hs hl
      have := (gs k hk).mpr (hl k hk).1
      rw [this] at hs
      cases hs
    have bool : ∀ {a b : Bool}, (a && !b) = true → a = true ∧ b = false := by decide
    have bool2 : ∀ {a b : Bool}, ¬ (a && !b) = true → a = true → b = true := by decide
    by_cases h1 : (flag.documentHook && !seen'.documentHook) = true
    · rw [if_pos h1]; exact .inr ⟨⟨_, rfl⟩, bad .document (bool h1).1 (bool h1).2⟩
    rw [if_neg h1]
    by_cases h2 : (flag.stmtHook && !seen'.stmtHook) = true
    · rw [if_pos h2]; exact .inr ⟨⟨_, rfl⟩, bad .stmt (bool h2).1 (bool h2).2⟩
    rw [if_neg h2]
    by_cases h3 : (flag.exprHook && !seen'.exprHook) = true
    · rw [if_pos h3]; exact .inr ⟨⟨_, rfl⟩, bad .expr (bool h3).1 (bool h3).2⟩
    rw [if_neg h3]
    by_cases h4 : (flag.textHook && !seen'.textHook) = true
    · rw [if_pos h4]; exact .inr ⟨⟨_, rfl⟩, bad .text (bool h4).1 (bool h4).2⟩
    rw [if_neg h4]
    refine .inl ⟨s', sigs', rfl, ?_, by intro c t; rw [g4]; simp [HMap.get]⟩
    intro k hk
    refine ⟨(gs k hk).mp ?_, g2 k hk⟩
    rcases k
    · exact bool2 h1 hk
    · exact bool2 h2 hk
    · exact bool2 h3 hk
    · exact bool2 h4 hk
  · refine .inr ⟨⟨e, by simp only [Plugin.new, hl, hm, g1]⟩, ?_⟩
    intro h
    exact g4 ((h k g2).2 x gx g3)

theorem name_inj : ∀ (l : List (Plugin W)), (l.map (·.name)).Nodup → ∀ x ∈ l, ∀ y ∈ l, x.name = y.name → x = y
  | [], _, _, h, _, _, _ => by cases h
  | p :: l, hn, x, hx, y, hy, hxy => by
    rw [List.map_cons, List.nodup_cons] at hn
    rcases List.mem_cons.mp hx with hx1 | hx1 <;> rcases List.mem_cons.mp hy with hy1 | hy1
    · rw [hx1, hy1]
    · exact absurd (List.mem_map.mpr ⟨y, hy1, by rw [← hxy, hx1]⟩) hn.1
    · exact absurd (List.mem_map.mpr ⟨x, hx1, by rw [hxy, hy1]⟩) hn.1
    · exact name_inj l hn.2 x hx1 y hy1 hxy

theorem find_name (l : List (Plugin W)) (hn : (l.map (·.name)).Nodup) (n : Str) (p : Plugin W) :
    l.reverse.find? (fun p => decide (p.name = n)) = some p ↔ p ∈ l ∧ p.name = n := by
  constructor
  · intro h
    have h1 := List.find?_some h
    exact ⟨by simpa using List.mem_of_find?_eq_some h, by simpa using h1⟩
  · rintro ⟨hp, hname⟩
    generalize hb : l.reverse.find? (fun p => decide (p.name = n)) = o
    rcases o with _ | y
    · have := List.find?_eq_none.mp hb p (by simpa using hp)
      exact absurd (decide_eq_true hname) this
    · have hy : y ∈ l := by simpa using List.mem_of_find?_eq_some hb
      have hyn := List.find?_some hb
      rw [name_inj l hn y hy p hp (by rw [hname]; simpa using hyn)]

/-! ### Plugin sets that cannot be told apart -/

theorem Alike.refl (ps : Plugins W) : Alike ps ps := ⟨fun _ => rfl, fun _ => rfl, rfl⟩

/-- A computation that treats alike sets alike. -/
def Blind (x : PM W α) : Prop :=
  ∀ ps qs, Alike ps qs → (x ps).1 = (x qs).1 ∧ Alike (x ps).2 (x qs).2

theorem Blind.pure (a : α) : Blind (Pure.pure a : PM W α) := fun _ _ h => ⟨rfl, h⟩

theorem Blind.lift (r : Res α) : Blind (PM.lift r : PM W α) := fun _ _ h => ⟨rfl, h⟩

theorem Blind.bail (m : String) : Blind (PM.bail m : PM W α) := fun _ _ h => ⟨rfl, h⟩

theorem Blind.bind {x : PM W α} {f : α → PM W β} (hx : Blind x) (hf : ∀ a, Blind (f a)) :
    Blind (x >>= f) := by
  intro ps qs h
  rw [PM.bind_run, PM.bind_run]
  obtain ⟨h1, h2⟩ := hx ps qs h
  rcases h3 : x ps with ⟨r, ps'⟩
  rcases h4 : x qs with ⟨r', qs'⟩
  rw [h3, h4] at h1 h2
  simp only at h1 h2
  subst h1
  rcases r with a | m | _
  · exact hf a ps' qs' h2
  · exact ⟨rfl, h2⟩
  · exact ⟨rfl, h2⟩

theorem Alike.insert {ps qs : Plugins W} (h : Alike ps qs) (n : Str) (p : Plugin W) (l : List Call) :
    Alike { ps with nameToPlugin := ps.nameToPlugin.insert n p, log := ps.log ++ l }
      { qs with nameToPlugin := qs.nameToPlugin.insert n p, log := qs.log ++ l } := by
  refine ⟨?_, ?_, by simp [h.log]⟩
  · intro m
    simp only [HMap.get_insert, h.plugin]
  · intro k
    rcases k
    · exact h.hook .document
    · exact h.hook .stmt
    · exact h.hook .expr
    · exact h.hook .text

theorem Blind.callText (n c : Str) (t : PType) (vs : List Value) :
    Blind (Plugins.callText n c t vs : PM W Str) := by
  intro ps qs h
  simp only [Plugins.callText, ← h.plugin]
  rcases ps.nameToPlugin.get n with _ | p
  · exact ⟨rfl, h⟩
  · simp only
    rcases p.signatures.get (c, t) with _ | m
    · exact ⟨rfl, h⟩
    · simp only
      rcases W.callText p.extism m.callName vs with ⟨_ | s, st⟩
      · exact ⟨rfl, h.insert _ _ _⟩
      · exact ⟨rfl, h.insert _ _ _⟩

theorem Blind.callMacro (n c : Str) (a : AST) (id : Str) :
    Blind (Plugins.callMacro n c a id : PM W AST) := by
  intro ps qs h
  simp only [Plugins.callMacro, ← h.plugin]
  rcases ps.nameToPlugin.get n with _ | p
  · exact ⟨rfl, h⟩
  · simp only
    generalize p.signatures.get (c, .ast) = o
    rcases o with _ | m
    · exact ⟨rfl, h⟩
    · simp only
      rcases W.callMacro p.extism m.callName a id with ⟨_ | s, st⟩
      · exact ⟨rfl, h.insert _ _ _⟩
      · exact ⟨rfl, h.insert _ _ _⟩

theorem Blind.argumentTypes (n c : Str) (t : PType) :
    Blind (Plugins.argumentTypes n c t : PM W (List (Str × PType))) := by
  intro ps qs h
  simp only [Plugins.argumentTypes, ← h.plugin]
  rcases ps.nameToPlugin.get n with _ | p
  · exact ⟨rfl, h⟩
  · simp only
    rcases p.signatures.get (c, t) with _ | m
    · exact ⟨rfl, h⟩
    · exact ⟨rfl, h⟩

/-! ### Calls as served by the plugins -/

theorem Served.append {f g h : Str → Option (Plugin W)} {c1 c2} (h1 : Served f c1 g) (h2 : Served g c2 h) :
    Served f (c1 ++ c2) h := by
  induction h1 with
  | nil => exact h2
  | command a b c _ ih => exact .command a b c (ih h2)
  | tree a b c _ ih => exact .tree a b c (ih h2)

/-- A computation whose calls are all served by the plugins. -/
def Serves (x : PM W α) : Prop :=
  ∀ ps, ∃ calls, (x ps).2.log = ps.log ++ calls ∧
    Served (fun n => ps.nameToPlugin.get n) calls (fun n => (x ps).2.nameToPlugin.get n)

theorem Serves.pure (a : α) : Serves (Pure.pure a : PM W α) := fun _ => ⟨[], by simp [PM.pure_run]; rfl, .nil⟩

theorem Serves.lift (r : Res α) : Serves (PM.lift r : PM W α) := fun _ => ⟨[], by simp [PM.lift_run], .nil⟩

theorem Serves.bail (m : String) : Serves (PM.bail m : PM W α) := fun _ => ⟨[], by simp [PM.bail_run], .nil⟩

theorem Serves.bind {x : PM W α} {f : α → PM W β} (hx : Serves x) (hf : ∀ a, Serves (f a)) :
    Serves (x >>= f) := by
  intro ps
  rw [PM.bind_run]
  obtain ⟨calls, h1, h2⟩ := hx ps
  rcases h3 : x ps with ⟨a | m | _, ps'⟩
  · rw [h3] at h1 h2
    obtain ⟨calls', h4, h5⟩ := hf a ps'
    exact ⟨calls ++ calls', by simp only; rw [h4, h1]; simp, h2.append h5⟩
  · rw [h3] at h1 h2; exact ⟨calls, h1, h2⟩
  · rw [h3] at h1 h2; exact ⟨calls, h1, h2⟩

theorem Serves.argumentTypes (n c : Str) (t : PType) :
    Serves (Plugins.argumentTypes n c t : PM W (List (Str × PType))) := by
  intro ps
  refine ⟨[], ?_⟩
  simp only [Plugins.argumentTypes]
  rcases ps.nameToPlugin.get n with _ | p
  · exact ⟨by simp, .nil⟩
  · simp only
    rcases p.signatures.get (c, t) with _ | m
    · exact ⟨by simp, .nil⟩
    · exact ⟨by simp, .nil⟩

theorem afterCall_insert (ps : Plugins W) (n : Str) (p : Plugin W) (st : W.State) :
    afterCall (fun n => ps.nameToPlugin.get n) n p st =
      fun m => (ps.nameToPlugin.insert n { p with extism := st }).get m := by
  funext m
  simp only [afterCall, HMap.get_insert]

theorem Serves.callText (n c : Str) (t : PType) (vs : List Value) :
    Serves (Plugins.callText n c t vs : PM W Str) := by
  intro ps
  simp only [Plugins.callText]
  rcases hp : ps.nameToPlugin.get n with _ | p
  · exact ⟨[], by simp, .nil⟩
  · simp only
    rcases hm : p.signatures.get (c, t) with _ | m
    · exact ⟨[], by simp, .nil⟩
    · simp only
      rcases hw : W.callText p.extism m.callName vs with ⟨_ | s, st⟩
      · exact ⟨_, rfl, .command hp hm hw (by rw [afterCall_insert]; exact .nil)⟩
      · exact ⟨_, rfl, .command hp hm hw (by rw [afterCall_insert]; exact .nil)⟩

theorem Serves.callMacro (n c : Str) (a : AST) (id : Str) :
    Serves (Plugins.callMacro n c a id : PM W AST) := by
  intro ps
  simp only [Plugins.callMacro]
  rcases hp : ps.nameToPlugin.get n with _ | p
  · exact ⟨[], by simp, .nil⟩
  · simp only
    generalize hm : p.signatures.get (c, .ast) = o
    rcases o with _ | m
    · exact ⟨[], by simp, .nil⟩
    · simp only
      rcases hw : W.callMacro p.extism m.callName a id with ⟨_ | s, st⟩
      · exact ⟨_, rfl, .tree hp hm hw (by rw [afterCall_insert]; exact .nil)⟩
      · exact ⟨_, rfl, .tree hp hm hw (by rw [afterCall_insert]; exact .nil)⟩

/-! ### Anything closed under the monad operations holds of the expander and of code generation -/

/-- A property of computations closed under the operations used in code generation. -/
structure ClosedText (W : Wasm) (P : ∀ {α : Type}, PM W α → Prop) : Prop where
  pure : ∀ {α : Type} (a : α), P (Pure.pure a : PM W α)
  lift : ∀ {α : Type} (r : Res α), P (PM.lift r : PM W α)
  bail : ∀ {α : Type} (m : String), P (PM.bail m : PM W α)
  bind : ∀ {α β : Type} {x : PM W α} {f : α → PM W β}, P x → (∀ a, P (f a)) → P (x >>= f)
  callText : ∀ n c t vs, P (Plugins.callText n c t vs : PM W Str)
  argumentTypes : ∀ n c t, P (Plugins.argumentTypes n c t : PM W (List (Str × PType)))
  hook : ∀ (k : Hook) vs, P (Hook.call vs k : PM W (Option Str))

/-- The same with macro calls. -/
structure Closed (W : Wasm) (P : ∀ {α : Type}, PM W α → Prop) : Prop extends ClosedText W @P where
  callMacro : ∀ n c a id, P (Plugins.callMacro n c a id : PM W AST)

section
variable {P : ∀ {α : Type}, PM W α → Prop} (C : Closed W @P)
include C

theorem Closed.expandAngle (o : AST) (i : Str) (cs : List AST) : P (expandAngle o i cs : PM W AST) := by
  unfold Brack.expandAngle
  exact C.bind (C.lift _) (fun x => C.callMacro _ _ _ _)

mutual

theorem Closed.expandOther (o : AST) : ∀ (a : AST), P (expandOther o a : PM W AST)
  | .leaf .text _ _ _ | .leaf .module _ _ _ | .leaf .ident _ _ _ => by
    simp only [Brack.expandOther]; exact C.pure _
  | .leaf .invalid _ _ _ | .leaf .ignored _ _ _ => by
    simp only [Brack.expandOther]; exact C.lift _
  | .node k i cs l => by
    have := Closed.expandChildren o cs
    simp only [Brack.expandOther]
    exact C.bind this (fun _ => C.pure _)

theorem Closed.expandChildren (o : AST) : ∀ (cs : List AST), P (expandChildren o cs : PM W (List AST))
  | [] => by simp only [Brack.expandChildren]; exact C.pure _
  | c :: cs => by
    have h1 := Closed.expandOther o c
    have h2 := Closed.expandChildren o cs
    rcases c with ⟨k, i, v, l⟩ | ⟨k, i, es, l⟩
    · simp only [Brack.expandChildren]
      exact C.bind h1 (fun _ => C.bind h2 (fun _ => C.pure _))
    · by_cases hk : k = .bracket .angle
      · subst hk
        simp only [Brack.expandChildren]
        exact C.bind (C.expandAngle _ _ _) (fun _ => C.bind h2 (fun _ => C.pure _))
      · rw [Brack.expandChildren]
        · exact C.bind h1 (fun _ => C.bind h2 (fun _ => C.pure _))
        · intro _ _ _ h; injection h with h _; exact hk h

end

theorem Closed.expander (a : AST) : P (expander a : PM W AST) := C.expandOther a a

end

section
variable {P : ∀ {α : Type}, PM W α → Prop} (C : ClosedText W @P)
include C

theorem ClosedText.bailWith (a : AST) : P (bailWith a : PM W Str) := by
  unfold Brack.bailWith
  exact C.bind (C.lift _) (fun _ => C.bail _)

theorem ClosedText.nameOf (k : ALKind) (a : AST) : P (nameOf k a : PM W Str) := by
  unfold Brack.nameOf
  split
  · split
    · split
      · exact C.pure _
      · exact C.bail _
    · exact C.bail _
  · exact C.bail _

theorem ClosedText.callCommand (ck : Bool) (t : PType) (m c : Str) (ts : List PType) (args : List Str) :
    P (callCommand ck t m c ts args : PM W Str) := by
  unfold Brack.callCommand
  split
  · split
    · exact C.bail _
    · split
      · exact C.bail _
      · split
        · exact C.callText _ _ _ _
        · exact C.lift _
        · exact C.lift _
  · exact C.lift _
  · exact C.lift _

theorem ClosedText.commandGenerate (ck : Bool) (b : Bracket) (m i : AST) (args : List Str) :
    P (commandGenerate ck b m i args : PM W Str) := by
  unfold Brack.commandGenerate
  exact C.bind (C.nameOf _ _) (fun _ => C.bind (C.nameOf _ _) (fun _ =>
    C.bind (C.argumentTypes _ _ _) (fun _ => C.callCommand _ _ _ _ _ _)))

mutual

theorem ClosedText.genChild (ck inDoc : Bool) : ∀ (a : AST), P (genChild ck inDoc a : PM W Str)
  | .leaf .text i v l => by
    rcases v with _ | v <;> simp only [Brack.genChild, textGenerate]
    · exact C.bail _
    · exact C.bind (C.hook .text _) (fun _ => C.pure _)
  | .leaf .module _ _ _ | .leaf .ident _ _ _ | .leaf .invalid _ _ _ | .leaf .ignored _ _ _ => by
    simp only [Brack.genChild]; exact C.bailWith _
  | .node .document _ _ _ => by simp only [Brack.genChild]; exact C.bailWith _
  | .node .stmt i cs l => by
    have := ClosedText.genChildren ck false cs
    simp only [Brack.genChild]
    split
    · exact C.bind this (fun _ => C.bind (C.hook .stmt _) (fun _ => C.pure _))
    · exact C.bailWith _
  | .node .expr i cs l => by
    have := ClosedText.genChildren ck false cs
    simp only [Brack.genChild]
    exact C.bind this (fun _ => C.bind (C.hook .expr _) (fun _ => C.pure _))
  | .node (.bracket .angle) _ _ _ => by simp only [Brack.genChild]; exact C.bail _
  | .node (.bracket .square) _ [] _ | .node (.bracket .square) _ [_] _
  | .node (.bracket .curly) _ [] _ | .node (.bracket .curly) _ [_] _ => by
    simp only [Brack.genChild]; exact C.bail _
  | .node (.bracket .square) _ (_ :: _ :: cs) _ => by
    have := ClosedText.genChildren ck false cs
    simp only [Brack.genChild]
    exact C.bind this (fun _ => C.commandGenerate _ _ _ _ _)
  | .node (.bracket .curly) _ (_ :: _ :: cs) _ => by
    have := ClosedText.genChildren ck false cs
    simp only [Brack.genChild]
    exact C.bind this (fun _ => C.commandGenerate _ _ _ _ _)

theorem ClosedText.genChildren (ck inDoc : Bool) : ∀ (cs : List AST), P (genChildren ck inDoc cs : PM W (List Str))
  | [] => by simp only [Brack.genChildren]; exact C.pure _
  | c :: cs => by
    have h1 := ClosedText.genChild ck inDoc c
    have h2 := ClosedText.genChildren ck inDoc cs
    simp only [Brack.genChildren]
    exact C.bind h1 (fun _ => C.bind h2 (fun _ => C.pure _))

end

theorem ClosedText.generate (ck : Bool) (a : AST) : P (generate ck a : PM W Str) := by
  rcases a with ⟨k, i, v, l⟩ | ⟨k, i, cs, l⟩
  · simp only [Brack.generate]; exact C.bail _
  · rcases k with _ | _ | _ | _ <;> simp only [Brack.generate]
    · exact C.bind (C.genChildren _ _ _) (fun _ => C.bind (C.hook .document _) (fun _ => C.pure _))
    all_goals exact C.bail _

end

theorem blind_closed : Closed W (fun x => Blind x) where
  pure := Blind.pure
  lift := Blind.lift
  bail := Blind.bail
  bind := Blind.bind
  callText := Blind.callText
  callMacro := Blind.callMacro
  argumentTypes := Blind.argumentTypes
  hook := by
    intro k vs ps qs h
    have hk := h.hook k
    rcases k
    all_goals
      simp only [Plugins.hook] at hk
      simp only [Hook.call, Plugins.callDocumentHook, Plugins.callStmtHook, Plugins.callExprHook,
        Plugins.callTextHook, ← hk]
    · rcases ps.documentHook with _ | p
      · exact ⟨rfl, h⟩
      · exact Blind.bind (Blind.callText _ _ _ _) (fun _ => Blind.pure _) ps qs h
    · rcases ps.stmtHook with _ | p
      · exact ⟨rfl, h⟩
      · exact Blind.bind (Blind.callText _ _ _ _) (fun _ => Blind.pure _) ps qs h
    · rcases ps.exprHook with _ | p
      · exact ⟨rfl, h⟩
      · exact Blind.bind (Blind.callText _ _ _ _) (fun _ => Blind.pure _) ps qs h
    · rcases ps.textHook with _ | p
      · exact ⟨rfl, h⟩
      · exact Blind.bind (Blind.callText _ _ _ _) (fun _ => Blind.pure _) ps qs h

theorem serves_closed : Closed W (fun x => Serves x) where
  pure := Serves.pure
  lift := Serves.lift
  bail := Serves.bail
  bind := Serves.bind
  callText := Serves.callText
  callMacro := Serves.callMacro
  argumentTypes := Serves.argumentTypes
  hook := by
    intro k vs ps
    rcases k
    all_goals
      simp only [Hook.call, Plugins.callDocumentHook, Plugins.callStmtHook, Plugins.callExprHook,
        Plugins.callTextHook]
    · rcases ps.documentHook with _ | p
      · exact ⟨[], by simp, .nil⟩
      · exact Serves.bind (Serves.callText _ _ _ _) (fun _ => Serves.pure _) ps
    · rcases ps.stmtHook with _ | p
      · exact ⟨[], by simp, .nil⟩
      · exact Serves.bind (Serves.callText _ _ _ _) (fun _ => Serves.pure _) ps
    · rcases ps.exprHook with _ | p
      · exact ⟨[], by simp, .nil⟩
      · exact Serves.bind (Serves.callText _ _ _ _) (fun _ => Serves.pure _) ps
    · rcases ps.textHook with _ | p
      · exact ⟨[], by simp, .nil⟩
      · exact Serves.bind (Serves.callText _ _ _ _) (fun _ => Serves.pure _) ps

end Brack
