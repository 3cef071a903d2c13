import Verif.Model.Expander
import Verif.Model.Codegen
import Verif.Spec.Calls

/-
Helper lemmas on hash maps, the plugin monad and plugin calls.
-/

namespace Brack

namespace HMap

theorem get_insert_self [DecidableEq κ] (k : κ) (a : α) (m : HMap κ α) : (m.insert k a).get k = some a := by
  induction m with
  | nil => simp [insert, get]
  | cons x m ih =>
    obtain ⟨k', a'⟩ := x
    by_cases h : k' = k
    · simp [insert, get, h]
    · simp [insert, get, h, ih]

theorem get_insert_ne [DecidableEq κ] {k j : κ} (h : j ≠ k) (a : α) (m : HMap κ α) :
    (m.insert k a).get j = m.get j := by
  induction m with
  | nil => simp [insert, get, Ne.symm h]
  | cons x m ih =>
    obtain ⟨k', a'⟩ := x
    by_cases h1 : k' = k
    · subst h1; simp [insert, get, Ne.symm h]
    · by_cases h2 : k' = j
      · subst h2; simp [insert, get, h1]
      · simp [insert, get, h1, h2, ih]

theorem get_insert [DecidableEq κ] (k j : κ) (a : α) (m : HMap κ α) :
    (m.insert k a).get j = if j = k then some a else m.get j := by
  by_cases h : j = k
  · subst h; simp [get_insert_self]
  · simp [h, get_insert_ne h]

end HMap

section
variable {W : Wasm}

theorem PM.pure_run (a : α) (ps : Plugins W) : (pure a : PM W α) ps = (.ok a, ps) := rfl

theorem PM.bind_run (x : PM W α) (f : α → PM W β) (ps : Plugins W) :
    (x >>= f) ps = match x ps with
      | (.ok a, ps) => f a ps
      | (.err m, ps) => (.err m, ps)
      | (.panic, ps) => (.panic, ps) := rfl

theorem PM.lift_run (r : Res α) (ps : Plugins W) : (PM.lift r : PM W α) ps = (r, ps) := rfl

theorem PM.bail_run (m : String) (ps : Plugins W) : (PM.bail m : PM W α) ps = (.err m, ps) := rfl

/-- Two plugin sets differ at most in the states of the instances and in the log. -/
structure Same (ps ps' : Plugins W) : Prop where
  document : ps'.documentHook = ps.documentHook
  stmt : ps'.stmtHook = ps.stmtHook
  expr : ps'.exprHook = ps.exprHook
  text : ps'.textHook = ps.textHook
  sigs : ∀ m c t, ps'.signature m c t = ps.signature m c t

theorem Same.refl (ps : Plugins W) : Same ps ps := ⟨rfl, rfl, rfl, rfl, fun _ _ _ => rfl⟩

theorem Same.trans {a b c : Plugins W} (h : Same a b) (h' : Same b c) : Same a c :=
  ⟨h'.document.trans h.document, h'.stmt.trans h.stmt, h'.expr.trans h.expr, h'.text.trans h.text,
    fun m d t => (h'.sigs m d t).trans (h.sigs m d t)⟩

/-- Effects of a computation: the calls made. -/
structure Ran (ps ps' : Plugins W) (calls : List (Tag × Call)) (ok : Bool) : Prop where
  log : ps'.log = ps.log ++ calls.map (·.2)
  same : Same ps ps'
  last : ∀ pre c post, calls = pre ++ c :: post → c.2.isFailed = true → post = [] ∧ ok = false

theorem Ran.nil (ps : Plugins W) (ok : Bool) : Ran ps ps [] ok :=
  ⟨by simp, .refl ps, by intro pre c post h; simp at h⟩

theorem Ran.ok_no_fail {ps ps' : Plugins W} {calls} (h : Ran ps ps' calls true) :
    ∀ c ∈ calls, c.2.isFailed = false := by
  intro c hc
  rcases hf : c.2.isFailed with _ | _
  · rfl
  · obtain ⟨pre, post, rfl⟩ := List.append_of_mem hc
    exact absurd (h.last pre c post rfl hf).2 (by simp)

theorem Ran.append {ps ps1 ps2 : Plugins W} {c1 c2 ok} (h1 : Ran ps ps1 c1 true)
    (h2 : Ran ps1 ps2 c2 ok) : Ran ps ps2 (c1 ++ c2) ok := by
  refine ⟨by rw [h2.log, h1.log]; simp, h1.same.trans h2.same, ?_⟩
  intro pre c post h hf
  have hn := h1.ok_no_fail
  rcases List.append_eq_append_iff.mp h with ⟨as, h3, h4⟩ | ⟨bs, h3, h4⟩
  · exact h2.last as c post h4 hf
  · rcases bs with _ | ⟨b, bs⟩
    · simp only [List.append_nil] at h3
      simp only [List.nil_append] at h4
      exact h2.last [] c post (by simp [h4]) hf
    · simp only [List.cons_append, List.cons.injEq] at h4
      have := hn c (by rw [h3, ← h4.1]; simp)
      rw [this] at hf
      cases hf

/-- Replacing the state of an instance changes no signature. -/
theorem signature_insert (ps : Plugins W) {plugin : Str} {p : Plugin W}
    (hp : ps.nameToPlugin.get plugin = some p) (st : W.State) (log : List Call) :
    Same ps { ps with nameToPlugin := ps.nameToPlugin.insert plugin { p with extism := st }, log := log } := by
  refine ⟨rfl, rfl, rfl, rfl, ?_⟩
  intro m c t
  simp only [Plugins.signature, HMap.get_insert]
  by_cases h : m = plugin
  · subst h; simp [hp]
  · simp [h]

/-- The outcome of a call of a command. -/
theorem callText_cases (plugin command : Str) (typ : PType) (args : List Value) (ps : Plugins W) (tag : Tag) :
    ∃ calls, Ran ps (Plugins.callText plugin command typ args ps).2 calls
        (Plugins.callText plugin command typ args ps).1.isOk ∧
      ((∃ o, calls = [(tag, ⟨plugin, command, typ, .values args, o⟩)] ∧
        (ps.signature plugin command typ).isSome = true) ∨
        (calls = [] ∧ (Plugins.callText plugin command typ args ps).1.isOk = false)) ∧
      (∀ r, (Plugins.callText plugin command typ args ps).1 = .ok r →
        calls = [(tag, ⟨plugin, command, typ, .values args, .text r⟩)]) ∧
      (Plugins.callText plugin command typ args ps).1 ≠ .panic := by
  rw [Plugins.callText]
  rcases hp : ps.nameToPlugin.get plugin with _ | p
  · exact ⟨[], Ran.nil ps _, .inr ⟨rfl, rfl⟩, by simp, by simp⟩
  · simp only []
    rcases hs : p.signatures.get (command, typ) with _ | m
    · exact ⟨[], Ran.nil ps _, .inr ⟨rfl, rfl⟩, by simp, by simp⟩
    · simp only []
      have hsig : (ps.signature plugin command typ).isSome = true := by
        simp [Plugins.signature, hp, hs]
      rcases hc : W.callText p.extism m.callName args with ⟨_ | s, st⟩
      · refine ⟨[(tag, ⟨plugin, command, typ, .values args, .failed⟩)], ⟨by simp, ?_, ?_⟩,
          .inl ⟨_, rfl, hsig⟩, by simp, by simp⟩
        · exact signature_insert ps hp st _
        · intro pre c post h _
          rcases pre with _ | ⟨x, pre⟩ <;> simp [Res.isOk] at h ⊢
          exact h.2
      · refine ⟨[(tag, ⟨plugin, command, typ, .values args, .text s⟩)], ⟨by simp, ?_, ?_⟩,
          .inl ⟨_, rfl, hsig⟩, ?_, by simp⟩
        · exact signature_insert ps hp st _
        · intro pre c post h hf
          rcases pre with _ | ⟨x, pre⟩
          · simp at h
            rw [← h.1] at hf
            simp [Call.isFailed] at hf
          · simp at h
        · intro r h
          injection h with h
          rw [h]

/-- The outcome of a call of a macro. -/
theorem callMacro_cases (plugin command : Str) (a : AST) (id : Str) (ps : Plugins W) (tag : Tag) :
    ∃ calls, Ran ps (Plugins.callMacro plugin command a id ps).2 calls
        (Plugins.callMacro plugin command a id ps).1.isOk ∧
      (calls.map (fun c => c.2.request) = [⟨plugin, command, .ast, .tree a id⟩] ∨
        (calls = [] ∧ (Plugins.callMacro plugin command a id ps).1.isOk = false ∧
          ps.signature plugin command .ast = none)) ∧
      ((Plugins.callMacro plugin command a id ps).1.isErr = true →
        (∃ c, calls.getLast? = some c ∧ c.2.isFailed = true) ∨
        calls = [] ∧ ps.signature plugin command .ast = none) ∧
      (Plugins.callMacro plugin command a id ps).1 ≠ .panic := by
  rw [Plugins.callMacro]
  rcases hp : ps.nameToPlugin.get plugin with _ | p
  · have hsig : ps.signature plugin command .ast = none := by simp [Plugins.signature, hp]
    exact ⟨[], Ran.nil ps _, .inr ⟨rfl, rfl, hsig⟩, fun _ => .inr ⟨rfl, hsig⟩, by simp⟩
  · simp only []
    rcases hs : p.signatures.get (command, .ast) with _ | m
    · simp only [hs]
      have hsig : ps.signature plugin command .ast = none := by simp [Plugins.signature, hp, hs]
      exact ⟨[], Ran.nil ps _, .inr ⟨rfl, rfl, hsig⟩, fun _ => .inr ⟨rfl, hsig⟩, by simp⟩
    · simp only [hs]
      rcases hc : W.callMacro p.extism m.callName a id with ⟨_ | s, st⟩
      · refine ⟨[(tag, ⟨plugin, command, .ast, .tree a id, .failed⟩)], ⟨by simp, ?_, ?_⟩,
          .inl rfl, fun _ => .inl ⟨_, rfl, rfl⟩, by simp⟩
        · exact signature_insert ps hp st _
        · intro pre c post h _
          rcases pre with _ | ⟨x, pre⟩ <;> simp [Res.isOk] at h ⊢
          exact h.2
      · refine ⟨[(tag, ⟨plugin, command, .ast, .tree a id, .tree s⟩)], ⟨by simp, ?_, ?_⟩,
          .inl rfl, fun h => (by cases h), by simp⟩
        · exact signature_insert ps hp st _
        · intro pre c post h hf
          rcases pre with _ | ⟨x, pre⟩
          · simp at h
            rw [← h.1] at hf
            simp [Call.isFailed] at hf
          · simp at h

end

end Brack
