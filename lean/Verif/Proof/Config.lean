import Verif.Model.Config
import Verif.Proof.PMLemmas

/-
Helper lemmas on the configuration file.
-/

namespace Brack

theorem Res.bind_ok {x : Res α} {f : α → Res β} {b : β} :
    (x >>= f) = .ok b ↔ ∃ a, x = .ok a ∧ f a = .ok b := by
  rcases x with a | m | _ <;> simp [Bind.bind, Res.bind]

/-- A string field that may be absent. -/
def strOpt (key : Str) : Option Str → List (Str × TVal)
  | some s => [(key, .str s)]
  | none => []

/-- The fields seen so far. -/
def SchemaVars.toFields (x : SchemaVars) : List (Str × TVal) :=
  strOpt (chars! "schema") x.schema ++ (strOpt (chars! "owner") x.owner ++ (strOpt (chars! "repo") x.repo ++
    (strOpt (chars! "version") x.version ++
  (hookField (chars! "expr_hook") x.exprHook ++ (hookField (chars! "stmt_hook") x.stmtHook ++
  (hookField (chars! "document_hook") x.documentHook ++ hookField (chars! "text_hook") x.textHook))))))

theorem takeStr_ok {cur : Option Str} {v : TVal} {r} (h : takeStr cur v = .ok r) :
    cur = none ∧ ∃ s, v = .str s ∧ r = some s := by
  rcases cur with _ | c <;> rcases v with s | b | vs | kvs | _ <;> simp [takeStr] at h
  exact ⟨rfl, s, rfl, h.symm⟩

theorem takeBool_ok {cur : Option Bool} {v : TVal} {r} (h : takeBool cur v = .ok r) :
    cur = none ∧ ∃ s, v = .bool s ∧ r = some s := by
  rcases cur with _ | c <;> rcases v with s | b | vs | kvs | _ <;> simp [takeBool] at h
  exact ⟨rfl, b, rfl, h.symm⟩

theorem perm_under {α : Type} {a : α} {l l' : List α} (p : List α) (h : l.Perm (a :: l')) :
    (p ++ l).Perm (a :: (p ++ l')) := (h.append_left p).trans List.perm_middle

theorem schemaStep_ok {x y : SchemaVars} {key : Str} {v : TVal} (h : schemaStep x key v = .ok y) :
    y.toFields.Perm ((key, v) :: x.toFields) := by
  obtain ⟨x1, x2, x3, x4, x5, x6, x7, x8⟩ := x
  unfold schemaStep at h
  by_cases c0 : key = chars! "schema"
  · rw [if_pos c0] at h
    obtain ⟨r, h1, h2⟩ := Res.bind_ok.mp h
    obtain ⟨h0, s, rfl, rfl⟩ := takeStr_ok h1
    injection h2 with h2; subst h2; subst c0
    simp only at h0; subst h0
    exact List.Perm.refl _
  rw [if_neg c0] at h
  by_cases c1 : key = chars! "owner"
  · rw [if_pos c1] at h
    obtain ⟨r, h1, h2⟩ := Res.bind_ok.mp h
    obtain ⟨h0, s, rfl, rfl⟩ := takeStr_ok h1
    injection h2 with h2; subst h2; subst c1
    simp only at h0; subst h0
    repeat first | exact List.Perm.refl _ | apply perm_under
  rw [if_neg c1] at h
  by_cases c2 : key = chars! "repo"
  · rw [if_pos c2] at h
    obtain ⟨r, h1, h2⟩ := Res.bind_ok.mp h
    obtain ⟨h0, s, rfl, rfl⟩ := takeStr_ok h1
    injection h2 with h2; subst h2; subst c2
    simp only at h0; subst h0
    repeat first | exact List.Perm.refl _ | apply perm_under
  rw [if_neg c2] at h
  by_cases c3 : key = chars! "version"
  · rw [if_pos c3] at h
    obtain ⟨r, h1, h2⟩ := Res.bind_ok.mp h
    obtain ⟨h0, s, rfl, rfl⟩ := takeStr_ok h1
    injection h2 with h2; subst h2; subst c3
    simp only at h0; subst h0
    repeat first | exact List.Perm.refl _ | apply perm_under
  rw [if_neg c3] at h
  by_cases c4 : key = chars! "expr_hook"
  · rw [if_pos c4] at h
    obtain ⟨r, h1, h2⟩ := Res.bind_ok.mp h
    obtain ⟨h0, s, rfl, rfl⟩ := takeBool_ok h1
    injection h2 with h2; subst h2; subst c4
    simp only at h0; subst h0
    repeat first | exact List.Perm.refl _ | apply perm_under
  rw [if_neg c4] at h
  by_cases c5 : key = chars! "stmt_hook"
  · rw [if_pos c5] at h
    obtain ⟨r, h1, h2⟩ := Res.bind_ok.mp h
    obtain ⟨h0, s, rfl, rfl⟩ := takeBool_ok h1
    injection h2 with h2; subst h2; subst c5
    simp only at h0; subst h0
    repeat first | exact List.Perm.refl _ | apply perm_under
  rw [if_neg c5] at h
  by_cases c6 : key = chars! "document_hook"
  · rw [if_pos c6] at h
    obtain ⟨r, h1, h2⟩ := Res.bind_ok.mp h
    obtain ⟨h0, s, rfl, rfl⟩ := takeBool_ok h1
    injection h2 with h2; subst h2; subst c6
    simp only at h0; subst h0
    repeat first | exact List.Perm.refl _ | apply perm_under
  rw [if_neg c6] at h
  by_cases c7 : key = chars! "text_hook"
  · rw [if_pos c7] at h
    obtain ⟨r, h1, h2⟩ := Res.bind_ok.mp h
    obtain ⟨h0, s, rfl, rfl⟩ := takeBool_ok h1
    injection h2 with h2; subst h2; subst c7
    simp only at h0; subst h0
    repeat first | exact List.Perm.refl _ | apply perm_under
  rw [if_neg c7] at h
  simp at h

theorem schemaLoop_ok {fields : List (Str × TVal)} {x y : SchemaVars} (h : schemaLoop fields x = .ok y) :
    y.toFields.Perm (fields ++ x.toFields) := by
  induction fields generalizing x with
  | nil => injection h with h; subst h; exact List.Perm.refl _
  | cons f fields ih =>
    obtain ⟨k, v⟩ := f
    rw [schemaLoop] at h
    rcases hs : schemaStep x k v with z | m | _ <;> rw [hs] at h
    · simp only at h
      refine (ih h).trans (((schemaStep_ok hs).append_left fields).trans ?_)
      exact List.perm_middle
    · simp at h
    · simp at h

/-- A field that a schema may have. -/
def GoodField (k : Str) (v : TVal) : Prop :=
  (k ∈ [chars! "schema", chars! "owner", chars! "repo", chars! "version"] ∧ ∃ s, v = .str s) ∨
  (k ∈ [chars! "expr_hook", chars! "stmt_hook", chars! "document_hook", chars! "text_hook"] ∧ ∃ b, v = .bool b)

theorem none_of_key {k : Str} {x : Option Str} {fs : List (Str × TVal)} (h : k ∉ (strOpt k x ++ fs).map (·.1)) :
    x = none := by
  rcases x with _ | s
  · rfl
  · simp [strOpt] at h

theorem none_of_hook {k : Str} {x : Option Bool} {fs : List (Str × TVal)}
    (h : k ∉ (hookField k x ++ fs).map (·.1)) : x = none := by
  rcases x with _ | s
  · rfl
  · simp [hookField] at h

theorem not_mem_under {k : Str} {p fs : List (Str × TVal)} (h : k ∉ (p ++ fs).map (·.1)) :
    k ∉ fs.map (·.1) := by
  intro hm
  apply h
  rw [List.map_append]
  exact List.mem_append_right _ hm

theorem schemaStep_progress {x : SchemaVars} {k : Str} {v : TVal} (hg : GoodField k v)
    (hk : k ∉ x.toFields.map (·.1)) : ∃ y, schemaStep x k v = .ok y := by
  obtain ⟨x1, x2, x3, x4, x5, x6, x7, x8⟩ := x
  unfold SchemaVars.toFields at hk
  simp only at hk
  rcases hg with ⟨hm, s, rfl⟩ | ⟨hm, b, rfl⟩
  · simp only [List.mem_cons, List.not_mem_nil, or_false] at hm
    rcases hm with rfl | rfl | rfl | rfl
    · have := none_of_key hk
      subst this
      exact ⟨_, rfl⟩
    · have := none_of_key (not_mem_under hk)
      subst this
      exact ⟨_, rfl⟩
    · have := none_of_key (not_mem_under (not_mem_under hk))
      subst this
      exact ⟨_, rfl⟩
    · have := none_of_key (not_mem_under (not_mem_under (not_mem_under hk)))
      subst this
      exact ⟨_, rfl⟩
  · simp only [List.mem_cons, List.not_mem_nil, or_false] at hm
    rcases hm with rfl | rfl | rfl | rfl
    · have := none_of_hook (not_mem_under (not_mem_under (not_mem_under (not_mem_under hk))))
      subst this
      exact ⟨_, rfl⟩
    · have := none_of_hook (not_mem_under (not_mem_under (not_mem_under (not_mem_under (not_mem_under hk)))))
      subst this
      exact ⟨_, rfl⟩
    · have := none_of_hook (not_mem_under (not_mem_under (not_mem_under (not_mem_under (not_mem_under (not_mem_under hk))))))
      subst this
      exact ⟨_, rfl⟩
    · have := none_of_hook (fs := []) (by simpa using (not_mem_under (not_mem_under (not_mem_under (not_mem_under (not_mem_under (not_mem_under (not_mem_under hk))))))))
      subst this
      exact ⟨_, rfl⟩

theorem schemaLoop_progress {fields : List (Str × TVal)} {x : SchemaVars} (hg : ∀ f ∈ fields, GoodField f.1 f.2)
    (hn : ((fields ++ x.toFields).map (·.1)).Nodup) : ∃ y, schemaLoop fields x = .ok y := by
  induction fields generalizing x with
  | nil => exact ⟨x, rfl⟩
  | cons f fields ih =>
    obtain ⟨k, v⟩ := f
    simp only [List.cons_append, List.map_cons, List.nodup_cons] at hn
    obtain ⟨y, hy⟩ := schemaStep_progress (hg _ List.mem_cons_self) (x := x)
      (fun hm => hn.1 (by rw [List.map_append]; exact List.mem_append_right _ hm))
    obtain ⟨z, hz⟩ := ih (x := y) (fun f hf => hg f (List.mem_cons_of_mem _ hf)) (by
      have hp := ((schemaStep_ok hy).append_left fields).trans List.perm_middle
      have hp := hp.map (·.1)
      rw [hp.nodup_iff]
      simp only [List.map_cons, List.nodup_cons]
      exact hn)
    exact ⟨z, by rw [schemaLoop, hy]; exact hz⟩

/-- The variables after reading the fields of a schema. -/
def PluginSchema.vars (s : PluginSchema) : SchemaVars :=
  ⟨some (chars! "github"), some s.owner, some s.repo, some s.version, s.exprHook, s.stmtHook, s.documentHook,
    s.textHook⟩

theorem PluginSchema.toFields_vars (s : PluginSchema) : s.vars.toFields = s.toFields := by
  simp [SchemaVars.toFields, PluginSchema.toFields, PluginSchema.vars, strOpt]

theorem mem_strOpt {k k' : Str} {x : Option Str} {v : TVal} :
    (k', v) ∈ strOpt k x ↔ k' = k ∧ ∃ s, x = some s ∧ v = .str s := by
  rcases x with _ | s <;> simp [strOpt]

theorem mem_hookField {k k' : Str} {x : Option Bool} {v : TVal} :
    (k', v) ∈ hookField k x ↔ k' = k ∧ ∃ b, x = some b ∧ v = .bool b := by
  rcases x with _ | s <;> simp [hookField]

theorem SchemaVars.mem_toFields {x : SchemaVars} {k : Str} {v : TVal} :
    (k, v) ∈ x.toFields ↔
      (k = chars! "schema" ∧ ∃ s, x.schema = some s ∧ v = .str s) ∨
      (k = chars! "owner" ∧ ∃ s, x.owner = some s ∧ v = .str s) ∨
      (k = chars! "repo" ∧ ∃ s, x.repo = some s ∧ v = .str s) ∨
      (k = chars! "version" ∧ ∃ s, x.version = some s ∧ v = .str s) ∨
      (k = chars! "expr_hook" ∧ ∃ s, x.exprHook = some s ∧ v = .bool s) ∨
      (k = chars! "stmt_hook" ∧ ∃ s, x.stmtHook = some s ∧ v = .bool s) ∨
      (k = chars! "document_hook" ∧ ∃ s, x.documentHook = some s ∧ v = .bool s) ∨
      (k = chars! "text_hook" ∧ ∃ s, x.textHook = some s ∧ v = .bool s) := by
  simp only [SchemaVars.toFields, List.mem_append, mem_strOpt, mem_hookField]

theorem opt_ext {α : Type} {x y : Option α} (h : ∀ s, x = some s ↔ y = some s) : x = y := by
  rcases x with _ | a
  · rcases y with _ | b
    · rfl
    · simpa using (h b).mpr rfl
  · exact ((h a).mp rfl).symm

/-- The variables are determined by the fields. -/
theorem SchemaVars.ext_fields {x y : SchemaVars} (h : ∀ k v, (k, v) ∈ x.toFields ↔ (k, v) ∈ y.toFields) :
    x = y := by
  have hs : ∀ k s, (k, .str s) ∈ x.toFields ↔ (k, .str s) ∈ y.toFields := fun k s => h k _
  have hb : ∀ k s, (k, .bool s) ∈ x.toFields ↔ (k, .bool s) ∈ y.toFields := fun k s => h k _
  simp only [SchemaVars.mem_toFields] at hs hb
  obtain ⟨x1, x2, x3, x4, x5, x6, x7, x8⟩ := x
  obtain ⟨y1, y2, y3, y4, y5, y6, y7, y8⟩ := y
  simp only at hs hb
  congr 1
  · exact opt_ext fun s => by simpa using hs (chars! "schema") s
  · exact opt_ext fun s => by simpa using hs (chars! "owner") s
  · exact opt_ext fun s => by simpa using hs (chars! "repo") s
  · exact opt_ext fun s => by simpa using hs (chars! "version") s
  · exact opt_ext fun s => by simpa using hb (chars! "expr_hook") s
  · exact opt_ext fun s => by simpa using hb (chars! "stmt_hook") s
  · exact opt_ext fun s => by simpa using hb (chars! "document_hook") s
  · exact opt_ext fun s => by simpa using hb (chars! "text_hook") s

theorem PluginSchema.nodup_toFields (s : PluginSchema) : (s.toFields.map (·.1)).Nodup := by
  rcases s with ⟨o, r, v, x5, x6, x7, x8⟩
  rcases x5 with _ | x5 <;> rcases x6 with _ | x6 <;> rcases x7 with _ | x7 <;> rcases x8 with _ | x8 <;>
    simp [PluginSchema.toFields, hookField]

theorem nodup_of_keys {l : List (Str × TVal)} (h : (l.map (·.1)).Nodup) : l.Nodup := by
  induction l with
  | nil => simp
  | cons x l ih =>
    simp only [List.map_cons, List.nodup_cons] at h ⊢
    exact ⟨fun hm => h.1 (List.mem_map.mpr ⟨x, hm, rfl⟩), ih h.2⟩

theorem perm_of_members {α : Type} {l m : List α} (hl : l.Nodup) (hm : m.Nodup) (h : ∀ a, a ∈ l ↔ a ∈ m) :
    l.Perm m := by
  induction l generalizing m with
  | nil =>
    rcases m with _ | ⟨a, m⟩
    · exact List.Perm.refl _
    · simpa using (h a).mpr List.mem_cons_self
  | cons a l ih =>
    obtain ⟨p, q, rfl⟩ := List.append_of_mem ((h a).mp List.mem_cons_self)
    have hm' := List.perm_middle.nodup_iff.mp hm
    simp only [List.nodup_cons] at hl hm'
    refine ((ih hl.2 hm'.2 ?_).cons a).trans List.perm_middle.symm
    intro b
    have hb := h b
    simp only [List.mem_cons, List.mem_append] at hb ⊢
    constructor
    · intro hbl
      rcases hb.mp (.inr hbl) with h1 | h1 | h1
      · exact .inl h1
      · subst h1; exact absurd hbl hl.1
      · exact .inr h1
    · intro hbm
      rcases hb.mpr (hbm.elim .inl (fun h => .inr (.inr h))) with h1 | h1
      · subst h1; exact absurd (List.mem_append.mpr hbm) hm'.1
      · exact h1

theorem PluginSchema.ofFields_ok {fields : List (Str × TVal)} {s : PluginSchema} :
    PluginSchema.ofFields fields = .ok s ↔ fields.Perm s.toFields := by
  constructor
  · intro h
    unfold PluginSchema.ofFields at h
    obtain ⟨x, hx, h⟩ := Res.bind_ok.mp h
    obtain ⟨k, hk, h⟩ := Res.bind_ok.mp h
    obtain ⟨o, ho, h⟩ := Res.bind_ok.mp h
    obtain ⟨r, hr, h⟩ := Res.bind_ok.mp h
    obtain ⟨v, hv, h⟩ := Res.bind_ok.mp h
    have hp : ∀ {a : Option Str} {b}, present a = .ok b → a = some b := by
      intro a b hab
      rcases a with _ | a <;> simp [present] at hab
      rw [hab]
    have hk := hp hk
    have ho := hp ho
    have hr := hp hr
    have hv := hp hv
    have hl := schemaLoop_ok hx
    rw [show ({} : SchemaVars).toFields = [] from rfl, List.append_nil] at hl
    by_cases hg : k = chars! "github"
    · rw [if_pos hg] at h
      injection h with h
      rw [← h]
      refine hl.symm.trans ?_
      rw [← PluginSchema.toFields_vars]
      have : x = (PluginSchema.mk o r v x.exprHook x.stmtHook x.documentHook x.textHook).vars := by
        rcases x with ⟨x1, x2, x3, x4, x5, x6, x7, x8⟩
        simp only at hk ho hr hv
        simp [PluginSchema.vars, hk, ho, hr, hv, hg]
      rw [← this]
    · rw [if_neg hg] at h
      simp at h
  · intro h
    have hn := s.nodup_toFields
    have hgood : ∀ f ∈ s.toFields, GoodField f.1 f.2 := by
      rintro ⟨k, v⟩ hf
      rw [← PluginSchema.toFields_vars, SchemaVars.mem_toFields] at hf
      unfold GoodField
      rcases hf with ⟨rfl, s, _, rfl⟩ | ⟨rfl, s, _, rfl⟩ | ⟨rfl, s, _, rfl⟩ | ⟨rfl, s, _, rfl⟩ | ⟨rfl, s, _, rfl⟩ |
        ⟨rfl, s, _, rfl⟩ | ⟨rfl, s, _, rfl⟩ | ⟨rfl, s, _, rfl⟩ <;> simp
    obtain ⟨y, hy⟩ := schemaLoop_progress (fields := fields) (x := {}) (fun f hf => hgood f (h.mem_iff.mp hf)) (by
      rw [show ({} : SchemaVars).toFields = [] from rfl, List.append_nil, (h.map (·.1)).nodup_iff]
      exact hn)
    have hl := schemaLoop_ok hy
    rw [show ({} : SchemaVars).toFields = [] from rfl, List.append_nil] at hl
    have : y = s.vars := SchemaVars.ext_fields fun k v => by
      rw [PluginSchema.toFields_vars]
      exact (hl.trans h).mem_iff
    subst this
    rw [PluginSchema.ofFields, hy]
    rfl

theorem strItems_map (l : List Str) : strItems (l.map .str) = .ok l := by
  induction l with
  | nil => rfl
  | cons s l ih =>
    rw [List.map_cons, strItems, ih]
    rfl

theorem Document.ofToml_toToml (d : Document) : Document.ofToml d.toToml = .ok d := by
  have : authorsField [(chars! "name", .str d.name), (chars! "version", .str d.version),
      (chars! "backend", .str d.backend), (chars! "authors", .array (d.authors.map .str))] = .ok d.authors := by
    unfold authorsField
    exact strItems_map d.authors
  rw [Document.toToml, Document.ofToml, this]
  rfl

theorem HMap.insert_new [DecidableEq κ] {k : κ} {a : α} {m : HMap κ α} (h : k ∉ m.map (·.1)) :
    m.insert k a = m ++ [(k, a)] := by
  induction m with
  | nil => rfl
  | cons x m ih =>
    obtain ⟨k', a'⟩ := x
    simp only [List.map_cons, List.mem_cons, not_or] at h
    rw [HMap.insert, if_neg (fun hk => h.1 hk.symm), ih h.2]
    rfl

theorem HMap.keys_insert [DecidableEq κ] {k : κ} {a : α} {m : HMap κ α} :
    (m.insert k a).map (·.1) = if k ∈ m.map (·.1) then m.map (·.1) else m.map (·.1) ++ [k] := by
  induction m with
  | nil => rfl
  | cons x m ih =>
    obtain ⟨k', a'⟩ := x
    rw [HMap.insert]
    by_cases h : k' = k
    · simp [h]
    · rw [if_neg h, List.map_cons, ih]
      by_cases h2 : k ∈ m.map (·.1)
      · rw [if_pos h2, if_pos (by simp only [List.map_cons]; exact List.mem_cons_of_mem _ h2)]
        rfl
      · rw [if_neg h2, if_neg (by simp only [List.map_cons, List.mem_cons, not_or]; exact ⟨fun e => h e.symm, h2⟩)]
        rfl

theorem HMap.nodup_insert [DecidableEq κ] {k : κ} {a : α} {m : HMap κ α} (h : (m.map (·.1)).Nodup) :
    ((m.insert k a).map (·.1)).Nodup := by
  rw [HMap.keys_insert]
  split
  · exact h
  · next hk =>
    rw [List.nodup_append]
    refine ⟨h, by simp, ?_⟩
    intro a ha b hb
    simp only [List.mem_singleton] at hb
    rintro rfl
    exact hk (hb ▸ ha)

theorem HMap.get_eq_some [DecidableEq κ] {m : HMap κ α} (h : (m.map (·.1)).Nodup) {k : κ} {a : α} :
    m.get k = some a ↔ (k, a) ∈ m := by
  induction m with
  | nil => simp [HMap.get]
  | cons x m ih =>
    obtain ⟨k', a'⟩ := x
    simp only [List.map_cons, List.nodup_cons] at h
    rw [HMap.get]
    by_cases hk : k' = k
    · subst hk
      rw [if_pos rfl]
      constructor
      · rintro h'
        injection h' with h'
        exact h' ▸ List.mem_cons_self
      · intro h'
        rcases List.mem_cons.mp h' with h' | h'
        · injection h' with _ h'; rw [h']
        · exact absurd (List.mem_map.mpr ⟨_, h', rfl⟩) h.1
    · rw [if_neg hk, ih h.2]
      constructor
      · exact List.mem_cons_of_mem _
      · intro h'
        rcases List.mem_cons.mp h' with h' | h'
        · injection h' with h1 _
          exact absurd h1.symm hk
        · exact h'

theorem HMap.get_none [DecidableEq κ] {m : HMap κ α} {k : κ} : m.get k = none ↔ k ∉ m.map (·.1) := by
  induction m with
  | nil => simp [HMap.get]
  | cons x m ih =>
    obtain ⟨k', a'⟩ := x
    rw [HMap.get]
    by_cases hk : k' = k
    · simp [hk]
    · rw [if_neg hk, ih]
      simp only [List.map_cons, List.mem_cons, not_or]
      exact ⟨fun h => ⟨fun e => hk e.symm, h⟩, fun h => h.2⟩

theorem pluginEntries_map (m acc : HMap Str PluginSchema) (h : ((acc ++ m).map (·.1)).Nodup) :
    pluginEntries (m.map fun (name, s) => (name, TVal.table s.toFields)) acc = .ok (acc ++ m) := by
  induction m generalizing acc with
  | nil => simp [pluginEntries]
  | cons x m ih =>
    obtain ⟨k, s⟩ := x
    rw [List.map_cons, pluginEntries]
    have hs : PluginSchema.ofToml (.table s.toFields) = .ok s :=
      PluginSchema.ofFields_ok.mpr (List.Perm.refl _)
    rw [hs]
    change pluginEntries _ (acc.insert k s) = _
    have hk : k ∉ acc.map (·.1) := by
      rw [List.map_append, List.nodup_append] at h
      intro hm
      exact h.2.2 k hm k (by simp) rfl
    rw [HMap.insert_new hk, ih]
    · simp
    · simpa using h

theorem Config.ofToml_toToml (c : Config) (h : ∀ m, c.plugins = some m → (m.map (·.1)).Nodup) :
    Config.ofToml c.toToml = .ok c := by
  obtain ⟨d, p⟩ := c
  rcases p with _ | m
  · change (do
      let document ← Document.ofToml d.toToml
      let plugins ← (Res.ok none : Res (Option (HMap Str PluginSchema)))
      return (⟨document, plugins⟩ : Config)) = _
    rw [Document.ofToml_toToml]
    rfl
  · change (do
      let document ← Document.ofToml d.toToml
      let plugins ← (do
        return some (← pluginEntries (m.map fun (x : Str × PluginSchema) => (x.1, TVal.table x.2.toFields)) []) :
          Res (Option (HMap Str PluginSchema)))
      return (⟨document, plugins⟩ : Config)) = _
    rw [Document.ofToml_toToml, pluginEntries_map m [] (h m rfl)]
    rfl

theorem pluginEntries_nodup {l : List (Str × TVal)} {m m' : HMap Str PluginSchema} (hm : (m.map (·.1)).Nodup)
    (h : pluginEntries l m = .ok m') : (m'.map (·.1)).Nodup := by
  induction l generalizing m with
  | nil => injection h with h; exact h ▸ hm
  | cons x l ih =>
    obtain ⟨k, v⟩ := x
    rw [pluginEntries] at h
    obtain ⟨s, _, h⟩ := Res.bind_ok.mp h
    exact ih (HMap.nodup_insert hm) h

theorem Config.ofToml_nodup {v : TVal} {c : Config} (h : Config.ofToml v = .ok c) {m}
    (hm : c.plugins = some m) : (m.map (·.1)).Nodup := by
  rcases v with s | b | vs | kvs | _ <;> simp only [Config.ofToml] at h <;> try (simp at h; done)
  obtain ⟨d, _, h⟩ := Res.bind_ok.mp h
  obtain ⟨p, hp, h⟩ := Res.bind_ok.mp h
  injection h with h
  subst h
  simp only at hm
  subst hm
  unfold pluginsField at hp
  generalize fieldOf (chars! "plugins") kvs = o at hp
  rcases o with _ | v
  · simp at hp
  · rcases v with s | b | vs | es | _ <;> simp only at hp <;> try (simp at hp; done)
    obtain ⟨m', hm', hp⟩ := Res.bind_ok.mp hp
    injection hp with hp
    injection hp with hp
    subst hp
    exact pluginEntries_nodup (by simp) hm'

end Brack
