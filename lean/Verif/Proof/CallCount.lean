import Verif.Proof.Macros
import Verif.Proof.Sources
import Verif.Proof.Nesting
import Verif.Proof.Clean
import Verif.Spec.CallCount

/-
Helper lemmas: how many calls are made.
-/

namespace Brack

variable {W : Wasm}

/-- `x` makes at most `n` calls, a hook counted as `k` calls (without hooks: 0); without hooks, it makes exactly `n`
calls if it succeeds. -/
def CallsJust (k : Nat) (x : PM W α) (n : Nat) : Prop :=
  ∀ ps : Plugins W, (k = 0 → NoHooks ps) → (x ps).2.log.length ≤ ps.log.length + n ∧ (k = 0 → NoHooks (x ps).2) ∧
    (k = 0 → ∀ r, (x ps).1 = .ok r → (x ps).2.log.length = ps.log.length + n)

theorem CallsJust.pure (k : Nat) (a : α) : CallsJust k (pure a : PM W α) 0 := fun ps h => ⟨Nat.le_refl _, h, fun _ _ _ => rfl⟩

theorem CallsJust.bail (k n : Nat) (m : String) : CallsJust k (PM.bail m : PM W α) n := fun ps h =>
  ⟨Nat.le_add_right _ _, h, fun _ r hr => by rw [PM.bail_run] at hr; cases hr⟩

theorem CallsJust.lift (k : Nat) (r : Res α) : CallsJust k (PM.lift r : PM W α) 0 := fun ps h =>
  ⟨Nat.le_refl _, h, fun _ _ _ => rfl⟩

theorem CallsJust.lift_err (k n : Nat) (m : String) : CallsJust k (PM.lift (.err m) : PM W α) n := fun ps h =>
  ⟨Nat.le_add_right _ _, h, fun _ r hr => by rw [PM.lift_run] at hr; cases hr⟩

theorem CallsJust.lift_panic (k n : Nat) : CallsJust k (PM.lift .panic : PM W α) n := fun ps h =>
  ⟨Nat.le_add_right _ _, h, fun _ r hr => by rw [PM.lift_run] at hr; cases hr⟩

theorem CallsJust.bind {k n m : Nat} {x : PM W α} {f : α → PM W β} (hx : CallsJust k x n) (hf : ∀ a, CallsJust k (f a) m) :
    CallsJust k (x >>= f) (n + m) := by
  intro ps h
  rw [PM.bind_run]
  obtain ⟨h1, h2, h3⟩ := hx ps h
  rcases hr : x ps with ⟨a | e | _, ps1⟩ <;> rw [hr] at h1 h2 h3 <;> simp only at h1 h2 h3 ⊢
  · obtain ⟨k1, k2, k3⟩ := hf a ps1 h2
    refine ⟨by omega, k2, fun hk r e => ?_⟩
    have := h3 hk a rfl
    have := k3 hk r e
    omega
  · exact ⟨by omega, h2, fun _ r e => by cases e⟩
  · exact ⟨by omega, h2, fun _ r e => by cases e⟩

/-- The continuation may fail after more calls than accounted for in case of success. -/
theorem CallsJust.mono {n m : Nat} {x : PM W α} (hx : CallsJust 1 x n) (h : n ≤ m) : CallsJust 1 x m := by
  intro ps hp
  obtain ⟨h1, h2, -⟩ := hx ps hp
  exact ⟨by omega, h2, fun e => by cases e⟩

theorem counts_callText (k : Nat) (n c : Str) (t : PType) (vs : List Value) : CallsJust k (Plugins.callText (W := W) n c t vs) 1 := by
  intro ps h
  have hh : k = 0 → NoHooks (Plugins.callText (W := W) n c t vs ps).2 := fun hk => by
    have := h hk
    rw [Plugins.callText]
    rcases ps.nameToPlugin.get n with _ | p
    · exact this
    · simp only
      rcases p.signatures.get (c, t) with _ | m
      · exact this
      · simp only
        rcases W.callText p.extism m.callName vs with ⟨e | s, st⟩
        · exact ⟨this.document, this.stmt, this.expr, this.text⟩
        · exact ⟨this.document, this.stmt, this.expr, this.text⟩
  rcases callText_log n c t vs ps with ⟨e, hn⟩ | ⟨o, e, -⟩
  · exact ⟨by rw [e]; exact Nat.le_add_right _ _, hh, fun _ r hr => absurd hr (hn r)⟩
  · rw [e]
    exact ⟨by simp, hh, fun _ _ _ => by simp⟩

theorem counts_callMacro (k : Nat) (n c : Str) (a : AST) (i : Str) (ps : Plugins W) (h : k = 0 → NoHooks ps) :
    (Plugins.callMacro n c a i ps).2.log.length ≤ ps.log.length + 1 ∧
    (k = 0 → NoHooks (Plugins.callMacro n c a i ps).2) := by
  refine ⟨?_, fun hk => ?_⟩
  · rcases callMacro_log n c a i ps with e | ⟨_, _, e⟩ <;> rw [e] <;> simp
  · have := h hk
    rw [Plugins.callMacro]
    rcases ps.nameToPlugin.get n with _ | p
    · exact this
    · simp only
      rcases p.signatures.get (c, PType.ast) with _ | m
      · exact this
      · simp only
        rcases W.callMacro p.extism m.callName a i with ⟨e | s, st⟩
        · exact ⟨this.document, this.stmt, this.expr, this.text⟩
        · exact ⟨this.document, this.stmt, this.expr, this.text⟩

theorem counts_hook (k : Nat) {o : Plugins W → Option Str} (ho : k = 0 → ∀ ps, NoHooks ps → o ps = none)
    (x : Str → PM W (Option Str)) (hx : ∀ p j, CallsJust j (x p) 1) :
    CallsJust k (fun ps => match o ps with | some p => x p ps | none => (.ok none, ps)) k := by
  intro ps h
  simp only
  rcases hp : o ps with _ | p
  · exact ⟨Nat.le_add_right _ _, h, fun hk r hr => by simp [hk]⟩
  · simp only
    by_cases hk : k = 0
    · rw [ho hk ps (h hk)] at hp; cases hp
    · obtain ⟨h1, -, -⟩ := hx p k ps h
      exact ⟨by omega, fun e => absurd e hk, fun e => absurd e hk⟩

theorem counts_call_some (p c : Str) (t : PType) (vs : List Value) (j : Nat) :
    CallsJust j (do return some (← Plugins.callText (W := W) p c t vs) : PM W (Option Str)) 1 :=
  (counts_callText j p c t vs).bind (m := 0) fun _ => .pure j _

theorem counts_documentHook (k : Nat) (vs : List Value) : CallsJust k (Plugins.callDocumentHook (W := W) vs) k :=
  counts_hook k (o := (·.documentHook)) (fun _ _ h => h.document) _ fun p j => counts_call_some p _ _ vs j

theorem counts_stmtHook (k : Nat) (vs : List Value) : CallsJust k (Plugins.callStmtHook (W := W) vs) k :=
  counts_hook k (o := (·.stmtHook)) (fun _ _ h => h.stmt) _ fun p j => counts_call_some p _ _ vs j

theorem counts_exprHook (k : Nat) (vs : List Value) : CallsJust k (Plugins.callExprHook (W := W) vs) k :=
  counts_hook k (o := (·.exprHook)) (fun _ _ h => h.expr) _ fun p j => counts_call_some p _ _ vs j

theorem counts_textHook (k : Nat) (vs : List Value) : CallsJust k (Plugins.callTextHook (W := W) vs) k :=
  counts_hook k (o := (·.textHook)) (fun _ _ h => h.text) _ fun p j => counts_call_some p _ _ vs j

mutual

/-- The calls made for a tree when generating, a hook counted as `k` calls. -/
def AST.weight (k : Nat) : AST → Nat
  | .leaf .text _ _ _ => k
  | .leaf _ _ _ _ => 0
  | .node (.bracket .angle) _ _ _ => 0
  | .node (.bracket _) _ cs _ => AST.weightL k cs + 1
  | .node _ _ cs _ => AST.weightL k cs + k

/-- The same for several trees. -/
def AST.weightL (k : Nat) : List AST → Nat
  | [] => 0
  | c :: cs => c.weight k + AST.weightL k cs

end

theorem counts_nameOf (k : Nat) {kind : ALKind} (hk : kind ≠ .text) (a : AST) : CallsJust k (nameOf (W := W) kind a) (a.weight k) := by
  rcases a with ⟨k', i, v, l⟩ | ⟨k', i, cs, l⟩
  · unfold nameOf
    simp only
    by_cases h : k' = kind
    · rw [if_pos h]
      subst h
      have : AST.weight k (.leaf k' i v l) = 0 := by
        rcases k' <;> first | exact absurd rfl hk | rfl
      rw [this]
      rcases v with _ | v
      · exact .bail _ _ _
      · exact .pure _ _
    · rw [if_neg h]
      exact .bail _ _ _
  · exact .bail _ _ _

theorem counts_argumentTypes (k : Nat) (m c : Str) (t : PType) : CallsJust k (Plugins.argumentTypes (W := W) m c t) 0 := by
  intro ps h
  rcases argumentTypes_run m c t ps with ⟨ats, e, -⟩ | ⟨e', e, -⟩ <;> rw [e]
  · exact ⟨Nat.le_refl _, h, fun _ _ _ => rfl⟩
  · exact ⟨Nat.le_refl _, h, fun _ _ _ => rfl⟩

theorem counts_callCommand (k : Nat) (checks : Bool) (typ : PType) (m n : Str) (types : List PType) (args : List Str) :
    CallsJust k (callCommand (W := W) checks typ m n types args) 1 := by
  rw [callCommand]
  rcases argCounter checks types with ⟨lo, hi⟩ | e | _ <;> simp only
  · split
    · exact .bail _ _ _
    · split
      · exact .bail _ _ _
      · rcases bindArgs args 0 types with vs | e | _ <;> simp only
        · exact counts_callText _ _ _ _ _
        · exact .lift_err _ _ _
        · exact .lift_panic _ _
  · exact .lift_err _ _ _
  · exact .lift_panic _ _

theorem counts_command (k : Nat) (checks : Bool) (b : Bracket) (m i : AST) (args : List Str) :
    CallsJust k (commandGenerate (W := W) checks b m i args) (m.weight k + (i.weight k + 1)) := by
  rw [commandGenerate]
  refine (counts_nameOf k (by simp) m).bind fun mn => (counts_nameOf k (by simp) i).bind fun n => ?_
  have := (counts_argumentTypes k mn n b.returnType).bind (m := 1) (W := W)
    (f := fun ats => callCommand checks b.returnType mn n (ats.map (·.2)) args)
    fun ats => counts_callCommand k checks _ mn n _ args
  simpa using this

theorem counts_text (k : Nat) (v : Option Str) : CallsJust k (textGenerate (W := W) v) k := by
  unfold textGenerate
  rcases v with _ | v
  · exact .bail _ _ _
  · exact (counts_textHook k _).bind (m := 0) fun _ => .pure _ _

theorem counts_bailWith (k n : Nat) (a : AST) : CallsJust k (bailWith (W := W) a) n := by
  rw [bailWith]
  have := (CallsJust.lift k (W := W) (a.display 0)).bind (m := n)
    (f := fun _ => (PM.bail "cannot contain the following node" : PM W Str)) fun _ => .bail _ _ _
  simpa using this

mutual

theorem counts_genChild (k : Nat) (checks : Bool) : ∀ (d : Bool) (a : AST), CallsJust k (genChild (W := W) checks d a) (a.weight k)
  | d, .node .stmt i cs l => by
    rw [genChild, AST.weight]
    · rcases d
      · exact counts_bailWith _ _ _
      · exact (counts_genChildren k checks false cs).bind fun _ => (counts_stmtHook k _).bind (m := 0) fun _ => .pure _ _
    all_goals simp
  | d, .node .expr i cs l => by
    rw [genChild, AST.weight]
    · exact (counts_genChildren k checks false cs).bind fun _ => (counts_exprHook k _).bind (m := 0) fun _ => .pure _ _
    all_goals simp
  | d, .node (.bracket .angle) i cs l => by
    rw [genChild]
    exact .bail _ _ _
  | d, .node (.bracket .square) i [] l => by rw [genChild]; exact .bail _ _ _; simp
  | d, .node (.bracket .curly) i [] l => by rw [genChild]; exact .bail _ _ _; simp
  | d, .node (.bracket .square) i [_] l => by rw [genChild]; exact .bail _ _ _; simp
  | d, .node (.bracket .curly) i [_] l => by rw [genChild]; exact .bail _ _ _; simp
  | d, .node (.bracket .square) i (m :: n :: cs) l => by
    have h := (counts_genChildren k checks false cs).bind fun args => counts_command (W := W) k checks .square m n args
    rw [genChild]
    · rw [show AST.weight k (.node (.bracket .square) i (m :: n :: cs) l) =
        AST.weightL k cs + (m.weight k + (n.weight k + 1)) by simp only [AST.weight, AST.weightL]; omega]
      exact h
    · simp
  | d, .node (.bracket .curly) i (m :: n :: cs) l => by
    have h := (counts_genChildren k checks false cs).bind fun args => counts_command (W := W) k checks .curly m n args
    rw [genChild]
    · rw [show AST.weight k (.node (.bracket .curly) i (m :: n :: cs) l) =
        AST.weightL k cs + (m.weight k + (n.weight k + 1)) by simp only [AST.weight, AST.weightL]; omega]
      exact h
    · simp
  | d, .leaf .text i v l => by
    rw [genChild, AST.weight]
    exact counts_text k v
  | d, .node .document i cs l => by simp only [genChild]; exact counts_bailWith _ _ _
  | d, .leaf .module i v l => by simp only [genChild]; exact counts_bailWith _ _ _
  | d, .leaf .ident i v l => by simp only [genChild]; exact counts_bailWith _ _ _
  | d, .leaf .invalid i v l => by simp only [genChild]; exact counts_bailWith _ _ _
  | d, .leaf .ignored i v l => by simp only [genChild]; exact counts_bailWith _ _ _

theorem counts_genChildren (k : Nat) (checks : Bool) : ∀ (d : Bool) (as : List AST),
    CallsJust k (genChildren (W := W) checks d as) (AST.weightL k as)
  | d, [] => by rw [genChildren]; exact .pure _ _
  | d, c :: cs => by
    rw [genChildren, AST.weightL]
    exact (counts_genChild k checks d c).bind fun _ => (counts_genChildren k checks d cs).bind (m := 0) fun _ => .pure _ _

end

theorem counts_generate (k : Nat) (checks : Bool) (a : AST) : CallsJust k (generate (W := W) checks a) (a.weight k) := by
  rcases a with ⟨k', i, v, l⟩ | ⟨k', i, cs, l⟩
  · exact .bail _ _ _
  · rcases k' <;> first | exact .bail _ _ _ | skip
    rw [generate, AST.weight]
    · exact (counts_genChildren k checks true cs).bind fun _ => (counts_documentHook k _).bind (m := 0) fun _ => .pure _ _
    all_goals simp

/-! ### expansion -/

/-- `x` makes at most `n` calls. -/
def CallsMost (x : PM W α) (n : Nat) : Prop :=
  ∀ ps : Plugins W, (x ps).2.log.length ≤ ps.log.length + n ∧ (NoHooks ps → NoHooks (x ps).2)

theorem CallsMost.bind {n m : Nat} {x : PM W α} {f : α → PM W β} (hx : CallsMost x n) (hf : ∀ a, CallsMost (f a) m) :
    CallsMost (x >>= f) (n + m) := by
  intro ps
  rw [PM.bind_run]
  obtain ⟨h1, h2⟩ := hx ps
  rcases hr : x ps with ⟨a | e | _, ps1⟩ <;> rw [hr] at h1 h2 <;> simp only at h1 h2 ⊢
  · obtain ⟨k1, k2⟩ := hf a ps1
    exact ⟨by omega, fun h => k2 (h2 h)⟩
  · exact ⟨by omega, h2⟩
  · exact ⟨by omega, h2⟩

theorem CallsMost.none {x : PM W α} (h : ∀ ps, (x ps).2 = ps) : CallsMost x 0 := fun ps => by
  rw [h]; exact ⟨Nat.le_refl _, fun h => h⟩

theorem counts_expandAngle (o : AST) (i : Str) (es : List AST) : CallsMost (expandAngle (W := W) o i es) 1 := by
  rw [expandAngle]
  have := (CallsMost.none (W := W) (x := PM.lift (macroNames [] [] es)) fun _ => rfl).bind (m := 1)
    (f := fun p => Plugins.callMacro p.1 p.2 o i) fun p ps =>
      ⟨(counts_callMacro 1 p.1 p.2 o i ps (by simp)).1, fun h => (counts_callMacro 0 p.1 p.2 o i ps fun _ => h).2 rfl⟩
  simpa using this

theorem counts_expandOne (o a : AST) (cs : List AST) {n : Nat} (h : ∀ i cs l, a ≠ .node (.bracket .angle) i cs l)
    (ht : CallsMost (W := W) (do
      let d ← expandOther o a
      let ds ← expandChildren o cs
      pure (d :: ds)) (a.macros.length + n)) (hn : n = (AST.macrosL cs).length + 0 := by rfl) :
    CallsMost (expandChildren (W := W) o (a :: cs)) (AST.macrosL (a :: cs)).length := by
  rw [expandChildren.eq_def, AST.macrosL, List.length_append]
  rw [hn] at ht
  rcases a with ⟨k, i, v, l⟩ | ⟨k, i, es, l⟩
  · exact ht
  · rcases k with _ | _ | _ | b
    · exact ht
    · exact ht
    · exact ht
    · rcases b
      · exact absurd rfl (h _ _ _)
      · exact ht
      · exact ht

mutual

theorem counts_expandOther (o : AST) : ∀ a, (∀ i cs l, a ≠ .node (.bracket .angle) i cs l) →
    CallsMost (expandOther (W := W) o a) a.macros.length
  | .leaf k i v l, _ => by
    rcases k <;> exact CallsMost.none fun _ => rfl
  | .node k i cs l, h => by
    rw [expandOther, AST.macros]
    · exact (counts_expandChildren o cs).bind (m := 0) fun _ => .none fun _ => rfl
    · rintro rfl
      exact h _ _ _ rfl

theorem counts_expandChildren (o : AST) : ∀ cs, CallsMost (expandChildren (W := W) o cs) (AST.macrosL cs).length
  | [] => CallsMost.none fun _ => rfl
  | .node (.bracket .angle) i es l :: cs => by
    rw [expandChildren, AST.macrosL, AST.macros, List.length_append]
    exact (counts_expandAngle o i es).bind fun _ => (counts_expandChildren o cs).bind (m := 0) fun _ => .none fun _ => rfl
  | .leaf k i v l :: cs => by
    rw [expandChildren, AST.macrosL, List.length_append]
    · exact (counts_expandOther o _ (by simp)).bind fun _ =>
        (counts_expandChildren o cs).bind (m := 0) fun _ => .none fun _ => rfl
    · simp
  | .node .document i es l :: cs => counts_expandOne o _ cs (by simp)
      ((counts_expandOther o (.node .document i es l) (by simp)).bind fun _ =>
        (counts_expandChildren o cs).bind (m := 0) fun _ => .none fun _ => rfl)
  | .node .stmt i es l :: cs => counts_expandOne o _ cs (by simp)
      ((counts_expandOther o (.node .stmt i es l) (by simp)).bind fun _ =>
        (counts_expandChildren o cs).bind (m := 0) fun _ => .none fun _ => rfl)
  | .node .expr i es l :: cs => counts_expandOne o _ cs (by simp)
      ((counts_expandOther o (.node .expr i es l) (by simp)).bind fun _ =>
        (counts_expandChildren o cs).bind (m := 0) fun _ => .none fun _ => rfl)
  | .node (.bracket .square) i es l :: cs => counts_expandOne o _ cs (by simp)
      ((counts_expandOther o (.node (.bracket .square) i es l) (by simp)).bind fun _ =>
        (counts_expandChildren o cs).bind (m := 0) fun _ => .none fun _ => rfl)
  | .node (.bracket .curly) i es l :: cs => counts_expandOne o _ cs (by simp)
      ((counts_expandOther o (.node (.bracket .curly) i es l) (by simp)).bind fun _ =>
        (counts_expandChildren o cs).bind (m := 0) fun _ => .none fun _ => rfl)

end

/-! ### counting -/

theorem Part.command?_command (b : Bracket) (p : Pos) : (Part.command b p).command? = some (b, p) := rfl

theorem Part.command?_leaf (c : Content) : (Part.leaf c).command? = none := rfl

mutual

theorem weight_commands : ∀ (a : AST) (ar : Around),
    a.weight 0 + a.macros.length ≤ ((a.parts ar).filterMap (fun x => x.2.command?)).length ∧
    (a.macros = [] → a.weight 0 = ((a.parts ar).filterMap (fun x => x.2.command?)).length)
  | .leaf k i v l, ar => by
    rcases k <;> simp [AST.weight, AST.macros, AST.parts, Part.command?]
  | .node (.bracket .angle) i cs l, ar => by
    simp [AST.weight, AST.macros, AST.parts, Part.command?]
  | .node (.bracket .curly) i cs l, ar => by
    have := weightL_commands cs ((.curly, l.start) :: ar)
    simp only [AST.weight, AST.macros, AST.parts, List.filterMap_cons, Part.command?_command, List.length_cons]
    exact ⟨by omega, fun h => by rw [this.2 h]⟩
  | .node (.bracket .square) i cs l, ar => by
    have := weightL_commands cs ((.square, l.start) :: ar)
    simp only [AST.weight, AST.macros, AST.parts, List.filterMap_cons, Part.command?_command, List.length_cons]
    exact ⟨by omega, fun h => by rw [this.2 h]⟩
  | .node .document i cs l, ar => by simpa [AST.weight, AST.macros, AST.parts] using weightL_commands cs ar
  | .node .stmt i cs l, ar => by simpa [AST.weight, AST.macros, AST.parts] using weightL_commands cs ar
  | .node .expr i cs l, ar => by simpa [AST.weight, AST.macros, AST.parts] using weightL_commands cs ar

theorem weightL_commands : ∀ (as : List AST) (ar : Around),
    AST.weightL 0 as + (AST.macrosL as).length ≤ ((AST.partsL ar as).filterMap (fun x => x.2.command?)).length ∧
    (AST.macrosL as = [] → AST.weightL 0 as = ((AST.partsL ar as).filterMap (fun x => x.2.command?)).length)
  | [], ar => by simp [AST.weightL, AST.macrosL, AST.partsL]
  | c :: cs, ar => by
    have h1 := weight_commands c ar
    have h2 := weightL_commands cs ar
    simp only [AST.weightL, AST.macrosL, AST.partsL, List.filterMap_append, List.length_append,
      List.append_eq_nil_iff]
    exact ⟨by omega, fun ⟨e1, e2⟩ => by rw [h1.2 e1, h2.2 e2]⟩

end

mutual

theorem weight_size : ∀ a : AST, a.weight 1 + a.macros.length ≤ a.size
  | .leaf k i v l => by rcases k <;> simp [AST.weight, AST.macros, AST.size]
  | .node (.bracket .angle) i cs l => by simp [AST.weight, AST.macros, AST.size]
  | .node (.bracket .curly) i cs l => by
    have := weightL_size cs
    simp only [AST.weight, AST.macros, AST.size]; omega
  | .node (.bracket .square) i cs l => by
    have := weightL_size cs
    simp only [AST.weight, AST.macros, AST.size]; omega
  | .node .document i cs l => by
    have := weightL_size cs
    simp only [AST.weight, AST.macros, AST.size]; omega
  | .node .stmt i cs l => by
    have := weightL_size cs
    simp only [AST.weight, AST.macros, AST.size]; omega
  | .node .expr i cs l => by
    have := weightL_size cs
    simp only [AST.weight, AST.macros, AST.size]; omega

theorem weightL_size : ∀ as : List AST, AST.weightL 1 as + (AST.macrosL as).length ≤ AST.sizeL as
  | [] => by simp [AST.weightL, AST.macrosL, AST.sizeL]
  | c :: cs => by
    have h1 := weight_size c
    have h2 := weightL_size cs
    simp only [AST.weightL, AST.macrosL, AST.sizeL, List.length_append]; omega

end

/-- Expansion and generation together. -/
theorem counts_back (k : Nat) (checks : Bool) (a : AST) (h : ∀ i cs l, a ≠ .node (.bracket .angle) i cs l)
    (ps : Plugins W) (hk : k = 0 → NoHooks ps) :
    ((do let b ← expander a; generate checks b : PM W Str) ps).2.log.length
      ≤ ps.log.length + (a.macros.length + a.weight k) := by
  rw [PM.bind_run]
  obtain ⟨h1, h2⟩ := counts_expandOther (W := W) a a h ps
  rcases hr : expander a ps with ⟨b | e | _, ps1⟩ <;> rw [show expandOther a a ps = _ from hr] at h1 h2 <;>
    simp only at h1 h2 ⊢
  · have hb : b = a := expandOther_result a a ps b (by rw [show expandOther a a ps = _ from hr])
    subst hb
    have := (counts_generate k checks b ps1 fun e => h2 (hk e)).1
    omega
  · omega
  · omega

/-- A bound for all documents from a bound for all trees. -/
theorem compile_bound (S : Segmenter) (ids : Nat → Str) (checks : Bool) (text : Str) (ps : Plugins W) (k n : Nat)
    (hk : k = 0 → NoHooks ps)
    (hn : ∀ ts c a es, tokenizeStr S text = .ok ts → parse ts = .ok c → transform ids c = .ok (a, es) →
      a.macros.length + a.weight k ≤ n) :
    (compileText S ids checks text ps).2.log.length ≤ ps.log.length + n := by
  unfold compileText
  simp only [PM.bind_run, PM.lift_run]
  rcases h1 : tokenizeStr S text with ts | m | _ <;> simp only
  · rcases h2 : parse ts with c | m | _ <;> simp only
    · rcases h3 : transform ids c with ⟨a, es⟩ | m | _ <;> simp only
      · have hb := counts_back (W := W) k checks a (fun i cs l he => by
          obtain ⟨i', cs', l', ha⟩ := reads_document ⟨ts, c, h1, h2, h3⟩
          rw [ha] at he; cases he) ps hk
        rw [PM.bind_run] at hb
        have := hn ts c a es h1 h2 h3
        exact Nat.le_trans hb (by omega)
      · omega
      · omega
    · omega
    · omega
  · omega
  · omega

theorem tokenParts_openings : ∀ (n : Nat) (ts : List Token) (ar : Around), ts.length ≤ n →
    ((tokenParts ar ts).filterMap (fun x => x.2.command?)).length ≤ openingChars (spell ts) := by
  intro n
  induction n with
  | zero => intro ts ar h; rcases ts with _ | _ <;> simp [tokenParts] at h ⊢
  | succ n ih =>
    intro ts ar h
    rcases ts with _ | ⟨t, ts⟩
    · simp [tokenParts]
    · have hs : openingChars (spell (t :: ts)) = openingChars t.kind.spelling + openingChars (spell ts) := by
        simp [spell, openingChars]
      rw [hs]
      have hl : ts.length ≤ n := by simpa using h
      unfold tokenParts
      rcases hk : t.kind <;> simp only [hk]
      case bopen b =>
        have := ih ts ((b, t.loc.start) :: ar) hl
        have h1 : openingChars (TokKind.bopen b).spelling = 1 := by rcases b <;> decide
        simp only [List.filterMap_cons, Part.command?_command, List.length_cons, h1]
        omega
      case bclose b =>
        have := ih ts ((ar.dropWhile (fun o => o.1 ≠ b)).drop 1) hl
        omega
      case backSlash =>
        rcases ts with _ | ⟨u, us⟩
        · simp [Part.command?]
        · simp only
          have hu : openingChars (spell (u :: us)) = openingChars u.kind.spelling + openingChars (spell us) := by
            simp [spell, openingChars]
          rcases escapedChar u.kind with _ | c
          · have := ih (u :: us) ar hl
            simp only [List.filterMap_cons, Part.command?_leaf]
            omega
          · have := ih us ar (by simp at hl; omega)
            simp only [List.filterMap_cons, Part.command?_leaf]
            omega
      all_goals
        first
        | (simp; done)
        | (have := ih ts ar hl
           simp only [List.filterMap_cons, Part.command?_leaf]
           omega)
        | (have := ih ts ar hl
           omega)

theorem commands_openings (S : Segmenter) (text : Str) (ts : List Token) (h : tokenizeStr S text = .ok ts) :
    commandsWritten ts ≤ openingChars text := by
  refine Nat.le_trans (tokenParts_openings ts.length ts [] (Nat.le_refl _)) ?_
  rw [tokenizeStr_eq] at h
  injection h with h
  rw [← h, tokens_spell]
  exact (List.takeWhile_sublist _).countP_le

end Brack
