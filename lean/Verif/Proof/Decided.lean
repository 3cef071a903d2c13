import Verif.Spec.Decided
import Verif.Spec.Identifiers
import Verif.Proof.Relational

/-
Failures end a run, and the calls are decided by the document.
-/

namespace Brack

variable {V W : Wasm}

theorem SameDeclarations.refl (ps : Plugins W) : SameDeclarations ps ps := ⟨rfl, rfl, rfl, rfl, fun _ => rfl⟩

theorem SameDeclarations.trans {U : Wasm} {ps : Plugins U} {qs : Plugins V} {rs : Plugins W} (h : SameDeclarations ps qs)
    (h' : SameDeclarations qs rs) : SameDeclarations ps rs :=
  ⟨h.documentHook.trans h'.documentHook, h.stmtHook.trans h'.stmtHook, h.exprHook.trans h'.exprHook,
    h.textHook.trans h'.textHook, fun n => (h.plugins n).trans (h'.plugins n)⟩

/-- A plugin in another state declares the same. -/
theorem SameDeclarations.insert {ps : Plugins V} {qs : Plugins W} (h : SameDeclarations ps qs) (n : Str) {p : Plugin V}
    {q : Plugin W} (hpq : p.signatures = q.signatures) (l l' : List Call) :
    SameDeclarations { ps with nameToPlugin := ps.nameToPlugin.insert n p, log := l }
      { qs with nameToPlugin := qs.nameToPlugin.insert n q, log := l' } := by
  refine ⟨h.documentHook, h.stmtHook, h.exprHook, h.textHook, fun k => ?_⟩
  by_cases hk : k = n
  · subst hk
    simp only
    rw [HMap.get_insert_self, HMap.get_insert_self]
    simp [hpq]
  · simp only
    rw [HMap.get_insert_ne hk, HMap.get_insert_ne hk]
    exact h.plugins k

theorem SameDeclarations.get {ps : Plugins V} {qs : Plugins W} (h : SameDeclarations ps qs) (n : Str) :
    (ps.nameToPlugin.get n = none ∧ qs.nameToPlugin.get n = none) ∨
      ∃ p q, ps.nameToPlugin.get n = some p ∧ qs.nameToPlugin.get n = some q ∧ p.signatures = q.signatures := by
  have h1 := h.plugins n
  generalize ps.nameToPlugin.get n = o at *
  generalize qs.nameToPlugin.get n = o' at *
  rcases o with _ | p <;> rcases o' with _ | q <;> simp at h1
  · exact .inl ⟨rfl, rfl⟩
  · exact .inr ⟨p, q, rfl, rfl, h1⟩

/-- A plugin called declares what it did. -/
theorem SameDeclarations.called {ps : Plugins W} {n : Str} {p : Plugin W} (hp : ps.nameToPlugin.get n = some p) (st : W.State)
    (l : List Call) :
    SameDeclarations ps { ps with nameToPlugin := ps.nameToPlugin.insert n { p with extism := st }, log := l } := by
  refine ⟨rfl, rfl, rfl, rfl, fun k => ?_⟩
  by_cases hk : k = n
  · subst hk
    simp only
    rw [HMap.get_insert_self, hp]
    rfl
  · simp only
    rw [HMap.get_insert_ne hk]

theorem Gave.of_same {ps qs : Plugins W} (h : SameDeclarations ps qs) {c : Call} {e : String} (hg : Gave qs c e) :
    Gave ps c e := by
  obtain ⟨q, m, s, s', h1, h2, h3⟩ := hg
  rcases h.get c.plugin with ⟨_, h5⟩ | ⟨p, q', h4, h5, h6⟩
  · rw [h1] at h5
    cases h5
  · rw [h1] at h5
    injection h5 with h5
    subst h5
    exact ⟨p, m, s, s', h4, by rw [h6]; exact h2, h3⟩

/-- The calls of a run, of which only the last can have failed, with its error as the result. -/
def PM.Reports (x : PM W α) : Prop := ∀ ps, SameDeclarations ps (x ps).2 ∧ ∃ new, (x ps).2.log = ps.log ++ new ∧
  ((∀ c ∈ new, c.isFailed = false) ∨
    ∃ pre c e, new = pre ++ [c] ∧ (∀ c ∈ pre, c.isFailed = false) ∧ c.isFailed = true ∧ (x ps).1 = .err e ∧ Gave ps c e)

theorem PM.Reports.of_still {x : PM W α} (h : ∀ ps, (x ps).2 = ps) : PM.Reports x := fun ps =>
  ⟨by rw [h]; exact .refl ps, [], by rw [h, List.append_nil], .inl (by simp)⟩

theorem PM.Reports.pure (a : α) : PM.Reports (Pure.pure a : PM W α) := .of_still fun _ => rfl

theorem PM.Reports.lift (r : Res α) : PM.Reports (PM.lift r : PM W α) := .of_still fun _ => rfl

theorem PM.Reports.bail (m : String) : PM.Reports (PM.bail m : PM W α) := .of_still fun _ => rfl

theorem PM.Reports.bind {x : PM W α} {f : α → PM W β} (h : PM.Reports x) (hf : ∀ a, PM.Reports (f a)) :
    PM.Reports (x >>= f) := by
  intro ps
  obtain ⟨hs, new, h1, h2⟩ := h ps
  rw [PM.bind_run]
  rcases hx : x ps with ⟨a | m | _, ps1⟩ <;> rw [hx] at hs h1 h2 <;> simp only [] at hs h1 h2 ⊢
  · obtain ⟨hs', new', h3, h4⟩ := hf a ps1
    have h5 : ∀ c ∈ new, c.isFailed = false := by
      rcases h2 with h2 | ⟨_, _, _, _, _, _, h2, _⟩
      · exact h2
      · cases h2
    refine ⟨hs.trans hs', new ++ new', by rw [h3, h1, List.append_assoc], ?_⟩
    rcases h4 with h4 | ⟨pre, c, e, rfl, h6, h7, h8, h9⟩
    · refine .inl fun c hc => ?_
      rcases List.mem_append.mp hc with hc | hc
      · exact h5 c hc
      · exact h4 c hc
    · refine .inr ⟨new ++ pre, c, e, by rw [List.append_assoc], fun c hc => ?_, h7, h8, h9.of_same hs⟩
      rcases List.mem_append.mp hc with hc | hc
      · exact h5 c hc
      · exact h6 c hc
  · refine ⟨hs, new, h1, ?_⟩
    rcases h2 with h2 | ⟨pre, c, e, h3, h4, h5, h6, h7⟩
    · exact .inl h2
    · injection h6 with h6
      exact .inr ⟨pre, c, e, h3, h4, h5, by rw [h6], h7⟩
  · refine ⟨hs, new, h1, ?_⟩
    rcases h2 with h2 | ⟨pre, c, e, h3, h4, h5, h6, h7⟩
    · exact .inl h2
    · cases h6

theorem callText_reports (plugin command : Str) (typ : PType) (args : List Value) :
    PM.Reports (Plugins.callText (W := W) plugin command typ args) := by
  intro ps
  unfold Plugins.callText
  rcases hp : ps.nameToPlugin.get plugin with _ | p
  · exact ⟨.refl ps, [], by simp, .inl (by simp)⟩
  simp only
  rcases hm : p.signatures.get (command, typ) with _ | m
  · exact ⟨.refl ps, [], by simp, .inl (by simp)⟩
  simp only
  rcases hc : W.callText p.extism m.callName args with ⟨e | s, st⟩ <;> simp only
  · exact ⟨.called hp _ _, _, rfl, .inr ⟨[], _, e, rfl, by simp, rfl, rfl, p, m, p.extism, st, hp, hm, hc⟩⟩
  · exact ⟨.called hp _ _, _, rfl, .inl (by intro c h; rw [List.mem_singleton.mp h]; rfl)⟩

theorem callMacro_reports (plugin command : Str) (a : AST) (id : Str) :
    PM.Reports (Plugins.callMacro (W := W) plugin command a id) := by
  intro ps
  unfold Plugins.callMacro
  rcases hp : ps.nameToPlugin.get plugin with _ | p
  · exact ⟨.refl ps, [], by simp, .inl (by simp)⟩
  simp only
  generalize hm : HMap.get (command, PType.ast) p.signatures = o
  rcases o with _ | m
  · exact ⟨.refl ps, [], by simp, .inl (by simp)⟩
  simp only
  rcases hc : W.callMacro p.extism m.callName a id with ⟨e | s, st⟩ <;> simp only
  · exact ⟨.called hp _ _, _, rfl, .inr ⟨[], _, e, rfl, by simp, rfl, rfl, p, m, p.extism, st, hp, hm, hc⟩⟩
  · exact ⟨.called hp _ _, _, rfl, .inl (by intro c h; rw [List.mem_singleton.mp h]; rfl)⟩

theorem hook_reports (hook : Plugins W → Option Str) (command : Str) (typ : PType) (args : List Value) :
    PM.Reports (fun ps => match hook ps with
      | some p => (do return some (← Plugins.callText p command typ args) : PM W _) ps
      | none => (.ok none, ps)) := by
  intro ps
  simp only
  rcases hook ps with _ | p
  · exact ⟨.refl ps, [], by simp, .inl (by simp)⟩
  · exact ((callText_reports p command typ args).bind fun s => .pure (some s)) ps

theorem callDocumentHook_reports (args : List Value) : PM.Reports (Plugins.callDocumentHook (W := W) args) :=
  hook_reports (·.documentHook) (chars! "document") .block args

theorem callStmtHook_reports (args : List Value) : PM.Reports (Plugins.callStmtHook (W := W) args) :=
  hook_reports (·.stmtHook) (chars! "stmt") .block args

theorem callExprHook_reports (args : List Value) : PM.Reports (Plugins.callExprHook (W := W) args) :=
  hook_reports (·.exprHook) (chars! "expr") .inline args

theorem callTextHook_reports (args : List Value) : PM.Reports (Plugins.callTextHook (W := W) args) :=
  hook_reports (·.textHook) (chars! "text") .inline args

theorem textGenerate_reports (value : Option Str) : PM.Reports (textGenerate (W := W) value) := by
  unfold textGenerate
  rcases value with _ | s
  · exact .bail _
  · exact (callTextHook_reports _).bind fun _ => .pure _

theorem bailWith_reports (a : AST) : PM.Reports (bailWith (W := W) a) :=
  (PM.Reports.lift _).bind fun _ => .bail _

theorem nameOf_reports (k : ALKind) (a : AST) : PM.Reports (nameOf (W := W) k a) := by
  refine .of_still fun ps => ?_
  unfold nameOf
  rcases a with ⟨k', i, v, l⟩ | ⟨k', i, cs, l⟩
  · by_cases h : k' = k
    · simp only [if_pos h]
      rcases v with _ | v <;> rfl
    · simp only [if_neg h]
      rfl
  · rfl

theorem argumentTypes_reports (m c : Str) (t : PType) : PM.Reports (Plugins.argumentTypes (W := W) m c t) := by
  refine .of_still fun ps => ?_
  unfold Plugins.argumentTypes
  rcases ps.nameToPlugin.get m with _ | p
  · rfl
  simp only
  rcases p.signatures.get (c, t) with _ | m <;> rfl

theorem callCommand_reports (checks : Bool) (typ : PType) (m c : Str) (types : List PType) (args : List Str) :
    PM.Reports (callCommand (W := W) checks typ m c types args) := by
  unfold callCommand
  rcases argCounter checks types with ⟨min, max⟩ | e | _ <;> simp only
  · by_cases h1 : args.length < min
    · rw [if_pos h1]
      exact .bail _
    rw [if_neg h1]
    by_cases h2 : args.length > max
    · rw [if_pos h2]
      exact .bail _
    rw [if_neg h2]
    rcases bindArgs args 0 types with vs | e | _ <;> simp only
    · exact callText_reports _ _ _ _
    · exact .lift _
    · exact .lift _
  · exact .lift _
  · exact .lift _

theorem commandGenerate_reports (checks : Bool) (b : Bracket) (m i : AST) (args : List Str) :
    PM.Reports (commandGenerate (W := W) checks b m i args) :=
  (nameOf_reports _ _).bind fun _ => (nameOf_reports _ _).bind fun _ => (argumentTypes_reports _ _ _).bind fun _ =>
    callCommand_reports _ _ _ _ _ _

mutual
theorem genChild_reports (checks inDocument : Bool) : ∀ a, PM.Reports (genChild (W := W) checks inDocument a)
  | .node .stmt i cs l => by
    rw [genChild]
    cases inDocument
    · exact bailWith_reports _
    · exact (genChildren_reports checks false cs).bind fun _ => (callStmtHook_reports _).bind fun _ => .pure _
  | .node .expr _ cs _ => by
    rw [genChild]
    exact (genChildren_reports checks false cs).bind fun _ => (callExprHook_reports _).bind fun _ => .pure _
  | .node (.bracket .angle) _ _ _ => by rw [genChild]; exact .bail _
  | .node (.bracket .square) _ [] _ => by rw [genChild]; exact .bail _; simp
  | .node (.bracket .square) _ [_] _ => by rw [genChild]; exact .bail _; simp
  | .node (.bracket .square) _ (m :: i :: cs) _ => by
    rw [genChild]
    · exact (genChildren_reports checks false cs).bind fun _ => commandGenerate_reports _ _ _ _ _
    · simp
  | .node (.bracket .curly) _ [] _ => by rw [genChild]; exact .bail _; simp
  | .node (.bracket .curly) _ [_] _ => by rw [genChild]; exact .bail _; simp
  | .node (.bracket .curly) _ (m :: i :: cs) _ => by
    rw [genChild]
    · exact (genChildren_reports checks false cs).bind fun _ => commandGenerate_reports _ _ _ _ _
    · simp
  | .node .document i cs l => by rw [genChild]; exact bailWith_reports _ <;> simp; all_goals simp
  | .leaf .text _ v _ => by rw [genChild]; exact textGenerate_reports v
  | .leaf .module i v l => by rw [genChild]; exact bailWith_reports _ <;> simp; all_goals simp
  | .leaf .ident i v l => by rw [genChild]; exact bailWith_reports _ <;> simp; all_goals simp
  | .leaf .invalid i v l => by rw [genChild]; exact bailWith_reports _ <;> simp; all_goals simp
  | .leaf .ignored i v l => by rw [genChild]; exact bailWith_reports _ <;> simp; all_goals simp

theorem genChildren_reports (checks inDocument : Bool) : ∀ cs, PM.Reports (genChildren (W := W) checks inDocument cs)
  | [] => by rw [genChildren]; exact .pure _
  | c :: cs => by
    rw [genChildren]
    exact (genChild_reports checks inDocument c).bind fun _ => (genChildren_reports checks inDocument cs).bind fun _ => .pure _
end

theorem generate_reports (checks : Bool) (a : AST) : PM.Reports (generate (W := W) checks a) := by
  unfold generate
  split
  · exact (genChildren_reports checks true _).bind fun _ => (callDocumentHook_reports _).bind fun _ => .pure _
  · exact .bail _

theorem expandAngle_reports (overall : AST) (i : Str) (cs : List AST) : PM.Reports (expandAngle (W := W) overall i cs) :=
  (PM.Reports.lift _).bind fun _ => callMacro_reports _ _ _ _

mutual
theorem expandOther_reports (overall : AST) : ∀ a, PM.Reports (expandOther (W := W) overall a)
  | .leaf .text _ _ _ => by rw [expandOther]; exact .pure _
  | .leaf .module _ _ _ => by rw [expandOther]; exact .pure _
  | .leaf .ident _ _ _ => by rw [expandOther]; exact .pure _
  | .leaf .invalid _ _ _ => by rw [expandOther]; exact .lift _
  | .leaf .ignored _ _ _ => by rw [expandOther]; exact .lift _
  | .node k i cs l => by rw [expandOther]; exact (expandChildren_reports overall cs).bind fun _ => .pure _

theorem expandChildren_reports (overall : AST) : ∀ cs, PM.Reports (expandChildren (W := W) overall cs)
  | [] => by rw [expandChildren]; exact .pure _
  | c :: cs => by
    have ih := expandChildren_reports overall cs
    by_cases hc : ∃ i es l, c = .node (.bracket .angle) i es l
    · obtain ⟨i, es, l, rfl⟩ := hc
      rw [expandChildren]
      exact (expandAngle_reports overall i es).bind fun _ => ih.bind fun _ => .pure _
    · rw [expandChildren]
      · exact (expandOther_reports overall c).bind fun _ => ih.bind fun _ => .pure _
      · intro i es l h
        exact hc ⟨i, es, l, h⟩
end

theorem compileText_reports (S : Segmenter) (ids : Nat → Str) (checks : Bool) (text : Str) :
    PM.Reports (compileText (W := W) S ids checks text) :=
  (PM.Reports.lift _).bind fun _ => (PM.Reports.lift _).bind fun _ => (PM.Reports.lift _).bind fun _ =>
    (expandOther_reports _ _).bind fun _ => generate_reports _ _

/-! ### Two runs with different plugins -/

/-- One of two lists of calls has a failed call, and the forms of its calls start those of the other. -/
def CutShort (new new' : List Call) : Prop :=
  (∃ c ∈ new, c.isFailed = true) ∧ new.map Call.form <+: new'.map Call.form

/-- Two runs make calls of the same forms, up to the first failure in one of them. -/
def PM.Decides (Q : α → β → Prop) (x : PM V α) (y : PM W β) : Prop := ∀ ps qs, SameDeclarations ps qs →
  ∃ new new', (x ps).2.log = ps.log ++ new ∧ (y qs).2.log = qs.log ++ new' ∧
    (((∀ c ∈ new, c.isFailed = false) ∧ (∀ c ∈ new', c.isFailed = false) ∧ new.map Call.form = new'.map Call.form ∧
        Res.Same Q (x ps).1 (y qs).1 ∧ SameDeclarations (x ps).2 (y qs).2) ∨
      CutShort new new' ∨ CutShort new' new)

theorem PM.Decides.of_still {Q : α → β → Prop} {x : PM V α} {y : PM W β} (hx : ∀ ps, (x ps).2 = ps)
    (hy : ∀ qs, (y qs).2 = qs) (h : ∀ ps qs, SameDeclarations ps qs → Res.Same Q (x ps).1 (y qs).1) :
    PM.Decides Q x y := fun ps qs hs =>
  ⟨[], [], by rw [hx, List.append_nil], by rw [hy, List.append_nil],
    .inl ⟨by simp, by simp, rfl, h ps qs hs, by rw [hx, hy]; exact hs⟩⟩

theorem PM.Decides.pure {Q : α → β → Prop} {a : α} {b : β} (h : Q a b) :
    PM.Decides Q (Pure.pure a : PM V α) (Pure.pure b : PM W β) := .of_still (fun _ => rfl) (fun _ => rfl) fun _ _ _ => h

theorem PM.Decides.lift {Q : α → β → Prop} {a : Res α} {b : Res β} (h : Res.Same Q a b) :
    PM.Decides Q (PM.lift a : PM V α) (PM.lift b : PM W β) := .of_still (fun _ => rfl) (fun _ => rfl) fun _ _ _ => h

theorem PM.Decides.bail {Q : α → β → Prop} (m : String) :
    PM.Decides Q (PM.bail m : PM V α) (PM.bail m : PM W β) := .of_still (fun _ => rfl) (fun _ => rfl) fun _ _ _ => rfl

/-- A run in which a call has failed is not continued. -/
theorem bind_cut {x : PM V α} {f : α → PM V γ} (hx : PM.Reports x) {ps : Plugins V} {new : List Call}
    (h : (x ps).2.log = ps.log ++ new) (hc : ∃ c ∈ new, c.isFailed = true) :
    ((x >>= f) ps).2.log = ps.log ++ new := by
  obtain ⟨_, new1, h1, h2⟩ := hx ps
  rw [h] at h1
  have h3 := List.append_cancel_left h1
  subst h3
  rw [PM.bind_run]
  rcases h2 with h2 | ⟨_, _, e, _, _, _, h4, _⟩
  · obtain ⟨c, hc, hf⟩ := hc
    rw [h2 c hc] at hf
    cases hf
  · rcases hxx : x ps with ⟨a | m | _, ps1⟩ <;> rw [hxx] at h4 h
    · cases h4
    · exact h
    · cases h4

/-- What follows adds to the log. -/
theorem bind_more {x : PM V α} {f : α → PM V γ} (hf : ∀ a, PM.Reports (f a)) {ps : Plugins V} {new : List Call}
    (h : (x ps).2.log = ps.log ++ new) : ∃ more, ((x >>= f) ps).2.log = ps.log ++ (new ++ more) := by
  rw [PM.bind_run]
  rcases hx : x ps with ⟨a | m | _, ps1⟩ <;> rw [hx] at h
  · obtain ⟨_, more, h1, _⟩ := hf a ps1
    exact ⟨more, by simp only [] at h ⊢; rw [h1, h, List.append_assoc]⟩
  · exact ⟨[], by simpa using h⟩
  · exact ⟨[], by simpa using h⟩

theorem PM.Decides.bind {Q : α → β → Prop} {Q' : γ → δ → Prop} {x : PM V α} {y : PM W β} {f : α → PM V γ} {g : β → PM W δ}
    (h : PM.Decides Q x y) (hx : PM.Reports x) (hy : PM.Reports y) (hf : ∀ a, PM.Reports (f a)) (hg : ∀ b, PM.Reports (g b))
    (hfg : ∀ a b, Q a b → PM.Decides Q' (f a) (g b)) : PM.Decides Q' (x >>= f) (y >>= g) := by
  intro ps qs hs
  obtain ⟨new, new', h1, h2, h3⟩ := h ps qs hs
  rcases h3 with ⟨h3, h4, h5, h6, h7⟩ | ⟨h3, h4⟩ | ⟨h3, h4⟩
  · rw [PM.bind_run, PM.bind_run]
    rcases hxx : x ps with ⟨a | m | _, ps1⟩ <;> rcases hyy : y qs with ⟨b | m' | _, qs1⟩ <;> rw [hxx] at h1 h6 h7 <;>
      rw [hyy] at h2 h6 h7 <;> simp only [Res.Same] at h1 h2 h6 h7 ⊢ <;> first | exact False.elim h6 | skip
    · obtain ⟨more, more', h8, h9, h10⟩ := hfg a b h6 ps1 qs1 h7
      refine ⟨new ++ more, new' ++ more', by rw [h8, h1, List.append_assoc], by rw [h9, h2, List.append_assoc], ?_⟩
      rcases h10 with ⟨h10, h11, h12, h13, h14⟩ | ⟨⟨c, hc, hf⟩, t, ht⟩ | ⟨⟨c, hc, hf⟩, t, ht⟩
      · refine .inl ⟨fun c hc => ?_, fun c hc => ?_, by rw [List.map_append, List.map_append, h5, h12], h13, h14⟩
        · rcases List.mem_append.mp hc with hc | hc
          · exact h3 c hc
          · exact h10 c hc
        · rcases List.mem_append.mp hc with hc | hc
          · exact h4 c hc
          · exact h11 c hc
      · exact .inr (.inl ⟨⟨c, List.mem_append_right _ hc, hf⟩, t,
          by rw [List.map_append, List.map_append, h5, List.append_assoc, ht]⟩)
      · exact .inr (.inr ⟨⟨c, List.mem_append_right _ hc, hf⟩, t,
          by rw [List.map_append, List.map_append, h5, List.append_assoc, ht]⟩)
    · exact ⟨new, new', h1, h2, .inl ⟨h3, h4, h5, h6, h7⟩⟩
    · exact ⟨new, new', h1, h2, .inl ⟨h3, h4, h5, h6, h7⟩⟩
  · obtain ⟨more, h5⟩ := bind_more hg h2
    refine ⟨new, new' ++ more, bind_cut hx h1 h3, h5, .inr (.inl ⟨h3, ?_⟩)⟩
    rw [List.map_append]
    exact h4.trans (List.prefix_append _ _)
  · obtain ⟨more, h5⟩ := bind_more hf h1
    refine ⟨new ++ more, new', h5, bind_cut hy h2 h3, .inr (.inr ⟨h3, ?_⟩)⟩
    rw [List.map_append]
    exact h4.trans (List.prefix_append _ _)

theorem callText_decides (plugin command : Str) (typ : PType) {args args' : List Value}
    (ha : args.map Value.form = args'.map Value.form) :
    PM.Decides (fun _ _ => True) (Plugins.callText (W := V) plugin command typ args)
      (Plugins.callText (W := W) plugin command typ args') := by
  intro ps qs h
  unfold Plugins.callText
  rcases h.get plugin with ⟨h1, h2⟩ | ⟨p, q, h1, h2, h3⟩
  · rw [h1, h2]
    exact ⟨[], [], by simp, by simp, .inl ⟨by simp, by simp, rfl, rfl, h⟩⟩
  · rw [h1, h2]
    simp only
    rw [h3]
    rcases hs : q.signatures.get (command, typ) with _ | m <;> simp only
    · exact ⟨[], [], by simp, by simp, .inl ⟨by simp, by simp, rfl, rfl, h⟩⟩
    · generalize V.callText p.extism m.callName args = o
      generalize W.callText q.extism m.callName args' = o'
      obtain ⟨a, s⟩ := o
      obtain ⟨b, t⟩ := o'
      have hform : ∀ o o', Call.form ⟨plugin, command, typ, .values args, o⟩ =
          Call.form ⟨plugin, command, typ, .values args', o'⟩ := by
        intro o o'
        simp only [Call.form, ha]
      rcases a with e | a
      · rcases b with e' | b
        · exact ⟨_, _, rfl, rfl, .inr (.inl ⟨⟨_, List.mem_singleton.mpr rfl, rfl⟩, [],
            by simp only [List.map_cons, List.map_nil, List.append_nil]; rw [hform]⟩)⟩
        · exact ⟨_, _, rfl, rfl, .inr (.inl ⟨⟨_, List.mem_singleton.mpr rfl, rfl⟩, [],
            by simp only [List.map_cons, List.map_nil, List.append_nil]; rw [hform]⟩)⟩
      · rcases b with e' | b
        · exact ⟨_, _, rfl, rfl, .inr (.inr ⟨⟨_, List.mem_singleton.mpr rfl, rfl⟩, [],
            by simp only [List.map_cons, List.map_nil, List.append_nil]; rw [hform]⟩)⟩
        · refine ⟨_, _, rfl, rfl, .inl ⟨?_, ?_, ?_, trivial, h.insert plugin (p := ⟨p.name, s, q.signatures, p.flag⟩)
            (q := ⟨q.name, t, q.signatures, q.flag⟩) rfl _ _⟩⟩
          · intro c hc
            rw [List.mem_singleton.mp hc]
            rfl
          · intro c hc
            rw [List.mem_singleton.mp hc]
            rfl
          · simp only [List.map_cons, List.map_nil]
            rw [hform]

theorem callMacro_decides (plugin command : Str) (tree : AST) (id : Str) :
    PM.Decides (fun _ _ => True) (Plugins.callMacro (W := V) plugin command tree id)
      (Plugins.callMacro (W := W) plugin command tree id) := by
  intro ps qs h
  unfold Plugins.callMacro
  rcases h.get plugin with ⟨h1, h2⟩ | ⟨p, q, h1, h2, h3⟩
  · rw [h1, h2]
    exact ⟨[], [], by simp, by simp, .inl ⟨by simp, by simp, rfl, rfl, h⟩⟩
  · rw [h1, h2]
    simp only
    rw [h3]
    generalize HMap.get (command, PType.ast) q.signatures = z
    rcases z with _ | m <;> simp only
    · exact ⟨[], [], by simp, by simp, .inl ⟨by simp, by simp, rfl, rfl, h⟩⟩
    · generalize V.callMacro p.extism m.callName tree id = o
      generalize W.callMacro q.extism m.callName tree id = o'
      obtain ⟨a, s⟩ := o
      obtain ⟨b, t⟩ := o'
      rcases a with e | a
      · rcases b with e' | b
        · exact ⟨_, _, rfl, rfl, .inr (.inl ⟨⟨_, List.mem_singleton.mpr rfl, rfl⟩, [], rfl⟩)⟩
        · exact ⟨_, _, rfl, rfl, .inr (.inl ⟨⟨_, List.mem_singleton.mpr rfl, rfl⟩, [], rfl⟩)⟩
      · rcases b with e' | b
        · exact ⟨_, _, rfl, rfl, .inr (.inr ⟨⟨_, List.mem_singleton.mpr rfl, rfl⟩, [], rfl⟩)⟩
        · refine ⟨_, _, rfl, rfl, .inl ⟨?_, ?_, rfl, trivial, h.insert plugin (p := ⟨p.name, s, q.signatures, p.flag⟩)
            (q := ⟨q.name, t, q.signatures, q.flag⟩) rfl _ _⟩⟩
          · intro c hc
            rw [List.mem_singleton.mp hc]
            rfl
          · intro c hc
            rw [List.mem_singleton.mp hc]
            rfl

theorem hook_decides (hook : Plugins V → Option Str) (hook' : Plugins W → Option Str)
    (hh : ∀ ps qs, SameDeclarations ps qs → hook ps = hook' qs) (command : Str) (typ : PType) {args args' : List Value}
    (ha : args.map Value.form = args'.map Value.form) :
    PM.Decides (fun _ _ => True)
      (fun ps => match hook ps with
        | some p => (do return some (← Plugins.callText p command typ args) : PM V _) ps
        | none => (.ok none, ps))
      (fun qs => match hook' qs with
        | some p => (do return some (← Plugins.callText p command typ args') : PM W _) qs
        | none => (.ok none, qs)) := by
  intro ps qs h
  simp only [hh ps qs h]
  rcases hook' qs with _ | p
  · exact ⟨[], [], by simp, by simp, .inl ⟨by simp, by simp, rfl, trivial, h⟩⟩
  · exact (callText_decides p command typ ha).bind (callText_reports _ _ _ _) (callText_reports _ _ _ _)
      (fun _ => .pure _) (fun _ => .pure _) (fun _ _ _ => .pure trivial) ps qs h

theorem callDocumentHook_decides (s s' : Str) : PM.Decides (fun _ _ => True) (Plugins.callDocumentHook (W := V) [.text s])
    (Plugins.callDocumentHook (W := W) [.text s']) :=
  hook_decides (·.documentHook) (·.documentHook) (fun _ _ h => h.documentHook) (chars! "document") .block rfl

theorem callStmtHook_decides (s s' : Str) : PM.Decides (fun _ _ => True) (Plugins.callStmtHook (W := V) [.text s])
    (Plugins.callStmtHook (W := W) [.text s']) :=
  hook_decides (·.stmtHook) (·.stmtHook) (fun _ _ h => h.stmtHook) (chars! "stmt") .block rfl

theorem callExprHook_decides (s s' : Str) : PM.Decides (fun _ _ => True) (Plugins.callExprHook (W := V) [.text s])
    (Plugins.callExprHook (W := W) [.text s']) :=
  hook_decides (·.exprHook) (·.exprHook) (fun _ _ h => h.exprHook) (chars! "expr") .inline rfl

theorem callTextHook_decides (s s' : Str) : PM.Decides (fun _ _ => True) (Plugins.callTextHook (W := V) [.text s])
    (Plugins.callTextHook (W := W) [.text s']) :=
  hook_decides (·.textHook) (·.textHook) (fun _ _ h => h.textHook) (chars! "text") .inline rfl

theorem textGenerate_decides (value : Option Str) :
    PM.Decides (fun _ _ => True) (textGenerate (W := V) value) (textGenerate (W := W) value) := by
  unfold textGenerate
  rcases value with _ | s
  · exact .bail _
  · exact (callTextHook_decides _ _).bind (callTextHook_reports _) (callTextHook_reports _) (fun _ => .pure _)
      (fun _ => .pure _) fun _ _ _ => .pure trivial

theorem bailWith_decides (a : AST) : PM.Decides (fun _ _ => True) (bailWith (W := V) a) (bailWith (W := W) a) :=
  PM.Decides.bind (.lift (Res.Same.refl (Q := Eq) (fun _ => rfl) _)) (.lift _) (.lift _) (fun _ => .bail _)
    (fun _ => .bail _) fun _ _ _ => .bail _

theorem nameOf_decides (k : ALKind) (a : AST) : PM.Decides Eq (nameOf (W := V) k a) (nameOf (W := W) k a) := by
  unfold nameOf
  rcases a with ⟨k', i, v, l⟩ | ⟨k', i, cs, l⟩
  · by_cases h : k' = k
    · simp only [if_pos h]
      rcases v with _ | v
      · exact .bail _
      · exact .pure rfl
    · simp only [if_neg h]
      exact .bail _
  · exact .bail _

theorem argumentTypes_decides (m c : Str) (t : PType) :
    PM.Decides Eq (Plugins.argumentTypes (W := V) m c t) (Plugins.argumentTypes (W := W) m c t) := by
  intro ps qs h
  unfold Plugins.argumentTypes
  rcases h.get m with ⟨h1, h2⟩ | ⟨p, q, h1, h2, h3⟩
  · rw [h1, h2]
    exact ⟨[], [], by simp, by simp, .inl ⟨by simp, by simp, rfl, rfl, h⟩⟩
  · rw [h1, h2]
    simp only
    rw [h3]
    rcases q.signatures.get (c, t) with _ | m
    · exact ⟨[], [], by simp, by simp, .inl ⟨by simp, by simp, rfl, rfl, h⟩⟩
    · exact ⟨[], [], by simp, by simp, .inl ⟨by simp, by simp, rfl, rfl, h⟩⟩

theorem bindArg_form {args args' : List Str} (h : args.length = args'.length) (i : Nat) (t : PType) :
    Res.Same (fun v v' => v.form = v'.form) (bindArg args i t) (bindArg args' i t) := by
  have hdef : Res.Same (fun v v' => v.form = v'.form)
      (match args[i]? with | some a => .ok (Value.text a) | none => .panic)
      (match args'[i]? with | some a => .ok (Value.text a) | none => .panic) := by
    by_cases hi : i < args.length
    · rw [List.getElem?_eq_getElem hi, List.getElem?_eq_getElem (h ▸ hi)]
      exact rfl
    · rw [List.getElem?_eq_none (by omega), List.getElem?_eq_none (by omega)]
      trivial
  have hopt : Res.Same (fun v v' : Value => v.form = v'.form)
      (if i < args.length then .ok (.textOption args[i]?) else .ok (.textOption none))
      (if i < args'.length then .ok (.textOption args'[i]?) else .ok (.textOption none)) := by
    by_cases hi : i < args.length
    · rw [if_pos hi, if_pos (h ▸ hi), List.getElem?_eq_getElem hi, List.getElem?_eq_getElem (h ▸ hi)]
      exact rfl
    · rw [if_neg hi, if_neg (h ▸ hi)]
      exact rfl
  have harr : Res.Same (fun v v' : Value => v.form = v'.form)
      (if i ≤ args.length then .ok (.textArray (args.drop i)) else .panic)
      (if i ≤ args'.length then .ok (.textArray (args'.drop i)) else .panic) := by
    by_cases hi : i ≤ args.length
    · rw [if_pos hi, if_pos (h ▸ hi)]
      show ValueForm.list _ = ValueForm.list _
      rw [List.length_drop, List.length_drop, h]
    · rw [if_neg hi, if_neg (h ▸ hi)]
      trivial
  rcases t with _ | _ | _ | t | t | _ <;> first | exact hdef | exact hopt | exact harr

theorem bindArgs_form {args args' : List Str} (h : args.length = args'.length) (ts : List PType) (i : Nat) :
    Res.Same (fun vs vs' => vs.map Value.form = vs'.map Value.form) (bindArgs args i ts) (bindArgs args' i ts) := by
  induction ts generalizing i with
  | nil => exact rfl
  | cons t ts ih =>
    have h1 := bindArg_form h i t
    have h2 := ih (i + 1)
    rw [bindArgs, bindArgs]
    generalize bindArg args i t = o at *
    generalize bindArg args' i t = o' at *
    rcases o with v | m | _ <;> rcases o' with v' | m' | _ <;>
      simp only [Res.Same] at h1 ⊢ <;> first | exact False.elim h1 | exact h1 | skip
    generalize bindArgs args (i + 1) ts = z at *
    generalize bindArgs args' (i + 1) ts = z' at *
    rcases z with vs | m | _ <;> rcases z' with vs' | m' | _ <;>
      simp only [Res.Same] at h2 ⊢ <;> first | exact False.elim h2 | exact h2 | skip
    simp only [List.map_cons, h1, h2]

theorem callCommand_decides (checks : Bool) (typ : PType) (m c : Str) (types : List PType) {args args' : List Str}
    (h : args.length = args'.length) :
    PM.Decides (fun _ _ => True) (callCommand (W := V) checks typ m c types args)
      (callCommand (W := W) checks typ m c types args') := by
  unfold callCommand
  rcases argCounter checks types with ⟨min, max⟩ | e | _ <;> simp only
  · rw [← h]
    by_cases h1 : args.length < min
    · rw [if_pos h1, if_pos h1]
      exact .bail _
    rw [if_neg h1, if_neg h1]
    by_cases h2 : args.length > max
    · rw [if_pos h2, if_pos h2]
      exact .bail _
    rw [if_neg h2, if_neg h2]
    have h3 := bindArgs_form h types 0
    generalize bindArgs args 0 types = o at *
    generalize bindArgs args' 0 types = o' at *
    rcases o with vs | e | _ <;> rcases o' with vs' | e' | _ <;>
      simp only [Res.Same] at h3 ⊢ <;> first | exact False.elim h3 | skip
    · exact callText_decides _ _ _ h3
    · exact .lift h3
    · exact .lift trivial
  · exact .lift rfl
  · exact .lift trivial

theorem commandGenerate_decides (checks : Bool) (b : Bracket) (m i : AST) {args args' : List Str}
    (h : args.length = args'.length) :
    PM.Decides (fun _ _ => True) (commandGenerate (W := V) checks b m i args)
      (commandGenerate (W := W) checks b m i args') := by
  refine (nameOf_decides _ _).bind (nameOf_reports _ _) (nameOf_reports _ _)
    (fun _ => (nameOf_reports _ _).bind fun _ => (argumentTypes_reports _ _ _).bind fun _ => callCommand_reports _ _ _ _ _ _)
    (fun _ => (nameOf_reports _ _).bind fun _ => (argumentTypes_reports _ _ _).bind fun _ => callCommand_reports _ _ _ _ _ _)
    fun mn _ hm => ?_
  subst hm
  refine (nameOf_decides _ _).bind (nameOf_reports _ _) (nameOf_reports _ _)
    (fun _ => (argumentTypes_reports _ _ _).bind fun _ => callCommand_reports _ _ _ _ _ _)
    (fun _ => (argumentTypes_reports _ _ _).bind fun _ => callCommand_reports _ _ _ _ _ _)
    fun cn _ hc => ?_
  subst hc
  refine (argumentTypes_decides _ _ _).bind (argumentTypes_reports _ _ _) (argumentTypes_reports _ _ _)
    (fun _ => callCommand_reports _ _ _ _ _ _) (fun _ => callCommand_reports _ _ _ _ _ _) fun ts _ ht => ?_
  subst ht
  exact callCommand_decides _ _ _ _ _ h

/-- A node with children: the texts of the children, then one more step. -/
theorem PM.Decides.after {x : PM V (List Str)} {y : PM W (List Str)} {f : List Str → PM V Str} {g : List Str → PM W Str}
    (h : PM.Decides (fun a b => a.length = b.length) x y) (hx : PM.Reports x) (hy : PM.Reports y)
    (hf : ∀ a, PM.Reports (f a)) (hg : ∀ b, PM.Reports (g b))
    (hfg : ∀ a b, a.length = b.length → PM.Decides (fun _ _ => True) (f a) (g b)) :
    PM.Decides (fun _ _ => True) (x >>= f) (y >>= g) := h.bind hx hy hf hg hfg

mutual
theorem genChild_decides (checks inDocument : Bool) :
    ∀ a, PM.Decides (fun _ _ => True) (genChild (W := V) checks inDocument a) (genChild (W := W) checks inDocument a)
  | .node .stmt i cs l => by
    rw [genChild, genChild]
    cases inDocument
    · exact bailWith_decides _
    · exact (genChildren_decides checks false cs).after (genChildren_reports _ _ _) (genChildren_reports _ _ _)
        (fun _ => (callStmtHook_reports _).bind fun _ => .pure _) (fun _ => (callStmtHook_reports _).bind fun _ => .pure _)
        fun _ _ _ => (callStmtHook_decides _ _).bind (callStmtHook_reports _) (callStmtHook_reports _) (fun _ => .pure _)
          (fun _ => .pure _) fun _ _ _ => .pure trivial
  | .node .expr _ cs _ => by
    rw [genChild, genChild]
    exact (genChildren_decides checks false cs).after (genChildren_reports _ _ _) (genChildren_reports _ _ _)
      (fun _ => (callExprHook_reports _).bind fun _ => .pure _) (fun _ => (callExprHook_reports _).bind fun _ => .pure _)
      fun _ _ _ => (callExprHook_decides _ _).bind (callExprHook_reports _) (callExprHook_reports _) (fun _ => .pure _)
        (fun _ => .pure _) fun _ _ _ => .pure trivial
  | .node (.bracket .angle) _ _ _ => by rw [genChild, genChild]; exact .bail _
  | .node (.bracket .square) _ [] _ => by rw [genChild, genChild]; exact .bail _; all_goals simp
  | .node (.bracket .square) _ [_] _ => by rw [genChild, genChild]; exact .bail _; all_goals simp
  | .node (.bracket .square) _ (m :: i :: cs) _ => by
    have ih := genChildren_decides checks false cs
    rw [genChild, genChild]
    · exact ih.after (genChildren_reports _ _ _) (genChildren_reports _ _ _) (fun _ => commandGenerate_reports _ _ _ _ _)
        (fun _ => commandGenerate_reports _ _ _ _ _) fun _ _ h => commandGenerate_decides _ _ _ _ h
    all_goals simp
  | .node (.bracket .curly) _ [] _ => by rw [genChild, genChild]; exact .bail _; all_goals simp
  | .node (.bracket .curly) _ [_] _ => by rw [genChild, genChild]; exact .bail _; all_goals simp
  | .node (.bracket .curly) _ (m :: i :: cs) _ => by
    have ih := genChildren_decides checks false cs
    rw [genChild, genChild]
    · exact ih.after (genChildren_reports _ _ _) (genChildren_reports _ _ _) (fun _ => commandGenerate_reports _ _ _ _ _)
        (fun _ => commandGenerate_reports _ _ _ _ _) fun _ _ h => commandGenerate_decides _ _ _ _ h
    all_goals simp
  | .node .document i cs l => by rw [genChild, genChild]; exact bailWith_decides _; all_goals simp
  | .leaf .text _ v _ => by rw [genChild, genChild]; exact textGenerate_decides v
  | .leaf .module i v l => by rw [genChild, genChild]; exact bailWith_decides _; all_goals simp
  | .leaf .ident i v l => by rw [genChild, genChild]; exact bailWith_decides _; all_goals simp
  | .leaf .invalid i v l => by rw [genChild, genChild]; exact bailWith_decides _; all_goals simp
  | .leaf .ignored i v l => by rw [genChild, genChild]; exact bailWith_decides _; all_goals simp

theorem genChildren_decides (checks inDocument : Bool) :
    ∀ cs, PM.Decides (fun a b => a.length = b.length) (genChildren (W := V) checks inDocument cs)
      (genChildren (W := W) checks inDocument cs)
  | [] => by rw [genChildren, genChildren]; exact .pure rfl
  | c :: cs => by
    have ih := genChildren_decides checks inDocument cs
    have hc := genChild_decides checks inDocument c
    rw [genChildren, genChildren]
    exact hc.bind (genChild_reports _ _ _) (genChild_reports _ _ _) (fun _ => (genChildren_reports _ _ _).bind fun _ => .pure _)
      (fun _ => (genChildren_reports _ _ _).bind fun _ => .pure _) fun _ _ _ =>
        ih.bind (genChildren_reports _ _ _) (genChildren_reports _ _ _) (fun _ => .pure _) (fun _ => .pure _)
          fun _ _ h => .pure (by simp [h])
end

theorem generate_decides (checks : Bool) (a : AST) :
    PM.Decides (fun _ _ => True) (generate (W := V) checks a) (generate (W := W) checks a) := by
  unfold generate
  split
  · exact (genChildren_decides checks true _).after (genChildren_reports _ _ _) (genChildren_reports _ _ _)
      (fun _ => (callDocumentHook_reports _).bind fun _ => .pure _)
      (fun _ => (callDocumentHook_reports _).bind fun _ => .pure _) fun _ _ _ =>
        (callDocumentHook_decides _ _).bind (callDocumentHook_reports _) (callDocumentHook_reports _) (fun _ => .pure _)
          (fun _ => .pure _) fun _ _ _ => .pure trivial
  · exact .bail _

theorem expandAngle_decides (overall : AST) (i : Str) (cs : List AST) :
    PM.Decides (fun _ _ => True) (expandAngle (W := V) overall i cs) (expandAngle (W := W) overall i cs) := by
  refine PM.Decides.bind (.lift (Res.Same.refl (Q := Eq) (fun _ => rfl) _)) (.lift _) (.lift _)
    (fun _ => callMacro_reports _ _ _ _) (fun _ => callMacro_reports _ _ _ _) fun a b h => ?_
  subst h
  exact callMacro_decides _ _ _ _

mutual
theorem expandOther_decides (overall : AST) :
    ∀ a, PM.Decides Eq (expandOther (W := V) overall a) (expandOther (W := W) overall a)
  | .leaf .text _ _ _ => by rw [expandOther, expandOther]; exact .pure rfl
  | .leaf .module _ _ _ => by rw [expandOther, expandOther]; exact .pure rfl
  | .leaf .ident _ _ _ => by rw [expandOther, expandOther]; exact .pure rfl
  | .leaf .invalid _ _ _ => by rw [expandOther, expandOther]; exact .lift trivial
  | .leaf .ignored _ _ _ => by rw [expandOther, expandOther]; exact .lift trivial
  | .node k i cs l => by
    rw [expandOther, expandOther]
    exact (expandChildren_decides overall cs).bind (expandChildren_reports _ _) (expandChildren_reports _ _) (fun _ => .pure _)
      (fun _ => .pure _) fun _ _ _ => .pure rfl

theorem expandChildren_decides (overall : AST) :
    ∀ cs, PM.Decides (fun _ _ => True) (expandChildren (W := V) overall cs) (expandChildren (W := W) overall cs)
  | [] => by rw [expandChildren, expandChildren]; exact .pure trivial
  | c :: cs => by
    have ih := expandChildren_decides overall cs
    have hc := expandOther_decides overall c
    by_cases h : ∃ i es l, c = .node (.bracket .angle) i es l
    · obtain ⟨i, es, l, rfl⟩ := h
      rw [expandChildren, expandChildren]
      exact (expandAngle_decides overall i es).bind (expandAngle_reports _ _ _) (expandAngle_reports _ _ _)
        (fun _ => (expandChildren_reports _ _).bind fun _ => .pure _)
        (fun _ => (expandChildren_reports _ _).bind fun _ => .pure _) fun _ _ _ =>
          ih.bind (expandChildren_reports _ _) (expandChildren_reports _ _) (fun _ => .pure _) (fun _ => .pure _)
            fun _ _ _ => .pure trivial
    · rw [expandChildren, expandChildren]
      · exact hc.bind (expandOther_reports _ _) (expandOther_reports _ _)
          (fun _ => (expandChildren_reports _ _).bind fun _ => .pure _)
          (fun _ => (expandChildren_reports _ _).bind fun _ => .pure _) fun _ _ _ =>
            ih.bind (expandChildren_reports _ _) (expandChildren_reports _ _) (fun _ => .pure _) (fun _ => .pure _)
              fun _ _ _ => .pure trivial
      all_goals exact fun i es l h' => h ⟨i, es, l, h'⟩
end

theorem compileText_decides (S : Segmenter) (ids : Nat → Str) (checks : Bool) (text : Str) :
    PM.Decides (fun _ _ => True) (compileText (W := V) S ids checks text) (compileText (W := W) S ids checks text) := by
  refine PM.Decides.bind (.lift (Res.Same.refl (Q := Eq) (fun _ => rfl) _)) (.lift _) (.lift _)
    (fun _ => (PM.Reports.lift _).bind fun _ => (PM.Reports.lift _).bind fun _ => (expandOther_reports _ _).bind fun _ =>
      generate_reports _ _)
    (fun _ => (PM.Reports.lift _).bind fun _ => (PM.Reports.lift _).bind fun _ => (expandOther_reports _ _).bind fun _ =>
      generate_reports _ _) fun a b h => ?_
  subst h
  refine PM.Decides.bind (.lift (Res.Same.refl (Q := Eq) (fun _ => rfl) _)) (.lift _) (.lift _)
    (fun _ => (PM.Reports.lift _).bind fun _ => (expandOther_reports _ _).bind fun _ => generate_reports _ _)
    (fun _ => (PM.Reports.lift _).bind fun _ => (expandOther_reports _ _).bind fun _ => generate_reports _ _) fun a b h => ?_
  subst h
  refine PM.Decides.bind (.lift (Res.Same.refl (Q := Eq) (fun _ => rfl) _)) (.lift _) (.lift _)
    (fun _ => (expandOther_reports _ _).bind fun _ => generate_reports _ _)
    (fun _ => (expandOther_reports _ _).bind fun _ => generate_reports _ _) fun a b h => ?_
  subst h
  refine (expandOther_decides _ _).bind (expandOther_reports _ _) (expandOther_reports _ _) (fun _ => generate_reports _ _)
    (fun _ => generate_reports _ _) fun a b h => ?_
  subst h
  exact generate_decides _ _

end Brack
