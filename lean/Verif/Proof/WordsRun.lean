import Verif.Proof.WordsTree
import Verif.Proof.Decided

/-
Documents that differ in their words only make calls of the same outline.
-/

namespace Brack

variable {V W : Wasm}

/-- One of two lists of calls has a failed call, and the outlines of its calls start those of the other. -/
def EndsEarly (new new' : List Call) : Prop :=
  (∃ c ∈ new, c.isFailed = true) ∧ new.map Call.outline <+: new'.map Call.outline

/-- Two runs make calls of the same outlines, up to the first failure in one of them. -/
def PM.Outlines (Q : α → β → Prop) (x : PM V α) (y : PM W β) : Prop := ∀ ps qs, SameDeclarations ps qs →
  ∃ new new', (x ps).2.log = ps.log ++ new ∧ (y qs).2.log = qs.log ++ new' ∧
    (((∀ c ∈ new, c.isFailed = false) ∧ (∀ c ∈ new', c.isFailed = false) ∧ new.map Call.outline = new'.map Call.outline ∧
        Res.Same Q (x ps).1 (y qs).1 ∧ SameDeclarations (x ps).2 (y qs).2) ∨
      EndsEarly new new' ∨ EndsEarly new' new)

theorem PM.Outlines.of_still {Q : α → β → Prop} {x : PM V α} {y : PM W β} (hx : ∀ ps, (x ps).2 = ps)
    (hy : ∀ qs, (y qs).2 = qs) (h : ∀ ps qs, SameDeclarations ps qs → Res.Same Q (x ps).1 (y qs).1) :
    PM.Outlines Q x y := fun ps qs hs =>
  ⟨[], [], by rw [hx, List.append_nil], by rw [hy, List.append_nil],
    .inl ⟨by simp, by simp, rfl, h ps qs hs, by rw [hx, hy]; exact hs⟩⟩

theorem PM.Outlines.pure {Q : α → β → Prop} {a : α} {b : β} (h : Q a b) :
    PM.Outlines Q (Pure.pure a : PM V α) (Pure.pure b : PM W β) := .of_still (fun _ => rfl) (fun _ => rfl) fun _ _ _ => h

theorem PM.Outlines.lift {Q : α → β → Prop} {a : Res α} {b : Res β} (h : Res.Same Q a b) :
    PM.Outlines Q (PM.lift a : PM V α) (PM.lift b : PM W β) := .of_still (fun _ => rfl) (fun _ => rfl) fun _ _ _ => h

theorem PM.Outlines.bail {Q : α → β → Prop} (m : String) :
    PM.Outlines Q (PM.bail m : PM V α) (PM.bail m : PM W β) := .of_still (fun _ => rfl) (fun _ => rfl) fun _ _ _ => rfl

theorem PM.Outlines.bind {Q : α → β → Prop} {Q' : γ → δ → Prop} {x : PM V α} {y : PM W β} {f : α → PM V γ} {g : β → PM W δ}
    (h : PM.Outlines Q x y) (hx : PM.Reports x) (hy : PM.Reports y) (hf : ∀ a, PM.Reports (f a)) (hg : ∀ b, PM.Reports (g b))
    (hfg : ∀ a b, Q a b → PM.Outlines Q' (f a) (g b)) : PM.Outlines Q' (x >>= f) (y >>= g) := by
  intro ps qs hs
  obtain ⟨new, new', h1, h2, h3⟩ := h ps qs hs
  rcases h3 with ⟨h3, h4, h5, h6, h7⟩ | ⟨h3, h4⟩ | ⟨h3, h4⟩
  · rw [PM.bind_run, PM.bind_run]
    rcases hxx : x ps with ⟨a | m | _, ps1⟩ <;> rcases hyy : y qs with ⟨b | m' | _, qs1⟩ <;> rw [hxx] at h1 h6 h7 <;>
      rw [hyy] at h2 h6 h7 <;> simp only [Res.Same] at h1 h2 h6 h7 ⊢ <;> first | exact False.elim h6 | skip
    · obtain ⟨more, more', h8, h9, h10⟩ := hfg a b h6 ps1 qs1 h7
      refine ⟨new ++ more, new' ++ more', by rw [h8, h1, List.append_assoc], by rw [h9, h2, List.append_assoc], ?_⟩
      rcases h10 with ⟨h10, h11, h12, h13, h14⟩ | ⟨⟨c, hc, hf⟩, t, ht⟩ | ⟨⟨c, hc, hf⟩, t, ht⟩
      · refine .inl ⟨fun c hc => ?_, fun c hc => ?_, by rw [List.map_append, List.map_append, h5, h12], h13, h14⟩
        · rcases List.mem_append.mp hc with hc | hc
          · exact h3 c hc
          · exact h10 c hc
        · rcases List.mem_append.mp hc with hc | hc
          · exact h4 c hc
          · exact h11 c hc
      · exact .inr (.inl ⟨⟨c, List.mem_append_right _ hc, hf⟩, t,
          by rw [List.map_append, List.map_append, h5, List.append_assoc, ht]⟩)
      · exact .inr (.inr ⟨⟨c, List.mem_append_right _ hc, hf⟩, t,
          by rw [List.map_append, List.map_append, h5, List.append_assoc, ht]⟩)
    · exact ⟨new, new', h1, h2, .inl ⟨h3, h4, h5, h6, h7⟩⟩
    · exact ⟨new, new', h1, h2, .inl ⟨h3, h4, h5, h6, h7⟩⟩
  · obtain ⟨more, h5⟩ := bind_more hg h2
    refine ⟨new, new' ++ more, bind_cut hx h1 h3, h5, .inr (.inl ⟨h3, ?_⟩)⟩
    rw [List.map_append]
    exact h4.trans (List.prefix_append _ _)
  · obtain ⟨more, h5⟩ := bind_more hf h1
    refine ⟨new ++ more, new', h5, bind_cut hy h2 h3, .inr (.inr ⟨h3, ?_⟩)⟩
    rw [List.map_append]
    exact h4.trans (List.prefix_append _ _)

theorem callText_outlines (plugin command : Str) (typ : PType) {args args' : List Value}
    (ha : args.map Value.form = args'.map Value.form) :
    PM.Outlines (fun _ _ => True) (Plugins.callText (W := V) plugin command typ args)
      (Plugins.callText (W := W) plugin command typ args') := by
  intro ps qs h
  unfold Plugins.callText
  rcases h.get plugin with ⟨h1, h2⟩ | ⟨p, q, h1, h2, h3⟩
  · rw [h1, h2]
    exact ⟨[], [], by simp, by simp, .inl ⟨by simp, by simp, rfl, rfl, h⟩⟩
  · rw [h1, h2]
    simp only
    rw [h3]
    rcases hs : q.signatures.get (command, typ) with _ | m <;> simp only
    · exact ⟨[], [], by simp, by simp, .inl ⟨by simp, by simp, rfl, rfl, h⟩⟩
    · generalize V.callText p.extism m.callName args = o
      generalize W.callText q.extism m.callName args' = o'
      obtain ⟨a, s⟩ := o
      obtain ⟨b, t⟩ := o'
      have hform : ∀ o o', Call.outline ⟨plugin, command, typ, .values args, o⟩ =
          Call.outline ⟨plugin, command, typ, .values args', o'⟩ := by
        intro o o'
        simp only [Call.outline, ha]
      rcases a with e | a
      · rcases b with e' | b
        · exact ⟨_, _, rfl, rfl, .inr (.inl ⟨⟨_, List.mem_singleton.mpr rfl, rfl⟩, [],
            by simp only [List.map_cons, List.map_nil, List.append_nil]; rw [hform]⟩)⟩
        · exact ⟨_, _, rfl, rfl, .inr (.inl ⟨⟨_, List.mem_singleton.mpr rfl, rfl⟩, [],
            by simp only [List.map_cons, List.map_nil, List.append_nil]; rw [hform]⟩)⟩
      · rcases b with e' | b
        · exact ⟨_, _, rfl, rfl, .inr (.inr ⟨⟨_, List.mem_singleton.mpr rfl, rfl⟩, [],
            by simp only [List.map_cons, List.map_nil, List.append_nil]; rw [hform]⟩)⟩
        · refine ⟨_, _, rfl, rfl, .inl ⟨?_, ?_, ?_, trivial, h.insert plugin (p := ⟨p.name, s, q.signatures, p.flag⟩)
            (q := ⟨q.name, t, q.signatures, q.flag⟩) rfl _ _⟩⟩
          · intro c hc
            rw [List.mem_singleton.mp hc]
            rfl
          · intro c hc
            rw [List.mem_singleton.mp hc]
            rfl
          · simp only [List.map_cons, List.map_nil]
            rw [hform]

theorem callMacro_outlines (plugin command : Str) (tree tree' : AST) (id id' : Str) :
    PM.Outlines (fun _ _ => True) (Plugins.callMacro (W := V) plugin command tree id)
      (Plugins.callMacro (W := W) plugin command tree' id') := by
  intro ps qs h
  unfold Plugins.callMacro
  rcases h.get plugin with ⟨h1, h2⟩ | ⟨p, q, h1, h2, h3⟩
  · rw [h1, h2]
    exact ⟨[], [], by simp, by simp, .inl ⟨by simp, by simp, rfl, rfl, h⟩⟩
  · rw [h1, h2]
    simp only
    rw [h3]
    generalize HMap.get (command, PType.ast) q.signatures = z
    rcases z with _ | m <;> simp only
    · exact ⟨[], [], by simp, by simp, .inl ⟨by simp, by simp, rfl, rfl, h⟩⟩
    · generalize V.callMacro p.extism m.callName tree id = o
      generalize W.callMacro q.extism m.callName tree' id' = o'
      obtain ⟨a, s⟩ := o
      obtain ⟨b, t⟩ := o'
      rcases a with e | a
      · rcases b with e' | b
        · exact ⟨_, _, rfl, rfl, .inr (.inl ⟨⟨_, List.mem_singleton.mpr rfl, rfl⟩, [], rfl⟩)⟩
        · exact ⟨_, _, rfl, rfl, .inr (.inl ⟨⟨_, List.mem_singleton.mpr rfl, rfl⟩, [], rfl⟩)⟩
      · rcases b with e' | b
        · exact ⟨_, _, rfl, rfl, .inr (.inr ⟨⟨_, List.mem_singleton.mpr rfl, rfl⟩, [], rfl⟩)⟩
        · refine ⟨_, _, rfl, rfl, .inl ⟨?_, ?_, rfl, trivial, h.insert plugin (p := ⟨p.name, s, q.signatures, p.flag⟩)
            (q := ⟨q.name, t, q.signatures, q.flag⟩) rfl _ _⟩⟩
          · intro c hc
            rw [List.mem_singleton.mp hc]
            rfl
          · intro c hc
            rw [List.mem_singleton.mp hc]
            rfl

theorem hook_outlines (hook : Plugins V → Option Str) (hook' : Plugins W → Option Str)
    (hh : ∀ ps qs, SameDeclarations ps qs → hook ps = hook' qs) (command : Str) (typ : PType) {args args' : List Value}
    (ha : args.map Value.form = args'.map Value.form) :
    PM.Outlines (fun _ _ => True)
      (fun ps => match hook ps with
        | some p => (do return some (← Plugins.callText p command typ args) : PM V _) ps
        | none => (.ok none, ps))
      (fun qs => match hook' qs with
        | some p => (do return some (← Plugins.callText p command typ args') : PM W _) qs
        | none => (.ok none, qs)) := by
  intro ps qs h
  simp only [hh ps qs h]
  rcases hook' qs with _ | p
  · exact ⟨[], [], by simp, by simp, .inl ⟨by simp, by simp, rfl, trivial, h⟩⟩
  · exact (callText_outlines p command typ ha).bind (callText_reports _ _ _ _) (callText_reports _ _ _ _)
      (fun _ => .pure _) (fun _ => .pure _) (fun _ _ _ => .pure trivial) ps qs h

theorem callDocumentHook_outlines (s s' : Str) : PM.Outlines (fun _ _ => True) (Plugins.callDocumentHook (W := V) [.text s])
    (Plugins.callDocumentHook (W := W) [.text s']) :=
  hook_outlines (·.documentHook) (·.documentHook) (fun _ _ h => h.documentHook) (chars! "document") .block rfl

theorem callStmtHook_outlines (s s' : Str) : PM.Outlines (fun _ _ => True) (Plugins.callStmtHook (W := V) [.text s])
    (Plugins.callStmtHook (W := W) [.text s']) :=
  hook_outlines (·.stmtHook) (·.stmtHook) (fun _ _ h => h.stmtHook) (chars! "stmt") .block rfl

theorem callExprHook_outlines (s s' : Str) : PM.Outlines (fun _ _ => True) (Plugins.callExprHook (W := V) [.text s])
    (Plugins.callExprHook (W := W) [.text s']) :=
  hook_outlines (·.exprHook) (·.exprHook) (fun _ _ h => h.exprHook) (chars! "expr") .inline rfl

theorem callTextHook_outlines (s s' : Str) : PM.Outlines (fun _ _ => True) (Plugins.callTextHook (W := V) [.text s])
    (Plugins.callTextHook (W := W) [.text s']) :=
  hook_outlines (·.textHook) (·.textHook) (fun _ _ h => h.textHook) (chars! "text") .inline rfl

mutual

theorem display_like : ∀ (n : Nat) {a a' : AST}, a.Like a' →
    Res.Same (fun _ _ => True) (a.display n) (a'.display n)
  | n, .leaf k _ v _, .leaf k' _ v' _, h => by
    simp only [AST.Like] at h
    obtain ⟨rfl, rfl | ⟨rfl, s, s', rfl, rfl⟩⟩ := h
    · rw [AST.display, AST.display]
      rcases AST.leafLabel k v with _ | _ | _ <;> simp [Res.Same]
    · rw [AST.display, AST.display]
      exact trivial
  | n, .node k _ cs _, .node k' _ cs' _, h => by
    simp only [AST.Like] at h
    have ih := displayL_like (n + 1) h.2
    rw [AST.display, AST.display]
    generalize AST.displayL (n + 1) cs = o at *
    generalize AST.displayL (n + 1) cs' = o' at *
    rcases o with _ | _ | _ <;> rcases o' with _ | _ | _ <;> first | exact ih.elim | exact ih
  | _, .leaf _ _ _ _, .node _ _ _ _, h => by simp [AST.Like] at h
  | _, .node _ _ _ _, .leaf _ _ _ _, h => by simp [AST.Like] at h

theorem displayL_like : ∀ (n : Nat) {cs cs' : List AST}, AST.LikeL cs cs' →
    Res.Same (fun _ _ => True) (AST.displayL n cs) (AST.displayL n cs')
  | _, [], [], _ => by
    rw [AST.displayL]
    exact trivial
  | n, c :: cs, c' :: cs', h => by
    simp only [AST.LikeL] at h
    have h1 := display_like n h.1
    have h2 := displayL_like n h.2
    rw [AST.displayL, AST.displayL]
    generalize c.display n = o at *
    generalize c'.display n = o' at *
    rcases o with _ | _ | _ <;> rcases o' with _ | _ | _ <;> first | exact h1.elim | exact h1 | skip
    generalize AST.displayL n cs = o at *
    generalize AST.displayL n cs' = o' at *
    rcases o with _ | _ | _ <;> rcases o' with _ | _ | _ <;> first | exact h2.elim | exact h2
  | _, [], _ :: _, h => by simp [AST.LikeL] at h
  | _, _ :: _, [], h => by simp [AST.LikeL] at h

end

theorem textGenerate_outlines {value value' : Option Str}
    (h : value = value' ∨ ∃ s s', value = some s ∧ value' = some s') :
    PM.Outlines (fun _ _ => True) (textGenerate (W := V) value) (textGenerate (W := W) value') := by
  have key : ∀ s s' : Str, PM.Outlines (fun _ _ => True) (textGenerate (W := V) (some s)) (textGenerate (W := W) (some s')) :=
    fun s s' => (callTextHook_outlines _ _).bind (callTextHook_reports _) (callTextHook_reports _) (fun _ => .pure _)
      (fun _ => .pure _) fun _ _ _ => .pure trivial
  rcases h with rfl | ⟨s, s', rfl, rfl⟩
  · rcases value with _ | s
    · exact .bail _
    · exact key s s
  · exact key s s'

theorem bailWith_outlines {a a' : AST} (h : a.Like a') :
    PM.Outlines (fun _ _ => True) (bailWith (W := V) a) (bailWith (W := W) a') :=
  PM.Outlines.bind (.lift (display_like 0 h)) (.lift _) (.lift _) (fun _ => .bail _)
    (fun _ => .bail _) fun _ _ _ => .bail _

theorem nameOf_outlines {k : ALKind} (hk : k ≠ .text) {a a' : AST} (h : a.Like a') :
    PM.Outlines Eq (nameOf (W := V) k a) (nameOf (W := W) k a') := by
  unfold nameOf
  rcases a with ⟨k1, i, v, l⟩ | ⟨k1, i, cs, l⟩ <;> rcases a' with ⟨k2, i', v', l'⟩ | ⟨k2, i', cs', l'⟩ <;>
    simp only [AST.Like] at h
  · obtain ⟨rfl, h⟩ := h
    by_cases h1 : k1 = k
    · simp only [if_pos h1]
      rcases h with rfl | ⟨rfl, _⟩
      · rcases v with _ | v
        · exact .bail _
        · exact .pure rfl
      · exact absurd h1.symm hk
    · simp only [if_neg h1]
      exact .bail _
  · exact .bail _

theorem argumentTypes_outlines (m c : Str) (t : PType) :
    PM.Outlines Eq (Plugins.argumentTypes (W := V) m c t) (Plugins.argumentTypes (W := W) m c t) := by
  intro ps qs h
  unfold Plugins.argumentTypes
  rcases h.get m with ⟨h1, h2⟩ | ⟨p, q, h1, h2, h3⟩
  · rw [h1, h2]
    exact ⟨[], [], by simp, by simp, .inl ⟨by simp, by simp, rfl, rfl, h⟩⟩
  · rw [h1, h2]
    simp only
    rw [h3]
    rcases q.signatures.get (c, t) with _ | m
    · exact ⟨[], [], by simp, by simp, .inl ⟨by simp, by simp, rfl, rfl, h⟩⟩
    · exact ⟨[], [], by simp, by simp, .inl ⟨by simp, by simp, rfl, rfl, h⟩⟩

theorem callCommand_outlines (checks : Bool) (typ : PType) (m c : Str) (types : List PType) {args args' : List Str}
    (h : args.length = args'.length) :
    PM.Outlines (fun _ _ => True) (callCommand (W := V) checks typ m c types args)
      (callCommand (W := W) checks typ m c types args') := by
  unfold callCommand
  rcases argCounter checks types with ⟨min, max⟩ | e | _ <;> simp only
  · rw [← h]
    by_cases h1 : args.length < min
    · rw [if_pos h1, if_pos h1]
      exact .bail _
    rw [if_neg h1, if_neg h1]
    by_cases h2 : args.length > max
    · rw [if_pos h2, if_pos h2]
      exact .bail _
    rw [if_neg h2, if_neg h2]
    have h3 := bindArgs_form h types 0
    generalize bindArgs args 0 types = o at *
    generalize bindArgs args' 0 types = o' at *
    rcases o with vs | e | _ <;> rcases o' with vs' | e' | _ <;>
      simp only [Res.Same] at h3 ⊢ <;> first | exact False.elim h3 | skip
    · exact callText_outlines _ _ _ h3
    · exact .lift h3
    · exact .lift trivial
  · exact .lift rfl
  · exact .lift trivial

theorem commandGenerate_outlines (checks : Bool) (b : Bracket) {m m' i i' : AST} (hm : m.Like m') (hi : i.Like i')
    {args args' : List Str} (h : args.length = args'.length) :
    PM.Outlines (fun _ _ => True) (commandGenerate (W := V) checks b m i args)
      (commandGenerate (W := W) checks b m' i' args') := by
  refine (nameOf_outlines (by simp) hm).bind (nameOf_reports _ _) (nameOf_reports _ _)
    (fun _ => (nameOf_reports _ _).bind fun _ => (argumentTypes_reports _ _ _).bind fun _ => callCommand_reports _ _ _ _ _ _)
    (fun _ => (nameOf_reports _ _).bind fun _ => (argumentTypes_reports _ _ _).bind fun _ => callCommand_reports _ _ _ _ _ _)
    fun mn _ hm => ?_
  subst hm
  refine (nameOf_outlines (by simp) hi).bind (nameOf_reports _ _) (nameOf_reports _ _)
    (fun _ => (argumentTypes_reports _ _ _).bind fun _ => callCommand_reports _ _ _ _ _ _)
    (fun _ => (argumentTypes_reports _ _ _).bind fun _ => callCommand_reports _ _ _ _ _ _)
    fun cn _ hc => ?_
  subst hc
  refine (argumentTypes_outlines _ _ _).bind (argumentTypes_reports _ _ _) (argumentTypes_reports _ _ _)
    (fun _ => callCommand_reports _ _ _ _ _ _) (fun _ => callCommand_reports _ _ _ _ _ _) fun ts _ ht => ?_
  subst ht
  exact callCommand_outlines _ _ _ _ _ h

/-- A node with children: the texts of the children, then one more step. -/
theorem PM.Outlines.after {x : PM V (List Str)} {y : PM W (List Str)} {f : List Str → PM V Str} {g : List Str → PM W Str}
    (h : PM.Outlines (fun a b => a.length = b.length) x y) (hx : PM.Reports x) (hy : PM.Reports y)
    (hf : ∀ a, PM.Reports (f a)) (hg : ∀ b, PM.Reports (g b))
    (hfg : ∀ a b, a.length = b.length → PM.Outlines (fun _ _ => True) (f a) (g b)) :
    PM.Outlines (fun _ _ => True) (x >>= f) (y >>= g) := h.bind hx hy hf hg hfg


theorem genChild_command {checks inDocument : Bool} {b : Bracket} (hb : b ≠ .angle) (m i : AST) (cs : List AST) (j : Str) (l : Loc) :
    genChild (W := W) checks inDocument (.node (.bracket b) j (m :: i :: cs) l) =
      (do let arguments ← genChildren checks false cs
          commandGenerate checks b m i arguments) := by
  cases b
  · exact absurd rfl hb
  · rw [genChild]
    simp
  · rw [genChild]
    simp

mutual
theorem genChild_outlines (checks inDocument : Bool) : ∀ {a a' : AST}, a.Like a' →
    PM.Outlines (fun _ _ => True) (genChild (W := V) checks inDocument a) (genChild (W := W) checks inDocument a')
  | .leaf k i v l, .leaf k' i' v' l', h => by
    have h' := h
    simp only [AST.Like] at h
    obtain ⟨rfl, h⟩ := h
    cases k
    case text =>
      rw [genChild, genChild]
      exact textGenerate_outlines (h.imp id fun h => h.2)
    all_goals
      rw [genChild, genChild]
      · exact bailWith_outlines h'
      all_goals simp
  | .node k i cs l, .node k' i' cs' l', h => by
    have h' := h
    simp only [AST.Like] at h
    obtain ⟨rfl, h⟩ := h
    have ih := genChildren_outlines checks false h
    rcases k with _ | _ | _ | b
    · rw [genChild, genChild]
      · exact bailWith_outlines h'
      all_goals simp
    · rw [genChild, genChild]
      cases inDocument
      · exact bailWith_outlines h'
      · exact ih.after (genChildren_reports _ _ _) (genChildren_reports _ _ _)
          (fun _ => (callStmtHook_reports _).bind fun _ => .pure _) (fun _ => (callStmtHook_reports _).bind fun _ => .pure _)
          fun _ _ _ => (callStmtHook_outlines _ _).bind (callStmtHook_reports _) (callStmtHook_reports _) (fun _ => .pure _)
            (fun _ => .pure _) fun _ _ _ => .pure trivial
    · rw [genChild, genChild]
      exact ih.after (genChildren_reports _ _ _) (genChildren_reports _ _ _)
        (fun _ => (callExprHook_reports _).bind fun _ => .pure _) (fun _ => (callExprHook_reports _).bind fun _ => .pure _)
        fun _ _ _ => (callExprHook_outlines _ _).bind (callExprHook_reports _) (callExprHook_reports _) (fun _ => .pure _)
          (fun _ => .pure _) fun _ _ _ => .pure trivial
    · by_cases hb : b = .angle
      · subst hb
        rw [genChild, genChild]
        exact .bail _
      · rcases cs with _ | ⟨m, _ | ⟨n, cs⟩⟩ <;> rcases cs' with _ | ⟨m', _ | ⟨n', cs'⟩⟩ <;>
          simp only [AST.LikeL, and_false] at h
        · cases b <;> first | exact absurd rfl hb | (rw [genChild, genChild]; exact .bail _; all_goals simp)
        · cases b <;> first | exact absurd rfl hb | (rw [genChild, genChild]; exact .bail _; all_goals simp)
        · have ih := genChildren_outlines checks false h.2.2
          rw [genChild_command hb, genChild_command hb]
          exact ih.after (genChildren_reports _ _ _) (genChildren_reports _ _ _) (fun _ => commandGenerate_reports _ _ _ _ _)
            (fun _ => commandGenerate_reports _ _ _ _ _) fun _ _ hl => commandGenerate_outlines _ _ h.1 h.2.1 hl
  | .leaf _ _ _ _, .node _ _ _ _, h => by simp [AST.Like] at h
  | .node _ _ _ _, .leaf _ _ _ _, h => by simp [AST.Like] at h

theorem genChildren_outlines (checks inDocument : Bool) : ∀ {cs cs' : List AST}, AST.LikeL cs cs' →
    PM.Outlines (fun a b => a.length = b.length) (genChildren (W := V) checks inDocument cs)
      (genChildren (W := W) checks inDocument cs')
  | [], [], _ => by rw [genChildren, genChildren]; exact .pure rfl
  | c :: cs, c' :: cs', h => by
    simp only [AST.LikeL] at h
    have ih := genChildren_outlines checks inDocument h.2
    have hc := genChild_outlines checks inDocument h.1
    rw [genChildren, genChildren]
    exact hc.bind (genChild_reports _ _ _) (genChild_reports _ _ _) (fun _ => (genChildren_reports _ _ _).bind fun _ => .pure _)
      (fun _ => (genChildren_reports _ _ _).bind fun _ => .pure _) fun _ _ _ =>
        ih.bind (genChildren_reports _ _ _) (genChildren_reports _ _ _) (fun _ => .pure _) (fun _ => .pure _)
          fun _ _ h => .pure (by simp [h])
  | [], _ :: _, h => by simp [AST.LikeL] at h
  | _ :: _, [], h => by simp [AST.LikeL] at h
end

theorem generate_outlines (checks : Bool) {a a' : AST} (h : a.Like a') :
    PM.Outlines (fun _ _ => True) (generate (W := V) checks a) (generate (W := W) checks a') := by
  rcases a with ⟨k1, i, v, l⟩ | ⟨k1, i, cs, l⟩ <;> rcases a' with ⟨k2, i', v', l'⟩ | ⟨k2, i', cs', l'⟩ <;>
    simp only [AST.Like] at h
  · exact .bail _
  · obtain ⟨rfl, h⟩ := h
    cases k1 <;> first | exact .bail _ | skip
    exact (genChildren_outlines checks true h).after (genChildren_reports _ _ _) (genChildren_reports _ _ _)
      (fun _ => (callDocumentHook_reports _).bind fun _ => .pure _)
      (fun _ => (callDocumentHook_reports _).bind fun _ => .pure _) fun _ _ _ =>
        (callDocumentHook_outlines _ _).bind (callDocumentHook_reports _) (callDocumentHook_reports _) (fun _ => .pure _)
          (fun _ => .pure _) fun _ _ _ => .pure trivial

theorem macroNames_like : ∀ {cs cs' : List AST}, AST.LikeL cs cs' → ∀ m i : Str, macroNames m i cs = macroNames m i cs'
  | [], [], _, _, _ => rfl
  | c :: cs, c' :: cs', h, m, i => by
    simp only [AST.LikeL] at h
    obtain ⟨h1, h2⟩ := h
    have ih := fun m i => macroNames_like h2 m i
    rcases c with ⟨k1, j, v, l⟩ | ⟨k1, j, ds, l⟩ <;> rcases c' with ⟨k2, j', v', l'⟩ | ⟨k2, j', ds', l'⟩ <;>
      simp only [AST.Like] at h1
    · obtain ⟨rfl, h1⟩ := h1
      rcases h1 with rfl | ⟨rfl, s, s', rfl, rfl⟩
      · cases k1 <;> rcases v with _ | v <;> simp only [macroNames, ih]
      · simp only [macroNames, ih]
    · simp only [macroNames, ih]
  | [], _ :: _, h, _, _ => by simp [AST.LikeL] at h
  | _ :: _, [], h, _, _ => by simp [AST.LikeL] at h

theorem expandAngle_outlines (overall overall' : AST) (i i' : Str) {cs cs' : List AST} (h : AST.LikeL cs cs') :
    PM.Outlines (fun _ _ => True) (expandAngle (W := V) overall i cs) (expandAngle (W := W) overall' i' cs') := by
  unfold expandAngle
  rw [macroNames_like h]
  refine PM.Outlines.bind (.lift (Res.Same.refl (Q := Eq) (fun _ => rfl) _)) (.lift _) (.lift _)
    (fun _ => callMacro_reports _ _ _ _) (fun _ => callMacro_reports _ _ _ _) fun a b h => ?_
  subst h
  exact callMacro_outlines _ _ _ _ _ _

mutual
theorem expandOther_outlines (overall overall' : AST) : ∀ {a a' : AST}, a.Like a' →
    PM.Outlines AST.Like (expandOther (W := V) overall a) (expandOther (W := W) overall' a')
  | .leaf k i v l, .leaf k' i' v' l', h => by
    have h' := h
    simp only [AST.Like] at h
    obtain ⟨rfl, h⟩ := h
    cases k <;> rw [expandOther, expandOther] <;> first | exact .pure h' | exact .lift trivial
  | .node k i cs l, .node k' i' cs' l', h => by
    have h' := h
    simp only [AST.Like] at h
    rw [expandOther, expandOther]
    exact (expandChildren_outlines overall overall' h.2).bind (expandChildren_reports _ _) (expandChildren_reports _ _)
      (fun _ => .pure _) (fun _ => .pure _) fun _ _ _ => .pure h'
  | .leaf _ _ _ _, .node _ _ _ _, h => by simp [AST.Like] at h
  | .node _ _ _ _, .leaf _ _ _ _, h => by simp [AST.Like] at h

theorem expandChildren_outlines (overall overall' : AST) : ∀ {cs cs' : List AST}, AST.LikeL cs cs' →
    PM.Outlines (fun _ _ => True) (expandChildren (W := V) overall cs) (expandChildren (W := W) overall' cs')
  | [], [], _ => by rw [expandChildren, expandChildren]; exact .pure trivial
  | c :: cs, c' :: cs', h => by
    simp only [AST.LikeL] at h
    have ih := expandChildren_outlines overall overall' h.2
    have hc := expandOther_outlines overall overall' h.1
    by_cases ha : ∃ i es l, c = .node (.bracket .angle) i es l
    · obtain ⟨i, es, l, rfl⟩ := ha
      have h1 := h.1
      rcases c' with ⟨k2, i', v', l'⟩ | ⟨k2, i', es', l'⟩ <;> simp only [AST.Like] at h1
      obtain ⟨rfl, h1⟩ := h1
      rw [expandChildren, expandChildren]
      exact (expandAngle_outlines overall overall' i i' h1).bind (expandAngle_reports _ _ _) (expandAngle_reports _ _ _)
        (fun _ => (expandChildren_reports _ _).bind fun _ => .pure _)
        (fun _ => (expandChildren_reports _ _).bind fun _ => .pure _) fun _ _ _ =>
          ih.bind (expandChildren_reports _ _) (expandChildren_reports _ _) (fun _ => .pure _) (fun _ => .pure _)
            fun _ _ _ => .pure trivial
    · have ha' : ∀ i es l, c' ≠ .node (.bracket .angle) i es l := by
        rintro i es l rfl
        have h1 := h.1
        rcases c with ⟨k2, i', v', l'⟩ | ⟨k2, i', es', l'⟩ <;> simp only [AST.Like] at h1
        obtain ⟨rfl, h1⟩ := h1
        exact ha ⟨_, _, _, rfl⟩
      rw [expandChildren, expandChildren]
      · exact hc.bind (expandOther_reports _ _) (expandOther_reports _ _)
          (fun _ => (expandChildren_reports _ _).bind fun _ => .pure _)
          (fun _ => (expandChildren_reports _ _).bind fun _ => .pure _) fun _ _ _ =>
            ih.bind (expandChildren_reports _ _) (expandChildren_reports _ _) (fun _ => .pure _) (fun _ => .pure _)
              fun _ _ _ => .pure trivial
      · exact ha'
      · exact fun i es l h' => ha ⟨i, es, l, h'⟩
  | [], _ :: _, h => by simp [AST.LikeL] at h
  | _ :: _, [], h => by simp [AST.LikeL] at h
end

theorem compileText_outlines {S : Segmenter} (ids ids' : Nat → Str) (checks : Bool) {text text' : Str}
    (h : ∃ ts ts', tokenizeStr S text = .ok ts ∧ tokenizeStr S text' = .ok ts' ∧ TokensLike ts ts') :
    PM.Outlines (fun _ _ => True) (compileText (W := V) S ids checks text) (compileText (W := W) S ids' checks text') := by
  obtain ⟨ts, ts', h1, h2, h3⟩ := h
  unfold compileText
  rw [h1, h2]
  refine PM.Outlines.bind (Q := TokensLike) (.lift h3) (.lift _) (.lift _)
    (fun _ => (PM.Reports.lift _).bind fun _ => (PM.Reports.lift _).bind fun _ => (expandOther_reports _ _).bind fun _ =>
      generate_reports _ _)
    (fun _ => (PM.Reports.lift _).bind fun _ => (PM.Reports.lift _).bind fun _ => (expandOther_reports _ _).bind fun _ =>
      generate_reports _ _) fun a b h => ?_
  refine PM.Outlines.bind (.lift (parse_like _ _ h)) (.lift _) (.lift _)
    (fun _ => (PM.Reports.lift _).bind fun _ => (expandOther_reports _ _).bind fun _ => generate_reports _ _)
    (fun _ => (PM.Reports.lift _).bind fun _ => (expandOther_reports _ _).bind fun _ => generate_reports _ _) fun a b h => ?_
  refine PM.Outlines.bind (.lift (transform_like ids ids' h)) (.lift _) (.lift _)
    (fun _ => (expandOther_reports _ _).bind fun _ => generate_reports _ _)
    (fun _ => (expandOther_reports _ _).bind fun _ => generate_reports _ _) fun a b h => ?_
  exact (expandOther_outlines _ _ h.1).bind (expandOther_reports _ _) (expandOther_reports _ _) (fun _ => generate_reports _ _)
    (fun _ => generate_reports _ _) fun a b h => generate_outlines _ h

end Brack
