import Verif.Spec.Identifiers
import Verif.Proof.PMLemmas
import Verif.Proof.Registry
import Verif.Spec.Calls

/-
Two runs of the pipeline on the same text, with different identifiers and plugin states.
-/

namespace Brack

variable {W : Wasm} {R : W.State → W.State → Prop} {r : Str → Str → Prop}

/-- Related computations. -/
def PM.Rel (R : W.State → W.State → Prop) (Q : α → β → Prop) (x : PM W α) (y : PM W β) : Prop :=
  ∀ ps qs, Plugins.Related R ps qs → Res.Same Q (x ps).1 (y qs).1 ∧ Plugins.Related R (x ps).2 (y qs).2

theorem PM.Rel.pure {Q : α → β → Prop} {a : α} {b : β} (h : Q a b) :
    PM.Rel R Q (Pure.pure a : PM W α) (Pure.pure b : PM W β) := fun _ _ hps => ⟨h, hps⟩

theorem PM.Rel.lift {Q : α → β → Prop} {a : Res α} {b : Res β} (h : Res.Same Q a b) :
    PM.Rel (W := W) R Q (PM.lift a) (PM.lift b) := fun _ _ hps => ⟨h, hps⟩

theorem PM.Rel.bail {Q : α → β → Prop} (m : String) :
    PM.Rel (W := W) R Q (PM.bail m) (PM.bail m) := fun _ _ hps => ⟨rfl, hps⟩

theorem PM.Rel.bind {Q : α → β → Prop} {Q' : γ → δ → Prop} {x : PM W α} {y : PM W β} {f : α → PM W γ} {g : β → PM W δ}
    (h : PM.Rel R Q x y) (hf : ∀ a b, Q a b → PM.Rel R Q' (f a) (g b)) : PM.Rel R Q' (x >>= f) (y >>= g) := by
  intro ps qs hps
  obtain ⟨h1, h2⟩ := h ps qs hps
  show Res.Same Q' (PM.bind x f ps).1 (PM.bind y g qs).1 ∧ Plugins.Related R (PM.bind x f ps).2 (PM.bind y g qs).2
  unfold PM.bind
  generalize x ps = o at *
  generalize y qs = o' at *
  obtain ⟨a, ps'⟩ := o
  obtain ⟨b, qs'⟩ := o'
  rcases a with a | m | _ <;> rcases b with b | m' | _ <;> simp only [Res.Same] at h1 <;>
    first | exact False.elim h1 | skip
  · exact hf a b h1 _ _ h2
  · exact ⟨h1, h2⟩
  · exact ⟨trivial, h2⟩

theorem PM.Rel.mono {Q Q' : α → β → Prop} {x : PM W α} {y : PM W β} (h : PM.Rel R Q x y) (hq : ∀ a b, Q a b → Q' a b) :
    PM.Rel R Q' x y := by
  intro ps qs hps
  obtain ⟨h1, h2⟩ := h ps qs hps
  refine ⟨?_, h2⟩
  generalize (x ps).1 = a at *
  generalize (y qs).1 = b at *
  rcases a with a | m | _ <;> rcases b with b | m' | _ <;> first | exact False.elim h1 | exact h1 | exact hq a b h1

theorem Res.Same.refl {Q : α → α → Prop} (hq : ∀ a, Q a a) (x : Res α) : Res.Same Q x x := by
  rcases x with a | m | _
  · exact hq a
  · exact rfl
  · trivial

theorem Res.Same.refl_of {Q : α → α → Prop} {x : Res α} (hq : ∀ a, x = .ok a → Q a a) : Res.Same Q x x := by
  rcases x with a | m | _
  · exact hq a rfl
  · exact rfl
  · trivial

theorem callText_rel (hW : W.SameTexts R) (plugin command : Str) (typ : PType) (args : List Value) :
    PM.Rel R Eq (Plugins.callText (W := W) plugin command typ args) (Plugins.callText plugin command typ args) := by
  intro ps qs h
  unfold Plugins.callText
  rcases h.plugins plugin with ⟨h1, h2⟩ | ⟨p, q, h1, h2, h3, h4⟩
  · rw [h1, h2]; exact ⟨rfl, h⟩
  · rw [h1, h2]
    obtain ⟨pn, px, sigs, pf⟩ := p
    obtain ⟨qn, qx, sigs', qf⟩ := q
    simp only at h3 h4
    subst h3
    simp only
    rcases hs : sigs.get (command, typ) with _ | m
    · exact ⟨rfl, h⟩
    · simp only
      obtain ⟨h5, h6⟩ := hW px qx m.callName args h4
      generalize W.callText px m.callName args = o at *
      generalize W.callText qx m.callName args = o' at *
      obtain ⟨a, s⟩ := o
      obtain ⟨b, t⟩ := o'
      simp only at h5 h6
      subst h5
      have key : ∀ l l', Plugins.Related R
          { ps with nameToPlugin := ps.nameToPlugin.insert plugin ⟨pn, s, sigs, pf⟩, log := l }
          { qs with nameToPlugin := qs.nameToPlugin.insert plugin ⟨qn, t, sigs, qf⟩, log := l' } := by
        intro l l'
        refine ⟨h.documentHook, h.stmtHook, h.exprHook, h.textHook, fun n => ?_⟩
        by_cases hn : n = plugin
        · subst hn
          right
          exact ⟨_, _, HMap.get_insert_self _ _ _, HMap.get_insert_self _ _ _, rfl, h6⟩
        · simp only
          rw [HMap.get_insert_ne hn, HMap.get_insert_ne hn]
          exact h.plugins n
      rcases a with e | a
      · exact ⟨rfl, key _ _⟩
      · exact ⟨rfl, key _ _⟩

theorem callMacro_rel (hW : W.Indistinct R) (hr : OneToOne r) (plugin command : Str) {a b : AST} {i j : Str}
    (hab : a.Renamed r b) (hij : r i j) :
    PM.Rel R (fun _ _ => True) (Plugins.callMacro (W := W) plugin command a i) (Plugins.callMacro plugin command b j) := by
  intro ps qs h
  unfold Plugins.callMacro
  rcases h.plugins plugin with ⟨h1, h2⟩ | ⟨p, q, h1, h2, h3, h4⟩
  · rw [h1, h2]; exact ⟨rfl, h⟩
  · rw [h1, h2]
    obtain ⟨pn, px, sigs, pf⟩ := p
    obtain ⟨qn, qx, sigs', qf⟩ := q
    simp only at h3 h4
    subst h3
    simp only
    generalize hs : HMap.get (command, PType.ast) sigs = o
    rcases o with _ | m
    · exact ⟨rfl, h⟩
    · simp only
      obtain ⟨h5, h6⟩ := hW.tree px qx m.callName r a b i j h4 hr hab hij
      generalize W.callMacro px m.callName a i = o at *
      generalize W.callMacro qx m.callName b j = o' at *
      obtain ⟨x, s⟩ := o
      obtain ⟨y, t⟩ := o'
      simp only at h5 h6
      have key : ∀ l l', Plugins.Related R
          { ps with nameToPlugin := ps.nameToPlugin.insert plugin ⟨pn, s, sigs, pf⟩, log := l }
          { qs with nameToPlugin := qs.nameToPlugin.insert plugin ⟨qn, t, sigs, qf⟩, log := l' } := by
        intro l l'
        refine ⟨h.documentHook, h.stmtHook, h.exprHook, h.textHook, fun n => ?_⟩
        by_cases hn : n = plugin
        · subst hn
          right
          exact ⟨_, _, HMap.get_insert_self _ _ _, HMap.get_insert_self _ _ _, rfl, h6⟩
        · simp only
          rw [HMap.get_insert_ne hn, HMap.get_insert_ne hn]
          exact h.plugins n
      rcases h5 with ⟨x', y', rfl, rfl⟩ | ⟨e, rfl, rfl⟩
      · exact ⟨trivial, key _ _⟩
      · exact ⟨rfl, key _ _⟩

theorem argumentTypes_rel (m c : Str) (t : PType) :
    PM.Rel R Eq (Plugins.argumentTypes (W := W) m c t) (Plugins.argumentTypes m c t) := by
  intro ps qs h
  unfold Plugins.argumentTypes
  rcases h.plugins m with ⟨h1, h2⟩ | ⟨p, q, h1, h2, h3, h4⟩
  · rw [h1, h2]; exact ⟨rfl, h⟩
  · rw [h1, h2]
    simp only
    rw [h3]
    rcases hs : q.signatures.get (c, t) with _ | md
    · exact ⟨rfl, h⟩
    · exact ⟨rfl, h⟩

theorem hook_rel (hW : W.SameTexts R) (command : Str) (typ : PType) (args : List Value) (hook : Plugins W → Option Str)
    (hh : ∀ ps qs, Plugins.Related R ps qs → hook ps = hook qs) :
    PM.Rel R Eq (fun ps : Plugins W => match hook ps with
        | some p => (do return some (← Plugins.callText p command typ args) : PM W _) ps
        | none => (.ok none, ps))
      (fun ps : Plugins W => match hook ps with
        | some p => (do return some (← Plugins.callText p command typ args) : PM W _) ps
        | none => (.ok none, ps)) := by
  intro ps qs h
  simp only [hh ps qs h]
  generalize hook qs = o
  rcases o with _ | p
  · exact ⟨rfl, h⟩
  · exact PM.Rel.bind (callText_rel hW p command typ args) (fun a b hab => by subst hab; exact PM.Rel.pure rfl) ps qs h

theorem documentHook_rel (hW : W.SameTexts R) (args : List Value) :
    PM.Rel R Eq (Plugins.callDocumentHook (W := W) args) (Plugins.callDocumentHook args) :=
  hook_rel hW (chars! "document") .block args (·.documentHook) fun _ _ h => h.documentHook

theorem stmtHook_rel (hW : W.SameTexts R) (args : List Value) :
    PM.Rel R Eq (Plugins.callStmtHook (W := W) args) (Plugins.callStmtHook args) :=
  hook_rel hW (chars! "stmt") .block args (·.stmtHook) fun _ _ h => h.stmtHook

theorem exprHook_rel (hW : W.SameTexts R) (args : List Value) :
    PM.Rel R Eq (Plugins.callExprHook (W := W) args) (Plugins.callExprHook args) :=
  hook_rel hW (chars! "expr") .inline args (·.exprHook) fun _ _ h => h.exprHook

theorem textHook_rel (hW : W.SameTexts R) (args : List Value) :
    PM.Rel R Eq (Plugins.callTextHook (W := W) args) (Plugins.callTextHook args) :=
  hook_rel hW (chars! "text") .inline args (·.textHook) fun _ _ h => h.textHook

theorem macroNames_renamed {cs ds : List AST} (h : AST.RenamedL r cs ds) (m i : Str) :
    macroNames m i cs = macroNames m i ds := by
  induction cs generalizing ds m i with
  | nil => rcases ds with _ | ⟨d, ds⟩ <;> simp [AST.RenamedL] at h; rfl
  | cons c cs ih =>
    rcases ds with _ | ⟨d, ds⟩
    · simp [AST.RenamedL] at h
    · rw [AST.RenamedL] at h
      obtain ⟨h1, h2⟩ := h
      rcases c with ⟨k, j, v, l⟩ | ⟨k, j, es, l⟩ <;> rcases d with ⟨k', j', v', l'⟩ | ⟨k', j', es', l'⟩ <;>
        simp only [AST.Renamed] at h1
      · obtain ⟨rfl, _, rfl, rfl⟩ := h1
        rcases k <;> simp only [macroNames, ih h2]
      · obtain ⟨rfl, _, rfl, _⟩ := h1
        simp only [macroNames, ih h2]

mutual

theorem display_renamed : (a b : AST) → a.Renamed r b → ∀ n, a.display n = b.display n
  | .leaf k i v l, .leaf k' i' v' l', h, n => by
    simp only [AST.Renamed] at h
    obtain ⟨rfl, _, rfl, _⟩ := h
    rfl
  | .node k i cs l, .node k' i' cs' l', h, n => by
    simp only [AST.Renamed] at h
    obtain ⟨rfl, _, _, h⟩ := h
    simp only [AST.display, displayL_renamed cs cs' h (n + 1)]
  | .leaf .., .node .., h, _ => by simp [AST.Renamed] at h
  | .node .., .leaf .., h, _ => by simp [AST.Renamed] at h

theorem displayL_renamed : (as bs : List AST) → AST.RenamedL r as bs → ∀ n, AST.displayL n as = AST.displayL n bs
  | [], [], _, _ => rfl
  | a :: as, b :: bs, h, n => by
    rw [AST.RenamedL] at h
    simp only [AST.displayL, display_renamed a b h.1 n, displayL_renamed as bs h.2 n]
  | [], _ :: _, h, _ => by simp [AST.RenamedL] at h
  | _ :: _, [], h, _ => by simp [AST.RenamedL] at h

end

theorem bailWith_rel {a b : AST} (h : a.Renamed r b) : PM.Rel R Eq (bailWith (W := W) a) (bailWith b) := by
  unfold bailWith
  rw [display_renamed a b h 0]
  exact PM.Rel.bind (PM.Rel.lift (Res.Same.refl (Q := Eq) (fun _ => rfl) _)) fun _ _ _ => PM.Rel.bail _

theorem nameOf_rel (k : ALKind) {a b : AST} (h : a.Renamed r b) :
    PM.Rel R Eq (nameOf (W := W) k a) (nameOf k b) := by
  rcases a with ⟨k1, j, v, l⟩ | ⟨k1, j, es, l⟩ <;> rcases b with ⟨k', j', v', l'⟩ | ⟨k', j', es', l'⟩ <;>
    simp only [AST.Renamed] at h
  · obtain ⟨rfl, _, rfl, rfl⟩ := h
    simp only [nameOf]
    split
    · split
      · exact PM.Rel.pure rfl
      · exact PM.Rel.bail _
    · exact PM.Rel.bail _
  · simp only [nameOf]
    exact PM.Rel.bail _

theorem commandGenerate_rel (hW : W.SameTexts R) (checks : Bool) (b : Bracket) {m m' i i' : AST} (hm : m.Renamed r m')
    (hi : i.Renamed r i') (args : List Str) :
    PM.Rel R Eq (commandGenerate (W := W) checks b m i args) (commandGenerate checks b m' i' args) := by
  unfold commandGenerate
  refine PM.Rel.bind (nameOf_rel .module hm) fun a a' ha => ?_
  subst ha
  refine PM.Rel.bind (nameOf_rel .ident hi) fun a' a'' ha => ?_
  subst ha
  refine PM.Rel.bind (argumentTypes_rel _ _ _) fun ts ts' ht => ?_
  subst ht
  unfold callCommand
  generalize argCounter checks (ts.map (·.2)) = o
  rcases o with ⟨min, max⟩ | e | _
  · simp only
    split
    · exact PM.Rel.bail _
    · split
      · exact PM.Rel.bail _
      · generalize bindArgs args 0 (ts.map (·.2)) = o
        rcases o with vs | e | _
        · exact callText_rel hW _ _ _ _
        · exact PM.Rel.lift rfl
        · exact PM.Rel.lift trivial
  · exact PM.Rel.lift rfl
  · exact PM.Rel.lift trivial

theorem textGenerate_rel (hW : W.SameTexts R) (v : Option Str) :
    PM.Rel R Eq (textGenerate (W := W) v) (textGenerate v) := by
  unfold textGenerate
  rcases v with _ | v
  · exact PM.Rel.bail _
  · refine PM.Rel.bind (textHook_rel hW _) fun a b h => ?_
    subst h
    exact PM.Rel.pure rfl

mutual

theorem genChild_rel (hW : W.SameTexts R) (checks : Bool) : (a b : AST) → a.Renamed r b → ∀ d,
    PM.Rel R Eq (genChild (W := W) checks d a) (genChild checks d b)
  | .leaf k i v l, .leaf k' i' v' l', h, d => by
    have h0 := h
    simp only [AST.Renamed] at h
    obtain ⟨rfl, _, rfl, _⟩ := h
    rcases k <;> simp only [genChild] <;> first | exact bailWith_rel h0 | exact textGenerate_rel hW v
  | .node k i cs l, .node k' i' cs' l', h, d => by
    have h0 := h
    simp only [AST.Renamed] at h
    obtain ⟨rfl, _, rfl, h⟩ := h
    rcases k with _ | _ | _ | b
    · simp only [genChild]; exact bailWith_rel h0
    · simp only [genChild]
      split
      · refine PM.Rel.bind (genChildren_rel hW checks cs cs' h false) fun a b hab => ?_
        subst hab
        refine PM.Rel.bind (stmtHook_rel hW _) fun a' b' hab => ?_
        subst hab
        exact PM.Rel.pure rfl
      · exact bailWith_rel h0
    · simp only [genChild]
      refine PM.Rel.bind (genChildren_rel hW checks cs cs' h false) fun a b hab => ?_
      subst hab
      refine PM.Rel.bind (exprHook_rel hW _) fun a' b' hab => ?_
      subst hab
      exact PM.Rel.pure rfl
    · rcases cs with _ | ⟨m, _ | ⟨e, cs⟩⟩ <;> rcases cs' with _ | ⟨m', _ | ⟨e', cs'⟩⟩ <;>
        simp only [AST.RenamedL, and_false] at h
      · rcases b <;> simp only [genChild] <;> exact PM.Rel.bail _
      · rcases b <;> simp only [genChild] <;> exact PM.Rel.bail _
      · have hg := genChildren_rel hW checks cs cs' h.2.2 false
        rcases b <;> simp only [genChild]
        · exact PM.Rel.bail _
        all_goals
          refine PM.Rel.bind hg fun a b hab => ?_
          subst hab
          exact commandGenerate_rel hW checks _ h.1 h.2.1 _
  | .leaf .., .node .., h, _ => by simp [AST.Renamed] at h
  | .node .., .leaf .., h, _ => by simp [AST.Renamed] at h

theorem genChildren_rel (hW : W.SameTexts R) (checks : Bool) : (as bs : List AST) → AST.RenamedL r as bs → ∀ d,
    PM.Rel R Eq (genChildren (W := W) checks d as) (genChildren checks d bs)
  | [], [], _, _ => PM.Rel.pure rfl
  | a :: as, b :: bs, h, d => by
    rw [AST.RenamedL] at h
    have h1 := genChild_rel hW checks a b h.1 d
    have h2 := genChildren_rel hW checks as bs h.2 d
    simp only [genChildren]
    refine PM.Rel.bind h1 fun x y hxy => ?_
    subst hxy
    refine PM.Rel.bind h2 fun x' y' hxy => ?_
    subst hxy
    exact PM.Rel.pure rfl
  | [], _ :: _, h, _ => by simp [AST.RenamedL] at h
  | _ :: _, [], h, _ => by simp [AST.RenamedL] at h

end

theorem generate_rel (hW : W.SameTexts R) (checks : Bool) {a b : AST} (h : a.Renamed r b) :
    PM.Rel R Eq (generate (W := W) checks a) (generate checks b) := by
  rcases a with ⟨k, j, v, l⟩ | ⟨k, j, cs, l⟩ <;> rcases b with ⟨k', j', v', l'⟩ | ⟨k', j', cs', l'⟩ <;>
    simp only [AST.Renamed] at h
  · exact PM.Rel.bail _
  · obtain ⟨rfl, _, rfl, h⟩ := h
    rcases k <;> simp only [generate] <;> first | exact PM.Rel.bail _ | skip
    refine PM.Rel.bind (genChildren_rel hW checks cs cs' h true) fun a b hab => ?_
    subst hab
    refine PM.Rel.bind (documentHook_rel hW _) fun a' b' hab => ?_
    subst hab
    exact PM.Rel.pure rfl

theorem expandAngle_rel (hW : W.Indistinct R) (hr : OneToOne r) {a b : AST} {i j : Str} {cs ds : List AST}
    (hab : a.Renamed r b) (hij : r i j) (h : AST.RenamedL r cs ds) :
    PM.Rel R (fun _ _ => True) (expandAngle (W := W) a i cs) (expandAngle b j ds) := by
  unfold expandAngle
  rw [macroNames_renamed h]
  refine PM.Rel.bind (PM.Rel.lift (Res.Same.refl (Q := Eq) (fun _ => rfl) _)) fun x y hxy => ?_
  subst hxy
  exact callMacro_rel hW hr _ _ hab hij

mutual

theorem expandOther_rel {o o' : AST} (ho : o.Renamed r o') : (a b : AST) → a.Renamed r b →
    (a.macros ≠ [] → W.Indistinct R ∧ OneToOne r) →
    PM.Rel R (AST.Renamed r) (expandOther (W := W) o a) (expandOther o' b)
  | .leaf k i v l, .leaf k' i' v' l', h, hM => by
    have h0 := h
    simp only [AST.Renamed] at h
    obtain ⟨rfl, _, rfl, _⟩ := h
    rcases k <;> simp only [expandOther] <;> first | exact PM.Rel.pure h0 | exact PM.Rel.lift trivial
  | .node k i cs l, .node k' i' cs' l', h, hM => by
    have h0 := h
    simp only [AST.Renamed] at h
    obtain ⟨rfl, _, rfl, h⟩ := h
    simp only [expandOther]
    refine PM.Rel.bind (expandChildren_rel ho cs cs' h fun hm => hM ?_) fun _ _ _ => PM.Rel.pure h0
    rcases k with _ | _ | _ | (_ | _ | _) <;> simp_all [AST.macros]
  | .leaf .., .node .., h, _ => by simp [AST.Renamed] at h
  | .node .., .leaf .., h, _ => by simp [AST.Renamed] at h

theorem expandChildren_rel {o o' : AST} (ho : o.Renamed r o') : (as bs : List AST) → AST.RenamedL r as bs →
    (AST.macrosL as ≠ [] → W.Indistinct R ∧ OneToOne r) →
    PM.Rel R (fun _ _ => True) (expandChildren (W := W) o as) (expandChildren o' bs)
  | [], [], _, _ => PM.Rel.pure trivial
  | a :: as, b :: bs, h, hM => by
    rw [AST.RenamedL] at h
    have h1 := expandOther_rel ho a b h.1 fun hm => hM (by simp [AST.macrosL, hm])
    have h2 := expandChildren_rel ho as bs h.2 fun hm => hM (by simp [AST.macrosL, hm])
    have other : PM.Rel R (fun _ _ => True)
        (do let d ← expandOther (W := W) o a; let ds ← expandChildren o as; pure (d :: ds))
        (do let d ← expandOther (W := W) o' b; let ds ← expandChildren o' bs; pure (d :: ds)) :=
      PM.Rel.bind h1 fun _ _ _ => PM.Rel.bind h2 fun _ _ _ => PM.Rel.pure trivial
    rcases a with ⟨k, i, v, l⟩ | ⟨k, i, cs, l⟩ <;> rcases b with ⟨k', i', v', l'⟩ | ⟨k', i', cs', l'⟩
    · simpa only [expandChildren] using other
    · simp [AST.Renamed] at h
    · simp [AST.Renamed] at h
    · have h3 := h.1
      simp only [AST.Renamed] at h3
      obtain ⟨rfl, hij, rfl, h3⟩ := h3
      rcases k with _ | _ | _ | (_ | _ | _)
      all_goals first
        | (simp only [expandChildren]
           obtain ⟨hW, hr⟩ := hM (by simp [AST.macrosL, AST.macros])
           exact PM.Rel.bind (expandAngle_rel hW hr ho hij h3) fun _ _ _ =>
             PM.Rel.bind h2 fun _ _ _ => PM.Rel.pure trivial)
        | simpa only [expandChildren] using other
  | [], _ :: _, h, _ => by simp [AST.RenamedL] at h
  | _ :: _, [], h, _ => by simp [AST.RenamedL] at h

end

mutual

theorem aux_renamed {ids ids' : Nat → Str} : (c : CST) → ∀ n,
    Res.Same (fun x y => x.1.Renamed (fun a b => ∃ i, a = ids i ∧ b = ids' i) y.1 ∧ x.2 = y.2) (aux ids n c) (aux ids' n c)
  | .leaf k l, n => by
    rcases k <;> simp only [aux, Res.Same] <;> simp only [AST.Renamed, true_and, and_true] <;> exact ⟨n, rfl, rfl⟩
  | .node k cs l, n => by
    simp only [aux]
    rcases k.toAst with _ | k'
    · trivial
    · simp only
      have h := auxL_renamed (ids := ids) (ids' := ids') cs n
      generalize auxL ids n cs = o at *
      generalize auxL ids' n cs = o' at *
      rcases o with ⟨as, m⟩ | e | _ <;> rcases o' with ⟨as', m'⟩ | e' | _ <;> simp only [Res.Same] at h ⊢ <;>
        first | exact False.elim h | exact h | skip
      obtain ⟨h1, rfl⟩ := h
      refine ⟨?_, rfl⟩
      simp only [AST.Renamed, true_and]
      exact ⟨⟨m, rfl, rfl⟩, h1⟩

theorem auxL_renamed {ids ids' : Nat → Str} : (cs : List CST) → ∀ n,
    Res.Same (fun x y => AST.RenamedL (fun a b => ∃ i, a = ids i ∧ b = ids' i) x.1 y.1 ∧ x.2 = y.2)
      (auxL ids n cs) (auxL ids' n cs)
  | [], n => by simp [auxL, Res.Same, AST.RenamedL]
  | c :: cs, n => by
    simp only [auxL]
    have h := aux_renamed (ids := ids) (ids' := ids') c n
    generalize aux ids n c = o at *
    generalize aux ids' n c = o' at *
    rcases o with ⟨a, m⟩ | e | _ <;> rcases o' with ⟨a', m'⟩ | e' | _ <;> simp only [Res.Same] at h ⊢ <;>
      first | exact False.elim h | exact h | skip
    obtain ⟨h1, rfl⟩ := h
    have h := auxL_renamed (ids := ids) (ids' := ids') cs m
    generalize auxL ids m cs = o at *
    generalize auxL ids' m cs = o' at *
    rcases o with ⟨as, k⟩ | e | _ <;> rcases o' with ⟨as', k'⟩ | e' | _ <;> simp only [Res.Same] at h ⊢ <;>
      first | exact False.elim h | exact h | skip
    obtain ⟨h2, rfl⟩ := h
    exact ⟨⟨h1, h2⟩, rfl⟩

end

theorem transform_renamed (ids ids' : Nat → Str) (c : CST) :
    Res.Same (fun x y => x.1.Renamed (fun a b => ∃ i, a = ids i ∧ b = ids' i) y.1 ∧ x.2 = y.2)
      (transform ids c) (transform ids' c) := by
  unfold transform
  rcases simplify c with ⟨d, es⟩ | e | _
  · simp only
    have h := aux_renamed (ids := ids) (ids' := ids') d 0
    generalize aux ids 0 d = o at *
    generalize aux ids' 0 d = o' at *
    rcases o with ⟨a, m⟩ | e | _ <;> rcases o' with ⟨a', m'⟩ | e' | _ <;> simp only [Res.Same] at h ⊢ <;>
      first | exact False.elim h | exact h | skip
    exact ⟨h.1, trivial⟩
  · rfl
  · trivial

theorem compileText_rel (hT : W.SameTexts R) (S : Segmenter) {ids ids' : Nat → Str} (checks : Bool) (text : Str)
    (hM : ∀ ts c a es, tokenizeStr S text = .ok ts → parse ts = .ok c → transform ids c = .ok (a, es) → a.macros ≠ [] →
      W.Indistinct R ∧ (∀ i j, ids i = ids j → i = j) ∧ ∀ i j, ids' i = ids' j → i = j) :
    PM.Rel R Eq (compileText (W := W) S ids checks text) (compileText S ids' checks text) := by
  unfold compileText
  refine PM.Rel.bind (Q := fun x y => x = y ∧ tokenizeStr S text = .ok x)
    (PM.Rel.lift (Res.Same.refl_of fun x h => ⟨rfl, h⟩)) fun ts ts' hts => ?_
  obtain ⟨rfl, hts⟩ := hts
  refine PM.Rel.bind (Q := fun x y => x = y ∧ parse ts = .ok x)
    (PM.Rel.lift (Res.Same.refl_of fun x h => ⟨rfl, h⟩)) fun c d hcd => ?_
  obtain ⟨rfl, hc⟩ := hcd
  have ht := transform_renamed ids ids' c
  refine PM.Rel.bind (Q := fun x y => (x.1.Renamed (fun a b => ∃ i, a = ids i ∧ b = ids' i) y.1 ∧ x.2 = y.2) ∧
    transform ids c = .ok x) (PM.Rel.lift ?_) fun x y hxy => ?_
  · generalize transform ids c = o at *
    generalize transform ids' c = o' at *
    rcases o with x | e | _ <;> rcases o' with y | e' | _ <;> simp only [Res.Same] at ht ⊢ <;>
      first | exact False.elim ht | exact ht | skip
    exact ⟨ht, trivial⟩
  obtain ⟨a, es⟩ := x
  obtain ⟨b, fs⟩ := y
  obtain ⟨hxy, ha⟩ := hxy
  simp only at hxy ⊢
  refine PM.Rel.bind (expandOther_rel hxy.1 a b hxy.1 fun hm => ?_) fun a' b' hab => generate_rel hT checks hab
  obtain ⟨h1, h, h'⟩ := hM ts c a es hts hc ha hm
  refine ⟨h1, ?_, ?_⟩
  · rintro a b b' ⟨i, rfl, rfl⟩ ⟨j, hj, rfl⟩
    rw [h _ _ hj]
  · rintro a a' b ⟨i, rfl, rfl⟩ ⟨j, rfl, hj⟩
    rw [h' _ _ hj]

end Brack
