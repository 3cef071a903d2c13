import Verif.Proof.ComposeText
import Verif.Proof.Relational

/-
Helper lemmas: generating code for trees that differ in one place.
-/

namespace Brack

variable {W : Wasm}

/-! ### the plugins stay the same, apart from their states -/

theorem Plugins.Related.refl_of {R : W.State → W.State → Prop} (hR : ∀ s, R s s) (ps : Plugins W) : Plugins.Related R ps ps := by
  refine ⟨rfl, rfl, rfl, rfl, fun n => ?_⟩
  rcases h : ps.nameToPlugin.get n with _ | p
  · exact .inl ⟨rfl, rfl⟩
  · exact .inr ⟨p, p, rfl, rfl, rfl, hR _⟩

theorem Plugins.Related.trans_of {R : W.State → W.State → Prop} (hR : ∀ s t u, R s t → R t u → R s u) {ps qs rs : Plugins W}
    (h : Plugins.Related R ps qs) (h' : Plugins.Related R qs rs) : Plugins.Related R ps rs := by
  refine ⟨h.documentHook.trans h'.documentHook, h.stmtHook.trans h'.stmtHook, h.exprHook.trans h'.exprHook,
    h.textHook.trans h'.textHook, fun n => ?_⟩
  rcases h.plugins n with ⟨h1, h2⟩ | ⟨p, q, h1, h2, h3, h4⟩ <;> rcases h'.plugins n with ⟨k1, k2⟩ | ⟨q', r, k1, k2, k3, k4⟩
  · exact .inl ⟨h1, k2⟩
  · rw [h2] at k1; cases k1
  · rw [h2] at k1; cases k1
  · rw [h2] at k1; cases k1
    exact .inr ⟨p, r, h1, k2, h3.trans k3, hR _ _ _ h4 k4⟩

/-- The computation changes at most the states of plugins. -/
def PM.Keeps (x : PM W α) : Prop := ∀ ps, Plugins.Related (fun _ _ => True) ps (x ps).2

theorem Plugins.Related.any (ps : Plugins W) : Plugins.Related (fun _ _ => True) ps ps := .refl_of (fun _ => trivial) ps

theorem PM.Keeps.bind {x : PM W α} {f : α → PM W β} (h : PM.Keeps x) (hf : ∀ a, PM.Keeps (f a)) : PM.Keeps (x >>= f) := by
  intro ps
  have h1 := h ps
  rw [PM.bind_run]
  rcases hx : x ps with ⟨a | m | _, ps1⟩ <;> rw [hx] at h1 <;> simp only []
  · exact h1.trans_of (fun _ _ _ _ _ => trivial) (hf a ps1)
  · exact h1
  · exact h1

theorem PM.Keeps.pure (a : α) : PM.Keeps (Pure.pure a : PM W α) := fun ps => .any ps

theorem PM.Keeps.lift (a : Res α) : PM.Keeps (PM.lift a : PM W α) := fun ps => .any ps

theorem PM.Keeps.bail (m : String) : PM.Keeps (PM.bail m : PM W α) := fun ps => .any ps

theorem callText_keeps (plugin command : Str) (typ : PType) (args : List Value) :
    PM.Keeps (Plugins.callText (W := W) plugin command typ args) := by
  intro ps
  unfold Plugins.callText
  rcases hp : ps.nameToPlugin.get plugin with _ | p
  · exact .any ps
  · obtain ⟨pn, px, sigs, pf⟩ := p
    simp only
    rcases hs : sigs.get (command, typ) with _ | m
    · exact .any ps
    · simp only
      rcases W.callText px m.callName args with ⟨a, s⟩
      have key : ∀ l, Plugins.Related (fun _ _ => True) ps
          { ps with nameToPlugin := ps.nameToPlugin.insert plugin ⟨pn, s, sigs, pf⟩, log := l } := by
        intro l
        refine ⟨rfl, rfl, rfl, rfl, fun n => ?_⟩
        by_cases hn : n = plugin
        · subst hn
          exact .inr ⟨_, _, hp, HMap.get_insert_self _ _ _, rfl, trivial⟩
        · simp only
          rw [HMap.get_insert_ne hn]
          rcases ps.nameToPlugin.get n with _ | p
          · exact .inl ⟨rfl, rfl⟩
          · exact .inr ⟨_, _, rfl, rfl, rfl, trivial⟩
      rcases a with e | a
      · exact key _
      · exact key _

theorem hook_keeps (command : Str) (typ : PType) (args : List Value) (hook : Plugins W → Option Str) :
    PM.Keeps (fun ps : Plugins W => match hook ps with
        | some p => (do return some (← Plugins.callText p command typ args) : PM W _) ps
        | none => (.ok none, ps)) := by
  intro ps
  simp only
  rcases hook ps with _ | p
  · exact .any ps
  · exact PM.Keeps.bind (callText_keeps p command typ args) (fun _ => .pure _) ps

theorem stmtHook_keeps (args : List Value) : PM.Keeps (Plugins.callStmtHook (W := W) args) := hook_keeps _ _ _ _
theorem exprHook_keeps (args : List Value) : PM.Keeps (Plugins.callExprHook (W := W) args) := hook_keeps _ _ _ _
theorem documentHook_keeps (args : List Value) : PM.Keeps (Plugins.callDocumentHook (W := W) args) := hook_keeps _ _ _ _
theorem textHook_keeps (args : List Value) : PM.Keeps (Plugins.callTextHook (W := W) args) := hook_keeps _ _ _ _

theorem bailWith_keeps (a : AST) : PM.Keeps (bailWith (W := W) a) := PM.Keeps.bind (.lift _) fun _ => .bail _

theorem nameOf_keeps (k : ALKind) (a : AST) : PM.Keeps (nameOf (W := W) k a) := by
  rcases a with ⟨k', i, v, l⟩ | _ <;> simp only [nameOf]
  · split
    · rcases v with _ | v
      · exact .bail _
      · exact .pure _
    · exact .bail _
  · exact .bail _

theorem argumentTypes_keeps (m c : Str) (t : PType) : PM.Keeps (Plugins.argumentTypes (W := W) m c t) := by
  intro ps
  unfold Plugins.argumentTypes
  rcases ps.nameToPlugin.get m with _ | p
  · exact .any ps
  · simp only
    rcases p.signatures.get (c, t) with _ | md <;> exact .any ps

theorem commandGenerate_keeps (checks : Bool) (b : Bracket) (m i : AST) (args : List Str) :
    PM.Keeps (commandGenerate (W := W) checks b m i args) := by
  unfold commandGenerate
  refine .bind (nameOf_keeps _ _) fun a => .bind (nameOf_keeps _ _) fun a' => .bind (argumentTypes_keeps _ _ _) fun ts => ?_
  unfold callCommand
  generalize argCounter checks (ts.map (·.2)) = o
  rcases o with ⟨min, max⟩ | e | _
  · simp only
    split
    · exact .bail _
    · split
      · exact .bail _
      · generalize bindArgs args 0 (ts.map (·.2)) = o
        rcases o with vs | e | _
        · exact callText_keeps _ _ _ _
        · exact .lift _
        · exact .lift _
  · exact .lift _
  · exact .lift _

mutual

theorem genChild_keeps (checks : Bool) : (a : AST) → ∀ d, PM.Keeps (genChild (W := W) checks d a)
  | .leaf k i v l, d => by
    rcases k <;> simp only [genChild] <;> first | exact bailWith_keeps _ | skip
    unfold textGenerate
    rcases v with _ | v
    · exact .bail _
    · exact .bind (textHook_keeps _) fun _ => .pure _
  | .node k i cs l, d => by
    rcases k with _ | _ | _ | b
    · simp only [genChild]; exact bailWith_keeps _
    · simp only [genChild]
      split
      · exact .bind (genChildren_keeps checks cs false) fun _ => .bind (stmtHook_keeps _) fun _ => .pure _
      · exact bailWith_keeps _
    · simp only [genChild]
      exact .bind (genChildren_keeps checks cs false) fun _ => .bind (exprHook_keeps _) fun _ => .pure _
    · rcases cs with _ | ⟨m, _ | ⟨e, cs⟩⟩
      · rcases b <;> simp only [genChild] <;> exact .bail _
      · rcases b <;> simp only [genChild] <;> exact .bail _
      · have hg := genChildren_keeps checks cs false
        rcases b <;> simp only [genChild]
        · exact .bail _
        all_goals exact .bind hg fun _ => commandGenerate_keeps _ _ _ _ _

theorem genChildren_keeps (checks : Bool) : (as : List AST) → ∀ d, PM.Keeps (genChildren (W := W) checks d as)
  | [], _ => by simp only [genChildren]; exact .pure _
  | a :: as, d => by
    have h1 := genChild_keeps checks a d
    have h2 := genChildren_keeps checks as d
    simp only [genChildren]
    exact .bind h1 fun _ => .bind h2 fun _ => .pure _

end

theorem generate_keeps (checks : Bool) (a : AST) : PM.Keeps (generate (W := W) checks a) := by
  rcases a with _ | ⟨k, i, cs, l⟩
  · exact .bail _
  · rcases k with _ | _ | _ | b <;> simp only [generate]
    · exact .bind (genChildren_keeps checks cs true) fun _ => .bind (documentHook_keeps _) fun _ => .pure _
    all_goals exact .bail _

theorem compileText_keeps {S : Segmenter} {ids : Nat → Str} {checks : Bool} {x : Str} {qs : Plugins W} {gen q1}
    (h : compileText S ids checks x qs = (.ok gen, q1)) : Plugins.Related (fun _ _ => True) qs q1 := by
  obtain ⟨a, es, _, h1⟩ := compileText_iff.mp h
  have := generate_keeps checks a qs
  rwa [h1] at this

theorem Plugins.Related.weak {R : W.State → W.State → Prop} {ps qs : Plugins W} (h : Plugins.Related R ps qs) :
    Plugins.Related (fun _ _ => True) ps qs :=
  ⟨h.documentHook, h.stmtHook, h.exprHook, h.textHook, fun n => (h.plugins n).imp id
    fun ⟨p, q, k1, k2, k3, _⟩ => ⟨p, q, k1, k2, k3, trivial⟩⟩

theorem Plugins.Related.flip {ps qs : Plugins W} (h : Plugins.Related (fun _ _ => True) ps qs) :
    Plugins.Related (fun _ _ => True) qs ps :=
  ⟨h.documentHook.symm, h.stmtHook.symm, h.exprHook.symm, h.textHook.symm, fun n => by
    rcases h.plugins n with ⟨k1, k2⟩ | ⟨p, q, k1, k2, k3, _⟩
    · exact .inl ⟨k2, k1⟩
    · exact .inr ⟨q, p, k2, k1, by first | exact k3.symm | (obtain ⟨e1, e2, e3⟩ := k3; exact ⟨e1.symm, e2.symm, e3.symm⟩), trivial⟩⟩

/-! ### one computation instead of another -/

/-- Wherever `x` succeeds, `y` does, with the same result. -/
def PM.Sim (ps : Plugins W) (x y : PM W α) : Prop :=
  ∀ qs qs', Plugins.Related (fun _ _ => True) ps qs → Plugins.Related Eq qs qs' → ∀ r q1, x qs = (.ok r, q1) →
    ∃ q1', y qs' = (.ok r, q1') ∧ Plugins.Related Eq q1 q1'

theorem PM.Sim.bind {ps : Plugins W} {x y : PM W α} {f g : α → PM W β} (h : PM.Sim ps x y) (hx : PM.Keeps x)
    (hf : ∀ a, PM.Sim ps (f a) (g a)) : PM.Sim ps (x >>= f) (y >>= g) := by
  intro qs qs' h1 h2 r q1 hr
  have hk := hx qs
  rw [PM.bind_run] at hr
  rcases hxq : x qs with ⟨a | m | _, q2⟩ <;> rw [hxq] at hr hk <;> simp only [] at hr
  · obtain ⟨q2', k1, k2⟩ := h qs qs' h1 h2 a q2 hxq
    obtain ⟨q1', k3, k4⟩ := hf a q2 q2' (h1.trans_of (fun _ _ _ _ _ => trivial) hk) k2 r q1 hr
    exact ⟨q1', by rw [PM.bind_run, k1]; exact k3, k4⟩
  · cases hr
  · cases hr

theorem PM.Sim.of_rel {ps : Plugins W} {x y : PM W α} (h : PM.Rel Eq Eq x y) : PM.Sim ps x y := by
  intro qs qs' _ h2 r q1 hr
  obtain ⟨k1, k2⟩ := h qs qs' h2
  rcases hy : y qs' with ⟨a | m | _, q1'⟩ <;> rw [hr, hy] at k1 k2 <;> simp only [Res.Same] at k1
  exact ⟨q1', by rw [k1], k2⟩

theorem PM.Sim.never {ps : Plugins W} {x y : PM W α} (h : ∀ qs r q1, x qs ≠ (.ok r, q1)) : PM.Sim ps x y :=
  fun qs _ _ _ r q1 hr => absurd hr (h qs r q1)

mutual

theorem AST.Renamed.rfl' : (a : AST) → a.Renamed Eq a
  | .leaf .. => ⟨rfl, rfl, rfl, rfl⟩
  | .node _ _ cs _ => ⟨rfl, rfl, rfl, AST.RenamedL.rfl' cs⟩

theorem AST.RenamedL.rfl' : (as : List AST) → AST.RenamedL Eq as as
  | [] => trivial
  | a :: as => ⟨AST.Renamed.rfl' a, AST.RenamedL.rfl' as⟩

end

theorem sameTexts_eq : W.SameTexts Eq := by
  rintro s t f vs rfl
  exact ⟨rfl, rfl⟩

theorem genChildren_sim_same (ps : Plugins W) (ck d : Bool) {as bs : List AST} (h : AST.shapeL as = AST.shapeL bs) :
    PM.Sim ps (genChildren ck d as) (genChildren ck d bs) := by
  rw [← genChildren_shape ck as bs h]
  exact .of_rel (genChildren_rel sameTexts_eq ck as as (AST.RenamedL.rfl' as) d)

theorem shapeL_append (as bs : List AST) : AST.shapeL (as ++ bs) = AST.shapeL as ++ AST.shapeL bs := by
  induction as with
  | nil => rfl
  | cons a as ih => simp [AST.shapeL, ih]

theorem shapeL_split : ∀ {before : List Shape} {t after} {cs : List AST}, AST.shapeL cs = before ++ t :: after →
    ∃ as c bs, cs = as ++ c :: bs ∧ AST.shapeL as = before ∧ c.shape = t ∧ AST.shapeL bs = after
  | [], t, after, [], h => by simp [AST.shapeL] at h
  | [], t, after, c :: cs, h => by
    simp only [AST.shapeL, List.nil_append, List.cons.injEq] at h
    exact ⟨[], c, cs, rfl, rfl, h.1, h.2⟩
  | b :: before, t, after, [], h => by simp [AST.shapeL] at h
  | b :: before, t, after, c :: cs, h => by
    simp only [AST.shapeL, List.cons_append, List.cons.injEq] at h
    obtain ⟨as, c', bs, rfl, h1, h2, h3⟩ := shapeL_split h.2
    exact ⟨c :: as, c', bs, rfl, by simp [AST.shapeL, h.1, h1], h2, h3⟩

theorem genChildren_sim (ps : Plugins W) (ck d : Bool) {as as' c c' bs bs'} (h1 : AST.shapeL as = AST.shapeL as')
    (h2 : AST.shapeL bs = AST.shapeL bs') (h : PM.Sim ps (genChild ck d c) (genChild ck d c')) :
    PM.Sim ps (genChildren ck d (as ++ c :: bs)) (genChildren ck d (as' ++ c' :: bs')) := by
  have e : ∀ as bs : List AST, genChildren (W := W) ck d (as ++ bs) = (do
      let xs ← genChildren ck d as
      let ys ← genChildren ck d bs
      pure (xs ++ ys)) := fun as bs => funext fun ps => genChildren_append ck d as bs ps
  rw [e, e]
  refine .bind (genChildren_sim_same ps ck d h1) (genChildren_keeps ck as d) fun xs => ?_
  refine .bind ?_ (genChildren_keeps ck (c :: bs) d) fun ys => .of_rel (.pure rfl)
  simp only [genChildren]
  refine .bind h (genChild_keeps ck c d) fun x => ?_
  exact .bind (genChildren_sim_same ps ck d h2) (genChildren_keeps ck bs d) fun ys => .of_rel (.pure rfl)

theorem bailWith_no {a : AST} {qs : Plugins W} {r q1} (h : bailWith a qs = (.ok r, q1)) : False :=
  bailWith_ok (a := a) (ps := qs) (r := r) (by rw [h])

theorem nameOf_node {k : ALKind} {a : AST} {t s s' t'} (h : Shape.Swapped s s' t t') (hs : ∃ k cs, s = .node k cs) (ha : a.shape = t)
    (qs : Plugins W) : ∃ m, nameOf k a qs = (.err m, qs) := by
  rcases a with ⟨k', i, v, l⟩ | ⟨k', i, cs, l⟩
  · obtain ⟨k, cs, rfl⟩ := hs
    cases h <;> simp [AST.shape] at ha
  · exact ⟨_, rfl⟩

theorem commandGenerate_sim (ps : Plugins W) (ck : Bool) (b : Bracket) {m m' i i' : AST} (hm : m.shape = m'.shape) (hi : i.shape = i'.shape)
    (args : List Str) : PM.Sim ps (commandGenerate ck b m i args) (commandGenerate ck b m' i' args) := by
  have : commandGenerate (W := W) ck b m i args = commandGenerate ck b m' i' args := by
    simp only [commandGenerate, nameOf_shape hm, nameOf_shape hi]
  rw [← this]
  exact .of_rel (commandGenerate_rel sameTexts_eq ck b (AST.Renamed.rfl' m) (AST.Renamed.rfl' i) args)

/-- Commands with a command as a name are not generated. -/
theorem genChild_bad_name {ck d : Bool} {b : Bracket} {i : Str} {cs : List AST} {l : Loc} {as c bs} (hcs : cs = as ++ c :: bs)
    (hlen : as.length < 2) (hc : ∀ (k : ALKind) (qs : Plugins W), ∃ m, nameOf k c qs = (.err m, qs)) (qs : Plugins W) (r q1) :
    genChild ck d (.node (.bracket b) i cs l) qs ≠ (.ok r, q1) := by
  intro h
  subst hcs
  rcases b
  · simp only [genChild, PM.bail_run] at h; cases h
  all_goals
    rcases as with _ | ⟨m, _ | ⟨j, as⟩⟩
    · rcases bs with _ | ⟨j, bs⟩
      · simp only [List.nil_append, genChild, PM.bail_run] at h; cases h
      · simp only [List.nil_append, genChild, PM.bind_run] at h
        generalize genChildren ck false bs qs = o at h
        rcases o with ⟨xs | m | _, q2⟩ <;> simp only [] at h
        · rw [commandGenerate, PM.bind_run] at h
          obtain ⟨m, hm⟩ := hc .module q2
          rw [hm] at h; cases h
        · cases h
        · cases h
    · simp only [List.cons_append, List.nil_append, genChild, PM.bind_run] at h
      generalize genChildren ck false bs qs = o at h
      rcases o with ⟨xs | m | _, q2⟩ <;> simp only [] at h
      · rw [commandGenerate, PM.bind_run] at h
        rcases hn : nameOf .module m q2 with ⟨x | e | _, q3⟩ <;> rw [hn] at h <;> simp only [PM.bind_run] at h
        · obtain ⟨m, hm⟩ := hc .ident q3
          rw [hm] at h; cases h
        · cases h
        · cases h
      · cases h
      · cases h
    · simp at hlen; omega

/-- Generating code for trees that differ in one place. -/
theorem genChild_sim (ps : Plugins W) (ck : Bool) {b : Bracket} {ss s' : _} {cs0} (hs : ss = Shape.node (.bracket b) cs0)
    {cs0'} (hs' : s' = Shape.node (.bracket b) cs0')
    (h0 : ∀ a a' : AST, a.shape = ss → a'.shape = s' → PM.Sim ps (genChild ck false a) (genChild ck false a'))
    {t t'} (h : Shape.Swapped ss s' t t') :
    ∀ (a a' : AST), a.shape = t → a'.shape = t' → ∀ d, PM.Sim ps (genChild ck d a) (genChild ck d a') := by
  induction h with
  | here =>
    intro a a' ha ha' d
    have := h0 a a' ha ha'
    have e : ∀ {a : AST} {cs}, a.shape = Shape.node (.bracket b) cs → genChild (W := W) ck d a = genChild ck false a := by
      intro a cs h
      rcases a with ⟨k, i, v, l⟩ | ⟨k, i, ds, l⟩ <;> simp [AST.shape] at h
      obtain ⟨rfl, _⟩ := h
      rcases ds with _ | ⟨m, _ | ⟨j, ds⟩⟩ <;> cases b <;> simp only [genChild]
    rwa [e (ha.trans hs), e (ha'.trans hs')]
  | @inside k before t t' after hsw ih =>
    intro a a' ha ha' d
    rcases a with ⟨k1, i, v, l⟩ | ⟨k1, i, cs, l⟩
    · simp [AST.shape] at ha
    rcases a' with ⟨k2, i', v', l'⟩ | ⟨k2, i', cs', l'⟩
    · simp [AST.shape] at ha'
    simp only [AST.shape, Shape.node.injEq] at ha ha'
    obtain ⟨rfl, ha⟩ := ha
    obtain ⟨rfl, ha'⟩ := ha'
    obtain ⟨as, c, bs, hcs, h1, h2, h3⟩ := shapeL_split ha
    obtain ⟨as', c', bs', hcs', h1', h2', h3'⟩ := shapeL_split ha'
    have hA : AST.shapeL as = AST.shapeL as' := by rw [h1, h1']
    have hB : AST.shapeL bs = AST.shapeL bs' := by rw [h3, h3']
    have hc := ih c c' h2 h2' false
    have hch : PM.Sim ps (genChildren ck false cs) (genChildren ck false cs') := by
      rw [hcs, hcs']; exact genChildren_sim ps ck false hA hB hc
    rcases k2 with _ | _ | _ | b1
    · exact .never fun qs r q1 h => bailWith_no (by simpa only [genChild] using h)
    · rcases d
      · exact .never fun qs r q1 h => bailWith_no (by simpa only [genChild, Bool.false_eq_true, if_false] using h)
      · simp only [genChild, if_true]
        refine .bind hch (genChildren_keeps ck cs false) fun rs => ?_
        exact .bind (.of_rel (stmtHook_rel sameTexts_eq _)) (stmtHook_keeps _) fun x => .of_rel (.pure rfl)
    · simp only [genChild]
      refine .bind hch (genChildren_keeps ck cs false) fun rs => ?_
      exact .bind (.of_rel (exprHook_rel sameTexts_eq _)) (exprHook_keeps _) fun x => .of_rel (.pure rfl)
    · by_cases hlen : as.length < 2
      · exact .never fun qs r q1 => genChild_bad_name hcs hlen (fun k qs => nameOf_node hsw ⟨_, _, hs⟩ h2 qs) qs r q1
      · rcases as with _ | ⟨m, _ | ⟨j, as⟩⟩
        · simp at hlen
        · simp at hlen
        rcases as' with _ | ⟨m', _ | ⟨j', as'⟩⟩ <;> simp [AST.shapeL] at hA
        subst hcs hcs'
        have hch := genChildren_sim ps ck false hA.2.2 hB hc
        simp only [List.cons_append]
        cases b1 <;> simp only [genChild]
        · exact .never fun qs r q1 h => by rw [PM.bail_run] at h; cases h
        all_goals exact .bind hch (genChildren_keeps ck _ false) fun rs => commandGenerate_sim ps ck _ hA.1 hA.2.1 rs

/-- A document that is one command. -/
theorem generate_alone {ck : Bool} {a c : AST} (ha : a.shape = .node .document [.node .stmt [.node .expr [c.shape]]]) {qs : Plugins W}
    (h1 : qs.documentHook = none) (h2 : qs.stmtHook = none) (h3 : qs.exprHook = none) (r : Str) (q1 : Plugins W) :
    generate ck a qs = (.ok r, q1) ↔ genChild ck false c qs = (.ok r, q1) := by
  have e : a.shape = (AST.node .document [] [.node .stmt [] [.node .expr [] [c] mockLocation] mockLocation] mockLocation).shape := by
    rw [ha]; rfl
  rw [generate_shape ck e, generate_statements ck h1]
  have hk := genChild_keeps ck c false qs
  simp only [genChildren, genChild, if_true, PM.bind_run]
  generalize hg : genChild ck false c qs = g at hk
  rcases g with ⟨x | m | _, q2⟩
  · have e2 : q2.stmtHook = none := by rw [← hk.stmtHook, h2]
    have e3 : q2.exprHook = none := by rw [← hk.exprHook, h3]
    have p0 : ∀ {α} (a : α), (pure a : PM W α) q2 = (.ok a, q2) := fun _ => rfl
    simp only [p0, Plugins.callExprHook, Plugins.callStmtHook, e2, e3, orElseText]
    constructor
    · rintro ⟨rs, h4, rfl⟩
      cases h4
      simp
    · intro h4
      cases h4
      exact ⟨_, rfl, by simp⟩
  · simp
  · simp

/-! ### hooks for documents and statements are not seen inside a command -/

/-- The computation does not depend on the hooks for documents and statements. -/
def PM.Blind (x : PM W α) : Prop := ∀ ps, x ps.plain = ((x ps).1, (x ps).2.plain)

theorem PM.Blind.bind {x : PM W α} {f : α → PM W β} (h : PM.Blind x) (hf : ∀ a, PM.Blind (f a)) : PM.Blind (x >>= f) := by
  intro ps
  rw [PM.bind_run, PM.bind_run, h ps]
  rcases x ps with ⟨a | m | _, ps1⟩ <;> simp only []
  exact hf a ps1

theorem PM.Blind.pure (a : α) : PM.Blind (Pure.pure a : PM W α) := fun _ => rfl

theorem PM.Blind.lift (a : Res α) : PM.Blind (PM.lift a : PM W α) := fun _ => rfl

theorem PM.Blind.bail (m : String) : PM.Blind (PM.bail m : PM W α) := fun _ => rfl

theorem callText_blind (plugin command : Str) (typ : PType) (args : List Value) :
    PM.Blind (Plugins.callText (W := W) plugin command typ args) := by
  intro ps
  unfold Plugins.callText
  simp only [Plugins.plain]
  rcases ps.nameToPlugin.get plugin with _ | ⟨pn, px, sigs, pf⟩
  · rfl
  · simp only
    rcases sigs.get (command, typ) with _ | m
    · rfl
    · simp only
      rcases W.callText px m.callName args with ⟨e | a, s⟩ <;> rfl

theorem exprHook_blind (args : List Value) : PM.Blind (Plugins.callExprHook (W := W) args) := by
  intro ps
  unfold Plugins.callExprHook
  have : ps.plain.exprHook = ps.exprHook := rfl
  simp only [this]
  rcases ps.exprHook with _ | p
  · rfl
  · exact PM.Blind.bind (callText_blind p _ _ args) (fun _ => .pure _) ps

theorem textHook_blind (args : List Value) : PM.Blind (Plugins.callTextHook (W := W) args) := by
  intro ps
  unfold Plugins.callTextHook
  have : ps.plain.textHook = ps.textHook := rfl
  simp only [this]
  rcases ps.textHook with _ | p
  · rfl
  · exact PM.Blind.bind (callText_blind p _ _ args) (fun _ => .pure _) ps

theorem bailWith_blind (a : AST) : PM.Blind (bailWith (W := W) a) := PM.Blind.bind (.lift _) fun _ => .bail _

theorem nameOf_blind (k : ALKind) (a : AST) : PM.Blind (nameOf (W := W) k a) := by
  rcases a with ⟨k', i, v, l⟩ | _ <;> simp only [nameOf]
  · split
    · rcases v with _ | v
      · exact .bail _
      · exact .pure _
    · exact .bail _
  · exact .bail _

theorem argumentTypes_blind (m c : Str) (t : PType) : PM.Blind (Plugins.argumentTypes (W := W) m c t) := by
  intro ps
  unfold Plugins.argumentTypes
  simp only [Plugins.plain]
  rcases ps.nameToPlugin.get m with _ | p
  · rfl
  · simp only
    rcases p.signatures.get (c, t) with _ | md <;> rfl

theorem commandGenerate_blind (checks : Bool) (b : Bracket) (m i : AST) (args : List Str) :
    PM.Blind (commandGenerate (W := W) checks b m i args) := by
  unfold commandGenerate
  refine .bind (nameOf_blind _ _) fun a => .bind (nameOf_blind _ _) fun a' => .bind (argumentTypes_blind _ _ _) fun ts => ?_
  unfold callCommand
  generalize argCounter checks (ts.map (·.2)) = o
  rcases o with ⟨min, max⟩ | e | _
  · simp only
    split
    · exact .bail _
    · split
      · exact .bail _
      · generalize bindArgs args 0 (ts.map (·.2)) = o
        rcases o with vs | e | _
        · exact callText_blind _ _ _ _
        · exact .lift _
        · exact .lift _
  · exact .lift _
  · exact .lift _

mutual

theorem genChild_blind (checks : Bool) : (a : AST) → PM.Blind (genChild (W := W) checks false a)
  | .leaf k i v l => by
    rcases k <;> simp only [genChild] <;> first | exact bailWith_blind _ | skip
    unfold textGenerate
    rcases v with _ | v
    · exact .bail _
    · exact .bind (textHook_blind _) fun _ => .pure _
  | .node k i cs l => by
    rcases k with _ | _ | _ | b
    · simp only [genChild]; exact bailWith_blind _
    · simp only [genChild, Bool.false_eq_true, if_false]
      exact bailWith_blind _
    · simp only [genChild]
      exact .bind (genChildren_blind checks cs) fun _ => .bind (exprHook_blind _) fun _ => .pure _
    · rcases cs with _ | ⟨m, _ | ⟨e, cs⟩⟩
      · rcases b <;> simp only [genChild] <;> exact .bail _
      · rcases b <;> simp only [genChild] <;> exact .bail _
      · have hg := genChildren_blind checks cs
        rcases b <;> simp only [genChild]
        · exact .bail _
        all_goals exact .bind hg fun _ => commandGenerate_blind _ _ _ _ _

theorem genChildren_blind (checks : Bool) : (as : List AST) → PM.Blind (genChildren (W := W) checks false as)
  | [] => by simp only [genChildren]; exact .pure _
  | a :: as => by
    have h1 := genChild_blind checks a
    have h2 := genChildren_blind checks as
    simp only [genChildren]
    exact .bind h1 fun _ => .bind h2 fun _ => .pure _

end

theorem Plugins.Related.plain {R : W.State → W.State → Prop} {ps qs : Plugins W} (h : Plugins.Related R ps qs) :
    Plugins.Related R ps.plain qs.plain := ⟨rfl, rfl, h.exprHook, h.textHook, h.plugins⟩

/-- What holds without these hooks holds with them. -/
theorem PM.Sim.of_plain {ps : Plugins W} {x y : PM W α} (hx : PM.Blind x) (hy : PM.Blind y) (kx : PM.Keeps x) (ky : PM.Keeps y)
    (h : PM.Sim ps.plain x y) : PM.Sim ps x y := by
  intro qs qs' h1 h2 r q1 hr
  obtain ⟨q2, k1, k2⟩ := h qs.plain qs'.plain h1.plain h2.plain r q1.plain (by rw [hx, hr])
  have e1 := kx qs
  have e2 := ky qs'
  rw [hr] at e1
  rw [hy] at k1
  rcases hq : y qs' with ⟨r', q1'⟩
  rw [hq] at e2 k1
  cases k1
  refine ⟨q1', rfl, ⟨?_, ?_, k2.exprHook, k2.textHook, k2.plugins⟩⟩
  · rw [← e1.documentHook, ← e2.documentHook, h2.documentHook]
  · rw [← e1.stmtHook, ← e2.stmtHook, h2.stmtHook]

/-- What a command yields decides what the document yields. -/
theorem yields_swapped {S : Segmenter} {b : Bracket} {u x x' v : Str} (hx : Command S b x) (hx' : Command S b x') (hu : Place S u)
    (ha : Apart S u x v) (ha' : Apart S u x' v) (ids : Nat → Str) (ck : Bool) {ps : Plugins W} (h3 : ps.exprHook = none)
    (hy : Yields S ids ck ps.plain x x') :
    Yields S ids ck ps (u ++ x ++ v) (u ++ x' ++ v) := by
  intro qs qs' r1 r2 gen qs1 hc
  obtain ⟨a, es, hr, hg⟩ := compileText_iff.mp hc
  obtain ⟨k1, k2⟩ := reads_swapped hx hx' hu ha ha' ids
  obtain ⟨a', es', hr'⟩ := k1.mp ⟨a, es, hr⟩
  obtain ⟨s, ks, s', ks', ⟨a0, es0, q1, q2, _⟩, ⟨a0', es0', q1', q2', _⟩, ⟨⟨cs, hs⟩, cs', hs'⟩, hsw, _⟩ := k2 a es a' es' hr hr'
  have h0 : ∀ c c' : AST, c.shape = s → c'.shape = s' → PM.Sim ps (genChild ck false c) (genChild ck false c') := by
    intro c c' hcs hcs'
    refine .of_plain (genChild_blind ck c) (genChild_blind ck c') (genChild_keeps ck c false) (genChild_keeps ck c' false) ?_
    intro p p' hp hp' r p1 hok
    rw [← hcs] at q2
    rw [← hcs'] at q2'
    have d1 : p.documentHook = none := by rw [← hp.documentHook]; rfl
    have d2 : p.stmtHook = none := by rw [← hp.stmtHook]; rfl
    have d3 : p.exprHook = none := by rw [← hp.exprHook]; exact h3
    obtain ⟨p1', e1, e2⟩ := hy p p' hp hp' r p1 (compileText_iff.mpr ⟨a0, es0, q1, (generate_alone q2 d1 d2 d3 r p1).mpr hok⟩)
    obtain ⟨a1, es1, e3, e4⟩ := compileText_iff.mp e1
    obtain ⟨rfl, rfl⟩ := reads_det q1' e3
    refine ⟨p1', (generate_alone q2' ?_ ?_ ?_ r p1').mp e4, e2⟩
    · rw [← hp'.documentHook, d1]
    · rw [← hp'.stmtHook, d2]
    · rw [← hp'.exprHook, d3]
  rcases a with ⟨k, i, w, l⟩ | ⟨k, i, ds, l⟩
  · simp only [generate, PM.bail_run] at hg; cases hg
  rcases k with _ | _ | _ | b1
  case document =>
    generalize ht : (AST.node AKind.document i ds l).shape = t at hsw
    generalize ht' : a'.shape = t' at hsw
    cases hsw with
    | here => rw [hs] at ht; simp [AST.shape] at ht
    | @inside k before t t' after hsw =>
      rcases a' with ⟨k', i', w', l'⟩ | ⟨k', i', ds', l'⟩
      · simp [AST.shape] at ht'
      simp only [AST.shape, Shape.node.injEq] at ht ht'
      obtain ⟨rfl, ht⟩ := ht
      obtain ⟨rfl, ht'⟩ := ht'
      obtain ⟨as, c, bs, rfl, e1, e2, e3⟩ := shapeL_split ht
      obtain ⟨as', c', bs', rfl, e1', e2', e3'⟩ := shapeL_split ht'
      have hsim : PM.Sim ps (generate ck (.node .document i (as ++ c :: bs) l)) (generate ck (.node .document i' (as' ++ c' :: bs') l')) := by
        simp only [generate]
        refine .bind (genChildren_sim ps ck true (by rw [e1, e1']) (by rw [e3, e3']) (genChild_sim ps ck hs hs' h0 hsw c c' e2 e2' true))
          (genChildren_keeps ck _ true) fun rs => ?_
        exact .bind (.of_rel (documentHook_rel sameTexts_eq _)) (documentHook_keeps _) fun x => .of_rel (.pure rfl)
      obtain ⟨qs1', f1, f2⟩ := hsim qs qs' r1 r2 gen qs1 hg
      exact ⟨qs1', compileText_iff.mpr ⟨_, es', hr', f1⟩, f2⟩
  all_goals
    simp only [generate, PM.bail_run] at hg
    cases hg

end Brack
