import Verif.Proof.TransClean
import Verif.Proof.TokNames

/-
Helper lemmas: without errors and without escaped opening brackets the AST follows its grammar.
-/

namespace Brack

/-! ### rules on shapes -/

def Shape.isCommandModule : Shape → Bool
  | .leaf .module (some _) | .node (.bracket .angle) _ => true
  | _ => false

def Shape.isCommandIdent : Shape → Bool
  | .leaf .ident (some _) | .node (.bracket .angle) _ => true
  | _ => false

def Shape.isFullExpr : Shape → Bool
  | .node .expr (_ :: _) => true
  | _ => false

def Shape.isCommand : Shape → Bool
  | .node (.bracket _) (m :: i :: args) =>
    m.isCommandModule && i.isCommandIdent && args.all Shape.isFullExpr
  | _ => false

def Shape.isExprItem : Shape → Bool
  | .leaf .text (some _) | .node (.bracket _) _ => true
  | _ => false

def Shape.isStmt : Shape → Bool
  | .node .stmt _ => true
  | _ => false

/-- The rule for one node; `strict` asks for proper expression items. -/
def Shape.rule (strict : Bool) : Shape → Bool
  | .node .document cs => cs.all Shape.isStmt
  | .node .stmt cs => cs.all Shape.isFullExpr
  | .node .expr cs => !cs.isEmpty && cs.all (fun c => !strict || c.isExprItem)
  | .node (.bracket b) cs => Shape.isCommand (.node (.bracket b) cs)
  | .leaf _ _ => true

mutual

def Shape.good (strict : Bool) : Shape → Bool
  | .leaf _ _ => true
  | .node k cs => Shape.rule strict (.node k cs) && Shape.goodL strict cs

def Shape.goodL (strict : Bool) : List Shape → Bool
  | [] => true
  | c :: cs => c.good strict && Shape.goodL strict cs

end

theorem goodL_iff {s cs} : Shape.goodL s cs = true ↔ ∀ c ∈ cs, c.good s = true := by
  induction cs with
  | nil => simp [Shape.goodL]
  | cons c cs ih => simp [Shape.goodL, ih]

theorem shapeL_eq (as : List AST) : AST.shapeL as = as.map AST.shape := by
  induction as with
  | nil => rfl
  | cons a as ih => simp [AST.shapeL, ih]

theorem shape_module (a : AST) : a.shape.isCommandModule = a.isCommandModule := by
  rcases a with ⟨k, i, v, l⟩ | ⟨k, i, cs, l⟩
  · cases k <;> cases v <;> rfl
  · rcases k with _ | _ | _ | (_ | _ | _) <;> rfl

theorem shape_ident (a : AST) : a.shape.isCommandIdent = a.isCommandIdent := by
  rcases a with ⟨k, i, v, l⟩ | ⟨k, i, cs, l⟩
  · cases k <;> cases v <;> rfl
  · rcases k with _ | _ | _ | (_ | _ | _) <;> rfl

theorem shape_fullExpr (a : AST) : a.shape.isFullExpr = a.isFullExpr := by
  rcases a with ⟨k, i, v, l⟩ | ⟨k, i, cs, l⟩
  · rfl
  · rcases k with _ | _ | _ | _ <;> rcases cs with _ | ⟨c, cs⟩ <;> rfl

theorem shape_item (a : AST) : a.shape.isExprItem = a.isExprItem := by
  rcases a with ⟨k, i, v, l⟩ | ⟨k, i, cs, l⟩
  · cases k <;> cases v <;> rfl
  · rcases k with _ | _ | _ | _ <;> rfl

theorem all_shape {p : Shape → Bool} {q : AST → Bool} (h : ∀ a : AST, p a.shape = q a)
    (as : List AST) : (AST.shapeL as).all p = as.all q := by
  induction as with
  | nil => rfl
  | cons a as ih => simp [AST.shapeL, h, ih]

theorem shape_command (a : AST) : a.shape.isCommand = a.isCommand := by
  rcases a with ⟨k, i, v, l⟩ | ⟨k, i, cs, l⟩
  · rfl
  · rcases k with _ | _ | _ | b
    · simp [AST.shape, Shape.isCommand, AST.isCommand]
    · simp [AST.shape, Shape.isCommand, AST.isCommand]
    · simp [AST.shape, Shape.isCommand, AST.isCommand]
    · rcases cs with _ | ⟨m, _ | ⟨i, args⟩⟩
      · rfl
      · rfl
      · simp [AST.shape, Shape.isCommand, AST.isCommand, AST.shapeL, shape_module, shape_ident,
          all_shape shape_fullExpr]

theorem shape_rule (a : AST) : a.shape.rule true = a.followsRule := by
  rcases a with ⟨k, i, v, l⟩ | ⟨k, i, cs, l⟩
  · rfl
  · rcases k with _ | _ | _ | b
    · simp only [AST.shape, Shape.rule, AST.followsRule]
      refine all_shape ?_ cs
      intro a
      rcases a with ⟨k, i, v, l⟩ | ⟨k, i, cs, l⟩
      · rfl
      · cases k <;> rfl
    · simp only [AST.shape, Shape.rule, AST.followsRule]
      exact all_shape shape_fullExpr cs
    · simp only [AST.shape, Shape.rule, AST.followsRule, Bool.not_true, Bool.false_or]
      rw [all_shape shape_item]
      rcases cs with _ | ⟨c, cs⟩ <;> rfl
    · have := shape_command (.node (.bracket b) i cs l)
      simpa [AST.shape, Shape.rule, AST.followsRule] using this

theorem good_nodes {s} {n a : AST} (hn : AST.NodeOf n a) (h : a.shape.good s = true) :
    n.shape.rule s = true := by
  induction hn with
  | self =>
    rcases n with ⟨k, i, v, l⟩ | ⟨k, i, cs, l⟩
    · rfl
    · simp only [AST.shape, Shape.good, Bool.and_eq_true] at h
      exact h.1
  | child hc _ ih =>
    simp only [AST.shape, Shape.good, Bool.and_eq_true, goodL_iff, shapeL_eq, List.mem_map] at h
    exact ih (h.2 _ ⟨_, hc, rfl⟩)

/-! ### simplified trees -/

/-- An item that is not a name. -/
def CST.plainItem : CST → Bool
  | .leaf (.ident _) _ | .leaf (.module _) _ => false
  | _ => true

def CST.isBr : CST → Bool
  | .node (.bracket _) _ _ => true
  | _ => false

/-- The beginning of a command, from its `p`-th element on. -/
def conform : Nat → List CST → Bool
  | _, [] => true
  | 0, d :: ds => d.isModuleOrAngle && conform 1 ds
  | 1, d :: ds => d.isDot && conform 2 ds
  | 2, d :: ds => d.isIdentOrAngle && conform 3 ds
  | _, _ => true

theorem conform3 (p ds) (h : 3 ≤ p) : conform p ds = true := by
  obtain ⟨k, rfl⟩ : ∃ k, p = k + 3 := ⟨p - 3, by omega⟩
  cases ds <;> rfl

theorem conform_append (p : Nat) (ds es : List CST) (h : conform p (ds ++ es) = true) :
    conform p ds = true ∧ conform (p + ds.length) es = true := by
  induction ds generalizing p with
  | nil => exact ⟨by rcases p with _ | _ | _ | p <;> rfl, by simpa using h⟩
  | cons d ds ih =>
    by_cases hp : 3 ≤ p
    · exact ⟨conform3 _ _ hp, conform3 _ _ (by omega)⟩
    · have key : ∃ q : CST → Bool, ∀ xs, conform p (d :: xs) = (q d && conform (p + 1) xs) := by
        rcases p with _ | _ | _ | p
        · exact ⟨CST.isModuleOrAngle, fun _ => rfl⟩
        · exact ⟨CST.isDot, fun _ => rfl⟩
        · exact ⟨CST.isIdentOrAngle, fun _ => rfl⟩
        · omega
      obtain ⟨q, hq⟩ := key
      rw [List.cons_append, hq, Bool.and_eq_true] at h
      obtain ⟨a, b⟩ := ih (p + 1) h.2
      refine ⟨by rw [hq, h.1, a]; rfl, ?_⟩
      rwa [List.length_cons, Nat.add_comm ds.length 1, ← Nat.add_assoc]

theorem noEsc_append {st cs ds} :
    (∀ e ∈ CST.evsL st (cs ++ ds), Event.escapedOpen e = false) ↔
    (∀ e ∈ CST.evsL st cs, Event.escapedOpen e = false) ∧
      ∀ e ∈ CST.evsL st ds, Event.escapedOpen e = false := by
  rw [evsL_append]
  simp only [List.mem_append]
  exact ⟨fun h => ⟨fun e he => h e (.inl he), fun e he => h e (.inr he)⟩,
    fun h e he => he.elim (h.1 e) (h.2 e)⟩

/-- What is known after part of the content of a command. -/
structure After (s : Bool) (p : Nat) (due : Bool) (ts : List Token) (ds : List CST) : Prop where
  off : s = true → 3 ≤ p + ds.length → nameDue due ts = false
  plain : s = true → ∀ d ∈ ds.drop (3 - p), d.plainItem = true
  good : ∀ d ∈ ds, d.sshape.good s = true

theorem After.append {s p due ts ds ts' ds'} (h : After s p due ts ds)
    (h' : After s (p + ds.length) (nameDue due ts) ts' ds') : After s p due (ts ++ ts') (ds ++ ds') where
  off := fun hs hp => by
    rw [nameDue_append]
    exact h'.off hs (by simpa [Nat.add_assoc] using hp)
  plain := fun hs d hd => by
    rw [List.drop_append] at hd
    rcases List.mem_append.mp hd with hd | hd
    · exact h.plain hs d hd
    · refine h'.plain hs d ?_
      rwa [show 3 - p - ds.length = 3 - (p + ds.length) by omega] at hd
  good := fun d hd => by
    rcases List.mem_append.mp hd with hd | hd
    · exact h.good d hd
    · exact h'.good d hd

/-- The hypotheses on a piece of a document; `s = false` asks for nothing. -/
structure Names (s : Bool) (due : Bool) (ts : List Token) (evs : List Event) : Prop where
  names : s = true → namesOk due ts = true
  noEsc : s = true → ∀ e ∈ evs, e.escapedOpen = false

theorem Names.append {s due ts ts' evs evs'} (h : Names s due (ts ++ ts') (evs ++ evs')) :
    Names s due ts evs ∧ Names s (nameDue due ts) ts' evs' := by
  obtain ⟨h1, h2⟩ := h
  refine ⟨⟨fun hs => ?_, fun hs e he => h2 hs e (by simp [he])⟩,
    ⟨fun hs => ?_, fun hs e he => h2 hs e (by simp [he])⟩⟩
  · have := h1 hs; rw [namesOk_append, Bool.and_eq_true] at this; exact this.1
  · have := h1 hs; rw [namesOk_append, Bool.and_eq_true] at this; exact this.2

/-- What is known after one item. -/
structure AfterI (s : Bool) (due : Bool) (ts : List Token) (d : CST) : Prop where
  off : s = true → (due = false ∨ d.isBr = true ∨ d.isIdentOrAngle = true) → nameDue due ts = false
  plain : s = true → due = false → d.plainItem = true
  good : d.sshape.good s = true

theorem AfterI.after {s p due ts d} (h : AfterI s due ts d) (hp : s = true → 3 ≤ p → due = false)
    (hc : conform p [d] = true) : After s p due ts [d] where
  off := fun hs h3 => by
    rcases p with _ | _ | _ | p
    · simp at h3
    · simp at h3
    · have hc : (d.isIdentOrAngle && true) = true := hc
      exact h.off hs (.inr (.inr (by simpa using hc)))
    · exact h.off hs (.inl (hp hs (by omega)))
  plain := fun hs x hx => by
    rcases p with _ | _ | _ | p
    · simp at hx
    · simp at hx
    · simp at hx
    · have : x = d := by
        have := List.mem_of_mem_drop hx
        simpa using this
      subst this
      exact h.plain hs (hp hs (by omega))
  good := by simpa using h.good

theorem isExprItem_of {y : CST} (h1 : y.simple = true) (h2 : y.isArgItem = true)
    (h3 : y.isBlank = false) (h4 : y.plainItem = true) (h5 : y ≠ .leaf .invalid y.loc) :
    y.sshape.isExprItem = true := by
  rcases y with ⟨k, l⟩ | ⟨k, cs, l⟩
  · cases k <;> simp_all [CST.simple, LKind.inExpr, CST.isArgItem, CST.isBlank, CST.plainItem,
      CST.sshape, LKind.sshape, Shape.isExprItem, CST.loc]
  · cases k <;> simp_all [CST.simple, CST.sshape, Shape.isExprItem, IKind.toAst]

/-- The rule for a bracket, from its parts. -/
theorem bracket_good_shape {s b l} {m i : CST} {gs rest : List CST} (hm : m.isModuleOrAngle = true)
    (hi : i.isIdentOrAngle = true) (hmg : m.sshape.good s = true) (hig : i.sshape.good s = true)
    (hg : ∀ g ∈ gs, ∃ ys l, g = .node .expr ys l ∧ ys ≠ [] ∧
        ∀ y ∈ ys, y ∈ rest ∧ y.isArgItem = true ∧ y.isBlank = false)
    (hrest : ∀ y ∈ rest, y.sshape.good s = true)
    (hitem : s = true → ∀ y ∈ rest, y.isArgItem = true → y.isBlank = false →
      y.sshape.isExprItem = true) :
    (CST.node (.bracket b) (m :: i :: gs) l).sshape.good s = true := by
  have h1 : m.sshape.isCommandModule = true := by
    rcases m with ⟨k, l⟩ | ⟨k, cs, l⟩
    · cases k <;> simp [CST.isModuleOrAngle] at hm; rfl
    · rcases k with _ | _ | _ | (_ | _ | _) | _ <;> simp [CST.isModuleOrAngle] at hm; rfl
  have h2 : i.sshape.isCommandIdent = true := by
    rcases i with ⟨k, l⟩ | ⟨k, cs, l⟩
    · cases k <;> simp [CST.isIdentOrAngle] at hi; rfl
    · rcases k with _ | _ | _ | (_ | _ | _) | _ <;> simp [CST.isIdentOrAngle] at hi; rfl
  have h3 : ∀ g ∈ gs, g.sshape.isFullExpr = true ∧ g.sshape.good s = true := by
    intro g hgg
    obtain ⟨ys, l, rfl, hne, hy⟩ := hg g hgg
    rcases ys with _ | ⟨y, ys⟩
    · exact absurd rfl hne
    · refine ⟨rfl, ?_⟩
      simp only [CST.sshape, IKind.toAst, Option.getD_some, Shape.good, Bool.and_eq_true, goodL_iff,
        sshapeL_eq, Shape.rule]
      refine ⟨⟨by simp, ?_⟩, ?_⟩
      · rw [List.all_eq_true]
        intro c hc
        obtain ⟨z, hz, rfl⟩ := List.mem_map.mp hc
        obtain ⟨h1, h2, h3⟩ := hy z hz
        cases s
        · rfl
        · simpa using hitem rfl z h1 h2 h3
      · intro c hc
        obtain ⟨z, hz, rfl⟩ := List.mem_map.mp hc
        exact hrest z (hy z hz).1
  simp only [CST.sshape, IKind.toAst, Option.getD_some, Shape.good, Bool.and_eq_true, goodL_iff,
    sshapeL_eq, Shape.rule, List.map_cons, Shape.isCommand, h1, h2, true_and]
  refine ⟨?_, ?_⟩
  · rw [List.all_eq_true]
    intro c hc
    obtain ⟨z, hz, rfl⟩ := List.mem_map.mp hc
    exact (h3 z hz).1
  · intro c hc
    rcases List.mem_cons.mp hc with rfl | hc
    · exact hmg
    · rcases List.mem_cons.mp hc with rfl | hc
      · exact hig
      · obtain ⟨z, hz, rfl⟩ := List.mem_map.mp hc
        exact (h3 z hz).2

theorem leaf_sgood (s k l) : (CST.leaf k l).sshape.good s = true := by
  cases k <;> rfl

/-- No invalid leaf without errors. -/
theorem XI.valid {c d es} (h : XI c d es) (he : es = []) : d ≠ .leaf .invalid d.loc := by
  cases h with
  | @leaf k l h => rintro h'; cases k <;> simp [LKind.inExpr] at h <;> simp at h'
  | escaped => simp
  | stray => simp at he
  | closed => simp
  | unclosed => simp

theorem XL.valid : ∀ {cs ds es}, XL cs ds es → es = [] → ∀ d ∈ ds, d ≠ .leaf .invalid d.loc
  | _, _, _, .nil, _ => by simp
  | _, _, _, .cons h hs, he => by
    rw [List.append_eq_nil_iff] at he
    intro d hd
    rcases List.mem_cons.mp hd with rfl | hd
    · exact h.valid he.1
    · exact hs.valid he.2 d hd

theorem XB.valid : ∀ {cs ds es}, XB cs ds es → es = [] → ∀ d ∈ ds, d ≠ .leaf .invalid d.loc
  | _, _, _, .nil, _ => by simp
  | _, _, _, .expr _ h hs, he => by
    rw [List.append_eq_nil_iff] at he
    intro d hd
    rcases List.mem_append.mp hd with hd | hd
    · exact h.valid he.1 d hd
    · exact hs.valid he.2 d hd
  | _, _, _, .newline hs, he => by
    intro d hd
    rcases List.mem_cons.mp hd with rfl | hd
    · simp
    · exact hs.valid he d hd

theorem tokensL_cons (c cs) : CST.tokensL (c :: cs) = c.tokens ++ CST.tokensL cs := by
  rw [CST.tokensL]

mutual

theorem XI.strict {s} : ∀ {c d es}, XI c d es → es = [] → ∀ due st, Names s due c.tokens (c.evs st) →
    AfterI s due c.tokens d
  | _, _, _, @XI.leaf k l h, _, due, st, hn => by
    refine ⟨fun hs hd => ?_, fun hs hd => ?_, leaf_sgood _ _ _⟩
    · cases k <;> simp [LKind.inExpr] at h <;>
        simp_all [CST.tokens, LKind.tokKind, nameDue, CST.isBr, CST.isIdentOrAngle]
    · have := hn.names hs
      cases k <;> simp [LKind.inExpr] at h <;>
        simp_all [CST.tokens, LKind.tokKind, namesOk, isName, CST.plainItem]
  | _, _, _, @XI.escaped c k l l' h, _, due, st, hn => by
    refine ⟨fun hs hd => ?_, fun hs hd => rfl, leaf_sgood _ _ _⟩
    have hd : due = false := by simpa [CST.isBr, CST.isIdentOrAngle] using hd
    have hne := hn.noEsc hs
    have hl : ∃ k', escapes.lookup c = some k' ∧ (c, k') ∈ escapes := by
      simp only [escapes, List.mem_cons, Prod.mk.injEq, List.not_mem_nil, or_false] at h
      rcases h with ⟨rfl, _⟩ | ⟨rfl, _⟩ | ⟨rfl, _⟩ | ⟨rfl, _⟩ | ⟨rfl, _⟩ | ⟨rfl, _⟩ | ⟨rfl, _⟩ |
        ⟨rfl, _⟩ | ⟨rfl, _⟩ <;> exact ⟨_, rfl, by decide⟩
    obtain ⟨k', hk', hm⟩ := hl
    have hb : ∀ b, k' ≠ .bopen b := by
      rintro b rfl
      have := hne (.escape st ⟨.backSlash, l⟩ c ⟨.bopen b, l'⟩) (by simp [CST.evs, escEvs, hk'])
      simp [Event.escapedOpen] at this
    simp only [CST.tokens, hk', Option.toList_some, List.map_cons, List.map_nil]
    have hid : ∀ v, k' ≠ .ident v := by
      rintro v rfl; simp [escapes] at hm
    cases k' <;> simp_all [nameDue]
  | _, _, _, .stray, he, _, _, _ => by simp at he
  | _, _, _, @XI.closed b cs l l1 l2 ds es h, he, due, st, hn => by
    rw [List.append_eq_nil_iff] at he
    have hS := h.simple
    have hV := h.valid he.1
    have ht : (CST.node (.bracket b) (.leaf (.bopen b) l1 :: cs ++ [.leaf (.bclose b) l2]) l).tokens =
        [otok b l1] ++ (CST.tokensL cs ++ [⟨.bclose b, l2⟩]) := by
      rw [List.cons_append, tokens_open, tokensL_append]
      simp [CST.tokensL, CST.tokens, LKind.tokKind]
    rw [evs_closed, ht, ← List.nil_append (CST.evsL _ cs ++ _)] at hn
    have hn2 := hn.append.2.append.1
    obtain ⟨m, ld, i, rest, gs, hds, hm, hi, hk, hg, _⟩ := bracket_clean hS he.2
    have hc : conform 0 ds = true := by
      rw [hds]
      simp [conform, hm, hi, CST.isDot]
      cases rest <;> rfl
    have hA := h.strict he.1 (nameDue due [otok b l1]) (otok b l1 :: st) hn2 0 hc (by simp)
    have hrest : rest = ds.drop (3 - 0) := by rw [hds]; rfl
    refine ⟨fun hs _ => ?_, fun _ _ => rfl, ?_⟩
    · rw [ht, nameDue_append, nameDue_append, hA.off hs (by rw [hds]; simp)]
      rfl
    · rw [hk]
      refine bracket_good_shape hm hi (hA.good m (by simp [hds])) (hA.good i (by simp [hds])) hg
        (fun y hy => hA.good y (by simp [hds, hy])) ?_
      intro hs y hy h1 h2
      exact isExprItem_of (hS y (by simp [hds, hy])) h1 h2
        (hA.plain hs y (by rw [← hrest]; exact hy)) (hV y (by simp [hds, hy]))
  | _, _, _, @XI.unclosed b cs l l1 ds es h, he, due, st, hn => by simp at he

theorem XL.strict {s} : ∀ {cs ds es}, XL cs ds es → es = [] → ∀ due st,
    Names s due (CST.tokensL cs) (CST.evsL st cs) → ∀ p, conform p ds = true →
    (s = true → 3 ≤ p → due = false) → After s p due (CST.tokensL cs) ds
  | _, _, _, .nil, _, due, st, _, p, _, hp => by
    refine ⟨fun hs h3 => ?_, by simp, by simp⟩
    simpa [CST.tokensL, nameDue] using hp hs (by simpa using h3)
  | _, _, _, @XL.cons c d es cs ds fs h hs, he, due, st, hn, p, hc, hp => by
    rw [List.append_eq_nil_iff] at he
    rw [tokensL_cons, CST.evsL] at hn
    have hc' := conform_append p [d] ds hc
    have h1 := (h.strict he.1 due st hn.append.1).after hp hc'.1
    have h2 := hs.strict he.2 _ st hn.append.2 (p + 1) hc'.2 (fun hs h3 => h1.off hs (by simpa using h3))
    rw [tokensL_cons]
    exact After.append (ds := [d]) h1 h2

theorem XB.strict {s} : ∀ {cs ds es}, XB cs ds es → es = [] → ∀ due st,
    Names s due (CST.tokensL cs) (CST.evsL st cs) → ∀ p, conform p ds = true →
    (s = true → 3 ≤ p → due = false) → After s p due (CST.tokensL cs) ds
  | _, _, _, .nil, _, due, st, _, p, _, hp => by
    refine ⟨fun hs h3 => ?_, by simp, by simp⟩
    simpa [CST.tokensL, nameDue] using hp hs (by simpa using h3)
  | _, _, _, @XB.expr cs l ds es rest ds' es' _ h hs, he, due, st, hn, p, hc, hp => by
    rw [List.append_eq_nil_iff] at he
    rw [tokensL_cons, CST.evsL, tokens_expr, evs_expr] at hn
    have hc' := conform_append p ds ds' hc
    have h1 := h.strict he.1 due st hn.append.1 p hc'.1 hp
    have h2 := hs.strict he.2 _ st hn.append.2 (p + ds.length) hc'.2 (fun hs h3 => h1.off hs h3)
    rw [tokensL_cons, tokens_expr]
    exact h1.append h2
  | _, _, _, @XB.newline l rest ds es hs, he, due, st, hn, p, hc, hp => by
    rw [tokensL_cons, CST.evsL] at hn
    have hc' := conform_append p [_] ds hc
    have hI : AfterI s due (CST.leaf .newline l).tokens (.leaf .newline l) := by
      refine ⟨fun _ hd => ?_, fun _ _ => rfl, leaf_sgood _ _ _⟩
      simpa [CST.isBr, CST.isIdentOrAngle, CST.tokens, nameDue, LKind.tokKind] using hd
    have h1 := hI.after hp hc'.1
    have h2 := hs.strict he _ st hn.append.2 (p + 1) hc'.2 (fun hs h3 => h1.off hs (by simpa using h3))
    rw [tokensL_cons]
    exact After.append (ds := [_]) h1 h2

end

theorem XL.length {cs ds es} (h : XL cs ds es) (hne : cs ≠ []) : ds ≠ [] := by
  cases h with
  | nil => exact absurd rfl hne
  | cons => simp

theorem plain_exprItem {d : CST} (h1 : d.simpleItem = true) (ha : d.astable = true)
    (h4 : d.plainItem = true) (h5 : d ≠ .leaf .invalid d.loc) : d.sshape.isExprItem = true := by
  rcases d with ⟨k, l⟩ | ⟨k, cs, l⟩
  · cases k <;> simp_all [CST.astable, LKind.inAst, CST.plainItem, CST.loc, CST.sshape, LKind.sshape,
      Shape.isExprItem]
  · cases k <;> simp_all [CST.simpleItem, CST.sshape, IKind.toAst, Shape.isExprItem]

/-- The expression of a line. -/
theorem XL.line_good {s cs ds es l} (h : XL cs ds es) (hne : cs ≠ []) (he : es = [])
    (ha : CST.astableL ds = true) (hn : Names s false (CST.tokensL cs) (CST.evsL [] cs)) :
    (CST.node .expr ds l).sshape.good s = true ∧ (CST.node .expr ds l).sshape.isFullExpr = true ∧
      (s = true → nameDue false (CST.tokensL cs) = false) := by
  have hA := h.strict he false [] hn 3 (conform3 _ _ (by omega)) (fun _ _ => rfl)
  have hne' := h.length hne
  rw [astableL_iff] at ha
  refine ⟨?_, ?_, fun hs => hA.off hs (by omega)⟩
  · simp only [CST.sshape, IKind.toAst, Option.getD_some, Shape.good, Bool.and_eq_true, goodL_iff,
      sshapeL_eq, Shape.rule]
    refine ⟨⟨by simpa using hne', ?_⟩, ?_⟩
    · rw [List.all_eq_true]
      intro c hc
      obtain ⟨z, hz, rfl⟩ := List.mem_map.mp hc
      cases s
      · rfl
      · simpa using plain_exprItem (h.simple z hz) (ha z hz) (hA.plain rfl z (by simpa using hz))
          (h.valid he z hz)
    · intro c hc
      obtain ⟨z, hz, rfl⟩ := List.mem_map.mp hc
      exact hA.good z hz
  · rcases ds with _ | ⟨d, ds⟩
    · exact absurd rfl hne'
    · rfl

theorem XLines.strict {s cs ds es} (h : XLines cs ds es) : es = [] → CST.astableL ds = true →
    Names s false (CST.tokensL cs) (CST.evsL [] cs) →
    (∀ d ∈ ds, d.sshape.good s = true ∧ d.sshape.isFullExpr = true) ∧
      (s = true → nameDue false (CST.tokensL cs) = false) := by
  induction h with
  | nil => intro _ _ _; exact ⟨by simp, fun _ => rfl⟩
  | @cons c d es cs ds fs h _ ih =>
    intro he ha hn
    rw [List.append_eq_nil_iff] at he
    rw [astableL_append, Bool.and_eq_true] at ha
    rw [tokensL_cons, CST.evsL] at hn
    have h0 : (∀ x ∈ d, x.sshape.good s = true ∧ x.sshape.isFullExpr = true) ∧
        (s = true → nameDue false c.tokens = false) := by
      cases h with
      | close => exact ⟨by simp, fun _ => rfl⟩
      | newline => exact ⟨by simp, fun _ => rfl⟩
      | @expr cs ds _ l hne h =>
        have hn1 := hn.append.1
        rw [tokens_expr, evs_expr] at hn1
        have h1 : CST.astableL ds = true := by simpa [CST.astableL, CST.astable, IKind.toAst] using ha.1
        obtain ⟨g1, g2, g3⟩ := h.line_good (l := l) hne he.1 h1 hn1
        refine ⟨by simpa using ⟨g1, g2⟩, ?_⟩
        rw [tokens_expr]
        exact g3
    have hn2 : Names s false (CST.tokensL cs) (CST.evsL [] cs) := by
      have := hn.append.2
      cases s
      · exact ⟨by simp, by simp⟩
      · rwa [h0.2 rfl] at this
    obtain ⟨a, b⟩ := ih he.2 ha.2 hn2
    refine ⟨?_, fun hs => ?_⟩
    · intro x hx
      rcases List.mem_append.mp hx with hx | hx
      · exact h0.1 x hx
      · exact a x hx
    · rw [tokensL_cons, nameDue_append, h0.2 hs, b hs]

theorem XDoc.strict {s cs ds es} (h : XDoc cs ds es) : es = [] → CST.astableL ds = true →
    Names s false (CST.tokensL cs) (CST.evsL [] cs) →
    (∀ d ∈ ds, d.sshape.good s = true ∧ d.sshape.isStmt = true) := by
  induction h with
  | nil => intro _ _ _; simp
  | @cons c d es cs ds fs h _ ih =>
    intro he ha hn
    rw [List.append_eq_nil_iff] at he
    rw [astableL_append, Bool.and_eq_true] at ha
    rw [tokensL_cons, CST.evsL] at hn
    have h0 : (∀ x ∈ d, x.sshape.good s = true ∧ x.sshape.isStmt = true) ∧
        (s = true → nameDue false c.tokens = false) := by
      cases h with
      | eof => exact ⟨by simp, fun _ => rfl⟩
      | newline => exact ⟨by simp, fun _ => rfl⟩
      | @stmt cs ds _ l h =>
        have hn1 := hn.append.1
        rw [tokens_stmt, evs_stmt] at hn1
        have h1 : CST.astableL ds = true := by simpa [CST.astableL, CST.astable, IKind.toAst] using ha.1
        obtain ⟨g1, g3⟩ := h.strict he.1 h1 hn1
        refine ⟨?_, ?_⟩
        · simp only [List.mem_singleton, forall_eq, CST.sshape, IKind.toAst, Option.getD_some,
            Shape.good, Bool.and_eq_true, goodL_iff, sshapeL_eq, Shape.rule, Shape.isStmt, and_true]
          refine ⟨?_, ?_⟩
          · rw [List.all_eq_true]
            intro c hc
            obtain ⟨z, hz, rfl⟩ := List.mem_map.mp hc
            exact (g1 z hz).2
          · intro c hc
            obtain ⟨z, hz, rfl⟩ := List.mem_map.mp hc
            exact (g1 z hz).1
        · rw [tokens_stmt]
          exact g3
    have hn2 : Names s false (CST.tokensL cs) (CST.evsL [] cs) := by
      have := hn.append.2
      cases s
      · exact ⟨by simp, by simp⟩
      · rwa [h0.2 rfl] at this
    have a := ih he.2 ha.2 hn2
    intro x hx
    rcases List.mem_append.mp hx with hx | hx
    · exact h0.1 x hx
    · exact a x hx

end Brack
