import Verif.Spec.Rename
import Verif.Proof.ParaGen
import Verif.Proof.Paragraphs
import Verif.Proof.WrittenGen

/-
Helper lemmas: plugins under other names do the same.
-/

namespace Brack

variable {W : Wasm} {f : Str → Str}

theorem HMap.get_rename (hf : OneName f) (g : α → β) (k : Str) (m : HMap Str α) :
    HMap.get (f k) (m.map (fun (n, a) => (f n, g a))) = (HMap.get k m).map g := by
  induction m with
  | nil => rfl
  | cons x m ih =>
    obtain ⟨n, a⟩ := x
    simp only [List.map_cons, HMap.get]
    by_cases h : n = k
    · subst h; simp
    · rw [if_neg h, if_neg (fun e => h (hf _ _ e)), ih]

theorem HMap.insert_rename (hf : OneName f) (g : α → β) (k : Str) (a : α) (m : HMap Str α) :
    HMap.insert (f k) (g a) (m.map (fun (n, a) => (f n, g a))) = (HMap.insert k a m).map (fun (n, a) => (f n, g a)) := by
  induction m with
  | nil => rfl
  | cons x m ih =>
    obtain ⟨n, b⟩ := x
    simp only [List.map_cons, HMap.insert]
    by_cases h : n = k
    · subst h; simp
    · rw [if_neg h, if_neg (fun e => h (hf _ _ e)), ih]; rfl

/-- The computation `y` does under the other names what `x` does; its result is given by `g`. -/
def PM.Ren (f : Str → Str) (g : α → β) (x : PM W α) (y : PM W β) : Prop :=
  ∀ ps, y (ps.rename f) = ((x ps).1.with g, (x ps).2.rename f)

theorem PM.Ren.bind {g : α → β} {h : γ → δ} {x : PM W α} {y : PM W β} {k : α → PM W γ} {l : β → PM W δ}
    (hx : PM.Ren f g x y) (hk : ∀ a, PM.Ren f h (k a) (l (g a))) : PM.Ren f h (x >>= k) (y >>= l) := by
  intro ps
  show PM.bind y l (ps.rename f) = ((PM.bind x k ps).1.with h, (PM.bind x k ps).2.rename f)
  unfold PM.bind
  rw [hx ps]
  rcases x ps with ⟨a | m | _, ps'⟩
  · exact hk a ps'
  · rfl
  · rfl

theorem PM.Ren.pure {g : α → β} (a : α) : PM.Ren (W := W) f g (Pure.pure a) (Pure.pure (g a)) := fun _ => rfl

theorem PM.Ren.bail {g : α → β} (m : String) : PM.Ren (W := W) f g (PM.bail m) (PM.bail m) := fun _ => rfl

theorem PM.Ren.lift {g : α → β} {r : Res α} {r' : Res β} (h : r' = r.with g) : PM.Ren (W := W) f g (PM.lift r) (PM.lift r') := by
  subst h; exact fun _ => rfl

theorem ren_argumentTypes (hf : OneName f) (m n : Str) (typ : PType) :
    PM.Ren (W := W) f id (Plugins.argumentTypes m n typ) (Plugins.argumentTypes (f m) n typ) := by
  intro ps
  unfold Plugins.argumentTypes
  have h : HMap.get (f m) (ps.rename f).nameToPlugin = (HMap.get m ps.nameToPlugin).map (Plugin.rename f) :=
    HMap.get_rename hf _ m _
  rw [h]
  rcases HMap.get m ps.nameToPlugin with _ | p
  · rfl
  · simp only [Option.map_some]
    have h2 : (p.rename f).signatures = p.signatures := rfl
    rw [h2]
    rcases HMap.get (n, typ) p.signatures with _ | md <;> rfl

theorem ren_callText (hf : OneName f) (m n : Str) (typ : PType) (args : List Value) :
    PM.Ren (W := W) f id (Plugins.callText m n typ args) (Plugins.callText (f m) n typ args) := by
  intro ps
  unfold Plugins.callText
  have h : HMap.get (f m) (ps.rename f).nameToPlugin = (HMap.get m ps.nameToPlugin).map (Plugin.rename f) :=
    HMap.get_rename hf _ m _
  have hi : ∀ p : Plugin W, HMap.insert (f m) (p.rename f) (ps.rename f).nameToPlugin =
      (HMap.insert m p ps.nameToPlugin).map (fun (n, p) => (f n, p.rename f)) := fun p => HMap.insert_rename hf _ m p _
  rw [h]
  rcases HMap.get m ps.nameToPlugin with _ | p
  · rfl
  · simp only [Option.map_some]
    have h2 : (p.rename f).signatures = p.signatures := rfl
    have h3 : (p.rename f).extism = p.extism := rfl
    rw [h2, h3]
    rcases HMap.get (n, typ) p.signatures with _ | md
    · rfl
    · simp only
      rcases W.callText p.extism md.callName args with ⟨e | s, st⟩
      · have := hi { p with extism := st }
        simp only
        show (Res.err e, _) = (Res.err e, _)
        congr 1
        simp only [Plugins.rename, List.map_append, List.map_cons, List.map_nil] at this ⊢
        rw [← this]
        rfl
      · have := hi { p with extism := st }
        simp only
        show (Res.ok s, _) = (Res.ok s, _)
        congr 1
        simp only [Plugins.rename, List.map_append, List.map_cons, List.map_nil] at this ⊢
        rw [← this]
        rfl

theorem ren_hook (hf : OneName f) (hook : Plugins W → Option Str) (hh : ∀ ps, hook (ps.rename f) = (hook ps).map f) (n : Str) (typ : PType)
    (args : List Value) : PM.Ren (W := W) f id
      (fun ps => match hook ps with
        | some p => (do return some (← Plugins.callText p n typ args) : PM W _) ps
        | none => (.ok none, ps))
      (fun ps => match hook ps with
        | some p => (do return some (← Plugins.callText p n typ args) : PM W _) ps
        | none => (.ok none, ps)) := by
  intro ps
  simp only [hh]
  rcases hook ps with _ | p
  · rfl
  · exact (PM.Ren.bind (ren_callText hf p n typ args) fun a => PM.Ren.pure (g := id) (some a)) ps

theorem ren_documentHook (hf : OneName f) (args) : PM.Ren (W := W) f id (Plugins.callDocumentHook args) (Plugins.callDocumentHook args) :=
  ren_hook hf (·.documentHook) (fun _ => rfl) _ _ args

theorem ren_stmtHook (hf : OneName f) (args) : PM.Ren (W := W) f id (Plugins.callStmtHook args) (Plugins.callStmtHook args) :=
  ren_hook hf (·.stmtHook) (fun _ => rfl) _ _ args

theorem ren_exprHook (hf : OneName f) (args) : PM.Ren (W := W) f id (Plugins.callExprHook args) (Plugins.callExprHook args) :=
  ren_hook hf (·.exprHook) (fun _ => rfl) _ _ args

theorem ren_textHook (hf : OneName f) (args) : PM.Ren (W := W) f id (Plugins.callTextHook args) (Plugins.callTextHook args) :=
  ren_hook hf (·.textHook) (fun _ => rfl) _ _ args

/-! ### trees -/

mutual

/-- A tree with the other names. -/
def AST.withNames (f : Str → Str) : AST → AST
  | .leaf .module i v l => .leaf .module i (v.map f) l
  | .leaf k i v l => .leaf k i v l
  | .node k i cs l => .node k i (AST.withNamesL f cs) l

/-- Trees with the other names. -/
def AST.withNamesL (f : Str → Str) : List AST → List AST
  | [] => []
  | c :: cs => c.withNames f :: AST.withNamesL f cs

end

mutual

theorem withNames_shape (f : Str → Str) : ∀ a : AST, (a.withNames f).shape = a.shape.rename f
  | .leaf k i v l => by cases k <;> rfl
  | .node k i cs l => by rw [AST.withNames, AST.shape, AST.shape, Shape.rename, withNamesL_shape f cs]

theorem withNamesL_shape (f : Str → Str) : ∀ as : List AST, AST.shapeL (AST.withNamesL f as) = Shape.renameL f (AST.shapeL as)
  | [] => rfl
  | a :: as => by rw [AST.withNamesL, AST.shapeL, AST.shapeL, Shape.renameL, withNames_shape f a, withNamesL_shape f as]

end

/-- The display is there or not. -/
def Res.same : Res α → Res β → Prop
  | .ok _, .ok _ => True
  | .err m, .err m' => m = m'
  | .panic, .panic => True
  | _, _ => False

mutual

theorem withNames_display (f : Str → Str) : ∀ (a : AST) (n : Nat), Res.same ((a.withNames f).display n) (a.display n)
  | .leaf k i v l, n => by
    cases k <;> rcases v with _ | v <;> simp [AST.withNames, AST.display, AST.leafLabel, Res.same]
  | .node k i cs l, n => by
    have := withNamesL_display f cs (n + 1)
    rw [AST.withNames, AST.display, AST.display]
    generalize AST.displayL (n + 1) (AST.withNamesL f cs) = r at this
    generalize AST.displayL (n + 1) cs = r' at this
    rcases r with _ | _ | _ <;> rcases r' with _ | _ | _ <;> simp_all [Res.same]

theorem withNamesL_display (f : Str → Str) : ∀ (as : List AST) (n : Nat), Res.same (AST.displayL n (AST.withNamesL f as)) (AST.displayL n as)
  | [], n => by simp [AST.withNamesL, AST.displayL, Res.same]
  | a :: as, n => by
    have h1 := withNames_display f a n
    have h2 := withNamesL_display f as n
    rw [AST.withNamesL, AST.displayL, AST.displayL]
    generalize AST.displayL n (AST.withNamesL f as) = r at h2
    generalize AST.displayL n as = r' at h2
    generalize (a.withNames f).display n = q at h1
    generalize a.display n = q' at h1
    rcases r with _ | _ | _ <;> rcases r' with _ | _ | _ <;> rcases q with _ | _ | _ <;> rcases q' with _ | _ | _ <;> simp_all [Res.same]

end

theorem ren_bailWith (a : AST) : PM.Ren (W := W) f id (bailWith a) (bailWith (a.withNames f)) := by
  intro ps
  have := withNames_display f a 0
  unfold bailWith
  show PM.bind (PM.lift _) _ _ = ((PM.bind (PM.lift _) _ ps).1.with id, (PM.bind (PM.lift _) _ ps).2.rename f)
  unfold PM.bind PM.lift
  generalize (a.withNames f).display 0 = r at this
  generalize a.display 0 = r' at this
  rcases r with _ | _ | _ <;> rcases r' with _ | _ | _ <;> simp only [Res.same] at this
  · rfl
  · subst this; rfl
  · rfl

theorem ren_module (a : AST) : PM.Ren (W := W) f f (nameOf .module a) (nameOf .module (a.withNames f)) := by
  rcases a with ⟨k, i, v, l⟩ | ⟨k, i, cs, l⟩
  · cases k <;> rcases v with _ | v <;> exact fun _ => rfl
  · exact fun _ => rfl

theorem ren_ident (a : AST) : PM.Ren (W := W) f id (nameOf .ident a) (nameOf .ident (a.withNames f)) := by
  rcases a with ⟨k, i, v, l⟩ | ⟨k, i, cs, l⟩
  · cases k <;> rcases v with _ | v <;> exact fun _ => rfl
  · exact fun _ => rfl

theorem ren_callCommand (hf : OneName f) (ck : Bool) (typ : PType) (m n : Str) (types : List PType) (args : List Str) :
    PM.Ren (W := W) f id (callCommand ck typ m n types args) (callCommand ck typ (f m) n types args) := by
  unfold callCommand
  rcases argCounter ck types with ⟨min, max⟩ | e | _
  · simp only
    split
    · exact .bail _
    · split
      · exact .bail _
      · rcases bindArgs args 0 types with vs | e | _
        · exact ren_callText hf m n typ vs
        · exact .lift rfl
        · exact .lift rfl
  · exact .lift rfl
  · exact .lift rfl

theorem ren_command (hf : OneName f) (ck : Bool) (b : Bracket) (m i : AST) (args : List Str) :
    PM.Ren (W := W) f id (commandGenerate ck b m i args) (commandGenerate ck b (m.withNames f) (i.withNames f) args) := by
  unfold commandGenerate
  refine (ren_module m).bind fun mn => (ren_ident i).bind fun nn => (ren_argumentTypes hf mn nn _).bind fun ts => ?_
  exact ren_callCommand hf ck _ mn nn _ args

mutual

theorem ren_child (hf : OneName f) (ck : Bool) : ∀ (a : AST) (doc : Bool), PM.Ren (W := W) f id (genChild ck doc a) (genChild ck doc (a.withNames f))
  | .leaf k i v l, doc => by
    cases k
    · exact ren_bailWith (.leaf .ident i v l)
    · exact ren_bailWith (.leaf .module i v l)
    · rw [AST.withNames, genChild]
      · unfold textGenerate
        rcases v with _ | v
        · exact .bail _
        · exact (ren_textHook hf _).bind fun o => .pure (g := id) _
      · simp
    · exact ren_bailWith (.leaf .invalid i v l)
    · exact ren_bailWith (.leaf .ignored i v l)
  | .node .document i cs l, doc => ren_bailWith (.node .document i cs l)
  | .node .stmt i cs l, doc => by
    rw [AST.withNames, genChild, genChild]
    cases doc
    · exact ren_bailWith (.node .stmt i cs l)
    · exact (ren_children hf ck cs false).bind fun r => (ren_stmtHook hf _).bind fun o => .pure (g := id) _
  | .node .expr i cs l, doc => by
    rw [AST.withNames, genChild, genChild]
    exact (ren_children hf ck cs false).bind fun r => (ren_exprHook hf _).bind fun o => .pure (g := id) _
  | .node (.bracket .angle) i cs l, doc => by
    rw [AST.withNames, genChild, genChild]
    exact .bail _
  | .node (.bracket .square) i [] l, doc => by
    rw [AST.withNames, AST.withNamesL]
    exact fun _ => rfl
  | .node (.bracket .square) i [c] l, doc => by
    rw [AST.withNames, AST.withNamesL, AST.withNamesL]
    exact fun _ => rfl
  | .node (.bracket .square) i (m :: n :: cs) l, doc => by
    rw [AST.withNames, AST.withNamesL, AST.withNamesL]
    exact (ren_children hf ck cs false).bind fun args => ren_command hf ck .square m n args
  | .node (.bracket .curly) i [] l, doc => by
    rw [AST.withNames, AST.withNamesL]
    exact fun _ => rfl
  | .node (.bracket .curly) i [c] l, doc => by
    rw [AST.withNames, AST.withNamesL, AST.withNamesL]
    exact fun _ => rfl
  | .node (.bracket .curly) i (m :: n :: cs) l, doc => by
    rw [AST.withNames, AST.withNamesL, AST.withNamesL]
    exact (ren_children hf ck cs false).bind fun args => ren_command hf ck .curly m n args

theorem ren_children (hf : OneName f) (ck : Bool) : ∀ (as : List AST) (doc : Bool),
    PM.Ren (W := W) f id (genChildren ck doc as) (genChildren ck doc (AST.withNamesL f as))
  | [], doc => by
    rw [AST.withNamesL, genChildren]
    exact .pure (g := id) _
  | a :: as, doc => by
    rw [AST.withNamesL, genChildren, genChildren]
    exact (ren_child hf ck a doc).bind fun r => (ren_children hf ck as doc).bind fun rs => .pure (g := id) _

end

theorem ren_generate (hf : OneName f) (ck : Bool) (a : AST) : PM.Ren (W := W) f id (generate ck a) (generate ck (a.withNames f)) := by
  rcases a with ⟨k, i, v, l⟩ | ⟨k, i, cs, l⟩
  · cases k <;> exact fun _ => rfl
  · cases k
    · rw [AST.withNames, generate, generate]
      exact (ren_children hf ck cs true).bind fun r => (ren_documentHook hf _).bind fun o => .pure (g := id) _
    · exact fun _ => rfl
    · exact fun _ => rfl
    · exact fun _ => rfl

theorem Res.with_id (r : Res α) : r.with id = r := by cases r <;> rfl

/-- Generating a tree with the other names. -/
theorem generate_rename (hf : OneName f) (ck : Bool) {a b : AST} (h : b.shape = a.shape.rename f) (ps : Plugins W) :
    generate ck b (ps.rename f) = ((generate ck a ps).1, (generate ck a ps).2.rename f) := by
  have := ren_generate hf ck a ps
  rw [Res.with_id] at this
  rw [← this, generate_shape ck (a := b) (b := a.withNames f) (by rw [withNames_shape, h])]

/-! ### documents -/

mutual

theorem rename_blank (f : Str → Str) : ∀ i : Markup, (i.rename f).isBlank = i.isBlank
  | .words _ | .escaped _ | .blank _ | .call _ _ _ _ => rfl

theorem renameL_blank (f : Str → Str) : ∀ is : List Markup, (Markup.renameL f is).all Markup.isBlank = is.all Markup.isBlank
  | [] => rfl
  | i :: is => by rw [Markup.renameL, List.all_cons, List.all_cons, rename_blank f i, renameL_blank f is]

end

theorem onlyBlanks_rename (f : Str → Str) (as : List (List Markup)) : onlyBlanks (Markup.renameArgs f as) = onlyBlanks as := by
  rcases as with _ | ⟨a, _ | ⟨b, as⟩⟩
  · rfl
  · simp [onlyBlanks, Markup.renameArgs, renameL_blank]
  · simp [onlyBlanks, Markup.renameArgs]

theorem renameL_append (f : Str → Str) (as bs : List Shape) : Shape.renameL f (as ++ bs) = Shape.renameL f as ++ Shape.renameL f bs := by
  induction as with
  | nil => rfl
  | cons a as ih => simp [Shape.renameL, ih]

mutual

theorem shape_rename (f : Str → Str) : ∀ i : Markup, (i.rename f).shape = Shape.renameL f i.shape
  | .words s => by simp [Markup.rename, Markup.shape, Shape.renameL, Shape.rename]
  | .escaped c => by simp [Markup.rename, Markup.shape, Shape.renameL, Shape.rename]
  | .blank c => by simp [Markup.rename, Markup.shape, Shape.renameL]
  | .call b m n args => by
    rw [Markup.rename, Markup.shape, Markup.shape, onlyBlanks_rename, Shape.renameL, Shape.rename, Shape.renameL, Shape.renameL]
    split
    · simp [Shape.rename, Shape.renameL]
    · simp [Shape.rename, Shape.renameL, shapeArgs_rename f args]

theorem shapeL_rename (f : Str → Str) : ∀ is : List Markup, Markup.shapeL (Markup.renameL f is) = Shape.renameL f (Markup.shapeL is)
  | [] => rfl
  | i :: is => by rw [Markup.renameL, Markup.shapeL, Markup.shapeL, renameL_append, shape_rename f i, shapeL_rename f is]

theorem shapeArgs_rename (f : Str → Str) : ∀ as : List (List Markup), Markup.shapeArgs (Markup.renameArgs f as) = Shape.renameL f (Markup.shapeArgs as)
  | [] => rfl
  | a :: as => by
    rw [Markup.renameArgs, Markup.shapeArgs, Markup.shapeArgs, Shape.renameL, Shape.rename, shapeL_rename f a, shapeArgs_rename f as]

end

theorem renameL_map {α} (f : Str → Str) (g : α → Shape) (xs : List α) : Shape.renameL f (xs.map g) = xs.map (fun x => (g x).rename f) := by
  induction xs with
  | nil => rfl
  | cons x xs ih => simp [Shape.renameL, ih]

theorem documentShape_rename (f : Str → Str) (d : List (List (List Markup))) :
    documentShape (renameDocument f d) = (documentShape d).rename f := by
  simp [documentShape, renameDocument, Shape.rename, renameL_map, shapeL_rename, List.map_map, Function.comp_def]

mutual

theorem rename_macro (f : Str → Str) : ∀ i : Markup, (i.rename f).hasMacro = i.hasMacro
  | .words _ | .escaped _ | .blank _ => rfl
  | .call b m n args => by cases b <;> simp [Markup.rename, Markup.hasMacro, renameArgs_macro f args]

theorem renameL_macro (f : Str → Str) : ∀ is : List Markup, Markup.hasMacroL (Markup.renameL f is) = Markup.hasMacroL is
  | [] => rfl
  | i :: is => by rw [Markup.renameL, Markup.hasMacroL, Markup.hasMacroL, rename_macro f i, renameL_macro f is]

theorem renameArgs_macro (f : Str → Str) : ∀ as : List (List Markup), Markup.hasMacroArgs (Markup.renameArgs f as) = Markup.hasMacroArgs as
  | [] => rfl
  | a :: as => by rw [Markup.renameArgs, Markup.hasMacroArgs, Markup.hasMacroArgs, renameL_macro f a, renameArgs_macro f as]

end

theorem hasMacros_rename (f : Str → Str) (d : List (List (List Markup))) : hasMacros (renameDocument f d) = hasMacros d := by
  have h : Markup.hasMacroL ∘ Markup.renameL f = Markup.hasMacroL := funext (renameL_macro f)
  have h2 : ∀ p : List (List Markup), (p.map (Markup.renameL f)).any Markup.hasMacroL = p.any Markup.hasMacroL := by
    intro p; rw [List.any_map, h]
  rw [hasMacros, hasMacros, renameDocument, List.any_map]
  congr 1
  funext p
  exact h2 p

theorem compileText_rename (hf : OneName f) {S : Segmenter} {ids ids' : Nat → Str} (ck : Bool) {text text' : Str} {a b : AST}
    {es es' : List TErr} (ha : Reads S ids text a es) (hb : Reads S ids' text' b es') (hs : b.shape = a.shape.rename f)
    (ps : Plugins W) :
    (∀ gen ps', compileText S ids ck text ps = (.ok gen, ps') →
      compileText S ids' ck text' (ps.rename f) = (.ok gen, ps'.rename f)) ∧
    (∀ gen, (compileText S ids' ck text' (ps.rename f)).1 = .ok gen → (compileText S ids ck text ps).1 = .ok gen) := by
  have hg := generate_rename hf ck hs ps
  constructor
  · intro gen ps' h
    obtain ⟨x, _, hx, hr⟩ := compileText_iff.1 h
    obtain ⟨rfl, _⟩ := reads_det hx ha
    rw [hr] at hg
    exact compileText_iff.2 ⟨b, es', hb, hg⟩
  · intro gen h
    obtain ⟨x, _, hx, hr⟩ := compileText_iff.1 (show compileText S ids' ck text' (ps.rename f) = (.ok gen, (compileText S ids' ck text' (ps.rename f)).2) by rw [← h])
    obtain ⟨rfl, _⟩ := reads_det hx hb
    rw [hg, Prod.mk.injEq] at hr
    have := compileText_iff.2 ⟨a, es, ha, (show generate ck a ps = (.ok gen, (generate ck a ps).2) by rw [← hr.1])⟩
    rw [this]

/-! ### loading -/

theorem plugin_rename (name : Str) (bin : Bytes) (flag : FeatureFlag) :
    Plugin.new W (f name) bin flag = (Plugin.new W name bin flag).with (Plugin.rename f) := by
  unfold Plugin.new
  rcases W.load bin with e | s
  · rfl
  · simp only
    rcases W.metadata s with ⟨e | ms, s'⟩
    · rfl
    · simp only
      rcases newLoop flag ms ⟨false, false, false, false⟩ [] with ⟨seen, sigs⟩ | _ | _ <;> try rfl
      simp only
      repeat' split
      all_goals rfl


theorem claimHook_rename (e : Bool) (n : Str) (o : Option Str) (m : String) :
    claimHook e (f n) (o.map f) m = (claimHook e n o m).with (Option.map f) := by
  unfold claimHook
  cases e <;> cases o <;> rfl

theorem newLoop_rename (hf : OneName f) : ∀ (l : List (Plugin W)) (ps : Plugins W),
    Plugins.newLoop (l.map (Plugin.rename f)) (ps.rename f) = (Plugins.newLoop l ps).with (Plugins.rename f)
  | [], ps => rfl
  | p :: l, ps => by
    rw [List.map_cons, Plugins.newLoop, Plugins.newLoop]
    have h1 := claimHook_rename (f := f) p.flag.documentHook p.name ps.documentHook "only one document hook is allowed"
    have h2 := claimHook_rename (f := f) p.flag.stmtHook p.name ps.stmtHook "only one stmt hook is allowed"
    have h3 := claimHook_rename (f := f) p.flag.exprHook p.name ps.exprHook "only one expr hook is allowed"
    have h4 := claimHook_rename (f := f) p.flag.textHook p.name ps.textHook "only one text hook is allowed"
    have e : (p.rename f).flag = p.flag ∧ (p.rename f).name = f p.name ∧ (ps.rename f).documentHook = ps.documentHook.map f ∧
      (ps.rename f).stmtHook = ps.stmtHook.map f ∧ (ps.rename f).exprHook = ps.exprHook.map f ∧
      (ps.rename f).textHook = ps.textHook.map f := ⟨rfl, rfl, rfl, rfl, rfl, rfl⟩
    rw [e.1, e.2.1, e.2.2.1, e.2.2.2.1, e.2.2.2.2.1, e.2.2.2.2.2, h1, h2, h3, h4]
    rcases claimHook p.flag.documentHook p.name ps.documentHook _ with d | _ | _ <;> try rfl
    rcases claimHook p.flag.stmtHook p.name ps.stmtHook _ with s | _ | _ <;> try rfl
    rcases claimHook p.flag.exprHook p.name ps.exprHook _ with x | _ | _ <;> try rfl
    rcases claimHook p.flag.textHook p.name ps.textHook _ with t | _ | _ <;> try rfl
    have := newLoop_rename hf l ⟨HMap.insert p.name p ps.nameToPlugin, d, s, x, t, ps.log⟩
    have hi : HMap.insert (f p.name) (p.rename f) (ps.rename f).nameToPlugin =
      (HMap.insert p.name p ps.nameToPlugin).map (fun (n, p) => (f n, p.rename f)) := HMap.insert_rename hf _ p.name p _
    show Plugins.newLoop _ ⟨HMap.insert (f p.name) (p.rename f) (ps.rename f).nameToPlugin, d.map f, s.map f, x.map f, t.map f, _⟩ = _
    rw [hi]
    exact this

end Brack
