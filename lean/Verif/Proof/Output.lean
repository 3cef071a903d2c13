import Verif.Spec.Output
import Verif.Proof.WrittenGen
import Verif.Proof.Paragraphs
import Verif.Proof.GenDone
import Verif.Proof.PMLemmas
import Verif.Proof.WordsRun

/-
The output of a document by its parts.
-/

namespace Brack

variable {W : Wasm}

/-- Two plugin sets that return the same. -/
structure Plugins.SameAnswers (ps qs : Plugins W) : Prop where
  document : qs.documentHook = ps.documentHook
  stmt : qs.stmtHook = ps.stmtHook
  expr : qs.exprHook = ps.exprHook
  text : qs.textHook = ps.textHook
  none : ∀ n, ps.nameToPlugin.get n = .none → qs.nameToPlugin.get n = .none
  some : ∀ n p, ps.nameToPlugin.get n = .some p → ∃ q, qs.nameToPlugin.get n = .some q ∧ q.signatures = p.signatures ∧
    ∀ f vs, (W.callText q.extism f vs).1 = (W.callText p.extism f vs).1

theorem Plugins.SameAnswers.refl (ps : Plugins W) : ps.SameAnswers ps :=
  ⟨rfl, rfl, rfl, rfl, fun _ h => h, fun _ p h => ⟨p, h, rfl, fun _ _ => rfl⟩⟩

/-- Running `x` gives `o` whatever was called before. -/
def PM.Gives (ps : Plugins W) (x : PM W α) (o : Option α) : Prop :=
  ∀ qs, ps.SameAnswers qs → (∀ a, (x qs).1 = .ok a ↔ o = some a) ∧ ps.SameAnswers (x qs).2

theorem PM.Gives.pure (ps : Plugins W) (a : α) : PM.Gives ps (Pure.pure a) (some a) :=
  fun _ h => ⟨fun b => by simp [Pure.pure, PM.pure], h⟩

theorem PM.Gives.none {ps : Plugins W} {x : PM W α} (h : ∀ qs, (∀ a, (x qs).1 ≠ .ok a) ∧ (x qs).2 = qs) :
    PM.Gives ps x none := fun qs hq => ⟨fun a => by simp [(h qs).1 a], by rw [(h qs).2]; exact hq⟩

theorem PM.Gives.bind {ps : Plugins W} {x : PM W α} {o : Option α} {f : α → PM W β} {g : α → Option β}
    (h : PM.Gives ps x o) (h' : ∀ a, o = some a → PM.Gives ps (f a) (g a)) : PM.Gives ps (x >>= f) (o.bind g) := by
  intro qs hq
  obtain ⟨h1, h2⟩ := h qs hq
  rw [PM.bind_run]
  generalize x qs = r at *
  obtain ⟨r, qs'⟩ := r
  rcases r with a | e | _ <;> simp only at h1 h2 ⊢
  · have ha := (h1 a).mp rfl
    subst ha
    exact h' a rfl qs' h2
  · refine ⟨fun b => ?_, h2⟩
    rcases o with _ | a
    · simp
    · exact absurd ((h1 a).mpr rfl) (by simp)
  · refine ⟨fun b => ?_, h2⟩
    rcases o with _ | a
    · simp
    · exact absurd ((h1 a).mpr rfl) (by simp)

theorem callText_gives (hW : W.Steady) (ps : Plugins W) (n c : Str) (t : PType) (vs : List Value) :
    PM.Gives ps (Plugins.callText n c t vs) (ps.answer n c t vs) := by
  intro qs hq
  unfold Plugins.callText Plugins.answer
  rcases hp : ps.nameToPlugin.get n with _ | p
  · rw [hq.none n hp]
    exact ⟨fun a => by simp, hq⟩
  · obtain ⟨q, h1, h2, h3⟩ := hq.some n p hp
    rw [h1]
    simp only [h2, Option.bind_eq_bind, Option.bind_some]
    rcases hm : p.signatures.get (c, t) with _ | m
    · exact ⟨fun a => by simp, hq⟩
    · simp only [Option.bind_some]
      rw [← h3]
      have keep : ∀ log, ps.SameAnswers { qs with
          nameToPlugin := qs.nameToPlugin.insert n { q with extism := (W.callText q.extism m.callName vs).2, signatures := p.signatures }, log := log } := by
        intro log
        refine ⟨hq.document, hq.stmt, hq.expr, hq.text, fun k hk => ?_, fun k r hk => ?_⟩
        · rw [HMap.get_insert, if_neg]
          · exact hq.none k hk
          · rintro rfl
            rw [hp] at hk
            cases hk
        · simp only [HMap.get_insert]
          by_cases hkn : k = n
          · subst hkn
            rw [hp] at hk
            injection hk with hk
            subst hk
            rw [if_pos rfl]
            exact ⟨_, rfl, rfl, fun f ws => by rw [← h3]; exact hW _ _ _ _ _⟩
          · rw [if_neg hkn]
            exact hq.some k r hk
      have hk := keep
      rcases hr : W.callText q.extism m.callName vs with ⟨_ | s, st⟩ <;> rw [hr] at hk <;> simp only
      · exact ⟨fun a => by simp, hk _⟩
      · exact ⟨fun a => by simp, hk _⟩

theorem hook_gives {ps : Plugins W} {call : List Value → PM W (Option Str)} {hook : Plugins W → Option Str} {c : Str} {t : PType}
    (hW : W.Steady) (hook_eq : ∀ qs, ps.SameAnswers qs → hook qs = hook ps)
    (hc : ∀ vs qs, call vs qs = match hook qs with
      | some p => (do return some (← Plugins.callText p c t vs) : PM W _) qs
      | none => (.ok none, qs)) (s : Str) :
    PM.Gives ps (do return orElseText s (← call [.text s])) (ps.hooked (hook ps) c t s) := by
  intro qs hq
  rw [PM.bind_run, hc, hook_eq qs hq]
  unfold Plugins.hooked
  rcases hook ps with _ | p
  · exact ⟨fun a => by simp [Pure.pure, PM.pure, orElseText], hq⟩
  · have h := ((callText_gives hW ps p c t [.text s]).bind (g := fun r => some (some r))
      (f := fun r => Pure.pure (some r)) fun a _ => .pure ps (some a)).bind (g := fun r => some (orElseText s r))
      (f := fun r => Pure.pure (orElseText s r)) (fun a _ => .pure ps _) qs hq
    have e : ((ps.answer p c t [.text s]).bind fun r => some (some r)).bind (fun r => some (orElseText s r)) =
        ps.answer p c t [.text s] := by
      rcases ps.answer p c t [.text s] with _ | r <;> rfl
    rw [e] at h
    rw [PM.bind_run] at h
    exact h

theorem textGenerate_gives (hW : W.Steady) (ps : Plugins W) (s : Str) :
    PM.Gives ps (textGenerate (some s)) (ps.hooked ps.textHook (chars! "text") .inline s) :=
  hook_gives hW (fun _ h => h.text) (fun _ _ => rfl) s

theorem bindArgs_values {args : List Str} {ts : List PType} {vs : List Value} (h : bindArgs args 0 ts = .ok vs) :
    vs = ts.mapIdx (valueAt args) := by
  obtain ⟨h1, h2⟩ := bindArgs_passed h
  refine List.ext_getElem? fun i => ?_
  rw [List.getElem?_mapIdx]
  rcases ht : ts[i]? with _ | t
  · rw [Option.map_none]
    rw [List.getElem?_eq_none_iff] at ht ⊢
    omega
  · have hlt : i < vs.length := by rw [h1]; exact (List.getElem?_eq_some_iff.mp ht).1
    rw [List.getElem?_eq_getElem hlt]
    have h3 := h2 i t vs[i] ht (List.getElem?_eq_getElem hlt)
    generalize vs[i] = v at *
    rcases h3 with t | ⟨t, _⟩ | ⟨t, a, h4, h5⟩
    · rfl
    · rfl
    · rcases t <;> simp [PType.isRequired] at h4 <;> simp [valueAt, h5]

theorem callCommand_gives (hW : W.Steady) {ps : Plugins W} (checks : Bool) (typ : PType) (m n : Str) {ts : List PType}
    {args : List Str} (hs : Standard ts) (hl : ts.length ≤ usizeMax) (ha : args.length ≤ usizeMax) :
    PM.Gives ps (callCommand checks typ m n ts args)
      (if Admissible ts args.length then ps.answer m n typ (ts.mapIdx (valueAt args)) else none) := by
  unfold callCommand
  rw [argCounter_arraysLast checks ts hs.arraysLast hl]
  rw [show countsOf ts = (ts.countP PType.isRequired, if ts.any PType.isArray then usizeMax else ts.length) from rfl]
  show PM.Gives ps (if args.length < ts.countP PType.isRequired then _ else if args.length > (if ts.any PType.isArray = true then usizeMax else ts.length) then _ else _) _
  by_cases h1 : args.length < ts.countP PType.isRequired
  · rw [if_pos h1, if_neg (by simp only [Admissible]; omega)]
    exact .none fun qs => ⟨fun a => by simp [PM.bail], rfl⟩
  · rw [if_neg h1]
    by_cases h2 : args.length > (if ts.any PType.isArray = true then usizeMax else ts.length)
    · rw [if_pos h2, if_neg]
      · exact .none fun qs => ⟨fun a => by simp [PM.bail], rfl⟩
      · rintro ⟨_, h | h⟩
        · rw [if_pos h] at h2
          omega
        · split at h2 <;> omega
    · rw [if_neg h2, if_pos]
      · obtain ⟨vs, hv⟩ := hs.binds (args := args) (by omega)
        rw [hv, ← bindArgs_values hv]
        exact callText_gives hW ps m n typ vs
      · refine ⟨by omega, ?_⟩
        by_cases h : ts.any PType.isArray = true
        · exact .inl h
        · rw [if_neg h] at h2
          exact .inr (by omega)

theorem commandGenerate_gives (hW : W.Steady) {ps : Plugins W} (hst : ps.AllStandard) (checks : Bool) {b : Bracket} {typ : PType}
    (hb : b.commandType = some typ) (m n : Str) {args : List Str} (ha : args.length ≤ usizeMax) (i j : Str) (l l' : Loc) :
    PM.Gives ps (commandGenerate checks b (.leaf .module i (some m) l) (.leaf .ident j (some n) l') args)
      (ps.applied b m n args) := by
  intro qs hq
  have hbt : b.returnType = typ := by cases b <;> first | cases hb; rfl | cases hb
  unfold commandGenerate Plugins.applied
  simp only [nameOf, if_true, hbt, hb, Option.bind_eq_bind, Option.bind_some, PM.bind_run, Pure.pure, PM.pure,
    Plugins.argumentTypes, Plugins.signature]
  rcases hp : ps.nameToPlugin.get m with _ | p
  · rw [hq.none m hp]
    exact ⟨fun a => by simp, hq⟩
  · obtain ⟨q, h1, h2, _⟩ := hq.some m p hp
    rw [h1]
    simp only [h2]
    rcases hm : p.signatures.get (n, typ) with _ | md
    · exact ⟨fun a => by simp, hq⟩
    · simp only [Option.map_some, Option.bind_some]
      have hsig : ps.signature m n typ = some (md.argumentTypes.map (·.2)) := by simp [Plugins.signature, hp, hm]
      exact callCommand_gives hW checks typ m n (hst m n typ _ hsig).1 (hst m n typ _ hsig).2 ha qs hq

theorem genChildren_append_gives {ps : Plugins W} {checks inDocument : Bool} : ∀ {cs : List AST} {ds : List AST}
    {o o' : Option (List Str)}, PM.Gives ps (genChildren checks inDocument cs) o →
    PM.Gives ps (genChildren checks inDocument ds) o' →
    PM.Gives ps (genChildren checks inDocument (cs ++ ds)) (o.bind fun r => o'.bind fun r' => some (r ++ r')) := by
  intro cs ds o o' h h'
  have e : genChildren (W := W) checks inDocument (cs ++ ds) = (do
      let r ← genChildren checks inDocument cs
      let r' ← genChildren checks inDocument ds
      pure (r ++ r')) := by
    clear h h'
    induction cs with
    | nil =>
      funext qs
      simp only [List.nil_append, genChildren, PM.bind_run, Pure.pure, PM.pure]
      rcases genChildren checks inDocument ds qs with ⟨_ | _ | _, _⟩ <;> rfl
    | cons c cs ih =>
      funext qs
      simp only [List.cons_append, genChildren, ih, PM.bind_run, Pure.pure, PM.pure]
      rcases genChild checks inDocument c qs with ⟨_ | _ | _, qs⟩ <;> simp only
      rcases genChildren checks inDocument cs qs with ⟨_ | _ | _, qs⟩ <;> simp only
      rcases genChildren checks inDocument ds qs with ⟨_ | _ | _, qs⟩ <;> rfl
  rw [e]
  exact h.bind fun _ _ => h'.bind fun _ _ => .pure ps _

theorem genChildren_one_gives {ps : Plugins W} {checks inDocument : Bool} {c : AST} {o : Option Str}
    (h : PM.Gives ps (genChild checks inDocument c) o) :
    PM.Gives ps (genChildren checks inDocument [c]) (o.map fun r => [r]) := by
  rw [genChildren, show (o.map fun r => [r]) = o.bind (fun r => (some []).bind fun rs => some (r :: rs)) by cases o <;> rfl]
  exact h.bind fun _ _ => PM.Gives.bind (by rw [genChildren]; exact .pure ps _) fun _ _ => .pure ps _

theorem expr_gives (hW : W.Steady) {ps : Plugins W} {checks inDocument : Bool} {cs : List AST} {o : Option (List Str)}
    (h : PM.Gives ps (genChildren checks false cs) o) (i : Str) (l : Loc) :
    PM.Gives ps (genChild checks inDocument (.node .expr i cs l))
      ((o.map List.flatten).bind (ps.hooked ps.exprHook (chars! "expr") .inline)) := by
  rw [genChild, show (o.map List.flatten).bind (ps.hooked ps.exprHook (chars! "expr") .inline) =
    o.bind fun rs => ps.hooked ps.exprHook (chars! "expr") .inline rs.flatten by cases o <;> rfl]
  exact h.bind fun _ _ => hook_gives hW (fun _ h => h.expr) (fun _ _ => rfl) _

theorem treeL_append' (ss ss' : List Shape) : Shape.treeL (ss ++ ss') = Shape.treeL ss ++ Shape.treeL ss' := by
  induction ss with
  | nil => rfl
  | cons s ss ih => simp [Shape.treeL, ih]

theorem applied_angle (ps : Plugins W) (m n : Str) (args : List Str) : ps.applied .angle m n args = none := rfl

theorem outputArgs_length {ps : Plugins W} : ∀ {args : List (List Markup)} {rs : List Str},
    Markup.outputArgs ps args = some rs → rs.length = args.length
  | [], rs, h => by
    rw [Markup.outputArgs] at h
    injection h with h
    subst h
    rfl
  | a :: as, rs, h => by
    rw [Markup.outputArgs] at h
    simp only [Option.bind_eq_bind, Option.bind_eq_some_iff, Option.pure_def, Option.some.injEq] at h
    obtain ⟨r, _, rs', h2, rfl⟩ := h
    simp [outputArgs_length h2]

theorem treeArgs_length : ∀ args : List (List Markup), (Shape.treeL (Markup.shapeArgs args)).length = args.length
  | [] => rfl
  | a :: as => by
    rw [Markup.shapeArgs, Shape.treeL, List.length_cons, treeArgs_length as, List.length_cons]

mutual

theorem item_gives (hW : W.Steady) {ps : Plugins W} (hst : ps.AllStandard) (checks : Bool) : ∀ i : Markup,
    (∀ a ∈ Shape.treeL i.shape, a.Fits) →
    ∃ o, PM.Gives ps (genChildren checks false (Shape.treeL i.shape)) o ∧ o.map List.flatten = i.output ps
  | .words s, _ => by
    refine ⟨_, genChildren_one_gives (by rw [Shape.tree, genChild]; exact textGenerate_gives hW ps s), ?_⟩
    rw [Markup.output]
    rcases ps.hooked ps.textHook (chars! "text") .inline s with _ | r <;> simp
  | .escaped c, _ => by
    refine ⟨_, genChildren_one_gives (by rw [Shape.tree, genChild]; exact textGenerate_gives hW ps [c]), ?_⟩
    rw [Markup.output]
    rcases ps.hooked ps.textHook (chars! "text") .inline [c] with _ | r <;> simp
  | .blank c, _ => by
    refine ⟨some [], ?_, by rw [Markup.output]; rfl⟩
    rw [Markup.shape, Shape.treeL, genChildren]
    exact .pure ps _
  | .call b m n args, hf => by
    have hf' := hf _ (by rw [Markup.shape, Shape.treeL]; exact List.mem_cons_self)
    rw [Shape.tree, Shape.treeL, Shape.treeL] at hf'
    have hlen := hf' _ _ _ _ .self
    rw [Markup.shape, Shape.treeL, Shape.treeL, Shape.tree, Shape.treeL, Shape.treeL, Markup.output]
    have key : ∀ (ss : List Shape) (o : Option (List Str)), PM.Gives ps (genChildren checks false (Shape.treeL ss)) o →
        (∀ rs, o = some rs → rs.length ≤ usizeMax) →
        ∃ o', PM.Gives ps (genChildren checks false [AST.node (.bracket b) [] ((Shape.leaf .module (some m)).tree ::
          (Shape.leaf .ident (some n)).tree :: Shape.treeL ss) ⟨⟨0, 0⟩, ⟨0, 0⟩⟩]) o' ∧
          o'.map List.flatten = o.bind (ps.applied b m n) := by
      intro ss o ho hr
      refine ⟨_, genChildren_one_gives (o := o.bind (ps.applied b m n)) ?_, ?_⟩
      · rcases hb : b.commandType with _ | typ
        · cases b <;> first | cases hb; done | skip
          rw [genChild, show o.bind (ps.applied .angle m n) = none by cases o <;> rfl]
          exact .none fun qs => ⟨fun a => by simp [PM.bail], rfl⟩
        · rw [genChild_command (by rintro rfl; cases hb)]
          refine ho.bind fun rs hrs => ?_
          rw [Shape.tree, Shape.tree]
          exact commandGenerate_gives hW hst checks hb m n (hr rs hrs) _ _ _ _
      · rcases o.bind (ps.applied b m n) with _ | r <;> simp
    by_cases hb : onlyBlanks args = true
    · simp only [if_pos hb]
      exact key [] (some []) (by rw [Shape.treeL, genChildren]; exact .pure ps _) (by rintro _ ⟨⟩; simp)
    · simp only [if_neg hb] at hf' hlen ⊢
      have ih := args_gives hW hst checks false args fun a ha k i cs l hn => hf' k i cs l (.child (by simp [ha]) hn)
      refine key _ _ ih fun rs hrs => ?_
      have h1 := outputArgs_length hrs
      have h2 : (Shape.treeL (Markup.shapeArgs args)).length = args.length := treeArgs_length args
      simp only [List.length_cons, h2] at hlen
      omega

theorem list_gives (hW : W.Steady) {ps : Plugins W} (hst : ps.AllStandard) (checks : Bool) : ∀ is : List Markup,
    (∀ a ∈ Shape.treeL (Markup.shapeL is), a.Fits) →
    ∃ o, PM.Gives ps (genChildren checks false (Shape.treeL (Markup.shapeL is))) o ∧
      o.map List.flatten = Markup.outputL ps is
  | [], _ => by
    refine ⟨some [], ?_, by rw [Markup.outputL]; rfl⟩
    rw [Markup.shapeL, Shape.treeL, genChildren]
    exact .pure ps _
  | i :: is, hf => by
    rw [Markup.shapeL, treeL_append'] at hf
    obtain ⟨o, h1, h2⟩ := item_gives hW hst checks i fun a ha => hf a (by simp [ha])
    obtain ⟨o', h3, h4⟩ := list_gives hW hst checks is fun a ha => hf a (by simp [ha])
    rw [Markup.shapeL, treeL_append']
    refine ⟨_, genChildren_append_gives h1 h3, ?_⟩
    rw [Markup.outputL, ← h2, ← h4]
    rcases o with _ | r <;> rcases o' with _ | r' <;> simp

theorem args_gives (hW : W.Steady) {ps : Plugins W} (hst : ps.AllStandard) (checks inDocument : Bool) :
    ∀ args : List (List Markup), (∀ a ∈ Shape.treeL (Markup.shapeArgs args), a.Fits) →
    PM.Gives ps (genChildren checks inDocument (Shape.treeL (Markup.shapeArgs args))) (Markup.outputArgs ps args)
  | [], _ => by
    rw [Markup.shapeArgs, Shape.treeL, genChildren, Markup.outputArgs]
    exact .pure ps _
  | a :: as, hf => by
    rw [Markup.shapeArgs, Shape.treeL] at hf ⊢
    have ha := hf _ List.mem_cons_self
    rw [Shape.tree] at ha
    obtain ⟨o, h1, h2⟩ := list_gives hW hst checks a fun x hx k i cs l hn => ha k i cs l (.child hx hn)
    have h3 := args_gives hW hst checks inDocument as fun x hx => hf x (by simp [hx])
    rw [Shape.tree, genChildren, Markup.outputArgs, ← h2]
    exact (expr_gives hW h1 _ _).bind fun _ _ => h3.bind fun _ _ => .pure ps _

end

theorem shapeArgs_map : ∀ p : List (List Markup), p.map (fun line => Shape.node .expr (Markup.shapeL line)) = Markup.shapeArgs p
  | [] => rfl
  | a :: as => by rw [List.map_cons, shapeArgs_map as, Markup.shapeArgs]

theorem paragraph_gives (hW : W.Steady) {ps : Plugins W} (hst : ps.AllStandard) (checks : Bool) (p : List (List Markup))
    (hf : (Shape.node .stmt (p.map fun line => .node .expr (Markup.shapeL line))).tree.Fits) :
    PM.Gives ps (genChild checks true (Shape.node .stmt (p.map fun line => .node .expr (Markup.shapeL line))).tree)
      (paragraphOutput ps p) := by
  rw [shapeArgs_map, Shape.tree] at *
  rw [genChild]
  exact (args_gives hW hst checks false p fun x hx k i cs l hn => hf k i cs l (.child hx hn)).bind fun _ _ =>
    hook_gives hW (fun _ h => h.stmt) (fun _ _ => rfl) _

theorem paragraphs_gives (hW : W.Steady) {ps : Plugins W} (hst : ps.AllStandard) (checks : Bool) :
    ∀ d : List (List (List Markup)),
    (∀ a ∈ Shape.treeL (d.map fun p => .node .stmt (p.map fun line => .node .expr (Markup.shapeL line))), a.Fits) →
    PM.Gives ps (genChildren checks true
      (Shape.treeL (d.map fun p => .node .stmt (p.map fun line => .node .expr (Markup.shapeL line)))))
      (d.mapM (paragraphOutput ps))
  | [], _ => by
    rw [List.map_nil, Shape.treeL, genChildren, List.mapM_nil]
    exact .pure ps _
  | p :: d, hf => by
    rw [List.map_cons, Shape.treeL] at hf ⊢
    rw [genChildren, List.mapM_cons]
    exact (paragraph_gives hW hst checks p (hf _ List.mem_cons_self)).bind fun _ _ =>
      (paragraphs_gives hW hst checks d fun a ha => hf a (List.mem_cons_of_mem _ ha)).bind fun _ _ => .pure ps _

theorem document_gives (hW : W.Steady) {ps : Plugins W} (hst : ps.AllStandard) (checks : Bool) (d : List (List (List Markup)))
    (hf : (documentShape d).tree.Fits) : PM.Gives ps (generate checks (documentShape d).tree) (documentOutput ps d) := by
  rw [documentShape, Shape.tree] at *
  rw [generate]
  exact (paragraphs_gives hW hst checks d fun x hx k i cs l hn => hf k i cs l (.child hx hn)).bind fun _ _ =>
    hook_gives hW (fun _ h => h.document) (fun _ _ => rfl) _

/-! ### Parts with the same output -/

theorem outputL_append (ps : Plugins W) : ∀ is js : List Markup, Markup.outputL ps (is ++ js) =
    (Markup.outputL ps is).bind fun r => (Markup.outputL ps js).bind fun r' => some (r ++ r')
  | [], js => by
    rw [List.nil_append, Markup.outputL]
    cases Markup.outputL ps js <;> rfl
  | i :: is, js => by
    rw [List.cons_append, Markup.outputL, Markup.outputL, outputL_append ps is js]
    rcases i.output ps with _ | r <;> simp only [Option.bind_eq_bind, Option.bind_none, Option.bind_some]
    rcases Markup.outputL ps is with _ | r <;> simp only [Option.bind_none, Option.bind_some, Option.pure_def]
    rcases Markup.outputL ps js with _ | r <;> simp

theorem outputArgs_append (ps : Plugins W) (a a' : List Markup) (h : Markup.outputL ps a = Markup.outputL ps a')
    (after : List (List Markup)) : ∀ before : List (List Markup),
    Markup.outputArgs ps (before ++ a :: after) = Markup.outputArgs ps (before ++ a' :: after)
  | [] => by rw [List.nil_append, List.nil_append, Markup.outputArgs, Markup.outputArgs, h]
  | b :: before => by
    rw [List.cons_append, List.cons_append, Markup.outputArgs, Markup.outputArgs, outputArgs_append ps a a' h after before]

theorem Markup.Put.output {ps : Plugins W} {x y is js : List Markup} (h : Markup.Put x y is js)
    (hx : x.all Markup.isBlank = y.all Markup.isBlank) (hxy : Markup.outputL ps x = Markup.outputL ps y) :
    Markup.outputL ps is = Markup.outputL ps js ∧ is.all Markup.isBlank = js.all Markup.isBlank := by
  induction h with
  | here before after =>
    refine ⟨?_, by rw [List.all_append, List.all_append, List.all_append, List.all_append, hx]⟩
    rw [outputL_append, outputL_append, outputL_append, outputL_append, hxy]
  | @inside before after b m n args a a' args' _ ih =>
    refine ⟨?_, by simp [Markup.isBlank]⟩
    rw [outputL_append, outputL_append, outputL_append, outputL_append]
    have hb : onlyBlanks (args ++ a :: args') = onlyBlanks (args ++ a' :: args') := by
      simp only [onlyBlanks, List.length_append, List.length_cons, List.all_append, List.all_cons, ih.2]
    have : Markup.outputL ps [.call b m n (args ++ a :: args')] = Markup.outputL ps [.call b m n (args ++ a' :: args')] := by
      simp only [Markup.outputL, Markup.output, hb, outputArgs_append ps a a' ih.1]
    rw [this]

theorem mapM_middle {f : α → Option β} {x y : α} (h : f x = f y) (after : List α) :
    ∀ before : List α, (before ++ x :: after).mapM f = (before ++ y :: after).mapM f
  | [] => by rw [List.nil_append, List.nil_append, List.mapM_cons, List.mapM_cons, h]
  | b :: before => by
    rw [List.cons_append, List.cons_append, List.mapM_cons, List.mapM_cons, mapM_middle h after before]

theorem PutInto.output {ps : Plugins W} {x y : List Markup} {d d' : List (List (List Markup))} (h : PutInto x y d d')
    (hx : x.all Markup.isBlank = y.all Markup.isBlank) (hxy : Markup.outputL ps x = Markup.outputL ps y) :
    documentOutput ps d = documentOutput ps d' := by
  obtain ⟨before, lines, line, line', lines', after, h, rfl, rfl⟩ := h
  unfold documentOutput
  rw [mapM_middle]
  unfold paragraphOutput
  rw [outputArgs_append ps line line' (h.output hx hxy).1]

end Brack
