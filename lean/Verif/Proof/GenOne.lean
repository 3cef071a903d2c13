import Verif.Proof.GenDone
import Verif.Proof.PluginCases

/-
Helper lemmas on code generation: results of single nodes, documents with one command.
-/

namespace Brack

variable {W : Wasm}

theorem genChildren_cons_run (ck inDoc : Bool) (c : AST) (cs : List AST) (ps : Plugins W) :
    genChildren ck inDoc (c :: cs) ps = (match genChild ck inDoc c ps with
      | (.ok r, ps) => (match genChildren ck inDoc cs ps with
        | (.ok rs, ps) => (.ok (r :: rs), ps)
        | (.err m, ps) => (.err m, ps)
        | (.panic, ps) => (.panic, ps))
      | (.err m, ps) => (.err m, ps)
      | (.panic, ps) => (.panic, ps)) := by
  rw [genChildren, PM.bind_run]
  rcases genChild ck inDoc c ps with ⟨_ | _ | _, ps1⟩ <;> try rfl
  simp only []
  rw [PM.bind_run]
  rcases genChildren ck inDoc cs ps1 with ⟨_ | _ | _, ps2⟩ <;> rfl

/-- The continuation after the children. -/
def afterAll (k : List Str → PM W Str) : Res (List Str) × Plugins W → Res Str × Plugins W
  | (.ok rs, ps) => k rs ps
  | (.err m, ps) => (.err m, ps)
  | (.panic, ps) => (.panic, ps)

theorem genChild_expr_run (ck inDoc : Bool) (i : Str) (cs : List AST) (l : Loc) (ps : Plugins W) :
    genChild ck inDoc (.node .expr i cs l) ps =
      afterAll (fun rs ps => hookBy ps.exprHook (chars! "expr") .inline rs.flatten ps)
        (genChildren ck false cs ps) := by
  simp only [genChild]
  rw [PM.bind_run]
  rcases genChildren ck false cs ps with ⟨_ | _ | _, ps1⟩ <;> try rfl
  exact exprHook_run _ _

theorem genChild_stmt_run (ck : Bool) (i : Str) (cs : List AST) (l : Loc) (ps : Plugins W) :
    genChild ck true (.node .stmt i cs l) ps =
      afterAll (fun rs ps => hookBy ps.stmtHook (chars! "stmt") .block rs.flatten ps)
        (genChildren ck false cs ps) := by
  simp only [genChild, if_true]
  rw [PM.bind_run]
  rcases genChildren ck false cs ps with ⟨_ | _ | _, ps1⟩ <;> try rfl
  exact stmtHook_run _ _

theorem generate_run (ck : Bool) (i : Str) (cs : List AST) (l : Loc) (ps : Plugins W) :
    generate ck (.node .document i cs l) ps =
      afterAll (fun rs ps => hookBy ps.documentHook (chars! "document") .block rs.flatten ps)
        (genChildren ck true cs ps) := by
  simp only [generate]
  rw [PM.bind_run]
  rcases genChildren ck true cs ps with ⟨_ | _ | _, ps1⟩ <;> try rfl
  exact documentHook_run _ _

theorem genChild_text_run (ck inDoc : Bool) (i v : Str) (l : Loc) (ps : Plugins W) :
    genChild ck inDoc (.leaf .text i (some v) l) ps = hookBy ps.textHook (chars! "text") .inline v ps := by
  simp only [genChild, textGenerate, textHook_run]

theorem NoHooks.same {ps ps' : Plugins W} (h : NoHooks ps) (hs : Same ps ps') : NoHooks ps' :=
  ⟨hs.document.trans h.document, hs.stmt.trans h.stmt, hs.expr.trans h.expr, hs.text.trans h.text⟩

theorem genChildren_texts (ck : Bool) {ps : Plugins W} (h : NoHooks ps) : ∀ (args : List Str),
    genChildren ck false (args.map (fun s => .node .expr [] [leafOf .text s] ⟨⟨0, 0⟩, ⟨0, 0⟩⟩)) ps = (.ok args, ps)
  | [] => rfl
  | s :: args => by
    have ih := genChildren_texts ck h args
    rw [List.map_cons, genChildren_cons_run, genChild_expr_run, genChildren_cons_run, leafOf,
      genChild_text_run, h.text]
    simp only [hookBy, genChildren]
    have : ∀ (x : List Str) (ps : Plugins W), (pure x : PM W (List Str)) ps = (.ok x, ps) := fun _ _ => rfl
    rw [this]
    simp only [afterAll, h.expr, hookBy]
    simp only [leafOf] at ih ⊢
    rw [ih]
    simp [hookBy]

theorem log_children_one (ck inDoc : Bool) (c : AST) (ps : Plugins W) :
    (genChildren ck inDoc [c] ps).2 = (genChild ck inDoc c ps).2 := by
  rw [genChildren_cons_run]
  rcases genChild ck inDoc c ps with ⟨_ | _ | _, ps1⟩ <;> rfl

theorem afterAll_none {x : Res (List Str) × Plugins W} {hook : Plugins W → Option Str} {command typ}
    (h : hook x.2 = none) :
    (afterAll (fun rs ps => hookBy (hook ps) command typ rs.flatten ps) x).2 = x.2 := by
  rcases x with ⟨_ | _ | _, ps1⟩ <;> try rfl
  simp only [afterAll]
  rw [show hook ps1 = none from h]
  rfl

/-- What a document with one command calls, if the arguments give these texts. -/
theorem generate_one_node (ck : Bool) {ps : Plugins W} (h : NoHooks ps) {b : Bracket} {typ : PType}
    (hb : b.commandType = some typ) {m c : Str} {ts : List PType} {args : List Str} {cs : List AST}
    (hcs : genChildren ck false cs ps = (.ok args, ps))
    (hsig : ps.signature m c typ = some ts) (hs : Standard ts) (hl : ts.length ≤ usizeMax)
    (hn : args.length ≤ usizeMax) (ha : Admissible ts args.length) :
    ∃ vs out, bindArgs args 0 ts = .ok vs ∧
      (generate ck (docOf [.node (.bracket b) [] (leafOf .module m :: leafOf .ident c :: cs) ⟨⟨0, 0⟩, ⟨0, 0⟩⟩]) ps).2.log =
        ps.log ++ [⟨m, c, typ, .values vs, out⟩] := by
  generalize hnode : (AST.node (.bracket b) [] (leafOf .module m :: leafOf .ident c :: cs) ⟨⟨0, 0⟩, ⟨0, 0⟩⟩) = node
  have hbt : b.returnType = typ := by rcases b <;> simp [Bracket.commandType] at hb <;> exact hb
  subst hbt
  have hcmd : genChild ck false node ps =
      commandGenerate ck b (leafOf .module m) (leafOf .ident c) args ps := by
    rw [← hnode]
    rcases b
    · simp [Bracket.commandType] at hb
    all_goals
      simp only [genChild]
      rw [PM.bind_run, hcs]
  have hG := commandGenerate_gens (ps0 := ps) (.refl ps) ck b (leafOf .module m) (leafOf .ident c) args
  have hD := commandGenerate_done ck (i1 := []) (i2 := []) (l1 := ⟨⟨0, 0⟩, ⟨0, 0⟩⟩) (l2 := ⟨⟨0, 0⟩, ⟨0, 0⟩⟩) hsig hs hl hn ha
  have hsame := Same.of_gens hG
  have hno := h.same hsame
  have hdoc : (generate ck (docOf [node]) ps).2 =
      (commandGenerate ck b (leafOf .module m) (leafOf .ident c) args ps).2 := by
    rw [docOf, generate_run]
    have h1 : (genChildren ck false [node] ps).2 =
        (commandGenerate ck b (leafOf .module m) (leafOf .ident c) args ps).2 := by
      rw [log_children_one, hcmd]
    have h2 : (genChild ck false (.node .expr [] [node] ⟨⟨0, 0⟩, ⟨0, 0⟩⟩) ps).2 =
        (commandGenerate ck b (leafOf .module m) (leafOf .ident c) args ps).2 := by
      rw [genChild_expr_run, afterAll_none (by rw [h1]; exact hno.expr), h1]
    have h3 : (genChild ck true (.node .stmt [] [.node .expr [] [node] ⟨⟨0, 0⟩, ⟨0, 0⟩⟩] ⟨⟨0, 0⟩, ⟨0, 0⟩⟩) ps).2 =
        (commandGenerate ck b (leafOf .module m) (leafOf .ident c) args ps).2 := by
      rw [genChild_stmt_run, afterAll_none (by rw [log_children_one, h2]; exact hno.stmt), log_children_one, h2]
    rw [afterAll_none (by rw [log_children_one, h3]; exact hno.document), log_children_one, h3]
  rw [hdoc]
  have e : commandGenerate ck b (leafOf .module m) (leafOf .ident c) args ps =
      callCommand ck b.returnType m c ts args ps := commandGenerate_run ck hsig
  have hc : argCounter ck ts = .ok (ts.countP PType.isRequired,
      if ts.any PType.isArray then usizeMax else ts.length) := argCounter_arraysLast ck ts hs.arraysLast hl
  obtain ⟨vs, hv⟩ := hs.binds ha.1
  rw [e, callCommand, hc]
  simp only []
  rw [if_neg (Nat.not_lt.mpr ha.1), if_neg (count_not_gt hn ha), hv]
  refine ⟨vs, ?_⟩
  simp only [Plugins.callText]
  rw [Plugins.signature] at hsig
  rcases hp : ps.nameToPlugin.get m with _ | p
  · rw [hp] at hsig; cases hsig
  · rw [hp] at hsig
    simp only [] at hsig ⊢
    rcases hsg : p.signatures.get (c, b.returnType) with _ | md
    · rw [hsg] at hsig; cases hsig
    · simp only []
      rcases W.callText p.extism md.callName vs with ⟨_ | s, st⟩
      · exact ⟨.failed, trivial, rfl⟩
      · exact ⟨.text s, trivial, rfl⟩

/-- What a document with one command calls. -/
theorem generate_one_command (ck : Bool) {ps : Plugins W} (h : NoHooks ps) {b : Bracket} {typ : PType}
    (hb : b.commandType = some typ) {m c : Str} {ts : List PType} {args : List Str}
    (hsig : ps.signature m c typ = some ts) (hs : Standard ts) (hl : ts.length ≤ usizeMax)
    (hn : args.length ≤ usizeMax) (ha : Admissible ts args.length) :
    ∃ vs out, bindArgs args 0 ts = .ok vs ∧
      (generate ck (docOf [commandWith b m c args]) ps).2.log = ps.log ++ [⟨m, c, typ, .values vs, out⟩] :=
  generate_one_node ck h hb (genChildren_texts ck h args) hsig hs hl hn ha

end Brack
