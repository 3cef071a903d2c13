import Verif.Spec.CallDoc
import Verif.Props.Written
import Verif.Proof.GenOne
import Verif.Proof.Expressed

/-
The document for a given call.
-/

namespace Brack

/-- A cluster of an argument. -/
def argPiece (g : Str) : Markup :=
  if g = ['.'] ∨ g = [','] ∨ g = ['\\'] then .escaped (g.headD ' ') else .words g

/-- An argument. -/
def argMarkup (S : Segmenter) (arg : Str) : List Markup :=
  .blank '\n' :: (S.graphemes arg).flatMap fun g => [argPiece g, .blank '\n']

/-- The call. -/
def callMarkup (S : Segmenter) (b : Bracket) (m n : Str) (args : List Str) : Markup :=
  .call b m n (if args = [] then [[.blank '\n']] else args.map (argMarkup S))

section
variable {S : Segmenter}

theorem argPiece_write (g : Str) : (argPiece g).write ++ ['\n'] = argLine g := by
  unfold argPiece argLine
  by_cases h : g = ['.'] ∨ g = [','] ∨ g = ['\\']
  · rw [if_pos h, if_pos h]
    rcases h with rfl | rfl | rfl <;> rfl
  · rw [if_neg h, if_neg h]; rfl

theorem argMarkup_write (arg : Str) : Markup.writeL (argMarkup S arg) = argLines S arg := by
  unfold argMarkup argLines
  rw [Markup.writeL]
  simp only [Markup.write, List.singleton_append]
  congr 1
  induction S.graphemes arg with
  | nil => rfl
  | cons g gs ih =>
    simp only [List.flatMap_cons, List.map_cons, List.flatten_cons, List.cons_append, List.nil_append, Markup.writeL]
    rw [ih, ← argPiece_write]
    simp [Markup.write]

theorem args_write : ∀ {args : List Str}, args ≠ [] →
    Markup.writeArgs (args.map (argMarkup S)) = List.intercalate [','] (args.map (argLines S))
  | [], h => absurd rfl h
  | [a], _ => by simp [Markup.writeArgs, argMarkup_write, List.intercalate]
  | a :: b :: args, _ => by
    have ih := args_write (args := b :: args) (by simp)
    simp only [List.map_cons] at ih ⊢
    rw [Markup.writeArgs, ih, argMarkup_write]
    simp [List.intercalate]

theorem callMarkup_write (b : Bracket) (m n : Str) (args : List Str) :
    (callMarkup S b m n args).write = callDoc S b m n args := by
  unfold callMarkup callDoc
  rw [Markup.write]
  by_cases h : args = []
  · subst h
    simp [Markup.writeArgs, Markup.writeL, Markup.write]
  · rw [if_neg h, if_neg h, args_write h]
    simp [h]

theorem piece_ok {arg g : Str} (h : Passable S arg) (hg : g ∈ S.graphemes arg) : (argPiece g).ok true = true := by
  unfold argPiece
  by_cases hc : g = ['.'] ∨ g = [','] ∨ g = ['\\']
  · rw [if_pos hc]
    rcases hc with rfl | rfl | rfl <;> rfl
  · rw [if_neg hc]
    simp only [Markup.ok, if_true, plainBut, Bool.and_eq_true, Bool.not_eq_true', List.isEmpty_eq_false_iff, List.all_eq_true]
    refine ⟨S.nonempty arg g hg, fun c hm => ?_⟩
    rw [← Bool.not_eq_true, List.contains_iff_mem]
    intro hmc
    have hca : c ∈ arg := by
      rw [← S.flatten arg]
      exact List.mem_flatten.mpr ⟨g, hg, hm⟩
    have hgc := h.own g hg c hm hmc
    rcases h.chars c hca hmc with rfl | rfl | rfl <;> simp [hgc] at hc

theorem pieces_ok {arg : Str} (h : Passable S arg) : ∀ {gs : List Str}, (∀ g ∈ gs, g ∈ S.graphemes arg) →
    Markup.okL true (gs.flatMap fun g => [argPiece g, .blank '\n']) = true
  | [], _ => rfl
  | g :: gs, hg => by
    have ih := pieces_ok h (gs := gs) fun x hx => hg x (by simp [hx])
    simp only [List.flatMap_cons, List.cons_append, List.nil_append, Markup.okL, ih, piece_ok h (hg g (by simp))]
    simp [Markup.ok, Markup.isWords]

theorem argMarkup_ok {arg : Str} (h : Passable S arg) : Markup.okL true (argMarkup S arg) = true := by
  unfold argMarkup
  rw [Markup.okL, pieces_ok h fun _ hx => hx]
  rfl

theorem argMarkup_solid {arg : Str} (h : Passable S arg) : (argMarkup S arg).any (fun i => !i.isBlank) = true := by
  unfold argMarkup
  rcases hg : S.graphemes arg with _ | ⟨g, gs⟩
  · have := S.flatten arg
    rw [hg] at this
    exact absurd this.symm h.nonempty
  · have : (argPiece g).isBlank = false := by
      unfold argPiece
      split <;> rfl
    simp [this]

theorem okArgs_map {args : List Str} (h : ∀ a ∈ args, Passable S a) : Markup.okArgs (args.map (argMarkup S)) = true := by
  induction args with
  | nil => rfl
  | cons a args ih =>
    rw [List.forall_mem_cons] at h
    rw [List.map_cons, Markup.okArgs, argMarkup_ok h.1, ih h.2]
    rfl

theorem callMarkup_ok {b : Bracket} {m n : Str} {args : List Str} (hm : plainBut markChars m = true)
    (hn : plainBut markChars n = true) (h : ∀ a ∈ args, Passable S a) : (callMarkup S b m n args).ok false = true := by
  unfold callMarkup
  rw [Markup.ok, hm, hn]
  by_cases he : args = []
  · rw [if_pos he]; rfl
  · rw [if_neg he, okArgs_map h]
    simp only [Bool.true_and, Bool.or_eq_true, List.all_eq_true]
    right
    intro x hx
    obtain ⟨a, ha, rfl⟩ := List.mem_map.mp hx
    exact argMarkup_solid (h a ha)

theorem callDoc_written {b : Bracket} {m n : Str} {args : List Str} (hm : plainBut markChars m = true)
    (hn : plainBut markChars n = true) (h : ∀ a ∈ args, Passable S a) :
    WrittenAs [[[callMarkup S b m n args]]] (callDoc S b m n args) := by
  have := WrittenAs.last [[callMarkup S b m n args]] 0 (by
    simp [paragraphOk, Markup.okL, callMarkup_ok hm hn h])
  simpa [writeLines, Markup.writeL, callMarkup_write] using this

/-! ### Clusters -/

theorem own_lf {a b : Str} (ha : OwnClusters S a) (hb : OwnClusters S b) (hcr : ∀ x, a ≠ x ++ ['\r']) :
    OwnClusters S (a ++ '\n' :: b) := by
  intro g hg c hc hm
  rw [graphemes_lf S a b hcr] at hg
  rcases List.mem_append.mp hg with hg | hg
  · exact ha g hg c hc hm
  · rcases List.mem_cons.mp hg with rfl | hg
    · rw [List.mem_singleton.mp hc]
    · exact hb g hg c hc hm

theorem own_line {arg g b : Str} (h : Passable S arg) (hg : g ∈ S.graphemes arg) (hb : OwnClusters S b) :
    OwnClusters S (argLine g ++ b) := by
  have hga : ∀ c ∈ g, c ∈ arg := fun c hm => by
    rw [← S.flatten arg]
    exact List.mem_flatten.mpr ⟨g, hg, hm⟩
  unfold argLine
  by_cases hc : g = ['.'] ∨ g = [','] ∨ g = ['\\']
  · rw [if_pos hc]
    have : OwnClusters S ('\\' :: g) := own_ascii S (by rcases hc with rfl | rfl | rfl <;> decide)
    have := own_lf this hb (by rcases hc with rfl | rfl | rfl <;> exact fun x => not_ends (by decide))
    simpa using this
  · rw [if_neg hc]
    have hs := graphemes_single S hg
    have h1 : OwnClusters S g := by
      intro g' hg' c hc' hm
      rw [hs, List.mem_singleton] at hg'
      subst hg'
      exact h.own g' hg c hc' hm
    have := own_lf h1 hb fun x => not_ends fun hr => h.cr (hga _ hr)
    simpa using this

theorem own_lines {arg b : Str} (h : Passable S arg) (hb : OwnClusters S b) : ∀ {gs : List Str}, (∀ g ∈ gs, g ∈ S.graphemes arg) →
    OwnClusters S ((gs.map argLine).flatten ++ b)
  | [], _ => hb
  | g :: gs, hg => by
    have ih := own_lines h hb (gs := gs) fun x hx => hg x (by simp [hx])
    rw [List.map_cons, List.flatten_cons, List.append_assoc]
    exact own_line h (hg g (by simp)) ih

theorem own_argLines {arg a b : Str} (h : Passable S arg) (ha : OwnClusters S a) (hcr : ∀ x, a ≠ x ++ ['\r'])
    (hb : OwnClusters S b) : OwnClusters S (a ++ argLines S arg ++ b) := by
  unfold argLines
  have := own_lf ha (own_lines h hb fun _ hx => hx) hcr
  simpa using this

theorem own_args {e : Char} (he : e.toNat < 128 ∧ e ≠ '\r') : ∀ {args : List Str} {a : Str}, (∀ x ∈ args, Passable S x) →
    args ≠ [] → OwnClusters S a → (∀ x, a ≠ x ++ ['\r']) →
    OwnClusters S (a ++ List.intercalate [','] (args.map (argLines S)) ++ [e])
  | [], _, _, h, _, _ => absurd rfl h
  | [x], a, h, _, ha, hcr => by
    have := own_argLines (h x (by simp)) ha hcr (b := [e]) (own_ascii S (by simpa using he))
    simpa [List.intercalate] using this
  | x :: y :: args, a, h, _, ha, hcr => by
    have ih := own_args he (args := y :: args) (a := [',']) (fun z hz => h z (by simp [List.mem_cons.mp hz])) (by simp)
      (own_ascii S (by decide)) fun x => not_ends (by decide)
    have := own_argLines (h x (by simp)) ha hcr ih
    simpa [List.intercalate] using this

theorem callDoc_own {b : Bracket} {m n : Str} {args : List Str}
    (ho : OwnClusters S (b.openChar :: m ++ '.' :: n ++ [' '])) (h : ∀ a ∈ args, Passable S a) :
    OwnClusters S (callDoc S b m n args) := by
  have he : b.closeChar.toNat < 128 ∧ b.closeChar ≠ '\r' := by rcases b <;> decide
  have hcr : ∀ x, b.openChar :: m ++ '.' :: n ++ [' '] ≠ x ++ ['\r'] := by
    intro x hx
    have := (List.append_inj' hx rfl).2
    simp at this
  unfold callDoc
  by_cases hn : args = []
  · rw [if_pos hn]
    have := own_lf ho (b := [b.closeChar]) (own_ascii S (by simpa using he)) hcr
    simpa using this
  · rw [if_neg hn]
    exact own_args he h hn ho hcr

/-! ### Generating -/

variable {W : Wasm}

theorem genChildren_leaves (ck : Bool) {ps : Plugins W} (h : NoHooks ps) : ∀ (vs : List Str),
    genChildren ck false (vs.map (leafOf .text)) ps = (.ok vs, ps)
  | [] => rfl
  | v :: vs => by
    rw [List.map_cons, genChildren_cons_run, leafOf, genChild_text_run, h.text]
    simp only [hookBy]
    rw [genChildren_leaves ck h vs]

theorem pieces_tree (gs : List Str) : Shape.treeL (Markup.shapeL (gs.flatMap fun g => [argPiece g, .blank '\n'])) =
    gs.map (leafOf .text) := by
  induction gs with
  | nil => rfl
  | cons g gs ih =>
    have : (argPiece g).shape = [.leaf .text (some g)] := by
      unfold argPiece
      split
      · next h => rcases h with rfl | rfl | rfl <;> rfl
      · rfl
    simp only [List.flatMap_cons, List.cons_append, List.nil_append, Markup.shapeL, this, Markup.shape, Shape.treeL, ih]
    rfl

theorem genChildren_args (ck : Bool) {ps : Plugins W} (h : NoHooks ps) : ∀ (args : List Str),
    genChildren ck false (Shape.treeL (Markup.shapeArgs (args.map (argMarkup S)))) ps = (.ok args, ps)
  | [] => rfl
  | a :: args => by
    have e : Shape.treeL (Markup.shapeArgs ((a :: args).map (argMarkup S))) =
        .node .expr [] ((S.graphemes a).map (leafOf .text)) ⟨⟨0, 0⟩, ⟨0, 0⟩⟩ ::
          Shape.treeL (Markup.shapeArgs (args.map (argMarkup S))) := by
      rw [List.map_cons, Markup.shapeArgs, Shape.treeL, Shape.tree]
      unfold argMarkup
      rw [Markup.shapeL, Markup.shape, List.nil_append, pieces_tree]
    rw [e, genChildren_cons_run, genChild_expr_run, genChildren_leaves ck h]
    simp only [afterAll, h.expr, hookBy]
    rw [S.flatten]
    rw [genChildren_args ck h args]

theorem callDoc_compiles (ids : Nat → Str) (ck : Bool) {ps : Plugins W} (h : NoHooks ps) {b : Bracket} {typ : PType}
    (hb : b.commandType = some typ) {m n : Str} {ts : List PType} {args : List Str} (hm : plainBut markChars m = true)
    (hn : plainBut markChars n = true) (ho : OwnClusters S (b.openChar :: m ++ '.' :: n ++ [' ']))
    (hp : ∀ a ∈ args, Passable S a) (hsig : ps.signature m n typ = some ts) (hs : Standard ts) (hl : ts.length ≤ usizeMax)
    (hlen : args.length ≤ usizeMax) (ha : Admissible ts args.length) :
    ∃ vs out, bindArgs args 0 ts = .ok vs ∧
      (compileText S ids ck (callDoc S b m n args) ps).2.log = ps.log ++ [⟨m, n, typ, .values vs, out⟩] := by
  have hmac : hasMacros [[[callMarkup S b m n args]]] = false := by
    have h2 : ∀ gs : List Str, Markup.hasMacroL (gs.flatMap fun g => [argPiece g, .blank '\n']) = false := by
      intro gs
      induction gs with
      | nil => rfl
      | cons g gs ih =>
        have : (argPiece g).hasMacro = false := by
          unfold argPiece
          split <;> rfl
        simp [Markup.hasMacroL, this, ih, Markup.hasMacro]
    have h3 : ∀ args : List Str, Markup.hasMacroArgs (args.map (argMarkup S)) = false := by
      intro args
      induction args with
      | nil => rfl
      | cons a args ih =>
        rw [List.map_cons, Markup.hasMacroArgs, ih, argMarkup, Markup.hasMacroL, h2]
        rfl
    have hba : (b == .angle) = false := by rcases b <;> simp [Bracket.commandType] at hb <;> rfl
    have h4 : Markup.hasMacroArgs (if args = [] then [[.blank '\n']] else args.map (argMarkup S)) = false := by
      split
      · rfl
      · exact h3 args
    simp [hasMacros, Markup.hasMacroL, callMarkup, Markup.hasMacro, hba, h4]
  rw [C72_compiles S ids ck ps _ _ (callDoc_written hm hn hp) (callDoc_own ho hp) hmac]
  refine generate_one_node (cs := Shape.treeL (Markup.shapeArgs (args.map (argMarkup S)))) ck h hb
    (genChildren_args ck h args) hsig hs hl hlen ha |>.imp fun vs hv => hv.imp fun out hv => ⟨hv.1, ?_⟩
  rw [← hv.2]
  have key : (if onlyBlanks (if args = [] then [[Markup.blank '\n']] else args.map (argMarkup S)) then []
      else Markup.shapeArgs (if args = [] then [[Markup.blank '\n']] else args.map (argMarkup S))) =
      Markup.shapeArgs (args.map (argMarkup S)) := by
    by_cases he : args = []
    · subst he; rfl
    · rw [if_neg he]
      have : onlyBlanks (args.map (argMarkup S)) = false := by
        rcases args with _ | ⟨a, _⟩
        · exact absurd rfl he
        · have hsol := argMarkup_solid (hp a (by simp))
          have : (argMarkup S a).all Markup.isBlank = false := by
            rw [← Bool.not_eq_true, List.all_eq_true]
            intro hall
            obtain ⟨x, hx, hnb⟩ := List.any_eq_true.mp hsol
            rw [hall x hx] at hnb
            cases hnb
          simp only [onlyBlanks, List.map_cons, List.all_cons, this, Bool.false_and, Bool.and_false]
      rw [this]; rfl
  simp only [documentShape, List.map_cons, List.map_nil, Markup.shapeL, callMarkup, Markup.shape, List.append_nil, key]
  rfl

end

end Brack
