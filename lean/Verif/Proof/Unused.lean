import Verif.Proof.Expressed
import Verif.Proof.Registry
import Verif.Proof.Rebuild
import Verif.Props.Transform
import Verif.Spec.Unused

/-
Helper lemmas on plugins that a document does not use.
-/

namespace Brack

variable {W : Wasm} {N : Str → Prop}

theorem AlikeExcept.symm {ps qs : Plugins W} (h : AlikeExcept N ps qs) : AlikeExcept N qs ps :=
  ⟨fun n hn => (h.plugin n hn).symm, fun k => (h.hook k).symm,
    fun k n hk => h.unhooked k n (by rw [h.hook]; exact hk), h.log.symm⟩

/-- A computation that does not depend on the plugins in `N` and does not change them. -/
def BlindTo (N : Str → Prop) (x : PM W α) : Prop :=
  ∀ ps qs, AlikeExcept N ps qs → (x ps).1 = (x qs).1 ∧ AlikeExcept N (x ps).2 (x qs).2 ∧
    (∀ n, N n → (x ps).2.nameToPlugin.get n = ps.nameToPlugin.get n) ∧
    ∀ n, N n → (x qs).2.nameToPlugin.get n = qs.nameToPlugin.get n

theorem BlindTo.pure (a : α) : BlindTo N (Pure.pure a : PM W α) :=
  fun _ _ h => ⟨rfl, h, fun _ _ => rfl, fun _ _ => rfl⟩

theorem BlindTo.lift (r : Res α) : BlindTo N (PM.lift r : PM W α) :=
  fun _ _ h => ⟨rfl, h, fun _ _ => rfl, fun _ _ => rfl⟩

theorem BlindTo.bail (m : String) : BlindTo N (PM.bail m : PM W α) :=
  fun _ _ h => ⟨rfl, h, fun _ _ => rfl, fun _ _ => rfl⟩

theorem BlindTo.bind {x : PM W α} {f : α → PM W β} (hx : BlindTo N x)
    (hf : ∀ a, (∃ ps ps', x ps = (.ok a, ps')) → BlindTo N (f a)) : BlindTo N (x >>= f) := by
  intro ps qs h
  rw [PM.bind_run, PM.bind_run]
  obtain ⟨h1, h2, h3, h4⟩ := hx ps qs h
  rcases e1 : x ps with ⟨r, ps'⟩
  rcases e2 : x qs with ⟨r', qs'⟩
  rw [e1, e2] at h1 h2
  rw [e1] at h3
  rw [e2] at h4
  simp only at h1 h2 h3 h4
  subst h1
  rcases r with a | m | _
  · obtain ⟨g1, g2, g3, g4⟩ := hf a ⟨ps, ps', e1⟩ ps' qs' h2
    exact ⟨g1, g2, fun n hn => (g3 n hn).trans (h3 n hn), fun n hn => (g4 n hn).trans (h4 n hn)⟩
  · exact ⟨rfl, h2, h3, h4⟩
  · exact ⟨rfl, h2, h3, h4⟩

theorem AlikeExcept.insert {ps qs : Plugins W} (h : AlikeExcept N ps qs) (n : Str) (p : Plugin W) (l : List Call) :
    AlikeExcept N { ps with nameToPlugin := ps.nameToPlugin.insert n p, log := ps.log ++ l }
      { qs with nameToPlugin := qs.nameToPlugin.insert n p, log := qs.log ++ l } := by
  refine ⟨?_, ?_, ?_, by simp [h.log]⟩
  · intro m hm
    simp only [HMap.get_insert, h.plugin m hm]
  · intro k
    rcases k
    · exact h.hook .document
    · exact h.hook .stmt
    · exact h.hook .expr
    · exact h.hook .text
  · intro k m hm
    rcases k
    · exact h.unhooked .document m hm
    · exact h.unhooked .stmt m hm
    · exact h.unhooked .expr m hm
    · exact h.unhooked .text m hm

theorem get_insert_except {m : HMap Str (Plugin W)} {n : Str} {p : Plugin W} (hn : ¬ N n) :
    ∀ k, N k → (m.insert n p).get k = m.get k := by
  intro k hk
  rw [HMap.get_insert, if_neg]
  rintro rfl
  exact hn hk

theorem BlindTo.callText (n c : Str) (t : PType) (vs : List Value) (hn : ¬ N n) :
    BlindTo N (Plugins.callText n c t vs : PM W Str) := by
  intro ps qs h
  simp only [Plugins.callText, ← h.plugin n hn]
  rcases ps.nameToPlugin.get n with _ | p
  · exact ⟨rfl, h, fun _ _ => rfl, fun _ _ => rfl⟩
  · simp only
    rcases p.signatures.get (c, t) with _ | m
    · exact ⟨rfl, h, fun _ _ => rfl, fun _ _ => rfl⟩
    · simp only
      rcases W.callText p.extism m.callName vs with ⟨_ | s, st⟩
      · exact ⟨rfl, h.insert _ _ _, get_insert_except hn, get_insert_except hn⟩
      · exact ⟨rfl, h.insert _ _ _, get_insert_except hn, get_insert_except hn⟩

theorem BlindTo.callMacro (n c : Str) (a : AST) (id : Str) (hn : ¬ N n) :
    BlindTo N (Plugins.callMacro n c a id : PM W AST) := by
  intro ps qs h
  simp only [Plugins.callMacro, ← h.plugin n hn]
  rcases ps.nameToPlugin.get n with _ | p
  · exact ⟨rfl, h, fun _ _ => rfl, fun _ _ => rfl⟩
  · simp only
    generalize p.signatures.get (c, .ast) = o
    rcases o with _ | m
    · exact ⟨rfl, h, fun _ _ => rfl, fun _ _ => rfl⟩
    · simp only
      rcases W.callMacro p.extism m.callName a id with ⟨_ | s, st⟩
      · exact ⟨rfl, h.insert _ _ _, get_insert_except hn, get_insert_except hn⟩
      · exact ⟨rfl, h.insert _ _ _, get_insert_except hn, get_insert_except hn⟩

theorem BlindTo.argumentTypes (n c : Str) (t : PType) (hn : ¬ N n) :
    BlindTo N (Plugins.argumentTypes n c t : PM W (List (Str × PType))) := by
  intro ps qs h
  simp only [Plugins.argumentTypes, ← h.plugin n hn]
  rcases ps.nameToPlugin.get n with _ | p
  · exact ⟨rfl, h, fun _ _ => rfl, fun _ _ => rfl⟩
  · simp only
    rcases p.signatures.get (c, t) with _ | m
    · exact ⟨rfl, h, fun _ _ => rfl, fun _ _ => rfl⟩
    · exact ⟨rfl, h, fun _ _ => rfl, fun _ _ => rfl⟩

theorem BlindTo.hook (k : Hook) (vs : List Value) : BlindTo N (Hook.call vs k : PM W (Option Str)) := by
  intro ps qs h
  have hk := h.hook k
  have hu := h.unhooked k
  rcases k
  all_goals
    simp only [Plugins.hook] at hk hu
    simp only [Hook.call, Plugins.callDocumentHook, Plugins.callStmtHook, Plugins.callExprHook,
      Plugins.callTextHook, ← hk]
  · rcases hp : ps.documentHook with _ | p
    · exact ⟨rfl, h, fun _ _ => rfl, fun _ _ => rfl⟩
    · exact BlindTo.bind (BlindTo.callText _ _ _ _ (hu _ hp)) (fun _ _ => BlindTo.pure _) ps qs h
  · rcases hp : ps.stmtHook with _ | p
    · exact ⟨rfl, h, fun _ _ => rfl, fun _ _ => rfl⟩
    · exact BlindTo.bind (BlindTo.callText _ _ _ _ (hu _ hp)) (fun _ _ => BlindTo.pure _) ps qs h
  · rcases hp : ps.exprHook with _ | p
    · exact ⟨rfl, h, fun _ _ => rfl, fun _ _ => rfl⟩
    · exact BlindTo.bind (BlindTo.callText _ _ _ _ (hu _ hp)) (fun _ _ => BlindTo.pure _) ps qs h
  · rcases hp : ps.textHook with _ | p
    · exact ⟨rfl, h, fun _ _ => rfl, fun _ _ => rfl⟩
    · exact BlindTo.bind (BlindTo.callText _ _ _ _ (hu _ hp)) (fun _ _ => BlindTo.pure _) ps qs h

/-- The tree names no plugin in `N`. -/
def Avoids (N : Str → Prop) (cs : List Content) : Prop :=
  ∀ c ∈ cs, c.kind = .module → ∀ v, c.value = some v → ¬ N v

theorem Avoids.left {xs ys : List Content} (h : Avoids N (xs ++ ys)) : Avoids N xs :=
  fun c hc => h c (by simp [hc])

theorem Avoids.right {xs ys : List Content} (h : Avoids N (xs ++ ys)) : Avoids N ys :=
  fun c hc => h c (by simp [hc])

theorem macroNames_avoids (cs : List AST) (h : Avoids N (AST.contentsL cs)) : ∀ m i m' i', ¬ N m →
    macroNames m i cs = .ok (m', i') → ¬ N m' := by
  induction cs with
  | nil =>
    intro m i m' i' hm hr
    simp only [macroNames] at hr
    injection hr with hr
    injection hr with hr _
    exact hr ▸ hm
  | cons c cs ih =>
    intro m i m' i' hm hr
    have h1 : Avoids N c.contents := Avoids.left (by simpa [AST.contentsL] using h)
    have h2 : Avoids N (AST.contentsL cs) := Avoids.right (by simpa [AST.contentsL] using h)
    have ih := ih h2
    rcases c with ⟨k, j, v, l⟩ | ⟨k, j, es, l⟩
    · rcases k
      case module =>
        rcases v with _ | v
        · simp only [macroNames] at hr; cases hr
        · simp only [macroNames] at hr
          exact ih v i m' i' (h1 ⟨.module, some v, l⟩ (by simp [AST.contents]) rfl v rfl) hr
      case ident =>
        rcases v with _ | v
        · simp only [macroNames] at hr; cases hr
        · simp only [macroNames] at hr
          exact ih m v m' i' hm hr
      all_goals
        simp only [macroNames] at hr
        exact ih m i m' i' hm hr
    · simp only [macroNames] at hr
      exact ih m i m' i' hm hr

theorem blindTo_expandAngle (he : ¬ N []) (o : AST) (i : Str) (cs : List AST) (h : Avoids N (AST.contentsL cs)) :
    BlindTo N (expandAngle o i cs : PM W AST) := by
  unfold expandAngle
  refine BlindTo.bind (BlindTo.lift _) ?_
  rintro ⟨m, c⟩ ⟨ps, ps', hx⟩
  refine BlindTo.callMacro _ _ _ _ ?_
  injection hx with hx _
  exact macroNames_avoids cs h _ _ _ _ he hx

mutual

theorem blindTo_expandOther (he : ¬ N []) (o : AST) : ∀ (a : AST), Avoids N a.contents →
    BlindTo N (expandOther o a : PM W AST)
  | .leaf .text _ _ _, _ | .leaf .module _ _ _, _ | .leaf .ident _ _ _, _ => by
    simp only [Brack.expandOther]; exact BlindTo.pure _
  | .leaf .invalid _ _ _, _ | .leaf .ignored _ _ _, _ => by
    simp only [Brack.expandOther]; exact BlindTo.lift _
  | .node k i cs l, h => by
    have := blindTo_expandChildren he o cs (by simpa [AST.contents] using h)
    simp only [Brack.expandOther]
    exact BlindTo.bind this (fun _ _ => BlindTo.pure _)

theorem blindTo_expandChildren (he : ¬ N []) (o : AST) : ∀ (cs : List AST), Avoids N (AST.contentsL cs) →
    BlindTo N (expandChildren o cs : PM W (List AST))
  | [], _ => by simp only [Brack.expandChildren]; exact BlindTo.pure _
  | c :: cs, h => by
    have g1 : Avoids N c.contents := Avoids.left (by simpa [AST.contentsL] using h)
    have g2 : Avoids N (AST.contentsL cs) := Avoids.right (by simpa [AST.contentsL] using h)
    have h1 := blindTo_expandOther he o c g1
    have h2 := blindTo_expandChildren he o cs g2
    rcases c with ⟨k, i, v, l⟩ | ⟨k, i, es, l⟩
    · simp only [Brack.expandChildren]
      exact BlindTo.bind h1 (fun _ _ => BlindTo.bind h2 (fun _ _ => BlindTo.pure _))
    · by_cases hk : k = .bracket .angle
      · subst hk
        simp only [Brack.expandChildren]
        exact BlindTo.bind (blindTo_expandAngle he _ _ _ (by simpa [AST.contents] using g1))
          (fun _ _ => BlindTo.bind h2 (fun _ _ => BlindTo.pure _))
      · rw [Brack.expandChildren]
        · exact BlindTo.bind h1 (fun _ _ => BlindTo.bind h2 (fun _ _ => BlindTo.pure _))
        · intro _ _ _ h; injection h with h _; exact hk h

end

theorem blindTo_bailWith (a : AST) : BlindTo N (bailWith a : PM W Str) := by
  unfold bailWith
  exact BlindTo.bind (BlindTo.lift _) (fun _ _ => BlindTo.bail _)

theorem blindTo_nameOf (k : ALKind) (a : AST) : BlindTo N (nameOf k a : PM W Str) := by
  unfold nameOf
  split
  · split
    · split
      · exact BlindTo.pure _
      · exact BlindTo.bail _
    · exact BlindTo.bail _
  · exact BlindTo.bail _

theorem nameOf_avoids {a : AST} (h : Avoids N a.contents) {v : Str} {ps ps' : Plugins W}
    (hr : nameOf .module a ps = (.ok v, ps')) : ¬ N v := by
  rcases a with ⟨k, i, w, l⟩ | ⟨k, i, cs, l⟩
  · unfold nameOf at hr
    by_cases hk : k = .module
    · subst hk
      rcases w with _ | w
      · simp [PM.bail] at hr
      · simp only [if_pos, Pure.pure, PM.pure] at hr
        injection hr with hr _
        injection hr with hr
        subst hr
        exact h ⟨.module, some w, l⟩ (by simp [AST.contents]) rfl w rfl
    · simp [hk, PM.bail] at hr
  · simp [nameOf, PM.bail] at hr

theorem blindTo_callCommand (ck : Bool) (t : PType) (m c : Str) (ts : List PType) (args : List Str) (hm : ¬ N m) :
    BlindTo N (callCommand ck t m c ts args : PM W Str) := by
  unfold callCommand
  split
  · split
    · exact BlindTo.bail _
    · split
      · exact BlindTo.bail _
      · split
        · exact BlindTo.callText _ _ _ _ hm
        · exact BlindTo.lift _
        · exact BlindTo.lift _
  · exact BlindTo.lift _
  · exact BlindTo.lift _

theorem blindTo_commandGenerate (ck : Bool) (b : Bracket) (m i : AST) (args : List Str) (h : Avoids N m.contents) :
    BlindTo N (commandGenerate ck b m i args : PM W Str) := by
  unfold commandGenerate
  refine BlindTo.bind (blindTo_nameOf _ _) (fun v hv => ?_)
  obtain ⟨ps, ps', hv⟩ := hv
  have hm := nameOf_avoids h hv
  exact BlindTo.bind (blindTo_nameOf _ _) (fun _ _ =>
    BlindTo.bind (BlindTo.argumentTypes _ _ _ hm) (fun _ _ => blindTo_callCommand _ _ _ _ _ _ hm))

mutual

theorem blindTo_genChild (ck inDoc : Bool) : ∀ (a : AST), Avoids N a.contents → BlindTo N (genChild ck inDoc a : PM W Str)
  | .leaf .text i v l, _ => by
    rcases v with _ | v <;> simp only [Brack.genChild, textGenerate]
    · exact BlindTo.bail _
    · exact BlindTo.bind (BlindTo.hook .text _) (fun _ _ => BlindTo.pure _)
  | .leaf .module _ _ _, _ | .leaf .ident _ _ _, _ | .leaf .invalid _ _ _, _ | .leaf .ignored _ _ _, _ => by
    simp only [Brack.genChild]; exact blindTo_bailWith _
  | .node .document _ _ _, _ => by simp only [Brack.genChild]; exact blindTo_bailWith _
  | .node .stmt i cs l, h => by
    have := blindTo_genChildren ck false cs (by simpa [AST.contents] using h)
    simp only [Brack.genChild]
    split
    · exact BlindTo.bind this (fun _ _ => BlindTo.bind (BlindTo.hook .stmt _) (fun _ _ => BlindTo.pure _))
    · exact blindTo_bailWith _
  | .node .expr i cs l, h => by
    have := blindTo_genChildren ck false cs (by simpa [AST.contents] using h)
    simp only [Brack.genChild]
    exact BlindTo.bind this (fun _ _ => BlindTo.bind (BlindTo.hook .expr _) (fun _ _ => BlindTo.pure _))
  | .node (.bracket .angle) _ _ _, _ => by simp only [Brack.genChild]; exact BlindTo.bail _
  | .node (.bracket .square) _ [] _, _ | .node (.bracket .square) _ [_] _, _
  | .node (.bracket .curly) _ [] _, _ | .node (.bracket .curly) _ [_] _, _ => by
    simp only [Brack.genChild]; exact BlindTo.bail _
  | .node (.bracket .square) _ (m :: i :: cs) _, h => by
    have h : Avoids N (m.contents ++ (i.contents ++ AST.contentsL cs)) := by simpa [AST.contents, AST.contentsL] using h
    have := blindTo_genChildren ck false cs h.right.right
    simp only [Brack.genChild]
    exact BlindTo.bind this (fun _ _ => blindTo_commandGenerate _ _ _ _ _ h.left)
  | .node (.bracket .curly) _ (m :: i :: cs) _, h => by
    have h : Avoids N (m.contents ++ (i.contents ++ AST.contentsL cs)) := by simpa [AST.contents, AST.contentsL] using h
    have := blindTo_genChildren ck false cs h.right.right
    simp only [Brack.genChild]
    exact BlindTo.bind this (fun _ _ => blindTo_commandGenerate _ _ _ _ _ h.left)

theorem blindTo_genChildren (ck inDoc : Bool) : ∀ (cs : List AST), Avoids N (AST.contentsL cs) →
    BlindTo N (genChildren ck inDoc cs : PM W (List Str))
  | [], _ => by simp only [Brack.genChildren]; exact BlindTo.pure _
  | c :: cs, h => by
    have h : Avoids N (c.contents ++ AST.contentsL cs) := by simpa [AST.contentsL] using h
    have h1 := blindTo_genChild ck inDoc c h.left
    have h2 := blindTo_genChildren ck inDoc cs h.right
    simp only [Brack.genChildren]
    exact BlindTo.bind h1 (fun _ _ => BlindTo.bind h2 (fun _ _ => BlindTo.pure _))

end

theorem blindTo_generate (ck : Bool) (a : AST) (h : Avoids N a.contents) : BlindTo N (generate ck a : PM W Str) := by
  rcases a with ⟨k, i, v, l⟩ | ⟨k, i, cs, l⟩
  · simp only [Brack.generate]; exact BlindTo.bail _
  · rcases k with _ | _ | _ | _ <;> simp only [Brack.generate]
    · exact BlindTo.bind (blindTo_genChildren _ _ _ (by simpa [AST.contents] using h))
        (fun _ _ => BlindTo.bind (BlindTo.hook .document _) (fun _ _ => BlindTo.pure _))
    all_goals exact BlindTo.bail _

theorem compileText_blindTo (S : Segmenter) (ids : Nat → Str) (checks : Bool) (text : Str)
    (hN : ∀ n, N n → n ≠ [] ∧ ¬ Uses S text n) : BlindTo N (compileText S ids checks text : PM W Str) := by
  unfold compileText
  refine BlindTo.bind (BlindTo.lift _) (fun ts hts => BlindTo.bind (BlindTo.lift _) (fun c hc =>
    BlindTo.bind (BlindTo.lift _) (fun x hx => ?_)))
  obtain ⟨a, es⟩ := x
  obtain ⟨_, _, hts⟩ := hts
  obtain ⟨_, _, hc⟩ := hc
  obtain ⟨_, _, hx⟩ := hx
  injection hts with hts _
  injection hc with hc _
  injection hx with hx _
  have ha : Avoids N a.contents := by
    intro q hq hk v hv hn
    rw [C22_content ts c ids a es hc hx] at hq
    obtain ⟨e, he, hq⟩ := List.mem_filterMap.mp hq
    refine (hN v hn).2 ⟨ts, ?_⟩
    rcases e with ⟨st, t⟩ | ⟨st, b, ch, t⟩ | ⟨st, t⟩ | _ | _ | _
    · obtain ⟨k, l⟩ := t
      have hmem := trace_plain_mem _ ts [] (Nat.le_refl _) _ _ he
      rcases k
      case module s =>
        simp only [Event.content?, Option.some.injEq] at hq
        subst hq
        simp only [Option.some.injEq] at hv
        subst hv
        exact ⟨_, hts, hmem, rfl⟩
      all_goals simp only [Event.content?, Option.some.injEq, reduceCtorEq] at hq
      all_goals subst hq; simp at hk
    all_goals simp only [Event.content?, Option.some.injEq, reduceCtorEq] at hq
    all_goals subst hq; simp at hk
  have he : ¬ N [] := fun h => (hN [] h).1 rfl
  refine BlindTo.bind (blindTo_expandOther he a a ha) (fun b hb => ?_)
  obtain ⟨ps, ps', hb⟩ := hb
  have := expandOther_result a a ps b (by rw [show expandOther a a ps = _ from hb])
  subst this
  exact blindTo_generate checks _ ha

/-! ### plugin sets -/

theorem newLoop_alikeExcept (rest : List (Plugin W)) : ∀ {ps qs : Plugins W}, AlikeExcept N ps qs →
    (∀ p ∈ rest, ¬ N p.name) → Res.Same (AlikeExcept N) (Plugins.newLoop rest ps) (Plugins.newLoop rest qs) := by
  induction rest with
  | nil => intro ps qs h _; exact h
  | cons p rest ih =>
    intro ps qs h hr
    have hp := hr p (by simp)
    rw [Plugins.newLoop, Plugins.newLoop]
    have hd : ps.documentHook = qs.documentHook := h.hook .document
    have hs : ps.stmtHook = qs.stmtHook := h.hook .stmt
    have he : ps.exprHook = qs.exprHook := h.hook .expr
    have ht : ps.textHook = qs.textHook := h.hook .text
    rw [← hd, ← hs, ← he, ← ht]
    have claim : ∀ {en cur msg o}, (∀ n, cur = some n → ¬ N n) → claimHook en p.name cur msg = .ok o →
        ∀ n, o = some n → ¬ N n := by
      intro en cur msg o hc ho n hn
      rcases en <;> rcases cur <;> simp [claimHook] at ho <;> subst ho
      · cases hn
      · exact hc n hn
      · injection hn with hn; exact hn ▸ hp
    rcases e1 : claimHook p.flag.documentHook p.name ps.documentHook "only one document hook is allowed" with d | m | _
    case err => exact rfl
    case panic => exact trivial
    rcases e2 : claimHook p.flag.stmtHook p.name ps.stmtHook "only one stmt hook is allowed" with s | m | _
    case err => exact rfl
    case panic => exact trivial
    rcases e3 : claimHook p.flag.exprHook p.name ps.exprHook "only one expr hook is allowed" with e | m | _
    case err => exact rfl
    case panic => exact trivial
    rcases e4 : claimHook p.flag.textHook p.name ps.textHook "only one text hook is allowed" with t | m | _
    case err => exact rfl
    case panic => exact trivial
    refine ih ⟨?_, ?_, ?_, h.log⟩ (fun q hq => hr q (by simp [hq]))
    · intro n hn
      simp only [HMap.get_insert, h.plugin n hn]
    · intro k
      rcases k <;> rfl
    · intro k n
      rcases k
      · exact claim (h.unhooked .document) e1 n
      · exact claim (h.unhooked .stmt) e2 n
      · exact claim (h.unhooked .expr) e3 n
      · exact claim (h.unhooked .text) e4 n

theorem newLoop_extra (p : Plugin W) (hf : ∀ k : Hook, k.enabled p.flag = false) (l r : List (Plugin W))
    (hl : ∀ q ∈ l, q.name ≠ p.name) (hr : ∀ q ∈ r, q.name ≠ p.name) : ∀ {ps qs : Plugins W},
    AlikeExcept (· = p.name) ps qs →
    Res.Same (AlikeExcept (· = p.name)) (Plugins.newLoop (l ++ p :: r) ps) (Plugins.newLoop (l ++ r) qs) := by
  induction l with
  | nil =>
    intro ps qs h
    simp only [List.nil_append]
    have hw : Plugins.newLoop (p :: r) ps = Plugins.newLoop r (withPlugin ps p) := by
      rcases newLoop_cons p r ps with ⟨⟨k, hk, _⟩, _⟩ | ⟨_, h⟩
      · rw [hf k] at hk; cases hk
      · exact h
    rw [hw]
    refine newLoop_alikeExcept r ⟨?_, ?_, ?_, h.log⟩ hr
    · intro n hn
      rw [withPlugin_get, if_neg hn, h.plugin n hn]
    · intro k
      rw [withPlugin_hook, hf k]
      exact h.hook k
    · intro k n hk
      rw [withPlugin_hook, hf k] at hk
      exact h.unhooked k n hk
  | cons q l ih =>
    intro ps qs h
    have hq : q.name ≠ p.name := hl q (by simp)
    have := newLoop_alikeExcept [q] h (by simpa using hq)
    simp only [List.cons_append]
    have split : ∀ (rest : List (Plugin W)) (xs : Plugins W), Plugins.newLoop (q :: rest) xs =
        (match Plugins.newLoop [q] xs with
          | .ok ys => Plugins.newLoop rest ys
          | .err m => .err m
          | .panic => .panic) := by
      intro rest xs
      rw [Plugins.newLoop, Plugins.newLoop]
      rcases claimHook q.flag.documentHook q.name xs.documentHook "only one document hook is allowed" with d | m | _
      case err => rfl
      case panic => rfl
      rcases claimHook q.flag.stmtHook q.name xs.stmtHook "only one stmt hook is allowed" with s | m | _
      case err => rfl
      case panic => rfl
      rcases claimHook q.flag.exprHook q.name xs.exprHook "only one expr hook is allowed" with e | m | _
      case err => rfl
      case panic => rfl
      rcases claimHook q.flag.textHook q.name xs.textHook "only one text hook is allowed" with t | m | _
      case err => rfl
      case panic => rfl
      rfl
    rw [split (l ++ p :: r), split (l ++ r)]
    rcases e1 : Plugins.newLoop [q] ps with a | m | _ <;> rcases e2 : Plugins.newLoop [q] qs with b | m' | _ <;>
      rw [e1, e2] at this <;> simp only [Res.Same] at this
    · exact ih (fun x hx => hl x (by simp [hx])) this
    · exact this
    · exact trivial

/-! ### builds side by side -/

/-- Two worlds that differ in the number of operations made only, in which nothing goes wrong. -/
structure Synced (I : HMap Str Bytes → Prop) (w w' : World) : Prop where
  files : w'.files = w.files
  dirs : w'.dirs = w.dirs
  log : w'.log = w.log
  left : w.Healthy
  right : w'.Healthy
  inv : I w.files

variable {I J : HMap Str Bytes → Prop}

/-- Two computations with related results in such worlds. -/
def IOM.Sim (I : HMap Str Bytes → Prop) (Q : α → β → Prop) (x : IOM α) (y : IOM β) : Prop :=
  ∀ w w', Synced I w w' → Res.Same Q (x w).1 (y w').1 ∧ Synced I (x w).2 (y w').2

theorem IOM.Sim.pure {Q : α → β → Prop} {a : α} {b : β} (h : Q a b) :
    IOM.Sim I Q (Pure.pure a : IOM α) (Pure.pure b) := fun _ _ hs => ⟨h, hs⟩

theorem IOM.Sim.lift {Q : α → β → Prop} {a : Res α} {b : Res β} (h : Res.Same Q a b) :
    IOM.Sim I Q (IOM.lift a) (IOM.lift b) := fun _ _ hs => ⟨h, hs⟩

theorem IOM.Sim.bind {Q : α → β → Prop} {Q' : γ → δ → Prop} {x : IOM α} {y : IOM β} {f : α → IOM γ} {g : β → IOM δ}
    (hx : IOM.Sim I Q x y) (hf : ∀ a b, Q a b → IOM.Sim I Q' (f a) (g b)) : IOM.Sim I Q' (x >>= f) (y >>= g) := by
  intro w w' hs
  obtain ⟨h1, h2⟩ := hx w w' hs
  rw [IOM.bind_run, IOM.bind_run]
  rcases e1 : x w with ⟨a | m | _, w1⟩ <;> rcases e2 : y w' with ⟨b | m' | _, w2⟩ <;> rw [e1, e2] at h1 h2 <;>
    simp only [Res.Same] at h1
  · exact hf a b h1 w1 w2 h2
  · exact ⟨h1, h2⟩
  · exact ⟨trivial, h2⟩

theorem Synced.tick {w w' : World} (h : Synced I w w') :
    Synced I { w with clock := w.clock + 1 } { w' with clock := w'.clock + 1 } :=
  ⟨h.files, h.dirs, h.log, fun n hn => h.left n (by simp only at hn; omega),
    fun n hn => h.right n (by simp only at hn; omega), h.inv⟩

theorem Synced.tickLeft {w w' : World} (h : Synced I w w') : Synced I { w with clock := w.clock + 1 } w' :=
  ⟨h.files, h.dirs, h.log, fun n hn => h.left n (by simp only at hn; omega), h.right, h.inv⟩

theorem IOM.Sim.step : IOM.Sim I Eq IOM.step IOM.step := by
  intro w w' hs
  rw [step_run (hs.left _ (Nat.le_refl _)), step_run (hs.right _ (Nat.le_refl _))]
  exact ⟨rfl, hs.tick⟩

theorem IOM.Sim.readFile (p : Str) : IOM.Sim I Eq (IOM.readFile p) (IOM.readFile p) := by
  unfold IOM.readFile
  refine IOM.Sim.bind IOM.Sim.step (fun _ _ _ => ?_)
  intro w w' hs
  simp only [hs.files]
  rcases w.files.get p with _ | b
  · exact ⟨rfl, hs⟩
  · exact ⟨rfl, hs⟩

/-- What is read is in the file. -/
def ReadFrom (I : HMap Str Bytes → Prop) (p : Str) (a b : Str) : Prop :=
  a = b ∧ ∃ f bytes, I f ∧ f.get p = some bytes ∧ fromUtf8 bytes = some a

theorem IOM.Sim.readText (p : Str) : IOM.Sim I (ReadFrom I p) (IOM.readText p) (IOM.readText p) := by
  unfold IOM.readText
  refine IOM.Sim.bind (Q := fun a b => a = b ∧ ∃ f, I f ∧ f.get p = some a) ?_ (fun a b h => ?_)
  · unfold IOM.readFile
    refine IOM.Sim.bind IOM.Sim.step (fun _ _ _ => ?_)
    intro w w' hs
    simp only [hs.files]
    rcases h : w.files.get p with _ | b
    · exact ⟨rfl, hs⟩
    · exact ⟨⟨rfl, w.files, hs.inv, h⟩, hs⟩
  · obtain ⟨rfl, f, hf, ha⟩ := h
    rcases ht : fromUtf8 a with _ | t
    · exact fun _ _ hs => ⟨rfl, hs⟩
    · exact IOM.Sim.pure ⟨rfl, f, a, hf, ha, ht⟩

theorem IOM.Sim.readDir (d : Str) : IOM.Sim I Eq (IOM.readDir d) (IOM.readDir d) := by
  unfold IOM.readDir
  refine IOM.Sim.bind IOM.Sim.step (fun _ _ _ => ?_)
  intro w w' hs
  have : w'.entries d = w.entries d := by rw [World.entries, World.entries, hs.files, hs.dirs]
  simp only [hs.dirs, this]
  split
  · exact ⟨rfl, hs⟩
  · exact ⟨rfl, hs⟩

theorem IOM.Sim.createDirAll (d : Str) : IOM.Sim I Eq (IOM.createDirAll d) (IOM.createDirAll d) := by
  unfold IOM.createDirAll
  refine IOM.Sim.bind IOM.Sim.step (fun _ _ _ => ?_)
  intro w w' hs
  simp only [hs.dirs, hs.files]
  split
  · exact ⟨rfl, hs⟩
  · split
    · exact ⟨rfl, hs⟩
    · exact ⟨rfl, rfl, rfl, hs.log, hs.left, hs.right, hs.inv⟩

theorem IOM.Sim.writeFile (p : Str) (b : Bytes) (hI : ∀ f, I f → I (f.insert p b)) :
    IOM.Sim I Eq (IOM.writeFile p b) (IOM.writeFile p b) := by
  intro w w' hs
  have h1 : w'.hasDir (parentDir p) = w.hasDir (parentDir p) := by rw [World.hasDir, World.hasDir, hs.dirs]
  unfold IOM.writeFile
  simp only [h1, hs.dirs, hs.left _ (Nat.le_refl _), hs.right _ (Nat.le_refl _)]
  have hl : ∀ n, w.clock + 1 ≤ n → w.faults n = .none := fun n hn => hs.left n (by omega)
  have hr : ∀ n, w'.clock + 1 ≤ n → w'.faults n = .none := fun n hn => hs.right n (by omega)
  split
  · exact ⟨rfl, by simp [hs.files], rfl, by simp [hs.log], hl, hr, hI _ hs.inv⟩
  · exact ⟨rfl, hs.files, rfl, hs.log, hl, hr, hs.inv⟩

theorem IOM.Sim.printLine (l : Str) : IOM.Sim I Eq (IOM.printLine l) (IOM.printLine l) := by
  intro w w' hs
  exact ⟨rfl, hs.files, hs.dirs, by simp [IOM.printLine, hs.log], hs.left, hs.right, hs.inv⟩

theorem listOutputs_sim (names : List Str) : IOM.Sim I Eq (listOutputs names) (listOutputs names) := by
  induction names with
  | nil => exact IOM.Sim.pure rfl
  | cons n names ih =>
    exact IOM.Sim.bind IOM.Sim.step (fun _ _ _ => IOM.Sim.bind (IOM.Sim.printLine _) (fun _ _ _ => ih))

theorem loadPlugins_sim (W : Wasm) (md : PluginsMetadata) :
    IOM.Sim I (fun a b => a = b ∧ a.map (·.name) = md.map (·.1)) (loadPlugins W md) (loadPlugins W md) := by
  induction md with
  | nil => exact IOM.Sim.pure ⟨rfl, rfl⟩
  | cons x md ih =>
    obtain ⟨name, path, flag⟩ := x
    refine IOM.Sim.bind (IOM.Sim.readFile _) (fun b b' hb => ?_)
    subst hb
    refine IOM.Sim.bind (Q := fun p q => p = q ∧ p.name = name) (IOM.Sim.lift ?_) (fun p q hp => ?_)
    · refine Res.Same.refl_of (fun p hp => ⟨rfl, ?_⟩)
      rcases plugin_new_cases W name b flag with ⟨_, e, h⟩ | ⟨ms, _, ⟨s, sigs, h, _⟩ | ⟨⟨e, h⟩, _⟩⟩
      · rw [h] at hp; cases hp
      · rw [h] at hp; injection hp with hp; rw [← hp]
      · rw [h] at hp; cases hp
    · obtain ⟨rfl, hp⟩ := hp
      refine IOM.Sim.bind ih (fun l l' hl => ?_)
      obtain ⟨rfl, hl⟩ := hl
      exact IOM.Sim.pure ⟨rfl, by simp [hl, hp]⟩

theorem loadPlugins_extra (W : Wasm) (a b : PluginsMetadata) (name path : Str) (flag : FeatureFlag) (p : Plugin W)
    (hI : ∀ f, I f → ∃ bytes, f.get path = some bytes ∧ Plugin.new W name bytes flag = .ok p) :
    IOM.Sim I (fun l r => ∃ xs ys, l = xs ++ p :: ys ∧ r = xs ++ ys ∧ xs.map (·.name) = a.map (·.1) ∧
      ys.map (·.name) = b.map (·.1)) (loadPlugins W (a ++ (name, path, flag) :: b)) (loadPlugins W (a ++ b)) := by
  induction a with
  | nil =>
    intro w w' hs
    obtain ⟨bytes, h1, h2⟩ := hI _ hs.inv
    have hr : IOM.readFile path w = (.ok bytes, { w with clock := w.clock + 1 }) := by
      unfold IOM.readFile
      rw [IOM.bind_of_ok (step_run (hs.left _ (Nat.le_refl _)))]
      simp only [h1]
    rw [List.nil_append, List.nil_append, loadPlugins, IOM.bind_of_ok hr, h2, IOM.bind_of_ok (IOM.lift_run _ _)]
    have := loadPlugins_sim W b _ _ hs.tickLeft
    rw [IOM.bind_run]
    revert this
    rcases loadPlugins W b { w with clock := w.clock + 1 } with ⟨l | m | _, w1⟩ <;>
      rcases loadPlugins W b w' with ⟨l' | m' | _, w2⟩ <;> rintro ⟨g1, g2⟩ <;> simp only [Res.Same] at g1
    · obtain ⟨rfl, g1⟩ := g1
      exact ⟨⟨[], l, rfl, rfl, rfl, g1⟩, g2⟩
    · exact ⟨g1, g2⟩
    · exact ⟨trivial, g2⟩
  | cons x a ih =>
    obtain ⟨n, q, fl⟩ := x
    simp only [List.cons_append]
    refine IOM.Sim.bind (IOM.Sim.readFile _) (fun b1 b2 hb => ?_)
    subst hb
    refine IOM.Sim.bind (Q := fun p q => p = q ∧ p.name = n) (IOM.Sim.lift ?_) (fun p1 p2 hp => ?_)
    · refine Res.Same.refl_of (fun p hp => ⟨rfl, ?_⟩)
      rcases plugin_new_cases W n b1 fl with ⟨_, e, h⟩ | ⟨ms, _, ⟨s, sigs, h, _⟩ | ⟨⟨e, h⟩, _⟩⟩
      · rw [h] at hp; cases hp
      · rw [h] at hp; injection hp with hp; rw [← hp]
      · rw [h] at hp; cases hp
    · obtain ⟨rfl, hp⟩ := hp
      refine IOM.Sim.bind ih (fun l l' hl => ?_)
      obtain ⟨xs, ys, rfl, rfl, h1, h2⟩ := hl
      exact IOM.Sim.pure ⟨p1 :: xs, ys, rfl, rfl, by simp [h1, hp], h2⟩

/-- The documents are as in `f0`. -/
def SameDocs (f0 f : HMap Str Bytes) : Prop :=
  ∀ name, f.get (chars! "docs/" ++ name) = f0.get (chars! "docs/" ++ name)

theorem SameDocs.insert {f0 f : HMap Str Bytes} (h : SameDocs f0 f) (stem backend : Str) (b : Bytes) :
    SameDocs f0 (f.insert (outputPath stem backend) b) := by
  intro name
  rw [HMap.get_insert, if_neg (docPath_ne_outputPath _ _ _)]
  exact h name

theorem buildLoop_sim (E : Env) (backend : Str) (f0 : HMap Str Bytes)
    (hdocs : ∀ stem b text n, f0.get (chars! "docs/" ++ stem ++ chars! ".[]") = some b → fromUtf8 b = some text → N n →
      n ≠ [] ∧ ¬ Uses E.S text n) (names : List Str) : ∀ (i : Nat) (ps qs : Plugins W), AlikeExcept N ps qs →
    IOM.Sim (SameDocs f0) (AlikeExcept N) (buildLoop E backend i names ps) (buildLoop E backend i names qs) := by
  induction names with
  | nil => exact fun i ps qs h => IOM.Sim.pure h
  | cons name names ih =>
    intro i ps qs h
    rw [buildLoop_cons, buildLoop_cons]
    refine IOM.Sim.bind IOM.Sim.step (fun _ _ _ => ?_)
    split
    · next he =>
      refine IOM.Sim.bind (Q := AlikeExcept N) ?_ (fun ps qs h => ih (i + 1) ps qs h)
      unfold buildOne
      refine IOM.Sim.bind (IOM.Sim.readText _) (fun t t' ht => ?_)
      obtain ⟨rfl, f, bytes, hf, hb, ht⟩ := ht
      have hname : name = (splitExtension name).1 ++ chars! ".[]" :=
        (docStem_iff.mp (show docStem name = some (splitExtension name).1 by rw [docStem, if_pos he])).1
      have hblind := compileText_blindTo (W := W) (N := N) E.S (E.ids i) E.checks t (fun n hn =>
        hdocs (splitExtension name).1 bytes t n (by
          rw [List.append_assoc, ← hname, ← hf name]; exact hb) ht hn)
      obtain ⟨h1, h2, _, _⟩ := hblind ps qs h
      rw [← h1]
      refine IOM.Sim.bind (IOM.Sim.lift (Res.Same.refl (Q := Eq) (fun _ => rfl) _)) (fun g g' hg => ?_)
      subst hg
      exact IOM.Sim.bind (IOM.Sim.createDirAll _) (fun _ _ _ =>
        IOM.Sim.bind (IOM.Sim.writeFile _ _ (fun f hf => hf.insert _ _ _)) (fun _ _ _ => IOM.Sim.pure h2))
    · exact ih i ps qs h

theorem IOM.Sim.weaken {Q : α → β → Prop} {x : IOM α} {y : IOM β} (h : IOM.Sim I Q x y) {w w' : World}
    (hs : Synced I w w') (hIJ : ∀ f, I f → J f) :
    Res.Same Q (x w).1 (y w').1 ∧ Synced J (x w).2 (y w').2 := by
  obtain ⟨h1, h2⟩ := h w w' hs
  exact ⟨h1, h2.files, h2.dirs, h2.log, h2.left, h2.right, hIJ _ h2.inv⟩

/-- A computable form of `Uses`. -/
def usesB (S : Segmenter) (text n : Str) : Bool :=
  match tokenizeStr S text with
  | .ok ts => ts.any (fun t => decide (t.kind = .module n))
  | _ => false

theorem uses_of {S : Segmenter} {text n : Str} (h : usesB S text n = true) : Uses S text n := by
  unfold usesB at h
  rcases ht : tokenizeStr S text with ts | m | _ <;> rw [ht] at h
  · obtain ⟨t, h1, h2⟩ := List.any_eq_true.mp h
    exact ⟨ts, t, ht, h1, of_decide_eq_true h2⟩
  · cases h
  · cases h

theorem not_uses {S : Segmenter} {text n : Str} (h : usesB S text n = false) : ¬ Uses S text n := by
  rintro ⟨ts, t, h1, h2, h3⟩
  unfold usesB at h
  rw [h1] at h
  have := List.any_eq_false.mp h t h2
  exact this (decide_eq_true h3)

end Brack
