import Verif.Spec.Crossed
import Verif.Proof.Paragraphs
import Verif.Proof.Exchange
import Verif.Proof.Rename

/-
Two runs of the code generator, on trees and plugins with inline and block commands exchanged.
-/

namespace Brack

variable {W : Wasm}

/-- Computations with the same outcome on crossed plugins. -/
def PM.CRel (x y : PM W α) : Prop :=
  ∀ ps qs, Crossed ps qs → (x ps).1 = (y qs).1 ∧ Crossed (x ps).2 (y qs).2

theorem PM.CRel.lift (a : Res α) : PM.CRel (W := W) (PM.lift a) (PM.lift a) := fun _ _ h => ⟨rfl, h⟩

theorem PM.CRel.pure (a : α) : PM.CRel (W := W) (Pure.pure a) (Pure.pure a) := fun _ _ h => ⟨rfl, h⟩

theorem PM.CRel.bail (m : String) : PM.CRel (W := W) (α := α) (PM.bail m) (PM.bail m) := fun _ _ h => ⟨rfl, h⟩

theorem PM.CRel.bind {x y : PM W α} {f g : α → PM W β} (h : PM.CRel x y) (hf : ∀ a, PM.CRel (f a) (g a)) :
    PM.CRel (x >>= f) (y >>= g) := by
  intro ps qs hps
  obtain ⟨h1, h2⟩ := h ps qs hps
  rw [PM.bind_run, PM.bind_run]
  generalize x ps = o at *
  generalize y qs = o' at *
  obtain ⟨a, ps'⟩ := o
  obtain ⟨b, qs'⟩ := o'
  simp only at h1 h2
  subst h1
  rcases a with a | m | _
  · exact hf a _ _ h2
  · exact ⟨rfl, h2⟩
  · exact ⟨rfl, h2⟩

theorem Crossed.insert {ps qs : Plugins W} (h : Crossed ps qs) {n : Str} {p q : Plugin W}
    (hp : ps.nameToPlugin.get n = some p) (hq : qs.nameToPlugin.get n = some q) (s : W.State) {c d : Call}
    (hc : c.what = d.what) :
    Crossed { ps with nameToPlugin := ps.nameToPlugin.insert n { p with extism := s }, log := ps.log ++ [c] }
      { qs with nameToPlugin := qs.nameToPlugin.insert n { q with extism := s }, log := qs.log ++ [d] } := by
  refine ⟨fun k => ?_, fun j => ?_, ?_⟩
  · have := h.hook k
    cases k <;> exact this
  · by_cases hj : j = n
    · subst hj
      right
      refine ⟨_, _, HMap.get_insert_self _ _ _, HMap.get_insert_self _ _ _, rfl, ?_⟩
      rcases h.plugins j with ⟨h1, _⟩ | ⟨p', q', h1, h2, _, h3, h4⟩
      · rw [hp] at h1; cases h1
      · rw [hp] at h1; rw [hq] at h2
        cases h1; cases h2
        refine ⟨h3, fun k hk => h4 k ?_⟩
        cases k <;> exact hk
    · simp only
      rw [HMap.get_insert_ne hj, HMap.get_insert_ne hj]
      rcases h.plugins j with h1 | ⟨p', q', h1, h2, h5, h3, h4⟩
      · exact .inl h1
      · refine .inr ⟨p', q', h1, h2, h5, h3, fun k hk => h4 k ?_⟩
        cases k <;> exact hk
  · simp only [List.map_append, List.map_cons, List.map_nil, h.log, hc]

/-- Calling functions offered alike. -/
theorem callText_crossed {ps qs : Plugins W} (h : Crossed ps qs) {n c : Str} {t t' : PType} (vs : List Value)
    (ho : ∀ p q, ps.nameToPlugin.get n = some p → qs.nameToPlugin.get n = some q →
      SameOffer (p.signatures.get (c, t)) (q.signatures.get (c, t'))) :
    (Plugins.callText n c t vs ps).1 = (Plugins.callText n c t' vs qs).1 ∧
      Crossed (Plugins.callText n c t vs ps).2 (Plugins.callText n c t' vs qs).2 := by
  unfold Plugins.callText
  rcases h.plugins n with ⟨h1, h2⟩ | ⟨p, q, h1, h2, h3, _⟩
  · rw [h1, h2]; exact ⟨rfl, h⟩
  · have hs := ho p q h1 h2
    rw [h1, h2]
    simp only
    generalize p.signatures.get (c, t) = o at *
    generalize q.signatures.get (c, t') = o' at *
    rcases o with _ | m <;> rcases o' with _ | m' <;> simp only [SameOffer] at hs
    · exact ⟨rfl, h⟩
    · simp only
      rw [hs.1, h3]
      rcases W.callText q.extism m'.callName vs with ⟨r | r, s⟩
      · exact ⟨rfl, h.insert h1 h2 s rfl⟩
      · exact ⟨rfl, h.insert h1 h2 s rfl⟩

theorem callCommand_crossed {t : PType} (ht : t = .inline ∨ t = .block) (n c : Str) (vs : List Value) :
    PM.CRel (W := W) (Plugins.callText n c t vs) (Plugins.callText n c t.other vs) := by
  intro ps qs h
  refine callText_crossed h vs fun p q hp hq => ?_
  rcases h.plugins n with ⟨h1, _⟩ | ⟨p', q', h1, h2, _, h3, _⟩
  · rw [hp] at h1; cases h1
  · rw [hp] at h1; rw [hq] at h2
    cases h1; cases h2
    exact h3 c t ht

theorem argumentTypes_crossed {t : PType} (ht : t = .inline ∨ t = .block) (n c : Str) :
    PM.CRel (W := W) (Plugins.argumentTypes n c t) (Plugins.argumentTypes n c t.other) := by
  intro ps qs h
  unfold Plugins.argumentTypes
  rcases h.plugins n with ⟨h1, h2⟩ | ⟨p, q, h1, h2, _, h3, _⟩
  · rw [h1, h2]; exact ⟨rfl, h⟩
  · have hs := h3 c t ht
    rw [h1, h2]
    simp only
    generalize p.signatures.get (c, t) = o at *
    generalize q.signatures.get (c, t.other) = o' at *
    rcases o with _ | m <;> rcases o' with _ | m' <;> simp only [SameOffer] at hs
    · exact ⟨rfl, h⟩
    · exact ⟨by simp only [hs.2], h⟩

theorem hook_crossed (k : Hook) (vs : List Value) : PM.CRel (W := W) (k.call vs) (k.call vs) := by
  intro ps qs h
  have key : ∀ n, ps.hook k = some n → (Plugins.callText n k.command k.typ vs ps).1 = (Plugins.callText n k.command k.typ vs qs).1 ∧
      Crossed (Plugins.callText n k.command k.typ vs ps).2 (Plugins.callText n k.command k.typ vs qs).2 := by
    intro n hn
    refine callText_crossed h vs fun p q hp hq => ?_
    rcases h.plugins n with ⟨h1, _⟩ | ⟨p', q', h1, h2, _, _, h4⟩
    · rw [hp] at h1; cases h1
    · rw [hp] at h1; rw [hq] at h2
      cases h1; cases h2
      exact h4 k hn
  have hk := h.hook k
  have run : ∀ (f : PM W Str) (xs ys : Plugins W), (f xs).1 = (f ys).1 ∧ Crossed (f xs).2 (f ys).2 →
      ((do return some (← f) : PM W (Option Str)) xs).1 = ((do return some (← f) : PM W (Option Str)) ys).1 ∧
      Crossed ((do return some (← f) : PM W (Option Str)) xs).2 ((do return some (← f) : PM W (Option Str)) ys).2 := by
    rintro f xs ys ⟨h1, h2⟩
    rw [PM.bind_run, PM.bind_run]
    generalize f xs = o at *
    generalize f ys = o' at *
    obtain ⟨a, ps'⟩ := o
    obtain ⟨b, qs'⟩ := o'
    simp only at h1 h2
    subst h1
    rcases a with a | m | _ <;> exact ⟨rfl, h2⟩
  cases k <;> simp only [Plugins.hook, Hook.command, Hook.typ] at hk key <;>
    simp only [Hook.call, Plugins.callDocumentHook, Plugins.callStmtHook, Plugins.callExprHook, Plugins.callTextHook, hk]
  · rcases ho : qs.documentHook with _ | n
    · exact ⟨rfl, h⟩
    · exact run (Plugins.callBlock n _ vs) _ _ (key n (hk.trans ho))
  · rcases ho : qs.stmtHook with _ | n
    · exact ⟨rfl, h⟩
    · exact run (Plugins.callBlock n _ vs) _ _ (key n (hk.trans ho))
  · rcases ho : qs.exprHook with _ | n
    · exact ⟨rfl, h⟩
    · exact run (Plugins.callInline n _ vs) _ _ (key n (hk.trans ho))
  · rcases ho : qs.textHook with _ | n
    · exact ⟨rfl, h⟩
    · exact run (Plugins.callInline n _ vs) _ _ (key n (hk.trans ho))

theorem exchangeStr_unbracketed {v : Str} (h : ∀ x ∈ v, x ∉ ['{', '}', '[', ']']) : exchangeStr Bracket.other v = v := by
  induction v with
  | nil => rfl
  | cons c v ih =>
    have h1 := h c (by simp)
    simp only [List.mem_cons, List.not_mem_nil, or_false, not_or] at h1
    have h2 := ih fun x hx => h x (by simp [hx])
    simp only [exchangeStr, List.map_cons] at h2 ⊢
    rw [h2]
    congr 1
    unfold exchangeChar
    by_cases e1 : c = '<'
    · rw [if_pos e1, e1]; rfl
    · by_cases e2 : c = '>'
      · rw [if_neg e1, if_pos e2, e2]; rfl
      · rw [if_neg e1, if_neg e2, if_neg h1.1, if_neg h1.2.1, if_neg h1.2.2.1, if_neg h1.2.2.2]

theorem unbracketed_leaf {k i v l} (h : (AST.leaf k i v l).Unbracketed) :
    (AST.leaf k i v l).exchange Bracket.other = .leaf k i v l := by
  rcases v with _ | v
  · rfl
  · simp only [AST.exchange, Option.map_some]
    rw [exchangeStr_unbracketed (v := v) (h ⟨k, some v, l⟩ (by simp [AST.contents]))]

/-- No word in a list of trees contains a bracket. -/
def UnbracketedL (as : List AST) : Prop := ∀ a ∈ as, a.Unbracketed

theorem unbracketed_node {k i l} {as : List AST} (h : (AST.node k i as l).Unbracketed) : UnbracketedL as := by
  intro a ha c hc
  refine h c ?_
  simp only [AST.contents]
  clear h
  induction as with
  | nil => cases ha
  | cons b as ih =>
    simp only [AST.contentsL, List.mem_append]
    rcases List.mem_cons.mp ha with rfl | ha
    · exact .inl hc
    · exact .inr (ih ha)

mutual

theorem display_exchange (x : Bracket → Bracket) : ∀ (a : AST) (n : Nat), Res.same (a.display n) ((a.exchange x).display n)
  | .leaf k i v l, n => by
    cases k <;> rcases v with _ | v <;> simp [AST.exchange, AST.display, AST.leafLabel, Res.same]
  | .node k i cs l, n => by
    have := displayL_exchange x cs (n + 1)
    rw [AST.exchange, AST.display, AST.display]
    generalize AST.displayL (n + 1) (AST.exchangeL x cs) = r at this
    generalize AST.displayL (n + 1) cs = r' at this
    rcases r with _ | _ | _ <;> rcases r' with _ | _ | _ <;> simp_all [Res.same]

theorem displayL_exchange (x : Bracket → Bracket) :
    ∀ (as : List AST) (n : Nat), Res.same (AST.displayL n as) (AST.displayL n (AST.exchangeL x as))
  | [], n => by simp [AST.exchangeL, AST.displayL, Res.same]
  | a :: as, n => by
    have h1 := display_exchange x a n
    have h2 := displayL_exchange x as n
    rw [AST.exchangeL, AST.displayL, AST.displayL]
    generalize AST.displayL n (AST.exchangeL x as) = r at h2
    generalize AST.displayL n as = r' at h2
    generalize (a.exchange x).display n = q at h1
    generalize a.display n = q' at h1
    rcases r with _ | _ | _ <;> rcases r' with _ | _ | _ <;> rcases q with _ | _ | _ <;> rcases q' with _ | _ | _ <;>
      simp_all [Res.same]

end

theorem bailWith_crossed (a : AST) : PM.CRel (W := W) (bailWith a) (bailWith (a.exchange Bracket.other)) := by
  intro ps qs hc
  unfold bailWith
  rw [PM.bind_run, PM.bind_run, PM.lift_run, PM.lift_run]
  have h := display_exchange Bracket.other a 0
  generalize a.display 0 = o at *
  generalize (a.exchange Bracket.other).display 0 = o' at *
  rcases o with s | m | _ <;> rcases o' with s' | m' | _ <;> simp only [Res.same] at h
  · exact ⟨rfl, hc⟩
  · subst h; exact ⟨rfl, hc⟩
  · exact ⟨rfl, hc⟩

theorem nameOf_crossed (k : ALKind) {a : AST} (ha : a.Unbracketed) :
    PM.CRel (W := W) (nameOf k a) (nameOf k (a.exchange Bracket.other)) := by
  rcases a with ⟨k', i, v, l⟩ | ⟨k', i, cs, l⟩
  · rw [unbracketed_leaf ha]
    simp only [nameOf]
    split
    · rcases v with _ | v
      · exact PM.CRel.bail _
      · exact PM.CRel.pure _
    · exact PM.CRel.bail _
  · simp only [AST.exchange, nameOf]
    exact PM.CRel.bail _

theorem commandGenerate_crossed (checks : Bool) {b : Bracket} (hb : b ≠ .angle) {m i : AST} (hm : m.Unbracketed)
    (hi : i.Unbracketed) (args : List Str) :
    PM.CRel (W := W) (commandGenerate checks b m i args)
      (commandGenerate checks b.other (m.exchange Bracket.other) (i.exchange Bracket.other) args) := by
  have ht : b.returnType = .inline ∨ b.returnType = .block := by cases b <;> simp_all [Bracket.returnType]
  have he : b.other.returnType = b.returnType.other := by cases b <;> simp_all [Bracket.returnType, PType.other, Bracket.other]
  unfold commandGenerate
  rw [he]
  refine PM.CRel.bind (nameOf_crossed .module hm) fun mn => ?_
  refine PM.CRel.bind (nameOf_crossed .ident hi) fun cn => ?_
  refine PM.CRel.bind (argumentTypes_crossed ht _ _) fun ts => ?_
  unfold callCommand
  generalize argCounter checks (ts.map (·.2)) = o
  rcases o with ⟨min, max⟩ | e | _
  · simp only
    split
    · exact PM.CRel.bail _
    · split
      · exact PM.CRel.bail _
      · generalize bindArgs args 0 (ts.map (·.2)) = o
        rcases o with vs | e | _
        · exact callCommand_crossed ht _ _ _
        · exact PM.CRel.lift _
        · exact PM.CRel.lift _
  · exact PM.CRel.lift _
  · exact PM.CRel.lift _

mutual

theorem genChild_crossed (checks : Bool) : (a : AST) → a.Unbracketed → ∀ d,
    PM.CRel (W := W) (genChild checks d a) (genChild checks d (a.exchange Bracket.other))
  | .leaf k i v l, h, d => by
    have hb := bailWith_crossed (W := W) (.leaf k i v l)
    rw [unbracketed_leaf h] at hb ⊢
    rcases k <;> simp only [genChild] <;> first | exact hb | skip
    unfold textGenerate
    rcases v with _ | v
    · exact PM.CRel.bail _
    · exact PM.CRel.bind (hook_crossed .text _) fun a => PM.CRel.pure _
  | .node k i cs l, h, d => by
    have hb := bailWith_crossed (W := W) (.node k i cs l)
    have hcs := unbracketed_node h
    rcases k with _ | _ | _ | b
    · simp only [AST.exchange, AKind.exchange, genChild] at hb ⊢; exact hb
    · simp only [AST.exchange, AKind.exchange, genChild] at hb ⊢
      split
      · refine PM.CRel.bind (genChildren_crossed checks cs hcs false) fun a => ?_
        exact PM.CRel.bind (hook_crossed .stmt _) fun a => PM.CRel.pure _
      · exact hb
    · simp only [AST.exchange, AKind.exchange, genChild]
      refine PM.CRel.bind (genChildren_crossed checks cs hcs false) fun a => ?_
      exact PM.CRel.bind (hook_crossed .expr _) fun a => PM.CRel.pure _
    · simp only [AST.exchange, AKind.exchange]
      rcases cs with _ | ⟨m, _ | ⟨e, cs⟩⟩
      · rcases b <;> simp only [AST.exchangeL, Bracket.other, genChild] <;> exact PM.CRel.bail _
      · rcases b <;> simp only [AST.exchangeL, Bracket.other, genChild] <;> exact PM.CRel.bail _
      · have hg := genChildren_crossed checks cs (fun a ha => hcs a (by simp [ha])) false
        have hc := fun (b : Bracket) (hb : b ≠ .angle) args =>
          commandGenerate_crossed (W := W) checks hb (hcs m (by simp)) (hcs e (by simp)) args
        rcases b <;> simp only [AST.exchangeL, Bracket.other, genChild]
        · exact PM.CRel.bail _
        · exact PM.CRel.bind hg fun args => hc .curly (by decide) args
        · exact PM.CRel.bind hg fun args => hc .square (by decide) args

theorem genChildren_crossed (checks : Bool) : (as : List AST) → UnbracketedL as → ∀ d,
    PM.CRel (W := W) (genChildren checks d as) (genChildren checks d (AST.exchangeL Bracket.other as))
  | [], _, _ => by rw [AST.exchangeL]; exact PM.CRel.pure _
  | a :: as, h, d => by
    have h1 := genChild_crossed checks a (h a (by simp)) d
    have h2 := genChildren_crossed checks as (fun b hb => h b (by simp [hb])) d
    simp only [AST.exchangeL, genChildren]
    exact PM.CRel.bind h1 fun _ => PM.CRel.bind h2 fun _ => PM.CRel.pure _

end

theorem generate_crossed (checks : Bool) (a : AST) (h : a.Unbracketed) :
    PM.CRel (W := W) (generate checks a) (generate checks (a.exchange Bracket.other)) := by
  rcases a with ⟨k, j, v, l⟩ | ⟨k, j, cs, l⟩
  · exact PM.CRel.bail _
  · rcases k <;> simp only [AST.exchange, AKind.exchange, generate] <;> first | exact PM.CRel.bail _ | skip
    refine PM.CRel.bind (genChildren_crossed checks cs (unbracketed_node h) true) fun a => ?_
    exact PM.CRel.bind (hook_crossed .document _) fun a => PM.CRel.pure _

end Brack
