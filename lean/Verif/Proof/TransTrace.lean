import Verif.Spec.Trace
import Verif.Proof.ParserLoc
import Verif.Proof.ParserAccept

/-
Helper lemmas: the parsed tree shows the same bracket matching and escapes as the scan of the
token list (`trace`).
-/

namespace Brack

/-- The opening bracket of a bracket node. -/
def openTok (b : Bracket) : List CST → Token
  | .leaf _ l :: _ => ⟨.bopen b, l⟩
  | _ => ⟨.bopen b, mockLocation⟩

def leafEvs (st : List Token) (k : LKind) (l : Loc) : List Event :=
  match k with
  | .bopen _ | .eof | .invalid => []
  | .bclose b =>
    match st with
    | o :: _ => [.closed o ⟨.bclose b, l⟩]
    | [] => [.unopened ⟨.bclose b, l⟩]
  | k => [.plain st ⟨k.tokKind, l⟩]

def escEvs (st : List Token) (cs : List CST) (l : Loc) : List Event :=
  match cs with
  | [.leaf (.text [c]) l'] =>
    (escapes.lookup c).toList.map (fun k => .escape st ⟨.backSlash, l⟩ c ⟨k, l'⟩)
  | _ => [.stray st ⟨.backSlash, l⟩]

mutual

/-- The events of a tree. -/
def CST.evs (st : List Token) : CST → List Event
  | .leaf k l => leafEvs st k l
  | .node .backSlash cs l => escEvs st cs l
  | .node (.bracket b) cs l =>
    CST.evsL (openTok b cs :: st) cs ++
      if CST.isClosed (.node (.bracket b) cs l) then [] else [.unclosed (openTok b cs)]
  | .node _ cs _ => CST.evsL st cs

def CST.evsL (st : List Token) : List CST → List Event
  | [] => []
  | c :: cs => c.evs st ++ CST.evsL st cs

end

theorem evsL_append (st) (cs ds : List CST) :
    CST.evsL st (cs ++ ds) = CST.evsL st cs ++ CST.evsL st ds := by
  induction cs with
  | nil => simp [CST.evsL]
  | cons c cs ih => simp [CST.evsL, ih]

theorem escapedChar_some {k v} (h : escapable k = some v) :
    ∃ c, v = [c] ∧ escapedChar k = some c ∧ escapes.lookup c = some k ∧ (c, k) ∈ escapes := by
  cases k <;> simp [escapable] at h
  case bopen b =>
    cases b <;> simp at h <;> subst h <;> exact ⟨_, rfl, by decide, by decide, by decide⟩
  case bclose b =>
    cases b <;> simp at h <;> subst h <;> exact ⟨_, rfl, by decide, by decide, by decide⟩
  all_goals subst h; exact ⟨_, rfl, by decide, by decide, by decide⟩

theorem escapedChar_none {k} (h : escapable k = none) : escapedChar k = none := by
  cases k <;> simp [escapable] at h <;> try decide
  case bopen b => cases b <;> simp at h
  case bclose b => cases b <;> simp at h
  all_goals simp [escapedChar, escapes]

theorem evs_bracketNode (st b) (t u : Token) (cs) (ht : t.kind = .bopen b) (hg : GBody cs) :
    (bracketNode b t cs u).evs st = CST.evsL (t :: st) cs ++
      if u.kind = .bclose b then [.closed t u] else [.unclosed t] := by
  have hc := bracket_isClosed (b := b) (t := t) (u := u) hg
  have ho : ∀ ds, openTok b (.leaf (.bopen b) t.loc :: ds) = t := fun ds => tok_eta ht
  unfold bracketNode at hc ⊢
  rw [CST.evs, hc, List.cons_append, ho]
  by_cases hu : u.kind = .bclose b
  · simp [hu, CST.evsL, CST.evs, leafEvs, evsL_append, tok_eta hu]
  · simp [hu, CST.evsL, CST.evs, leafEvs]

theorem evs_exprNode (st c cs) : (exprNode c cs).evs st = CST.evsL st (c :: cs) := by
  simp [exprNode, CST.evs]

theorem trace_leaf {t : Token} {ts k} (h : exprLeaf t.kind = some k) (st) :
    trace st (t :: ts) = CST.evs st (.leaf k t.loc) ++ trace st ts := by
  obtain ⟨tk, l⟩ := t
  cases tk <;> simp [exprLeaf] at h <;> subst h <;>
    simp [trace, CST.evs, leafEvs, LKind.tokKind]

theorem trace_newline {t : Token} {ts} (h : t.kind = .newLine) (st) :
    trace st (t :: ts) = .plain st t :: trace st ts := by
  obtain ⟨tk, l⟩ := t
  cases h
  simp [trace]

theorem trace_open {t : Token} {ts b} (h : t.kind = .bopen b) (st) :
    trace st (t :: ts) = trace (t :: st) ts := by
  obtain ⟨tk, l⟩ := t
  cases h
  simp [trace]

theorem trace_close {t u : Token} {ts b} (ht : t.kind = .bopen b) (hu : u.kind = .bclose b) (st) :
    trace (t :: st) (u :: ts) = .closed t u :: trace st ts := by
  obtain ⟨tk, l⟩ := u
  cases hu
  simp [trace, ht]

theorem trace_stop {t u : Token} {ts b} (ht : t.kind = .bopen b) (hs : itemStop u.kind = true)
    (hn : u.kind ≠ .newLine) (hu : u.kind ≠ .bclose b) (st) :
    trace (t :: st) (u :: ts) = .unclosed t :: trace st (u :: ts) := by
  obtain ⟨tk, l⟩ := u
  cases tk <;> simp [itemStop] at hs hn
  · simp [trace]
  · rename_i b'
    have : b ≠ b' := by rintro rfl; simp at hu
    simp [trace, ht, this]
  · simp [trace]

theorem trace_esc {t u : Token} {us v} (ht : t.kind = .backSlash) (hv : escapable u.kind = some v)
    (st) : trace st (t :: u :: us) =
      CST.evs st (.node .backSlash [.leaf (.text v) u.loc] t.loc) ++ trace st us := by
  obtain ⟨c, rfl, h1, h2, _⟩ := escapedChar_some hv
  obtain ⟨tk, l⟩ := t
  cases ht
  rw [trace]
  simp [h1, CST.evs, escEvs, h2]

theorem trace_escN {t u : Token} {us} (ht : t.kind = .backSlash) (hv : escapable u.kind = none)
    (st) : trace st (t :: u :: us) =
      CST.evs st (.node .backSlash [] t.loc) ++ trace st (u :: us) := by
  obtain ⟨tk, l⟩ := t
  cases ht
  rw [trace]
  simp [escapedChar_none hv, CST.evs, escEvs]

mutual

theorem EI.trace : ∀ {ts cs r}, EI ts cs r → HasEof ts → ∀ st,
    trace st ts = CST.evsL st cs ++ trace st r
  | _, _, _, .stop _ => fun _ _ => by simp [CST.evsL]
  | _, _, _, .leaf hk h => fun he st => by
    rw [trace_leaf hk, h.trace (he.tail (exprLeaf_ne_eof hk)), CST.evsL, List.append_assoc]
  | _, _, _, .esc ht hv h => fun he st => by
    rw [trace_esc ht hv, h.trace ((he.tail (by simp [ht])).tail (escapable_ne_eof hv)), CST.evsL,
      List.append_assoc]
  | _, _, _, .escN ht hv h => fun he st => by
    rw [trace_escN ht hv, h.trace (he.tail (by simp [ht])), CST.evsL, List.append_assoc]
  | _, _, _, .bclosed ht hb hu h => fun he st => by
    have he1 := he.tail (by simp [ht])
    have he2 := (hb.suffix.1.mp he1).tail (by simp [hu])
    rw [trace_open ht, hb.trace he1, trace_close ht hu, h.trace he2, CST.evsL,
      evs_bracketNode _ _ _ _ _ ht hb.grammar, if_pos hu]
    simp
  | _, _, _, .bunclosed ht hb hu h => fun he st => by
    have he1 := he.tail (by simp [ht])
    have he2 := hb.suffix.1.mp he1
    rw [trace_open ht, hb.trace he1,
      trace_stop ht (hb.rest_stop.1.stop he2) (hb.rest_stop.2 _ rfl) hu, h.trace he2, CST.evsL,
      evs_bracketNode _ _ _ _ _ ht hb.grammar, if_neg hu]
    simp

theorem BI.trace : ∀ {ts cs r}, BI ts cs r → HasEof ts → ∀ st,
    trace st ts = CST.evsL st cs ++ trace st r
  | _, _, _, .stop _ _ => fun _ _ => by simp [CST.evsL]
  | _, _, _, .expr he hb => fun h st => by
    rw [he.trace h, hb.trace (he.suffix.1.mp h), ← evs_exprNode]
    simp [CST.evsL]
  | _, _, _, .newline (t := t) ht h => fun he st => by
    rw [trace_newline ht, h.trace (he.tail (by simp [ht]))]
    simp [CST.evsL, CST.evs, leafEvs, LKind.tokKind, tok_eta ht]

end

theorem LI.trace {ts c r} (h : LI ts c r) (he : HasEof ts) :
    trace [] ts = c.evs [] ++ trace [] r := by
  cases h with
  | expr h => rw [h.trace he, evs_exprNode]
  | @close t _ b ht =>
    obtain ⟨tk, l⟩ := t
    cases ht
    simp [Brack.trace, CST.evs, leafEvs]

theorem newline_evs {t : Token} (ht : t.kind = .newLine) :
    CST.evs [] (.leaf .newline t.loc) = [.plain [] t] := by
  simp [CST.evs, leafEvs, LKind.tokKind, tok_eta ht]

theorem SI.trace : ∀ {ts cs r}, SI ts cs r → HasEof ts →
    trace [] ts = CST.evsL [] cs ++ trace [] r
  | _, _, _, .stop _ => fun _ => by simp [CST.evsL]
  | _, _, _, .more ht hl h => fun he => by
    have he1 := he.tail (by simp [ht])
    rw [trace_newline ht, hl.trace he1, h.trace (hl.hasEof.mp he1)]
    simp [CST.evsL, newline_evs ht]

theorem TI.trace {ts c r} (h : TI ts c r) (he : HasEof ts) :
    trace [] ts = c.evs [] ++ trace [] r := by
  cases h with
  | mk h1 h2 =>
    obtain ⟨l, hl⟩ := foldl_add_new .stmt (_ :: _)
    rw [hl, h1.trace he, h2.trace (h1.hasEof.mp he)]
    simp [CST.evs, CST.evsL]

theorem NI.trace : ∀ {ts cs r}, NI ts cs r → trace [] ts = CST.evsL [] cs ++ trace [] r
  | _, _, _, .stop _ => by simp [CST.evsL]
  | _, _, _, .more ht h => by
    rw [trace_newline ht, h.trace]
    simp [CST.evsL, newline_evs ht]

theorem DI.trace : ∀ {ts cs r}, DI ts cs r → HasEof ts →
    trace [] ts = CST.evsL [] cs ++ trace [] r
  | _, _, _, .noStmt _ => fun _ => by simp [CST.evsL]
  | _, _, _, .lastStmt _ _ => fun _ => by simp [CST.evsL]
  | _, _, _, .more hs ht hN h => fun he => by
    have he1 := (hs.hasEof.mp he).tail (by simp [ht])
    rw [hs.trace he, trace_newline ht, hN.trace, h.trace (hN.hasEof.mp he1)]
    simp [CST.evsL, evsL_append, newline_evs ht]

theorem OI.trace {ts cs r} (h : OI ts cs r) (he : HasEof ts) :
    trace [] ts = CST.evsL [] cs ++ trace [] r := by
  cases h with
  | none => simp [CST.evsL]
  | some h => simpa [CST.evsL] using h.trace he

/-- The events of the parsed tree are those of the token list. -/
theorem PI.trace {ts c rest} (h : PI ts c rest) : trace [] ts = c.evs [] := by
  have he := h.hasEof
  cases h with
  | @mk _ _ _ _ _ t _ hD hO hN ht =>
    obtain ⟨l, hl⟩ := foldl_add_new .document (_ ++ _)
    rw [hl, hD.trace he, hO.trace (hD.hasEof.mp he), hN.trace]
    have : Brack.trace [] (t :: rest) = [] := by
      obtain ⟨tk, l⟩ := t
      cases ht
      simp [Brack.trace]
    simp [CST.evs, CST.evsL, evsL_append, leafEvs, this]

theorem parse_trace {ts c} (h : parse ts = .ok c) : trace [] ts = c.evs [] := by
  obtain ⟨rest, hP⟩ := parse_ok h
  exact hP.trace

theorem parse_grammar {ts c} (h : parse ts = .ok c) : GDocument c := by
  obtain ⟨rest, hP⟩ := parse_ok h
  exact hP.grammar

end Brack
