import Verif.Model.ParserSteps
import Verif.Proof.ParserBig
import Verif.Proof.Sized
import Verif.Proof.Nesting
import Verif.Proof.ParserAccept

/-
Helper lemmas: the counting parser gives the results of the parser, and bounds for its steps.
-/

namespace Brack

theorem Steps.orElse_fst (x : Steps α) (y : Unit → Steps α) :
    (x.orElse y).1 = x.1.orElse fun u => (y u).1 := by
  obtain ⟨r, k⟩ := x
  cases r <;> rfl

theorem Steps.tick_fst (k : Nat) (x : Steps α) : (x.tick k).1 = x.1 := rfl

theorem escapedS_fst (w : Nat) (ts) : (escapedS w ts).1 = pEscaped ts := rfl

theorem bracketOfS_fst (w : Nat) (b) {bodyS : List Token → Steps (List CST × List Token)} {body}
    (h : ∀ ts, (bodyS ts).1 = body ts) (ts) : (bracketOfS w b bodyS ts).1 = bracketOf b body ts := by
  cases ts with
  | nil => rfl
  | cons t ts =>
    rw [bracketOfS, bracketOf]
    by_cases ht : t.kind = .bopen b
    · rw [if_pos ht, if_pos ht, Steps.tick_fst, Steps.bind, ← h ts]
      rcases bodyS ts with ⟨⟨cs, _ | ⟨u, us⟩⟩ | m | _, k⟩ <;> try rfl
      simp only
      by_cases hu : u.kind = .bclose b
      · rw [if_pos hu, if_pos hu]
      · rw [if_neg hu, if_neg hu]
    · rw [if_neg ht, if_neg ht]

theorem bracketS_fst (w : Nat) {bodyS : List Token → Steps (List CST × List Token)} {body}
    (h : ∀ ts, (bodyS ts).1 = body ts) (ts) : (bracketS w bodyS ts).1 = pBracket body ts := by
  simp only [bracketS, pBracket, Steps.tick_fst, Steps.orElse_fst, bracketOfS_fst w _ h]

theorem exprItemS_fst (w : Nat) {bodyS : List Token → Steps (List CST × List Token)} {body}
    (h : ∀ ts, (bodyS ts).1 = body ts) (ts) : (exprItemS w bodyS ts).1 = exprItem body ts := by
  simp only [exprItemS, exprItem, Steps.orElse_fst, escapedS_fst, bracketS_fst w h]

theorem exprOfS_fst {itemsS : List Token → Steps (List CST × List Token)} {items}
    (h : ∀ ts, (itemsS ts).1 = items ts) (ts) : (exprOfS itemsS ts).1 = exprOf items ts := by
  rw [exprOfS, exprOf, Steps.tick_fst, Steps.bind, ← h ts]
  rcases itemsS ts with ⟨⟨_ | ⟨c, cs⟩, r⟩ | m | _, k⟩ <;> rfl

theorem items_fst (w : Nat) (n : Nat) :
    (∀ ts, (exprItemsS w n ts).1 = exprItems n ts) ∧ (∀ ts, (bodyItemsS w n ts).1 = bodyItems n ts) := by
  induction n with
  | zero => exact ⟨fun _ => rfl, fun _ => rfl⟩
  | succ n ih =>
    obtain ⟨ihe, ihb⟩ := ih
    constructor
    · intro ts
      rw [exprItemsS, exprItems, ← exprItemS_fst w ihb ts]
      rcases exprItemS w (bodyItemsS w n) ts with ⟨⟨c, ts'⟩ | m | _, k⟩ <;> simp only
      rw [Steps.tick_fst, Steps.bind, ← ihe ts']
      rcases exprItemsS w n ts' with ⟨⟨cs, r⟩ | m | _, k'⟩ <;> rfl
    · intro ts
      have hx : ((exprOfS (exprItemsS w n) ts).orElse fun _ => (pNewline ts, 1)).1 =
          (exprOf (exprItems n) ts).orElse fun _ => pNewline ts := by
        rw [Steps.orElse_fst, exprOfS_fst ihe]
      rw [bodyItemsS, bodyItems, ← hx]
      rcases (exprOfS (exprItemsS w n) ts).orElse fun _ => (pNewline ts, 1) with ⟨⟨c, ts'⟩ | m | _, k⟩ <;> simp only
      rw [Steps.tick_fst, Steps.bind, ← ihb ts']
      rcases bodyItemsS w n ts' with ⟨⟨cs, r⟩ | m | _, k'⟩ <;> rfl

theorem exprOrCloseS_fst (w : Nat) (ts) : (exprOrCloseS w ts).1 = pExprOrClose ts := by
  rw [exprOrCloseS, pExprOrClose, Steps.tick_fst, Steps.orElse_fst, pExpr,
    exprOfS_fst (items := pExprItems) (fun ts => (items_fst w _).1 ts)]
  congr 1
  funext _
  rw [Steps.orElse_fst]

theorem stmtItemsS_fst (w : Nat) (n : Nat) : ∀ ts, (stmtItemsS w n ts).1 = stmtItems n ts := by
  induction n with
  | zero => exact fun _ => rfl
  | succ n ih =>
    intro ts
    rw [stmtItemsS, stmtItems]
    rcases pNewline ts with ⟨c1, ts1⟩ | m | _ <;> simp only
    rw [← exprOrCloseS_fst w ts1]
    rcases exprOrCloseS w ts1 with ⟨⟨c2, ts2⟩ | m | _, k⟩ <;> simp only
    rw [Steps.tick_fst, Steps.bind, ← ih ts2]
    rcases stmtItemsS w n ts2 with ⟨⟨cs, r⟩ | m | _, k'⟩ <;> rfl

theorem stmtS_fst (w : Nat) (ts) : (stmtS w ts).1 = pStmt ts := by
  rw [stmtS, pStmt, Steps.tick_fst, Steps.bind, ← exprOrCloseS_fst w ts]
  rcases exprOrCloseS w ts with ⟨⟨c, ts1⟩ | m | _, k⟩ <;> simp only
  rw [Steps.tick_fst, Steps.bind, ← stmtItemsS_fst w]
  rcases stmtItemsS w (ts1.length + 1) ts1 with ⟨⟨cs, r⟩ | m | _, k'⟩ <;> rfl

theorem docItemsS_fst (w : Nat) (n : Nat) : ∀ ts, (docItemsS w n ts).1 = docItems n ts := by
  induction n with
  | zero => exact fun _ => rfl
  | succ n ih =>
    intro ts
    rw [docItemsS, docItems, ← stmtS_fst w ts]
    rcases stmtS w ts with ⟨⟨c1, ts1⟩ | m | _, k⟩ <;> simp only
    rcases pNewline ts1 with ⟨c2, ts2⟩ | m | _ <;> simp only
    rw [Steps.tick_fst, Steps.bind, ← ih _]
    rcases docItemsS w n (newlines ts2).2 with ⟨⟨cs, r⟩ | m | _, k'⟩ <;> rfl

theorem optStmtS_fst (w : Nat) (ts) : (optStmtS w ts).1 = optStmt ts := by
  rw [optStmtS, optStmt, ← stmtS_fst w ts]
  rcases stmtS w ts with ⟨⟨c, r⟩ | m | _, k⟩ <;> rfl

theorem parseS_fst (w : Nat) (ts) : (parseS w ts).1 = parse ts := by
  rw [parseS, parse, Steps.tick_fst, Steps.bind, ← docItemsS_fst w]
  rcases docItemsS w (ts.length + 1) ts with ⟨⟨cs, ts1⟩ | m | _, k⟩ <;> simp only
  rw [Steps.bind, ← optStmtS_fst w]
  rcases optStmtS w ts1 with ⟨⟨cs2, ts2⟩ | m | _, k⟩ <;> simp only
  rw [Steps.tick_fst, Steps.bind]
  rcases pEof (newlines ts2).2 with ⟨c, r⟩ | m | _ <;> rfl

mutual

/-- The number of nodes copied if every tree is copied when it is added to its parent. -/
def CST.copied : CST → Nat
  | .leaf _ _ => 0
  | .node _ cs _ => CST.copiedL cs

def CST.copiedL : List CST → Nat
  | [] => 0
  | c :: cs => c.size + c.copied + CST.copiedL cs

end

theorem CST.sizeL_append (cs ds : List CST) : CST.sizeL (cs ++ ds) = CST.sizeL cs + CST.sizeL ds := by
  induction cs with
  | nil => simp [CST.sizeL]
  | cons c cs ih => simp only [List.cons_append, CST.sizeL, ih]; omega

theorem CST.copiedL_append (cs ds : List CST) : CST.copiedL (cs ++ ds) = CST.copiedL cs + CST.copiedL ds := by
  induction cs with
  | nil => simp [CST.copiedL]
  | cons c cs ih => simp only [List.cons_append, CST.copiedL, ih]; omega

theorem CST.size_pos (c : CST) : 0 < c.size := by cases c <;> simp [CST.size]

/-! ### One item -/

/-- What a counting parser does for every weight of a copy: it succeeds with `x` after `j` calls and copying
`m` nodes. -/
def Takes (p : Nat → Steps α) (x : α) (j m : Nat) : Prop := ∀ w, p w = (.ok x, j + w * m)

/-- It fails after `j` calls, without having copied anything. -/
def Fails (p : Nat → Steps α) (j : Nat) : Prop := ∃ e, ∀ w, p w = (.err e, j)

theorem exprItemS_leaf {t : Token} {ts} {l} (h : exprLeaf t.kind = some l) :
    ∃ j, (∀ w body, exprItemS w body (t :: ts) = (.ok (.leaf l t.loc, ts), j)) ∧ j ≤ 14 := by
  obtain ⟨tk, tl⟩ := t
  cases tk <;> simp [exprLeaf] at h <;> subst h <;>
    exact ⟨_, fun w body => by
      simp [exprItemS, escapedS, pEscaped, pModule, pIdent, pDot, pComma, pWhitespace, pText, leafParser,
      Steps.orElse, Steps.tick, bracketS, bracketOfS]; rfl, by omega⟩

theorem exprItemS_stop {t : Token} {ts} (h : itemStop t.kind = true) :
    ∃ m, ∀ w body, exprItemS w body (t :: ts) = (.err m, 14) := by
  obtain ⟨tk, tl⟩ := t
  cases tk <;> simp [itemStop] at h <;>
    exact ⟨_, fun w body => by
      simp [exprItemS, escapedS, pEscaped, pModule, pIdent, pDot, pComma, pWhitespace, pText, leafParser,
      Steps.orElse, Steps.tick, bracketS, bracketOfS]; rfl⟩

theorem exprItemS_esc (w : Nat) (body) {t u : Token} {us} {v} (h : t.kind = .backSlash)
    (hv : escapable u.kind = some v) :
    exprItemS w body (t :: u :: us) = (.ok (.node .backSlash [.leaf (.text v) u.loc] t.loc, us), 1 + w) := by
  simp [exprItemS, escapedS, pEscaped, h, hv, Steps.orElse, CST.size, CST.sizeL]

theorem exprItemS_escN (w : Nat) (body) {t u : Token} {us} (h : t.kind = .backSlash)
    (hv : escapable u.kind = none) :
    exprItemS w body (t :: u :: us) = (.ok (.node .backSlash [] t.loc, u :: us), 1) := by
  simp [exprItemS, escapedS, pEscaped, h, hv, Steps.orElse, CST.size, CST.sizeL]

theorem bracketOfS_open (w : Nat) (b : Bracket) (body) {t : Token} {ts cs u us k} (h : t.kind = .bopen b)
    (hb : body ts = (.ok (cs, u :: us), k)) :
    bracketOfS w b body (t :: ts) = (.ok (bracketNode b t cs u, if u.kind = .bclose b then us else u :: us),
      2 + w + (k + (if u.kind = .bclose b then 1 + w else 1))) := by
  simp only [bracketOfS, if_pos h, hb, Steps.bind, Steps.tick]
  obtain ⟨l, hl⟩ := foldl_add_new (.bracket b) (CST.leaf (.bopen b) t.loc :: cs)
  rw [hl]
  by_cases hu : u.kind = .bclose b <;> simp [hu, CST.add, CST.setLoc, bracketNode]

theorem bracketOfS_other (w : Nat) (b : Bracket) (body) {t : Token} {ts} (h : t.kind ≠ .bopen b) :
    bracketOfS w b body (t :: ts) = (.err "Expected bracket open token, found another token", 2) := by
  simp only [bracketOfS, if_neg h]

theorem bracketNode_size (b t cs u) :
    (bracketNode b t cs u).size = CST.sizeL cs + (if u.kind = .bclose b then 3 else 2) := by
  rw [bracketNode, CST.size, CST.sizeL_append, CST.sizeL, CST.size]
  split <;> simp [CST.sizeL, CST.size] <;> omega

theorem bracketNode_copied (b t cs u) :
    (bracketNode b t cs u).copied = CST.copiedL cs + (if u.kind = .bclose b then 2 else 1) := by
  rw [bracketNode, CST.copied, CST.copiedL_append, CST.copiedL, CST.size, CST.copied]
  split <;> simp [CST.copiedL, CST.size, CST.copied] <;> omega

theorem exprItemS_open (b : Bracket) {t : Token} {ts cs u us} (h : t.kind = .bopen b) :
    ∃ j, j ≤ 11 ∧ ∀ w body k, body ts = (.ok (cs, u :: us), k + w * CST.copiedL cs) → exprItemS w body (t :: ts) =
      (.ok (bracketNode b t cs u, if u.kind = .bclose b then us else u :: us),
        k + j + w * (bracketNode b t cs u).copied) := by
  have h1 : ∀ w, escapedS w (t :: ts) = (.err "Expected backslash, found another token", 1) := by
    intro w; simp [escapedS, pEscaped, h]
  have h2 : pModule (t :: ts) = .err ("Expected module token" ++ ", found another token") := by
    simp [pModule, leafParser, h]
  have h3 : pIdent (t :: ts) = .err ("Expected ident token" ++ ", found another token") := by
    simp [pIdent, leafParser, h]
  have h5 : ∀ b', b' ≠ b → ∀ w body, bracketOfS w b' body (t :: ts) =
      (.err "Expected bracket open token, found another token", 2) := by
    intro b' hb' w body
    apply bracketOfS_other
    rw [h]
    simpa using fun h => hb' h.symm
  have h6 : ∀ w, w * (bracketNode b t cs u).copied = w * CST.copiedL cs +
      (if u.kind = TokKind.bclose b then 2 * w else w) := by
    intro w
    rw [bracketNode_copied, Nat.mul_add]
    split <;> omega
  cases b
  · refine ⟨7, by omega, fun w body k hb => ?_⟩
    have h4 := bracketOfS_open w .angle body h hb
    simp only [exprItemS, h1, h2, h3, bracketS, h4, Steps.orElse, Steps.tick]
    rw [h6]
    congr 1
    split <;> omega
  · refine ⟨9, by omega, fun w body k hb => ?_⟩
    have h4 := bracketOfS_open w .curly body h hb
    simp only [exprItemS, h1, h2, h3, bracketS, h4, h5 .angle (by decide), Steps.orElse, Steps.tick]
    rw [h6]
    congr 1
    split <;> omega
  · refine ⟨11, by omega, fun w body k hb => ?_⟩
    have h4 := bracketOfS_open w .square body h hb
    simp only [exprItemS, h1, h2, h3, bracketS, h4, h5 .angle (by decide), h5 .curly (by decide), Steps.orElse,
      Steps.tick]
    rw [h6]
    congr 1
    split <;> omega

theorem pNewline_other {t : Token} {ts} (h : t.kind ≠ .newLine) : ∃ m, pNewline (t :: ts) = .err m := by
  obtain ⟨tk, tl⟩ := t
  cases tk <;> first | exact absurd rfl h | exact ⟨_, rfl⟩

theorem pNewline_line {t : Token} {ts} (h : t.kind = .newLine) :
    pNewline (t :: ts) = .ok (.leaf .newline t.loc, ts) := by
  simp [pNewline, leafParser, h]

/-! ### The loops -/

def ItemsIn (n : Nat) (ts : List Token) : Prop :=
  ∃ cs r j, Takes (fun w => exprItemsS w n ts) (cs, r) j (CST.copiedL cs) ∧ HasEof r ∧
    (cs = [] → r = ts ∧ j ≤ 14) ∧
    (cs ≠ [] → CST.sizeL cs + 1 + 3 * r.length ≤ 3 * ts.length ∧ j + 60 * r.length + 12 ≤ 60 * ts.length)

def BodyIn (n : Nat) (ts : List Token) : Prop :=
  ∃ cs r j, Takes (fun w => bodyItemsS w n ts) (cs, r) j (CST.copiedL cs) ∧ HasEof r ∧
    CST.sizeL cs + 3 * r.length ≤ 3 * ts.length ∧ j + 60 * r.length ≤ 60 * ts.length + 20

theorem item_in {n : Nat} (hb : ∀ ts, 2 * ts.length + 2 ≤ n → HasEof ts → BodyIn n ts)
    (ts : List Token) (hn : 2 * ts.length ≤ n) (he : HasEof ts) :
    Fails (fun w => exprItemS w (bodyItemsS w n) ts) 14 ∨
    ∃ c r j, Takes (fun w => exprItemS w (bodyItemsS w n) ts) (c, r) j c.copied ∧ HasEof r ∧
      c.size + 1 + 3 * r.length ≤ 3 * ts.length ∧ j + 60 * r.length + 26 ≤ 60 * ts.length := by
  cases ts with
  | nil => exact absurd he not_hasEof_nil
  | cons t ts =>
    simp only [List.length_cons, Nat.mul_succ] at *
    rcases kind_cases t.kind with ⟨l, hl⟩ | ht | ⟨b, ht⟩ | ht
    · obtain ⟨j, h2, h1⟩ := exprItemS_leaf (ts := ts) hl
      refine .inr ⟨_, _, j, fun w => h2 w _, he.tail (exprLeaf_ne_eof hl), ?_, ?_⟩
      · rw [CST.size]; omega
      · omega
    · cases ts with
      | nil => exact absurd (he.tail (by rw [ht]; simp)) not_hasEof_nil
      | cons u us =>
        have he1 := he.tail (by rw [ht]; simp)
        simp only [List.length_cons, Nat.mul_succ] at *
        rcases hv : escapable u.kind with _ | v
        · refine .inr ⟨_, _, 1, fun w => exprItemS_escN w (bodyItemsS w n) (us := us) ht hv, he1, ?_, ?_⟩
          · simp only [CST.size, CST.sizeL, List.length_cons]; omega
          · simp only [List.length_cons]; omega
        · refine .inr ⟨.node .backSlash [.leaf (.text v) u.loc] t.loc, us, 1, fun w => ?_, he1.tail (escapable_ne_eof hv), ?_, ?_⟩
          · exact (exprItemS_esc w (bodyItemsS w n) (us := us) ht hv).trans (by simp [CST.copied, CST.copiedL, CST.size])
          · simp only [CST.size, CST.sizeL]; omega
          · omega
    · have he1 := he.tail (by rw [ht]; simp)
      obtain ⟨cs, r, j, h1, h2, h3, h4⟩ := hb ts (by omega) he1
      cases r with
      | nil => exact absurd h2 not_hasEof_nil
      | cons u us =>
        obtain ⟨j', h5, h6⟩ := exprItemS_open b (ts := ts) (cs := cs) (u := u) (us := us) ht
        simp only [List.length_cons, Nat.mul_succ] at *
        refine .inr ⟨_, _, j + j', fun w => h6 w _ j (h1 w), ?_, ?_, ?_⟩
        · split
          · next hc => exact h2.tail (by rw [hc]; simp)
          · exact h2
        · rw [bracketNode_size]
          split
          · omega
          · simp only [List.length_cons]; omega
        · split
          · omega
          · simp only [List.length_cons]; omega
    · obtain ⟨m, h⟩ := exprItemS_stop (ts := ts) ht
      exact .inl ⟨m, fun w => h w _⟩

theorem exprOfS_in {n : Nat} {ts : List Token} (h : ItemsIn n ts) :
    (∃ j, Fails (fun w => exprOfS (exprItemsS w n) ts) j ∧ j ≤ 15) ∨
    ∃ c r j, Takes (fun w => exprOfS (exprItemsS w n) ts) (c, r) j c.copied ∧ HasEof r ∧
      c.size + 3 * r.length ≤ 3 * ts.length ∧ j + 60 * r.length + 11 ≤ 60 * ts.length := by
  obtain ⟨cs, r, j, h1, h2, h3, h4⟩ := h
  simp only [Takes] at h1
  cases cs with
  | nil =>
    refine .inl ⟨1 + j, ⟨_, fun w => by simp only [exprOfS, h1]; rfl⟩, ?_⟩
    have := (h3 rfl).2
    omega
  | cons c cs =>
    obtain ⟨h5, h6⟩ := h4 (by simp)
    obtain ⟨l, hl⟩ := foldl_add_new .expr (c :: cs)
    refine .inr ⟨exprNode c cs, r, 1 + j, fun w => ?_, h2, ?_, by omega⟩
    · simp only [exprOfS, h1, Steps.bind, Steps.tick, hl, CST.setLoc, exprNode, CST.copied]
      congr 1
      omega
    · rw [exprNode, CST.size]; omega

theorem items_in (n : Nat) :
    (∀ ts, 2 * ts.length + 1 ≤ n → HasEof ts → ItemsIn n ts) ∧
    (∀ ts, 2 * ts.length + 2 ≤ n → HasEof ts → BodyIn n ts) := by
  induction n with
  | zero => exact ⟨fun _ h => by omega, fun _ h => by omega⟩
  | succ n ih =>
    obtain ⟨ihe, ihb⟩ := ih
    constructor
    · intro ts hn he
      rcases item_in ihb ts (by omega) he with ⟨m, h⟩ | ⟨c, r, j, h1, h2, h3, h4⟩
      · exact ⟨[], ts, 14, fun w => by simp only [exprItemsS, h w]; rfl, he, fun _ => ⟨rfl, by omega⟩,
          fun h => absurd rfl h⟩
      · obtain ⟨cs, r', j', h5, h6, h7, h8⟩ := ihe r (by omega) h2
        refine ⟨c :: cs, r', j + j', fun w => ?_, h6, by simp, fun _ => ?_⟩
        · have h1w := h1 w
          have h5w := h5 w
          simp only at h1w h5w
          simp only [exprItemsS, h1w, h5w, Steps.bind, Steps.tick, CST.copiedL, Nat.mul_add]
          congr 1
          omega
        · by_cases hcs : cs = []
          · obtain ⟨h10, h11⟩ := h7 hcs
            subst h10 hcs
            simp only [CST.sizeL]
            omega
          · obtain ⟨h10, h11⟩ := h8 hcs
            simp only [CST.sizeL]
            omega
    · intro ts hn he
      rcases exprOfS_in (ihe ts (by omega) he) with ⟨j, ⟨m, h1⟩, h2⟩ | ⟨c, r, j, h1, h2, h3, h4⟩
      · simp only at h1
        cases ts with
        | nil => exact absurd he not_hasEof_nil
        | cons t ts =>
          simp only [List.length_cons, Nat.mul_succ] at *
          by_cases ht : t.kind = .newLine
          · obtain ⟨cs, r, j', h5, h6, h7, h8⟩ := ihb ts (by omega) (he.tail (by rw [ht]; simp))
            have hp := pNewline_line (ts := ts) ht
            refine ⟨.leaf .newline t.loc :: cs, r, j + 1 + j', fun w => ?_, h6, ?_, ?_⟩
            · have h5w := h5 w
              simp only at h5w
              simp only [bodyItemsS, h1, hp, Steps.orElse, h5w, Steps.bind, Steps.tick, CST.copiedL, CST.copied, CST.size,
                Nat.mul_add]
              congr 1
              omega
            · simp only [CST.sizeL, CST.size, List.length_cons]; omega
            · simp only [List.length_cons]; omega
          · obtain ⟨m', hp⟩ := pNewline_other (ts := ts) ht
            refine ⟨[], t :: ts, j + 1, fun w => by simp only [bodyItemsS, h1, hp]; rfl, he, ?_, ?_⟩
            · simp only [CST.sizeL]; omega
            · simp only [List.length_cons]; omega
      · have hlt := c.size_pos
        obtain ⟨cs, r', j', h5, h6, h7, h8⟩ := ihb r (by omega) h2
        refine ⟨c :: cs, r', j + j', fun w => ?_, h6, ?_, by omega⟩
        · have h1w := h1 w
          have h5w := h5 w
          simp only at h1w h5w
          simp only [bodyItemsS, h1w, Steps.orElse, h5w, Steps.bind, Steps.tick, CST.copiedL, Nat.mul_add]
          congr 1
          omega
        · simp only [CST.sizeL]; omega

/-! ### Paragraphs and documents -/

theorem exprOrCloseS_in (ts : List Token) (he : HasEof ts) :
    (∃ j, Fails (fun w => exprOrCloseS w ts) j ∧ j ≤ 17) ∨
    ∃ c r j, Takes (fun w => exprOrCloseS w ts) (c, r) j c.copied ∧ HasEof r ∧ c.size + 3 * r.length ≤ 3 * ts.length ∧
      j + 60 * r.length + 10 ≤ 60 * ts.length := by
  have hi := exprOfS_in ((items_in (2 * ts.length + 1)).1 ts (by omega) he)
  have hx : ∀ w, exprOfS (fun ts => exprItemsS w (2 * ts.length + 1) ts) ts =
    exprOfS (exprItemsS w (2 * ts.length + 1)) ts := fun _ => rfl
  rcases hi with ⟨j, ⟨m, h1⟩, h2⟩ | ⟨c, r, j, h1, h2, h3, h4⟩
  · simp only at h1
    cases ts with
    | nil => exact absurd he not_hasEof_nil
    | cons t ts =>
      by_cases ht : ∃ b, t.kind = .bclose b
      · obtain ⟨b, ht⟩ := ht
        have hp : pBracketClose (t :: ts) = .ok (.leaf (.bclose b) t.loc, ts) := by simp [pBracketClose, leafParser, ht]
        refine .inr ⟨.leaf (.bclose b) t.loc, ts, 1 + (j + 1), fun w => ?_, he.tail (by rw [ht]; simp), ?_, ?_⟩
        · simp only [exprOrCloseS, hx, h1, hp]; rfl
        · simp only [CST.size, List.length_cons]; omega
        · simp only [List.length_cons]; omega
      · have hp : ∃ m, pBracketClose (t :: ts) = .err m := by
          obtain ⟨tk, tl⟩ := t
          cases tk <;> first | exact absurd ⟨_, rfl⟩ ht | exact ⟨_, rfl⟩
        obtain ⟨m', hp⟩ := hp
        refine .inl ⟨1 + (j + (1 + 0)), ⟨_, fun w => by simp only [exprOrCloseS, hx, h1, hp]; rfl⟩, ?_⟩
        omega
  · refine .inr ⟨c, r, 1 + j, fun w => ?_, h2, h3, by omega⟩
    have h1w := h1 w
    simp only at h1w
    simp only [exprOrCloseS, hx, h1w, Steps.orElse, Steps.tick]
    congr 1
    omega

theorem stmtItemsS_in (n : Nat) : ∀ ts, ts.length < n → HasEof ts →
    ∃ cs r j, Takes (fun w => stmtItemsS w n ts) (cs, r) j (CST.copiedL cs) ∧ HasEof r ∧
      CST.sizeL cs + 3 * r.length ≤ 3 * ts.length ∧ j + 60 * r.length ≤ 60 * ts.length + 20 := by
  induction n with
  | zero => intro ts h; omega
  | succ n ih =>
    intro ts hn he
    cases ts with
    | nil => exact absurd he not_hasEof_nil
    | cons t ts =>
      simp only [List.length_cons, Nat.mul_succ] at *
      by_cases ht : t.kind = .newLine
      · have hp := pNewline_line (ts := ts) ht
        rcases exprOrCloseS_in ts (he.tail (by rw [ht]; simp)) with ⟨j, ⟨m, h1⟩, h2⟩ | ⟨c, r, j, h1, h2, h3, h4⟩
        · simp only at h1
          refine ⟨[], t :: ts, 1 + j, fun w => by simp only [stmtItemsS, hp, h1]; rfl, he, ?_, ?_⟩
          · simp only [CST.sizeL, List.length_cons]; omega
          · simp only [List.length_cons]; omega
        · obtain ⟨cs, r', j', h6, h7, h8, h9⟩ := ih r (by omega) h2
          refine ⟨.leaf .newline t.loc :: c :: cs, r', 1 + j + j', fun w => ?_, h7, ?_, by omega⟩
          · have h1w := h1 w
            have h6w := h6 w
            simp only at h1w h6w
            simp only [stmtItemsS, hp, h1w, h6w, Steps.bind, Steps.tick, CST.copiedL, CST.copied, CST.size, Nat.mul_add]
            congr 1
            omega
          · simp only [CST.sizeL, CST.size]; omega
      · obtain ⟨m', hp⟩ := pNewline_other (ts := ts) ht
        refine ⟨[], t :: ts, 1, fun w => by simp only [stmtItemsS, hp]; rfl, he, ?_, ?_⟩
        · simp only [CST.sizeL, List.length_cons]; omega
        · simp only [List.length_cons]; omega

theorem stmtS_in (ts : List Token) (he : HasEof ts) :
    (∃ j, Fails (fun w => stmtS w ts) j ∧ j ≤ 18) ∨
    ∃ c r j, Takes (fun w => stmtS w ts) (c, r) j c.copied ∧ HasEof r ∧ c.size + 3 * r.length ≤ 3 * ts.length + 1 ∧
      r.length < ts.length ∧ j + 60 * r.length ≤ 60 * ts.length + 12 := by
  rcases exprOrCloseS_in ts he with ⟨j, ⟨m, h1⟩, h2⟩ | ⟨c, r, j, h1, h2, h3, h4⟩
  · simp only at h1
    exact .inl ⟨1 + j, ⟨m, fun w => by simp only [stmtS, h1]; rfl⟩, by omega⟩
  · obtain ⟨cs, r', j', h6, h7, h8, h9⟩ := stmtItemsS_in (r.length + 1) r (by omega) h2
    obtain ⟨l, hl⟩ := foldl_add_new .stmt (c :: cs)
    have hpos := c.size_pos
    refine .inr ⟨.node .stmt (c :: cs) l, r', 1 + j + j', fun w => ?_, h7, ?_, by omega, by omega⟩
    · have h1w := h1 w
      have h6w := h6 w
      simp only at h1w h6w
      simp only [stmtS, h1w, Steps.bind, h6w, Steps.tick, hl, CST.copied, CST.copiedL, Nat.mul_add]
      congr 1
      omega
    · simp only [CST.size, CST.sizeL]; omega

theorem newlines_in (ts : List Token) (he : HasEof ts) :
    HasEof (newlines ts).2 ∧ CST.sizeL (newlines ts).1 = (newlines ts).1.length ∧
    CST.copiedL (newlines ts).1 = (newlines ts).1.length ∧
    (newlines ts).1.length + (newlines ts).2.length = ts.length := by
  induction ts with
  | nil => exact absurd he not_hasEof_nil
  | cons t ts ih =>
    by_cases ht : t.kind = .newLine
    · obtain ⟨h1, h2, h3, h4⟩ := ih (he.tail (by rw [ht]; simp))
      rw [newlines, pNewline_line ht]
      simp only [CST.sizeL, CST.size, CST.copiedL, CST.copied, List.length_cons]
      exact ⟨h1, by omega, by omega, by omega⟩
    · obtain ⟨m, hp⟩ := pNewline_other (ts := ts) ht
      rw [newlines, hp]
      simp only [CST.sizeL, CST.copiedL, List.length_cons, List.length_nil]
      exact ⟨he, trivial, trivial, by omega⟩

/-- The last iteration may parse a paragraph in vain: this is what is copied for it. -/
def InVain (ts : List Token) (e : Nat) : Prop :=
  e = 0 ∨ ∃ c r j, Takes (fun w => stmtS w ts) (c, r) j c.copied ∧ e = c.copied

theorem docItemsS_in (n : Nat) : ∀ ts, ts.length < n → HasEof ts →
    ∃ cs r j e, Takes (fun w => docItemsS w n ts) (cs, r) j (CST.copiedL cs + e) ∧ HasEof r ∧ InVain r e ∧
      CST.sizeL cs + 3 * r.length ≤ 3 * ts.length ∧ j + 60 * r.length ≤ 120 * ts.length + 20 := by
  induction n with
  | zero => intro ts h; omega
  | succ n ih =>
    intro ts hn he
    rcases stmtS_in ts he with ⟨j, ⟨m, h1⟩, h2⟩ | ⟨c, r, j, h1, h2, h3, h4, h5⟩
    · simp only at h1
      exact ⟨[], ts, j, 0, fun w => by simp only [docItemsS, h1]; rfl, he, .inl rfl, by simp [CST.sizeL], by omega⟩
    · cases r with
      | nil => exact absurd h2 not_hasEof_nil
      | cons t us =>
        simp only [List.length_cons, Nat.mul_succ] at *
        by_cases ht : t.kind = .newLine
        · have hp := pNewline_line (ts := us) ht
          obtain ⟨h6, h7, h8, h8'⟩ := newlines_in us (h2.tail (by rw [ht]; simp))
          obtain ⟨cs, r', j', e, h9, h10, h11, h12, h13⟩ := ih (newlines us).2 (by omega) h6
          refine ⟨c :: .leaf .newline t.loc :: (newlines us).1 ++ cs, r', j + 1 + newlinesS us + j', e, fun w => ?_, h10, h11,
            ?_, ?_⟩
          · have h1w := h1 w
            have h9w := h9 w
            simp only at h1w h9w
            simp only [docItemsS, h1w, hp, h9w, Steps.bind, Steps.tick, CST.copiedL, CST.copiedL_append, CST.sizeL, CST.copied,
              CST.size, List.cons_append, h7, h8, Nat.mul_add]
            congr 1
            omega
          · simp only [List.cons_append, CST.sizeL, CST.sizeL_append, CST.size, h7]; omega
          · simp only [newlinesS]; omega
        · obtain ⟨m', hp⟩ := pNewline_other (ts := us) ht
          refine ⟨[], ts, j + 1, c.copied, fun w => ?_, he, .inr ⟨c, _, j, h1, rfl⟩, by simp [CST.sizeL], by omega⟩
          have h1w := h1 w
          simp only at h1w
          simp only [docItemsS, h1w, hp, CST.copiedL]
          congr 1
          rw [Nat.zero_add]
          omega

mutual

theorem CST.copied_le : ∀ c : CST, c.copied ≤ (c.height - 1) * c.size
  | .leaf _ _ => by simp [CST.copied]
  | .node _ cs _ => by
    have := CST.copiedL_le cs
    simp only [CST.copied, CST.height, CST.size, Nat.add_sub_cancel]
    exact Nat.le_trans this (Nat.mul_le_mul_left _ (by omega))

theorem CST.copiedL_le : ∀ cs : List CST, CST.copiedL cs ≤ CST.heightL cs * CST.sizeL cs
  | [] => by simp [CST.copiedL]
  | c :: cs => by
    have h1 := CST.copied_le c
    have h2 := CST.copiedL_le cs
    have h3 : 0 < c.height := by cases c <;> simp [CST.height]
    simp only [CST.copiedL, CST.heightL, CST.sizeL, Nat.mul_add]
    have h4 : c.height * c.size ≤ max c.height (CST.heightL cs) * c.size := Nat.mul_le_mul_right _ (Nat.le_max_left _ _)
    have h5 : CST.heightL cs * CST.sizeL cs ≤ max c.height (CST.heightL cs) * CST.sizeL cs :=
      Nat.mul_le_mul_right _ (Nat.le_max_right _ _)
    have h6 : (c.height - 1) * c.size + c.size = c.height * c.size := by
      rw [← Nat.succ_mul]; congr 1; omega
    omega

end

mutual

theorem CST.height_le_size : ∀ c : CST, c.height ≤ c.size
  | .leaf _ _ => by simp [CST.height, CST.size]
  | .node _ cs _ => by
    have := CST.heightL_le_sizeL cs
    simp only [CST.height, CST.size]; omega

theorem CST.heightL_le_sizeL : ∀ cs : List CST, CST.heightL cs ≤ CST.sizeL cs
  | [] => by simp [CST.heightL]
  | c :: cs => by
    have h1 := CST.height_le_size c
    have h2 := CST.heightL_le_sizeL cs
    simp only [CST.heightL, CST.sizeL]; omega

end

mutual

theorem CST.copied_ge : ∀ c : CST, c.height * (c.height - 1) ≤ 2 * c.copied
  | .leaf _ _ => by simp [CST.height]
  | .node _ cs _ => by
    have := CST.copiedL_ge cs
    simp only [CST.copied, CST.height, Nat.add_sub_cancel]
    rwa [Nat.mul_comm]

theorem CST.copiedL_ge : ∀ cs : List CST, CST.heightL cs * (CST.heightL cs + 1) ≤ 2 * CST.copiedL cs
  | [] => by simp [CST.heightL]
  | c :: cs => by
    have h1 := CST.copied_ge c
    have h2 := CST.copiedL_ge cs
    have h3 := c.height_le_size
    have h4 : c.height * (c.height + 1) = c.height * (c.height - 1) + 2 * c.height := by
      cases c.height with
      | zero => rfl
      | succ n => simp only [Nat.add_sub_cancel, Nat.mul_succ]; omega
    simp only [CST.heightL, CST.copiedL]
    rcases Nat.le_total c.height (CST.heightL cs) with h | h
    · rw [Nat.max_eq_right h]; omega
    · rw [Nat.max_eq_left h]; omega

end

/-- What parsing takes: calls in proportion to the tokens, and copies. -/
theorem parseS_in (ts : List Token) (he : HasEof ts) :
    ∃ j m, (∀ w, (parseS w ts).2 = j + w * m) ∧ j ≤ 180 * ts.length ∧
      (∀ c, parse ts = .ok c → c.copied ≤ m ∧ m ≤ 2 * c.copied) ∧ m ≤ 2 * ((3 * ts.length + 1) * (3 * ts.length + 1)) := by
  have hpos : 1 ≤ ts.length := by
    cases ts with
    | nil => exact absurd he not_hasEof_nil
    | cons t ts => simp
  obtain ⟨cs, r, j, e, h1, h2, hv, hs, h4⟩ := docItemsS_in (ts.length + 1) ts (by omega) he
  have hsq : ∀ a b : Nat, b ≤ a → a ≤ 3 * ts.length + 1 → b * a ≤ (3 * ts.length + 1) * (3 * ts.length + 1) :=
    fun a b h h' => Nat.mul_le_mul (by omega) h'
  have hopt : ∃ cs2 r2 j2, Takes (fun w => optStmtS w r) (cs2, r2) j2 (CST.copiedL cs2) ∧ HasEof r2 ∧ e ≤ CST.copiedL cs2 ∧
      CST.sizeL cs2 + 3 * r2.length ≤ 3 * r.length + 1 ∧ j2 + 60 * r2.length ≤ 60 * r.length + 18 := by
    rcases stmtS_in r h2 with ⟨j', ⟨m, h5⟩, h6⟩ | ⟨c, r2, j', h5, h6, h7, h8, h9⟩
    · refine ⟨[], r, j', fun w => by have := h5 w; simp only at this; simp only [optStmtS, this]; rfl, h2, ?_,
        by simp [CST.sizeL], by omega⟩
      rcases hv with rfl | ⟨c, r', k, hv, rfl⟩
      · simp
      · have := (h5 0).symm.trans (hv 0)
        cases this
    · refine ⟨[c], r2, j', fun w => ?_, h6, ?_, by simp [CST.sizeL]; omega, by omega⟩
      · have := h5 w
        simp only at this
        simp only [optStmtS, this, CST.copiedL, Nat.mul_add]
        congr 1
        omega
      · rcases hv with rfl | ⟨c', r', k, hv, rfl⟩
        · simp
        · have := (h5 0).symm.trans (hv 0)
          simp only [Prod.mk.injEq, Res.ok.injEq] at this
          rw [this.1.1, CST.copiedL]; omega
  obtain ⟨cs2, r2, j2, h5, h6, hv2, h7, h7'⟩ := hopt
  obtain ⟨h8, h9, h10, h11⟩ := newlines_in r2 h6
  have hcost : ∀ w, (parseS w ts).2 = 1 + (j + w * (CST.copiedL cs + e) + (j2 + w * CST.copiedL cs2 +
      (newlinesS r2 + w * CST.sizeL (newlines r2).1 + (match pEof (newlines r2).2 with
        | .ok (c, _) => 1 + w * c.size | _ => 1)))) := by
    intro w
    have h1w := h1 w
    have h5w := h5 w
    simp only at h1w h5w
    simp only [parseS, h1w, Steps.bind, Steps.tick, h5w]
    rcases pEof (newlines r2).2 with ⟨c, r3⟩ | m | _ <;> rfl
  have hparse : ∀ c, parse ts = .ok c → ∃ e' l, e'.size = 1 ∧ e'.copied = 0 ∧ (∃ r3, pEof (newlines r2).2 = .ok (e', r3)) ∧
      c = .node .document (cs ++ cs2 ++ (newlines r2).1 ++ [e']) l := by
    intro c hc
    have h1w := h1 0
    have h5w := h5 0
    simp only at h1w h5w
    rw [← parseS_fst 0] at hc
    simp only [parseS, h1w, Steps.bind, Steps.tick, h5w] at hc
    rcases hp : pEof (newlines r2).2 with ⟨e', r3⟩ | m | _ <;> rw [hp] at hc <;> simp only [Res.ok.injEq] at hc
    · obtain ⟨l, hl⟩ := foldl_add_new .document (cs ++ cs2 ++ (newlines r2).1 ++ [e'])
      have hleaf : ∃ k l, e' = .leaf k l := by
        cases hr : (newlines r2).2 with
        | nil => rw [hr] at h8; exact absurd h8 not_hasEof_nil
        | cons t us =>
          rw [hr] at hp
          obtain ⟨tk, tl⟩ := t
          cases tk <;> simp [pEof, leafParser] at hp
          exact ⟨_, _, hp.1.symm⟩
      obtain ⟨k, l', rfl⟩ := hleaf
      exact ⟨_, l, rfl, rfl, ⟨r3, rfl⟩, hc.symm.trans hl⟩
    · cases hc
    · cases hc
  have hbound : CST.copiedL cs + e + CST.copiedL cs2 + CST.sizeL (newlines r2).1 + 1 ≤
      2 * ((3 * ts.length + 1) * (3 * ts.length + 1)) := by
    have k1 := CST.copiedL_le (cs ++ cs2 ++ (newlines r2).1)
    have k2 := CST.copiedL_le cs2
    have k3 := hsq _ _ (CST.heightL_le_sizeL (cs ++ cs2 ++ (newlines r2).1)) (by
      simp only [CST.sizeL_append, h9]; omega)
    have k4 := hsq _ _ (CST.heightL_le_sizeL cs2) (by omega)
    simp only [CST.copiedL_append] at k1
    have k5 : CST.sizeL cs2 ≤ 3 * ts.length := by
      cases hr : (newlines r2).2 with
      | nil => rw [hr] at h8; exact absurd h8 not_hasEof_nil
      | cons t us => rw [hr] at h11; simp only [List.length_cons] at h11; omega
    have k6 : CST.heightL cs2 * CST.sizeL cs2 ≤ (3 * ts.length) * (3 * ts.length) :=
      Nat.mul_le_mul (Nat.le_trans (CST.heightL_le_sizeL cs2) k5) k5
    have k7 : (3 * ts.length + 1) * (3 * ts.length + 1) = (3 * ts.length) * (3 * ts.length) + 6 * ts.length + 1 := by
      simp only [Nat.mul_add, Nat.add_mul]; omega
    omega
  rcases hp : pEof (newlines r2).2 with ⟨e', r3⟩ | m | _
  · have he' : e'.size = 1 := by
      cases hr : (newlines r2).2 with
      | nil => rw [hr] at h8; exact absurd h8 not_hasEof_nil
      | cons t us =>
        rw [hr] at hp
        obtain ⟨tk, tl⟩ := t
        cases tk <;> simp [pEof, leafParser] at hp
        rw [← hp.1]; rfl
    refine ⟨1 + j + j2 + newlinesS r2 + 1, CST.copiedL cs + e + CST.copiedL cs2 + CST.sizeL (newlines r2).1 + 1, fun w => ?_, ?_,
      ?_, hbound⟩
    · rw [hcost, hp]
      simp only [he', Nat.mul_add]
      omega
    · rw [newlinesS]; omega
    · intro c hc
      obtain ⟨e'', l, k1, k2, ⟨r4, k3⟩, rfl⟩ := hparse c hc
      simp only [CST.copied, CST.copiedL_append, CST.copiedL, k1, k2, h10]
      omega
  all_goals
    refine ⟨1 + j + j2 + newlinesS r2 + 1, CST.copiedL cs + e + CST.copiedL cs2 + CST.sizeL (newlines r2).1, fun w => ?_, ?_,
      ?_, by omega⟩
    · rw [hcost, hp]
      simp only [Nat.mul_add]
      omega
    · rw [newlinesS]; omega
    · intro c hc
      obtain ⟨e'', l, k1, k2, ⟨r4, k3⟩, rfl⟩ := hparse c hc
      rw [hp] at k3
      cases k3

/-! ### Nesting -/

theorem tokens_hasEof (S : Segmenter) (text : Str) (ts : List Token) (h : tokenizeStr S text = .ok ts) : HasEof ts := by
  rw [tokenizeStr_eq] at h
  injection h with h
  obtain ⟨body, eof, h1, h2, h3⟩ := run_shape (S.graphemes text) M.init
  exact ⟨eof, by rw [← h, h1]; simp, h2⟩

mutual

theorem lay_height : ∀ (c : CST) (st : Around), ∀ x ∈ c.lay st, openAt x ≤ st.length + c.height
  | .leaf k l, st, x, hx => by
    simp only [CST.lay, List.mem_map] at hx
    obtain ⟨y, -, rfl⟩ := hx
    simp [openAt]
  | .node k cs l, st, x, hx => by
    rw [CST.height]
    cases k
    case bracket b =>
      simp only [CST.lay, List.mem_cons] at hx
      rcases hx with rfl | hx
      · simp only [openAt]; omega
      · have := layL_height cs _ x hx
        simp only [List.length_cons] at this
        omega
    case backSlash =>
      cases cs with
      | nil =>
        simp only [CST.lay, List.mem_singleton] at hx
        subst hx
        simp [openAt]
      | cons c cs =>
        have h := layL_height (c :: cs) st x (by
          simp only [CST.lay] at hx
          simp only [CST.layL, List.mem_append]
          exact .inl hx)
        omega
    all_goals
      simp only [CST.lay] at hx
      have := layL_height cs _ x hx
      omega

theorem layL_height : ∀ (cs : List CST) (st : Around), ∀ x ∈ CST.layL st cs, openAt x ≤ st.length + CST.heightL cs
  | [], st, x, hx => by simp [CST.layL] at hx
  | c :: cs, st, x, hx => by
    rw [CST.heightL]
    simp only [CST.layL, List.mem_append] at hx
    rcases hx with hx | hx
    · have := lay_height c st x hx
      omega
    · have := layL_height cs st x hx
      omega

end

theorem run_opens (n : Nat) : ∀ m, ∃ us e, run (List.replicate n ['[']) m = us ++ [e] ∧ e.kind = .eof ∧
    us.length = n ∧ ∀ u ∈ us, u.kind = .bopen .square := by
  induction n with
  | zero => intro m; exact ⟨[], m.eof, rfl, rfl, rfl, by simp⟩
  | succ n ih =>
    intro m
    have ha : act ['['] (List.replicate n ['[']) m = .bopen .square := by
      have hh : (List.replicate n ['[']).headD NUL = ['['] ∨ (List.replicate n ['[']).headD NUL = NUL := by
        cases n <;> simp [List.replicate_succ]
      rw [act]
      generalize (List.replicate n ['[']).headD NUL = h at hh
      generalize m.look = a
      generalize m.nested = b
      rcases hh with rfl | rfl <;> revert a b <;> decide
    obtain ⟨us, e, h1, h2, h3, h4⟩ := ih (emit (.bopen .square) ['['] m).2
    refine ⟨m.single (.bopen .square) :: us, e, ?_, h2, by simp [h3], ?_⟩
    · rw [List.replicate_succ, run, if_neg (by decide), ha, h1]
      rfl
    · intro u hu
      rcases List.mem_cons.mp hu with rfl | hu
      · rfl
      · exact h4 u hu

theorem parts_opens : ∀ (us : List Token) (e : Token), e.kind = .eof → (∀ u ∈ us, u.kind = .bopen .square) → ∀ st : Around,
    ∀ k, us.length = k + 1 → ∃ x ∈ tokenParts st (us ++ [e]), openAt x = st.length + (k + 1)
  | [], e, _, _, st, k, h => by simp at h
  | [u], e, he, hu, st, k, h => by
    have hk : k = 0 := by simpa using h.symm
    refine ⟨(st, .command .square u.loc.start), ?_, by simp [openAt, hk]⟩
    simp [tokenParts, hu u (by simp)]
  | u :: v :: us, e, he, hu, st, k, h => by
    obtain ⟨x, h1, h2⟩ := parts_opens (v :: us) e he (fun w hw => hu w (by simp [hw])) ((.square, u.loc.start) :: st) us.length
      (by simp)
    refine ⟨x, ?_, ?_⟩
    · rw [List.cons_append, parts_open (hu u (by simp))]
      exact List.mem_cons_of_mem _ h1
    · simp only [List.length_cons] at h h2
      rw [h2]; omega

theorem accepts_opens (n : Nat) : ∀ st q, accepts (.square :: st) q (List.replicate n (.bopen .square) ++ [.eof]) = true := by
  induction n with
  | zero => intro st q; simp [accepts]
  | succ n ih =>
    intro st q
    rw [List.replicate_succ, List.cons_append, accepts]
    exact ih _ _

end Brack
