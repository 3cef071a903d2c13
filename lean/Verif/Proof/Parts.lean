import Verif.Spec.Parts
import Verif.Spec.Calls
import Verif.Proof.TransFinal

/-
Helper lemmas: transform keeps what stands inside of what.
-/

namespace Brack

mutual

/-- The parts of a concrete tree. -/
def CST.lay (st : Around) : CST → List (Around × Part)
  | .leaf k l => (k.content l).map fun c => (st, .leaf c)
  | .node (.bracket b) cs l => (st, .command b l.start) :: CST.layL ((b, l.start) :: st) cs
  | .node .backSlash [] l => [(st, .leaf ⟨.invalid, none, l⟩)]
  | .node .backSlash (c :: _) _ => c.lay st
  | .node _ cs _ => CST.layL st cs

def CST.layL (st : Around) : List CST → List (Around × Part)
  | [] => []
  | c :: cs => c.lay st ++ CST.layL st cs

end

theorem layL_append (st) (cs ds : List CST) : CST.layL st (cs ++ ds) = CST.layL st cs ++ CST.layL st ds := by
  induction cs with
  | nil => simp [CST.layL]
  | cons c cs ih => simp [CST.layL, ih]

theorem lay_expr (st) (cs l) : CST.lay st (.node .expr cs l) = CST.layL st cs := by simp [CST.lay]

/-! ### from tokens to the concrete tree -/

theorem parts_leaf {t : Token} {ts k} (h : exprLeaf t.kind = some k) (st) :
    tokenParts st (t :: ts) = CST.lay st (.leaf k t.loc) ++ tokenParts st ts := by
  obtain ⟨tk, l⟩ := t
  cases tk <;> simp [exprLeaf] at h <;> subst h <;> simp [tokenParts, CST.lay, LKind.content]

theorem parts_newline {t : Token} {ts} (h : t.kind = .newLine) (st) : tokenParts st (t :: ts) = tokenParts st ts := by
  obtain ⟨tk, l⟩ := t
  cases h
  simp [tokenParts]

theorem parts_open {t : Token} {ts b} (h : t.kind = .bopen b) (st) :
    tokenParts st (t :: ts) = (st, .command b t.loc.start) :: tokenParts ((b, t.loc.start) :: st) ts := by
  obtain ⟨tk, l⟩ := t
  cases h
  simp [tokenParts]

theorem parts_close {u : Token} {ts b p} (hu : u.kind = .bclose b) (st) :
    tokenParts ((b, p) :: st) (u :: ts) = tokenParts st ts := by
  obtain ⟨tk, l⟩ := u
  cases hu
  simp [tokenParts]

theorem parts_stop {u : Token} {ts b p} (hs : itemStop u.kind = true)
    (hn : u.kind ≠ .newLine) (hu : u.kind ≠ .bclose b) (st) :
    tokenParts ((b, p) :: st) (u :: ts) = tokenParts st (u :: ts) := by
  obtain ⟨tk, l⟩ := u
  cases tk <;> simp [itemStop] at hs hn
  · simp [tokenParts]
  · rename_i b'
    have : b ≠ b' := by rintro rfl; simp at hu
    simp [tokenParts, this]
  · simp [tokenParts]

theorem parts_esc {t u : Token} {us v} (ht : t.kind = .backSlash) (hv : escapable u.kind = some v)
    (st) : tokenParts st (t :: u :: us) =
      CST.lay st (.node .backSlash [.leaf (.text v) u.loc] t.loc) ++ tokenParts st us := by
  obtain ⟨c, rfl, h1, h2, _⟩ := escapedChar_some hv
  obtain ⟨tk, l⟩ := t
  cases ht
  rw [tokenParts]
  simp [h1, CST.lay, LKind.content]

theorem parts_escN {t u : Token} {us} (ht : t.kind = .backSlash) (hv : escapable u.kind = none)
    (st) : tokenParts st (t :: u :: us) =
      CST.lay st (.node .backSlash [] t.loc) ++ tokenParts st (u :: us) := by
  obtain ⟨tk, l⟩ := t
  cases ht
  rw [tokenParts]
  simp [escapedChar_none hv, CST.lay]

theorem lay_bracketNode (st b) (t u : Token) (cs) :
    (bracketNode b t cs u).lay st = (st, .command b t.loc.start) :: CST.layL ((b, t.loc.start) :: st) cs := by
  unfold bracketNode
  rw [CST.lay]
  by_cases hu : u.kind = .bclose b
  · simp [hu, CST.layL, CST.lay, LKind.content, layL_append]
  · simp [hu, CST.layL, CST.lay, LKind.content]

theorem lay_exprNode (st c cs) : (exprNode c cs).lay st = CST.layL st (c :: cs) := by
  simp [exprNode, CST.lay]

mutual

theorem EI.parts : ∀ {ts cs r}, EI ts cs r → HasEof ts → ∀ st,
    tokenParts st ts = CST.layL st cs ++ tokenParts st r
  | _, _, _, .stop _ => fun _ _ => by simp [CST.layL]
  | _, _, _, .leaf hk h => fun he st => by
    rw [parts_leaf hk, h.parts (he.tail (exprLeaf_ne_eof hk)), CST.layL, List.append_assoc]
  | _, _, _, .esc ht hv h => fun he st => by
    rw [parts_esc ht hv, h.parts ((he.tail (by simp [ht])).tail (escapable_ne_eof hv)), CST.layL,
      List.append_assoc]
  | _, _, _, .escN ht hv h => fun he st => by
    rw [parts_escN ht hv, h.parts (he.tail (by simp [ht])), CST.layL, List.append_assoc]
  | _, _, _, .bclosed ht hb hu h => fun he st => by
    have he1 := he.tail (by simp [ht])
    have he2 := (hb.suffix.1.mp he1).tail (by simp [hu])
    rw [parts_open ht, hb.parts he1, parts_close hu, h.parts he2, CST.layL, lay_bracketNode]
    simp
  | _, _, _, .bunclosed ht hb hu h => fun he st => by
    have he1 := he.tail (by simp [ht])
    have he2 := hb.suffix.1.mp he1
    rw [parts_open ht, hb.parts he1, parts_stop (hb.rest_stop.1.stop he2) (hb.rest_stop.2 _ rfl) hu, h.parts he2,
      CST.layL, lay_bracketNode]
    simp

theorem BI.parts : ∀ {ts cs r}, BI ts cs r → HasEof ts → ∀ st,
    tokenParts st ts = CST.layL st cs ++ tokenParts st r
  | _, _, _, .stop _ _ => fun _ _ => by simp [CST.layL]
  | _, _, _, .expr he hb => fun h st => by
    rw [he.parts h, hb.parts (he.suffix.1.mp h), ← lay_exprNode]
    simp [CST.layL]
  | _, _, _, .newline (t := t) ht h => fun he st => by
    rw [parts_newline ht, h.parts (he.tail (by simp [ht]))]
    simp [CST.layL, CST.lay, LKind.content]

end

theorem LI.parts {ts c r} (h : LI ts c r) (he : HasEof ts) :
    tokenParts [] ts = c.lay [] ++ tokenParts [] r := by
  cases h with
  | expr h => rw [h.parts he, lay_exprNode]
  | @close t _ b ht =>
    obtain ⟨tk, l⟩ := t
    cases ht
    simp [tokenParts, CST.lay, LKind.content]

theorem newline_lay (l : Loc) : CST.lay [] (.leaf .newline l) = [] := by
  simp [CST.lay, LKind.content]

theorem SI.parts : ∀ {ts cs r}, SI ts cs r → HasEof ts →
    tokenParts [] ts = CST.layL [] cs ++ tokenParts [] r
  | _, _, _, .stop _ => fun _ => by simp [CST.layL]
  | _, _, _, .more ht hl h => fun he => by
    have he1 := he.tail (by simp [ht])
    rw [parts_newline ht, hl.parts he1, h.parts (hl.hasEof.mp he1)]
    simp [CST.layL, newline_lay]

theorem TI.parts {ts c r} (h : TI ts c r) (he : HasEof ts) :
    tokenParts [] ts = c.lay [] ++ tokenParts [] r := by
  cases h with
  | mk h1 h2 =>
    obtain ⟨l, hl⟩ := foldl_add_new .stmt (_ :: _)
    rw [hl, h1.parts he, h2.parts (h1.hasEof.mp he)]
    simp [CST.lay, CST.layL]

theorem NI.parts : ∀ {ts cs r}, NI ts cs r → tokenParts [] ts = CST.layL [] cs ++ tokenParts [] r
  | _, _, _, .stop _ => by simp [CST.layL]
  | _, _, _, .more ht h => by
    rw [parts_newline ht, h.parts]
    simp [CST.layL, newline_lay]

theorem DI.parts : ∀ {ts cs r}, DI ts cs r → HasEof ts →
    tokenParts [] ts = CST.layL [] cs ++ tokenParts [] r
  | _, _, _, .noStmt _ => fun _ => by simp [CST.layL]
  | _, _, _, .lastStmt _ _ => fun _ => by simp [CST.layL]
  | _, _, _, .more hs ht hN h => fun he => by
    have he1 := (hs.hasEof.mp he).tail (by simp [ht])
    rw [hs.parts he, parts_newline ht, hN.parts, h.parts (hN.hasEof.mp he1)]
    simp [CST.layL, layL_append, newline_lay]

theorem OI.parts {ts cs r} (h : OI ts cs r) (he : HasEof ts) :
    tokenParts [] ts = CST.layL [] cs ++ tokenParts [] r := by
  cases h with
  | none => simp [CST.layL]
  | some h => simpa [CST.layL] using h.parts he

theorem PI.parts {ts c rest} (h : PI ts c rest) : tokenParts [] ts = c.lay [] := by
  have he := h.hasEof
  cases h with
  | @mk _ _ _ _ _ t _ hD hO hN ht =>
    obtain ⟨l, hl⟩ := foldl_add_new .document (_ ++ _)
    rw [hl, hD.parts he, hO.parts (hD.hasEof.mp he), hN.parts]
    have : tokenParts [] (t :: rest) = [] := by
      obtain ⟨tk, l⟩ := t
      cases ht
      simp [tokenParts]
    simp [CST.lay, CST.layL, layL_append, LKind.content, this]

/-! ### simplification -/

theorem argLoop_lay {tl} (ht : IsTail tl) (st : Around) (cs : List CST) (hs : ∀ c ∈ cs, c.simple = true) :
    ∀ prev xs l comma, CST.layL st (argLoop prev (.node .expr xs l) comma (cs ++ tl)).1 =
      CST.layL st xs ++ CST.layL st cs := by
  have htl : CST.layL st tl = [] := by
    rcases ht with rfl | ⟨b, l', rfl⟩ <;> simp [CST.layL, CST.lay, LKind.content]
  induction cs with
  | nil =>
    intro prev xs l comma
    rw [List.nil_append, argLoop_tail ht, layL_append, htl]
    rcases xs with _ | ⟨x, xs⟩ <;> simp [CST.layL, CST.lay]
  | cons c cs ih =>
    intro prev xs l comma
    have ih := ih (fun c hc => hs c (by simp [hc]))
    rcases simple_cases (hs c (by simp)) with ⟨l', rfl⟩ | ⟨l', rfl⟩ | hc
    · rcases xs with _ | ⟨x, xs⟩
      · rw [List.cons_append, argLoop_comma_nil, ih]
        simp [CST.layL, CST.lay, LKind.content]
      · rw [List.cons_append, argLoop_comma_cons]
        simp only [CST.layL, CST.new, ih, CST.lay, LKind.content, List.nil_append, List.map_nil]
    · rw [List.cons_append, argLoop_dot, ih]
      simp [CST.layL, CST.lay, LKind.content]
    · rw [List.cons_append, argLoop_item hc, ih]
      simp [CST.layL, layL_append]

theorem layL_removeElements (st) (cs : List CST) : CST.layL st (removeElements cs) = CST.layL st cs := by
  induction cs with
  | nil => rfl
  | cons c cs ih =>
    rw [removeElements_cons, layL_append, ih]
    rcases c with ⟨k, l⟩ | ⟨k, ds, l⟩
    · cases k <;> simp [removeElements, CST.notInAst, CST.layL, CST.lay, LKind.content]
    · simp [removeElements, CST.notInAst, CST.layL]

theorem layL_removeBlanks (st) (cs : List CST) : CST.layL st (removeBlanks cs) = CST.layL st cs := by
  induction cs with
  | nil => rfl
  | cons c cs ih =>
    rw [removeBlanks_cons, layL_append, ih]
    rcases c with ⟨k, l⟩ | ⟨k, ds, l⟩
    · cases k <;> simp [removeBlanks, CST.isBlank, CST.layL, CST.lay, LKind.content]
    · simp [removeBlanks, CST.isBlank, CST.layL]

theorem bracketKids_lay (st b l1) (ds : List CST) (hs : ∀ d ∈ ds, d.simple = true) {tl}
    (ht : IsTail tl) : CST.layL st (bracketKids (.leaf (.bopen b) l1 :: ds ++ tl)) = CST.layL st ds := by
  have htl : CST.layL st tl = [] := by
    rcases ht with rfl | ⟨b, l', rfl⟩ <;> simp [CST.layL, CST.lay, LKind.content]
  unfold bracketKids
  rw [layL_removeElements, removeBlanks_bracket b l1 ds ht, ← layL_removeBlanks st ds]
  rcases checkValidArguments_cases b l1 (removeBlanks ds) ht with
    ⟨c1, c2, c3, rest, he, h⟩ | ⟨_, h⟩
  · rw [h, he]
    have hr : ∀ c ∈ rest, c.simple = true := fun c hc =>
      hs c (mem_removeBlanks (by rw [he]; simp [hc])).1
    simp only [CST.layL, CST.new, argLoop_lay ht st rest hr, CST.lay, LKind.content, List.nil_append, List.map_nil]
  · rw [h]
    simp [CST.layL, layL_append, htl, CST.lay, LKind.content]

mutual

theorem XI.lay : ∀ {c d es}, XI c d es → ∀ st, c.lay st = d.lay st
  | _, _, _, .leaf _, st => rfl
  | _, _, _, .escaped _, st => by simp [CST.lay]
  | _, _, _, .stray, st => by simp [CST.lay, LKind.content]
  | _, _, _, @XI.closed b cs l l1 l2 ds es h, st => by
    have hk := bracketKids_lay ((b, l.start) :: st) b l1 ds h.simple (.inr ⟨b, l2, rfl⟩)
    rw [CST.lay, CST.lay, hk, ← h.lay]
    simp [CST.layL, layL_append, CST.lay, LKind.content]
  | _, _, _, @XI.unclosed b cs l l1 ds es h, st => by
    have hk := bracketKids_lay ((b, l.start) :: st) b l1 ds h.simple (.inl rfl)
    rw [List.append_nil] at hk
    rw [CST.lay, CST.lay, hk, ← h.lay]
    simp [CST.layL, CST.lay, LKind.content]

theorem XL.lay : ∀ {cs ds es}, XL cs ds es → ∀ st, CST.layL st cs = CST.layL st ds
  | _, _, _, .nil, st => rfl
  | _, _, _, .cons h hs, st => by simp [CST.layL, h.lay st, hs.lay st]

theorem XB.lay : ∀ {cs ds es}, XB cs ds es → ∀ st, CST.layL st cs = CST.layL st ds
  | _, _, _, .nil, st => rfl
  | _, _, _, .expr _ h hs, st => by
    rw [CST.layL, lay_expr, layL_append, h.lay st, hs.lay st]
  | _, _, _, .newline hs, st => by
    rw [CST.layL, CST.layL, hs.lay st]

end

theorem XLine.lay {c ds es} (h : XLine c ds es) : c.lay [] = CST.layL [] ds := by
  cases h with
  | close => simp [CST.lay, LKind.content, CST.layL]
  | newline => simp [CST.lay, LKind.content, CST.layL]
  | expr _ h => simp [CST.lay, CST.layL, h.lay]

theorem XLines.lay {cs ds es} (h : XLines cs ds es) : CST.layL [] cs = CST.layL [] ds := by
  induction h with
  | nil => rfl
  | cons h _ ih => rw [CST.layL, layL_append, h.lay, ih]

theorem XChild.lay {c ds es} (h : XChild c ds es) : c.lay [] = CST.layL [] ds := by
  cases h with
  | newline => simp [CST.lay, LKind.content, CST.layL]
  | eof => simp [CST.lay, LKind.content, CST.layL]
  | stmt h => simp [CST.lay, CST.layL, h.lay]

theorem XDoc.lay {cs ds es} (h : XDoc cs ds es) : CST.layL [] cs = CST.layL [] ds := by
  induction h with
  | nil => rfl
  | cons h _ ih => rw [CST.layL, layL_append, h.lay, ih]

/-! ### the abstract tree -/

mutual

theorem aux_parts (ids : Nat → Str) : ∀ (c : CST) (n : Nat) {a m}, aux ids n c = .ok (a, m) →
    ∀ st, a.parts st = c.lay st
  | .leaf k l, n, a, m, h, st => by
    cases k <;> simp [aux] at h
    all_goals
      obtain ⟨rfl, rfl⟩ := h
      simp [AST.parts, CST.lay, LKind.content]
  | .node k cs l, n, a, m, h, st => by
    rw [aux] at h
    rcases k with _ | _ | _ | b | _ <;> simp only [IKind.toAst] at h <;>
      first
      | cases h
      | (rcases hL : auxL ids n cs with ⟨as, m'⟩ | e | _ <;> rw [hL] at h <;> simp only [] at h <;> cases h
         simp [AST.parts, CST.lay, auxL_parts ids cs n hL])

theorem auxL_parts (ids : Nat → Str) : ∀ (cs : List CST) (n : Nat) {as m}, auxL ids n cs = .ok (as, m) →
    ∀ st, AST.partsL st as = CST.layL st cs
  | [], n, as, m, h, st => by
    rw [auxL] at h; cases h
    rfl
  | c :: cs, n, as, m, h, st => by
    rw [auxL] at h
    rcases h1 : aux ids n c with ⟨a, m1⟩ | e | _ <;> rw [h1] at h <;> simp only [] at h
    · rcases h2 : auxL ids m1 cs with ⟨as', m2⟩ | e | _ <;> rw [h2] at h <;> simp only [] at h
      · cases h
        rw [AST.partsL, CST.layL, aux_parts ids c n h1, auxL_parts ids cs m1 h2]
      · cases h
      · cases h
    · cases h
    · cases h

end

theorem transform_parts {ts : List Token} {c : CST} {ids : Nat → Str} {a : AST} {es : List TErr}
    (hp : parse ts = .ok c) (hx : transform ids c = .ok (a, es)) : a.parts [] = tokenParts [] ts := by
  obtain ⟨rest, hP⟩ := parse_ok hp
  obtain ⟨cs, l, ds, es', rfl, hd⟩ := (parse_grammar hp).xdoc
  have hs := hd.simplify_document (l := l)
  rw [transform, hs] at hx
  simp only at hx
  rcases ha : aux ids 0 (.node .document ds l) with ⟨a', m⟩ | e | _ <;> rw [ha] at hx <;> simp only [] at hx <;>
    cases hx
  rw [aux_parts ids _ _ ha, hP.parts]
  simp [CST.lay, hd.lay]

/-! ### unclosed brackets are commands, macros are macros -/

theorem unclosed_part (b : Bracket) (l : Loc) : ∀ (ts : List Token) (st : List Token) (ar : Around),
    .unclosed ⟨.bopen b, l⟩ ∈ trace st ts → ⟨.bopen b, l⟩ ∈ st ∨ .command b l.start ∈ (tokenParts ar ts).map (·.2)
  | [], st, ar, h => by
    simp [trace] at h
    exact .inl h
  | ⟨k, l'⟩ :: ts, st, ar, h => by
    cases k
    case backSlash =>
      rcases ts with _ | ⟨u, us⟩
      · simp [trace] at h
        exact .inl h
      · unfold trace at h
        simp only at h
        unfold tokenParts
        simp only
        rcases hu : escapedChar u.kind with _ | c <;> rw [hu] at h <;> simp only [List.mem_cons, reduceCtorEq,
          false_or] at h
        · rcases unclosed_part b l (u :: us) st ar h with h | h
          · exact .inl h
          · exact .inr (by simpa using h)
        · rcases unclosed_part b l us st ar h with h | h
          · exact .inl h
          · exact .inr (by simpa using h)
    case bopen b' =>
      unfold trace at h
      unfold tokenParts
      rcases unclosed_part b l ts _ ((b', l'.start) :: ar) h with h | h
      · simp only [List.mem_cons, Token.mk.injEq, TokKind.bopen.injEq] at h
        rcases h with ⟨rfl, rfl⟩ | h
        · exact .inr (by simp)
        · exact .inl h
      · exact .inr (by simp only [List.map_cons, List.mem_cons, h, or_true])
    case bclose b' =>
      unfold trace at h
      unfold tokenParts
      simp only [List.mem_append, List.mem_map, Event.unclosed.injEq, exists_eq_right] at h
      rcases h with h | h
      · exact .inl (List.takeWhile_subset _ h)
      · rcases hd : st.dropWhile (fun o => o.kind ≠ .bopen b') with _ | ⟨o, st'⟩ <;> rw [hd] at h <;>
          simp only [List.mem_cons, reduceCtorEq, false_or] at h
        · rcases unclosed_part b l ts _ ((ar.dropWhile (fun o => o.1 ≠ b')).drop 1) h with h | h
          · simp at h
          · exact .inr h
        · rcases unclosed_part b l ts _ ((ar.dropWhile (fun o => o.1 ≠ b')).drop 1) h with h | h
          · exact .inl ((List.dropWhile_sublist _).subset (by rw [hd]; simp [h]))
          · exact .inr h
    case eof => simp [trace] at h; exact .inl h
    case empty => simp [trace] at h; exact .inl h
    all_goals
      unfold trace at h
      unfold tokenParts
      simp only [List.mem_cons, reduceCtorEq, false_or] at h
      rcases unclosed_part b l ts st ar h with h | h
      · exact .inl h
      · exact .inr (by simpa using h)

mutual

theorem macros_of_parts (p : Pos) : ∀ (a : AST) (ar : Around), .command .angle p ∈ (a.parts ar).map (·.2) →
    a.macros ≠ []
  | .leaf .., ar, h => by simp [AST.parts] at h
  | .node k i cs l, ar, h => by
    cases k
    case bracket b =>
      cases b
      · simp [AST.macros]
      all_goals
        simp only [AST.parts, List.map_cons, List.mem_cons, Part.command.injEq, reduceCtorEq, false_and,
          false_or] at h
        simpa [AST.macros] using macrosL_of_parts p cs _ h
    all_goals
      simp only [AST.parts] at h
      simpa [AST.macros] using macrosL_of_parts p cs _ h

theorem macrosL_of_parts (p : Pos) : ∀ (as : List AST) (ar : Around), .command .angle p ∈ (AST.partsL ar as).map (·.2) →
    AST.macrosL as ≠ []
  | [], ar, h => by simp [AST.partsL] at h
  | a :: as, ar, h => by
    simp only [AST.partsL, List.map_append, List.mem_append] at h
    simp only [AST.macrosL, ne_eq, List.append_eq_nil_iff]
    rcases h with h | h
    · exact fun hn => macros_of_parts p a ar h hn.1
    · exact fun hn => macrosL_of_parts p as ar h hn.2

end

/-- The commands of a token list without backslashes. -/
theorem tokenParts_commands (eof : Token) (he : eof.kind = .eof) : ∀ (ts : List Token) (ar : Around),
    (∀ t ∈ ts, t.kind ≠ .backSlash) → (∀ t ∈ ts, t.kind ≠ .eof ∧ t.kind ≠ .empty) →
    (tokenParts ar (ts ++ [eof])).filterMap (fun x => x.2.command?) = ts.filterMap Token.opening?
  | [], ar, _, _ => by simp [tokenParts, he]
  | ⟨k, l⟩ :: ts, ar, hb, he' => by
    have ih := fun ar => tokenParts_commands eof he ts ar (fun t h => hb t (by simp [h])) (fun t h => he' t (by simp [h]))
    have h1 := hb _ List.mem_cons_self
    have h2 := he' _ List.mem_cons_self
    rw [List.cons_append, tokenParts.eq_def]
    have e1 : ∀ c, Part.command? (.leaf c) = none := fun _ => rfl
    have e2 : ∀ b p, Part.command? (.command b p) = some (b, p) := fun _ _ => rfl
    cases k <;> simp only [ne_eq, reduceCtorEq, not_true_eq_false, not_false_eq_true, and_true, false_and,
      and_false] at h1 h2 <;>
      first
      | exact (ih _).trans (List.filterMap_cons_none rfl).symm
      | (simp only [List.filterMap_cons, e1, e2, ih]; rfl)

end Brack
