import Verif.Proof.Nesting
import Verif.Proof.TransLoc
import Verif.Proof.SerdeRead
import Verif.Proof.Resources
import Verif.Proof.TransOnce

/-
Helper lemmas: the positions in the trees of a document are among those of its tokens.
-/

namespace Brack

section

variable {P : Pos → Prop}

mutual

/-- All positions in a concrete tree are as told. -/
def CST.within (P : Pos → Prop) : CST → Prop
  | .leaf _ l => P l.start ∧ P l.stop
  | .node _ cs l => (P l.start ∧ P l.stop) ∧ CST.withinL P cs

def CST.withinL (P : Pos → Prop) : List CST → Prop
  | [] => True
  | c :: cs => c.within P ∧ CST.withinL P cs

end

theorem withinL_iff (cs : List CST) : CST.withinL P cs ↔ ∀ c ∈ cs, c.within P := by
  induction cs with
  | nil => simp [CST.withinL]
  | cons c cs ih => simp [CST.withinL, ih]

theorem CST.within.loc {c : CST} (h : c.within P) : P c.loc.start ∧ P c.loc.stop := by
  rcases c with ⟨k, l⟩ | ⟨k, cs, l⟩
  · exact h
  · exact h.1

theorem merge_within {l l' : Loc} (h : P l.start ∧ P l.stop) (h' : P l'.start ∧ P l'.stop) :
    P (mergeLocation l l').start ∧ P (mergeLocation l l').stop := by
  unfold mergeLocation
  refine ⟨?_, ?_⟩ <;> simp only <;> split <;> first | exact h.1 | exact h.2 | exact h'.1 | exact h'.2 | skip
  all_goals split <;> first | exact h.1 | exact h.2 | exact h'.1 | exact h'.2

theorem foldl_within (k : IKind) : ∀ (cs ds : List CST) (l : Loc), P l.start ∧ P l.stop → CST.withinL P ds →
    CST.withinL P cs → (cs.foldl CST.add (.node k ds l)).within P
  | [], ds, l, hl, hd, _ => ⟨hl, hd⟩
  | c :: cs, ds, l, hl, hd, hc => by
    rw [List.foldl_cons]
    refine foldl_within k cs (ds ++ [c]) (mergeLocation l c.loc) (merge_within hl hc.1.loc) ?_ hc.2
    rw [withinL_iff] at hd ⊢
    intro x hx
    rcases List.mem_append.1 hx with hx | hx
    · exact hd x hx
    · rw [List.mem_singleton] at hx; subst hx; exact hc.1

/-- The positions of the tokens are as told. -/
def TWithin (P : Pos → Prop) (ts : List Token) : Prop := ∀ t ∈ ts, P t.loc.start ∧ P t.loc.stop

theorem TWithin.tail {t ts} (h : TWithin P (t :: ts)) : TWithin P ts := fun u hu => h u (by simp [hu])

theorem exprNode_within {c cs} (h : CST.withinL P (c :: cs)) : (exprNode c cs).within P := by
  unfold exprNode
  have := (withinL_iff _).1 h
  exact ⟨⟨h.1.loc.1, (this _ (List.getLast_mem (by simp))).loc.2⟩, h⟩

theorem bracketNode_within {b t cs u} (ht : P t.loc.start ∧ P t.loc.stop) (hu : P u.loc.start ∧ P u.loc.stop)
    (h : CST.withinL P cs) : (bracketNode b t cs u).within P := by
  unfold bracketNode
  refine ⟨⟨ht.1, hu.2⟩, ?_⟩
  rw [withinL_iff] at h ⊢
  intro x hx
  simp only [List.cons_append, List.mem_cons, List.mem_append] at hx
  rcases hx with rfl | hx | hx
  · exact ht
  · exact h x hx
  · split at hx
    · rw [List.mem_singleton] at hx; subst hx; exact hu
    · simp at hx

mutual

theorem EI.within : ∀ {ts cs r}, EI ts cs r → TWithin P ts → CST.withinL P cs ∧ TWithin P r
  | _, _, _, .stop _ => fun h => ⟨trivial, h⟩
  | _, _, _, .leaf _ h => fun ht => by
    have := h.within ht.tail
    exact ⟨⟨ht _ (by simp), this.1⟩, this.2⟩
  | _, _, _, .esc _ _ h => fun ht => by
    have := h.within ht.tail.tail
    exact ⟨⟨⟨ht _ (by simp), ht _ (by simp), trivial⟩, this.1⟩, this.2⟩
  | _, _, _, .escN _ _ h => fun ht => by
    have := h.within ht.tail
    exact ⟨⟨⟨ht _ (by simp), trivial⟩, this.1⟩, this.2⟩
  | _, _, _, .bclosed _ hb _ h => fun ht => by
    have h1 := hb.within ht.tail
    have h2 := h.within h1.2.tail
    exact ⟨⟨bracketNode_within (ht _ (by simp)) (h1.2 _ (by simp)) h1.1, h2.1⟩, h2.2⟩
  | _, _, _, .bunclosed _ hb _ h => fun ht => by
    have h1 := hb.within ht.tail
    have h2 := h.within h1.2
    exact ⟨⟨bracketNode_within (ht _ (by simp)) (h1.2 _ (by simp)) h1.1, h2.1⟩, h2.2⟩

theorem BI.within : ∀ {ts cs r}, BI ts cs r → TWithin P ts → CST.withinL P cs ∧ TWithin P r
  | _, _, _, .stop _ _ => fun h => ⟨trivial, h⟩
  | _, _, _, .expr he hb => fun ht => by
    have h1 := he.within ht
    have h2 := hb.within h1.2
    exact ⟨⟨exprNode_within h1.1, h2.1⟩, h2.2⟩
  | _, _, _, .newline _ h => fun ht => by
    have := h.within ht.tail
    exact ⟨⟨ht _ (by simp), this.1⟩, this.2⟩

end

theorem LI.within {ts c r} (h : LI ts c r) (ht : TWithin P ts) : c.within P ∧ TWithin P r := by
  cases h with
  | expr h => have := h.within ht; exact ⟨exprNode_within this.1, this.2⟩
  | close _ => exact ⟨ht _ (by simp), ht.tail⟩

theorem SI.within : ∀ {ts cs r}, SI ts cs r → TWithin P ts → CST.withinL P cs ∧ TWithin P r
  | _, _, _, .stop _ => fun h => ⟨trivial, h⟩
  | _, _, _, .more _ hl h => fun ht => by
    have h1 := hl.within ht.tail
    have h2 := h.within h1.2
    exact ⟨⟨ht _ (by simp), h1.1, h2.1⟩, h2.2⟩

theorem TI.within (h0 : P ⟨0, 0⟩) {ts c r} (h : TI ts c r) (ht : TWithin P ts) : c.within P ∧ TWithin P r := by
  cases h with
  | mk h1 h2 =>
    have k1 := h1.within ht
    have k2 := h2.within k1.2
    exact ⟨foldl_within _ _ [] _ ⟨h0, h0⟩ trivial ⟨k1.1, k2.1⟩, k2.2⟩

theorem NI.within : ∀ {ts cs r}, NI ts cs r → TWithin P ts → CST.withinL P cs ∧ TWithin P r
  | _, _, _, .stop _ => fun h => ⟨trivial, h⟩
  | _, _, _, .more _ h => fun ht => by
    have h2 := h.within ht.tail
    exact ⟨⟨ht _ (by simp), h2.1⟩, h2.2⟩

theorem withinL_append {cs ds : List CST} (h : CST.withinL P cs) (h' : CST.withinL P ds) : CST.withinL P (cs ++ ds) := by
  rw [withinL_iff] at *
  intro x hx
  rcases List.mem_append.1 hx with hx | hx
  · exact h x hx
  · exact h' x hx

theorem DI.within (h0 : P ⟨0, 0⟩) : ∀ {ts cs r}, DI ts cs r → TWithin P ts → CST.withinL P cs ∧ TWithin P r
  | _, _, _, .noStmt _ => fun h => ⟨trivial, h⟩
  | _, _, _, .lastStmt _ _ => fun h => ⟨trivial, h⟩
  | _, _, _, .more hs _ hN h => fun ht => by
    have k1 := hs.within h0 ht
    have k2 := hN.within k1.2.tail
    have k3 := h.within h0 k2.2
    exact ⟨withinL_append ⟨k1.1, k1.2 _ (by simp), k2.1⟩ k3.1, k3.2⟩

theorem OI.within (h0 : P ⟨0, 0⟩) {ts cs r} (h : OI ts cs r) (ht : TWithin P ts) : CST.withinL P cs ∧ TWithin P r := by
  cases h with
  | none => exact ⟨trivial, ht⟩
  | some h => have := h.within h0 ht; exact ⟨⟨this.1, trivial⟩, this.2⟩

theorem PI.within (h0 : P ⟨0, 0⟩) {ts c rest} (h : PI ts c rest) (ht : TWithin P ts) : c.within P := by
  cases h with
  | mk hD hO hN he =>
    have k1 := hD.within h0 ht
    have k2 := hO.within h0 k1.2
    have k3 := hN.within k2.2
    exact foldl_within _ _ [] _ ⟨h0, h0⟩ trivial
      (withinL_append (withinL_append (withinL_append k1.1 k2.1) k3.1) ⟨k3.2 _ (by simp), trivial⟩)

/-! ### simplification -/

theorem filter_within (p : CST → Bool) {cs : List CST} (h : CST.withinL P cs) : CST.withinL P (cs.filter p) := by
  rw [withinL_iff] at *
  exact fun c hc => h c (List.mem_filter.1 hc).1

theorem add_within {e c : CST} (he : e.within P) (hc : c.within P) : (e.add c).within P := by
  rcases e with ⟨k, l⟩ | ⟨k, cs, l⟩
  · exact he
  · exact ⟨merge_within he.1 hc.loc, withinL_append he.2 ⟨hc, trivial⟩⟩

theorem argLoop_within (h0 : P ⟨0, 0⟩) : ∀ (cs : List CST) (prev e : CST) (comma : Bool), e.within P → CST.withinL P cs →
    CST.withinL P (argLoop prev e comma cs).1
  | [], prev, e, comma, he, _ => by
    simp only [argLoop]
    split
    · trivial
    · exact ⟨he, trivial⟩
  | c :: cs, prev, e, comma, he, hc => by
    have ih := fun prev e comma he => argLoop_within h0 cs prev e comma he hc.2
    have hn : (CST.new .expr).within P := ⟨⟨h0, h0⟩, trivial⟩
    unfold argLoop
    split
    · split
      · exact ih _ _ _ he
      · exact ⟨he, ih _ _ _ hn⟩
    · split
      · exact ⟨he, hc.1, trivial⟩
      · split
        · exact ⟨hc.1, trivial⟩
        · exact ⟨hc.1, trivial⟩
    · exact ih _ _ _ he
    · exact ih _ _ _ (add_within he hc.1)

theorem bracketKids_within (h0 : P ⟨0, 0⟩) {cs : List CST} (h : CST.withinL P cs) : CST.withinL P (bracketKids cs) := by
  unfold bracketKids
  refine filter_within _ ?_
  have h := filter_within (fun c => !c.isBlank) h
  change CST.withinL P (removeBlanks cs) at h
  unfold checkValidArguments
  split
  · rename_i c0 c1 c2 c3 rest heq
    rw [heq] at h
    exact ⟨h.1, h.2.1, h.2.2.1, h.2.2.2.1, argLoop_within h0 _ _ _ _ ⟨⟨h0, h0⟩, trivial⟩ h.2.2.2.2⟩
  · exact h

mutual

theorem XI.within (h0 : P ⟨0, 0⟩) : ∀ {c d es}, XI c d es → c.within P → d.within P
  | _, _, _, .leaf _, h => h
  | _, _, _, .escaped _, h => h.2.1
  | _, _, _, .stray, h => h.1
  | _, _, _, @XI.closed b cs l l1 l2 ds es hb, h => by
    have h' := (withinL_iff _).1 h.2
    refine ⟨h.1, bracketKids_within h0 ⟨h' _ (by simp), withinL_append (hb.within h0 ?_) ⟨h' _ (by simp), trivial⟩⟩⟩
    exact (withinL_iff _).2 fun c hc => h' c (by simp [hc])
  | _, _, _, @XI.unclosed b cs l l1 ds es hb, h =>
    ⟨h.1, bracketKids_within h0 ⟨h.2.1, hb.within h0 h.2.2⟩⟩

theorem XL.within (h0 : P ⟨0, 0⟩) : ∀ {cs ds es}, XL cs ds es → CST.withinL P cs → CST.withinL P ds
  | _, _, _, .nil, _ => trivial
  | _, _, _, .cons h hs, hc => ⟨h.within h0 hc.1, hs.within h0 hc.2⟩

theorem XB.within (h0 : P ⟨0, 0⟩) : ∀ {cs ds es}, XB cs ds es → CST.withinL P cs → CST.withinL P ds
  | _, _, _, .nil, _ => trivial
  | _, _, _, .expr _ h hs, hc => withinL_append (h.within h0 hc.1.2) (hs.within h0 hc.2)
  | _, _, _, .newline hs, hc => ⟨hc.1, hs.within h0 hc.2⟩

end

theorem XLine.within (h0 : P ⟨0, 0⟩) {c ds es} (h : XLine c ds es) (hc : c.within P) : CST.withinL P ds := by
  cases h with
  | close => trivial
  | newline => trivial
  | expr _ h => exact ⟨⟨hc.1, h.within h0 hc.2⟩, trivial⟩

theorem XLines.within (h0 : P ⟨0, 0⟩) {cs ds es} (h : XLines cs ds es) (hc : CST.withinL P cs) : CST.withinL P ds := by
  induction h with
  | nil => trivial
  | cons h _ ih => exact withinL_append (h.within h0 hc.1) (ih hc.2)

theorem XChild.within (h0 : P ⟨0, 0⟩) {c ds es} (h : XChild c ds es) (hc : c.within P) : CST.withinL P ds := by
  cases h with
  | eof => trivial
  | newline => trivial
  | stmt h => exact ⟨⟨hc.1, h.within h0 hc.2⟩, trivial⟩

theorem XDoc.within (h0 : P ⟨0, 0⟩) {cs ds es} (h : XDoc cs ds es) (hc : CST.withinL P cs) : CST.withinL P ds := by
  induction h with
  | nil => trivial
  | cons h _ ih => exact withinL_append (h.within h0 hc.1) (ih hc.2)

end

/-- The numbers of a position are those of the machine. -/
def Pos.Sized (p : Pos) : Prop := p.line < 2 ^ 64 ∧ p.character < 2 ^ 64

mutual

theorem aux_sized (ids : Nat → Str) : ∀ (c : CST) (n : Nat) {a m}, aux ids n c = .ok (a, m) → c.within Pos.Sized → a.Sized
  | .leaf k l, n, a, m, h, hw => by
    have hl : l.Sized := ⟨hw.1.1, hw.1.2, hw.2.1, hw.2.2⟩
    cases k <;> simp [aux] at h
    all_goals
      obtain ⟨rfl, rfl⟩ := h
      exact .leaf hl
  | .node k cs l, n, a, m, h, hw => by
    have hl : l.Sized := ⟨hw.1.1.1, hw.1.1.2, hw.1.2.1, hw.1.2.2⟩
    rw [aux] at h
    rcases k with _ | _ | _ | b | _ <;> simp only [IKind.toAst] at h <;>
      first
      | cases h
      | (rcases hL : auxL ids n cs with ⟨as, m'⟩ | e | _ <;> rw [hL] at h <;> simp only [] at h <;> cases h
         exact .node hl (auxL_sized ids cs n hL hw.2))

theorem auxL_sized (ids : Nat → Str) : ∀ (cs : List CST) (n : Nat) {as m}, auxL ids n cs = .ok (as, m) →
    CST.withinL Pos.Sized cs → ∀ a ∈ as, a.Sized
  | [], n, as, m, h, _ => by
    rw [auxL] at h; cases h
    simp
  | c :: cs, n, as, m, h, hw => by
    rw [auxL] at h
    rcases h1 : aux ids n c with ⟨a, m1⟩ | e | _ <;> rw [h1] at h <;> simp only [] at h
    · rcases h2 : auxL ids m1 cs with ⟨as', m2⟩ | e | _ <;> rw [h2] at h <;> simp only [] at h
      · cases h
        simp only [List.forall_mem_cons]
        exact ⟨aux_sized ids c n h1 hw.1, auxL_sized ids cs m1 h2 hw.2⟩
      · cases h
      · cases h
    · cases h
    · cases h

end

theorem transform_sized {ts : List Token} {c : CST} {ids : Nat → Str} {a : AST} {es : List TErr}
    (hp : parse ts = .ok c) (hx : transform ids c = .ok (a, es)) (ht : TWithin Pos.Sized ts) : a.Sized := by
  obtain ⟨rest, hP⟩ := parse_ok hp
  have h0 : Pos.Sized ⟨0, 0⟩ := ⟨by decide, by decide⟩
  have hw := hP.within h0 ht
  obtain ⟨cs, l, ds, es', rfl, hd⟩ := (parse_grammar hp).xdoc
  have hs := hd.simplify_document (l := l)
  rw [transform, hs] at hx
  simp only at hx
  rcases ha : aux ids 0 (.node .document ds l) with ⟨a', m⟩ | e | _ <;> rw [ha] at hx <;> simp only [] at hx <;>
    cases hx
  exact aux_sized ids _ _ ha ⟨hw.1, hd.within h0 hw.2⟩

/-! ### the tokens of a text -/

theorem graphemes_le (S : Segmenter) (s : Str) : (S.graphemes s).length ≤ s.length := by
  have h := flatten_length_ge (S.graphemes s) (S.nonempty s)
  rwa [S.flatten] at h

theorem tiles_within (S : Segmenter) : ∀ (ts : List Token) (p : Pos) (N : Nat), Tiles S p ts →
    p.line + p.character + (spell ts).length ≤ N →
    TWithin (fun q => q.line + q.character ≤ N) ts
  | [], p, N, _, _ => by intro t ht; simp at ht
  | t :: ts, p, N, h, hN => by
    obtain ⟨h1, h2, h3⟩ := h
    have hg := graphemes_le S t.kind.spelling
    have hs : (spell (t :: ts)).length = t.kind.spelling.length + (spell ts).length := by simp [spell]
    have ih := tiles_within S ts _ N h3 (by
      split
      · rename_i hk
        have : t.kind.spelling.length = 1 := by rw [hk]; rfl
        simp only; omega
      · rw [h2]; simp only; omega)
    intro u hu
    rcases List.mem_cons.1 hu with rfl | hu
    · rw [h1, h2]; simp only; omega
    · exact ih u hu

theorem spell_length : ∀ ts : List Token, (∀ t ∈ ts, t.kind ≠ .eof → t.kind.spelling ≠ []) →
    (∀ init e, ts = init ++ [e] → ∀ t ∈ init, t.kind ≠ .eof) → ts.length ≤ (spell ts).length + 1
  | [], _, _ => by simp
  | [t], _, _ => by simp
  | t :: u :: ts, h, h' => by
    have h1 : t.kind ≠ .eof := by
      have := h' ((t :: u :: ts).dropLast) ((t :: u :: ts).getLast (by simp)) (List.dropLast_concat_getLast _).symm
      exact this t (by simp)
    have h2 := List.length_pos_iff.2 (h t (by simp) h1)
    have ih := spell_length (u :: ts) (fun v hv => h v (by simp [hv])) (fun init e he v hv =>
      h' (t :: init) e (by rw [he]; rfl) v (by simp [hv]))
    have hs : (spell (t :: u :: ts)).length = t.kind.spelling.length + (spell (u :: ts)).length := by simp [spell]
    rw [hs]
    simp only [List.length_cons] at ih ⊢
    omega

/-- A text has at most one token more than characters. -/
theorem tokens_length (S : Segmenter) (text : Str) (ts : List Token) (h : tokenizeStr S text = .ok ts) :
    ts.length ≤ text.length + 1 := by
  have hl := tokens_spell S text
  rw [tokenizeStr_eq] at h
  injection h with h
  obtain ⟨body, eof, h1, h2, h3⟩ := run_shape (S.graphemes text) M.init
  have h4 := spell_length ts (fun t ht => run_spelling (S.graphemes text) (S.nonempty text) M.init t (h ▸ ht)) (by
    intro init e he t ht
    rw [← h, h1] at he
    obtain ⟨rfl, _⟩ := List.append_inj' he rfl
    exact (h3 t ht).1)
  rw [← h, hl] at h4
  have h5 := (List.takeWhile_prefix (l := text) (p := (· ≠ Char.ofNat 0))).length_le
  rw [h] at h4
  omega

theorem tokens_sized (S : Segmenter) (text : Str) (ts : List Token) (h : tokenizeStr S text = .ok ts) (hl : text.length < 2 ^ 64) :
    TWithin Pos.Sized ts := by
  have hs := tokens_spell S text
  have ht := tokens_tile S text
  rw [tokenizeStr_eq] at h
  injection h with h
  rw [h] at hs ht
  have h5 := (List.takeWhile_prefix (l := text) (p := (· ≠ Char.ofNat 0))).length_le
  have := tiles_within S ts ⟨0, 0⟩ text.length ht (by rw [hs]; simpa using h5)
  intro t hm
  have := this t hm
  simp only [Pos.Sized] at this ⊢
  omega

end Brack
