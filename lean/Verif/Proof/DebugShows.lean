import Verif.Proof.DebugText
import Verif.Proof.Serde

namespace Brack

open Serde (tokenTag astTags cstTags astLeaf astInner cstLeaf cstInner)

/-! ### What is printed is written -/

theorem escapeDebug_quotes (printable : Char → Bool) (c : Char) {s t : Str} (h : Quotes s t) :
    Quotes (c :: s) (escapeDebug printable c ++ t) := by
  unfold escapeDebug
  by_cases h0 : c = '\x00'
  · rw [if_pos h0, h0]; exact .short (by decide) h
  rw [if_neg h0]
  by_cases h1 : c = '\t'
  · rw [if_pos h1, h1]; exact .short (by decide) h
  rw [if_neg h1]
  by_cases h2 : c = '\r'
  · rw [if_pos h2, h2]; exact .short (by decide) h
  rw [if_neg h2]
  by_cases h3 : c = '\n'
  · rw [if_pos h3, h3]; exact .short (by decide) h
  rw [if_neg h3]
  by_cases h4 : c = '\\'
  · rw [if_pos h4, h4]; exact .short (by decide) h
  rw [if_neg h4]
  by_cases h5 : c = '"'
  · rw [if_pos h5, h5]; exact .short (by decide) h
  rw [if_neg h5]
  by_cases h6 : printable c = true
  · rw [if_pos h6]; exact .plain ⟨h5, h4⟩ h
  · rw [if_neg h6]
    have := Quotes.code (c := c) h
    simpa using this

theorem toDigits_line {b : Nat} (hb : 1 < b) (hb' : b ≤ 16) (n : Nat) : '\n' ∉ Nat.toDigits b n := by
  intro h
  exact not_name (by decide) (toDigits_name hb hb' n _ h)

theorem escapeDebug_line (printable : Char → Bool) (c : Char) : '\n' ∉ escapeDebug printable c := by
  unfold escapeDebug
  by_cases h0 : c = '\x00'
  · rw [if_pos h0]; decide
  rw [if_neg h0]
  by_cases h1 : c = '\t'
  · rw [if_pos h1]; decide
  rw [if_neg h1]
  by_cases h2 : c = '\r'
  · rw [if_pos h2]; decide
  rw [if_neg h2]
  by_cases h3 : c = '\n'
  · rw [if_pos h3]; decide
  rw [if_neg h3]
  by_cases h4 : c = '\\'
  · rw [if_pos h4]; decide
  rw [if_neg h4]
  by_cases h5 : c = '"'
  · rw [if_pos h5]; decide
  rw [if_neg h5]
  by_cases h6 : printable c = true
  · rw [if_pos h6, List.mem_singleton]; exact fun h => h3 h.symm
  · rw [if_neg h6]
    simp only [List.mem_append, not_or]
    exact ⟨⟨by decide, toDigits_line (by decide) (by decide) _⟩, by decide⟩

theorem quotes_flatMap (printable : Char → Bool) (s : Str) : Quotes s (s.flatMap (escapeDebug printable)) := by
  induction s with
  | nil => exact .nil
  | cons c s ih => rw [List.flatMap_cons]; exact escapeDebug_quotes printable c ih

namespace DebugVal

variable {printable : Char → Bool}

/-- Printing the value writes it on one line. -/
def Fine (printable : Char → Bool) (v : DebugVal) : Prop := DebugLine (v.text printable) v

theorem fine_word {w : Str} (h : ∀ c ∈ w, IsNameChar c) (hw : w ≠ []) : Fine printable (.word w) := by
  refine ⟨by rw [text]; exact .word h hw, ?_⟩
  rw [text]
  exact fun hn => not_name (by decide) (h _ hn)

theorem fine_str (s : Str) : Fine printable (.str s) := by
  refine ⟨by rw [text]; exact .str (quotes_flatMap printable s), ?_⟩
  rw [text, debugStr]
  simp only [List.mem_cons, List.mem_append, List.mem_flatMap, not_or, not_exists, not_and, List.not_mem_nil]
  exact ⟨by decide, fun c _ => escapeDebug_line printable c, by decide, id⟩

theorem fine_all : ∀ {vs : List DebugVal}, (∀ v ∈ vs, Fine printable v) →
    WrittenAll vs (texts printable vs) ∧ '\n' ∉ texts printable vs
  | [], _ => by rw [texts]; exact ⟨.nil, by simp⟩
  | [v], h => by
    rw [texts]
    exact ⟨.one (h v (by simp)).1, (h v (by simp)).2⟩
  | v :: v' :: vs, h => by
    obtain ⟨h1, h2⟩ := fine_all (vs := v' :: vs) fun u hu => h u (List.mem_cons_of_mem _ hu)
    have hv := h v (by simp)
    rw [texts]
    · refine ⟨.more hv.1 h1, ?_⟩
      simp only [List.mem_append, not_or]
      exact ⟨⟨hv.2, by decide⟩, h2⟩
    · simp

theorem fine_fields : ∀ {keys : List Str} {vs : List DebugVal}, keys.length = vs.length → vs ≠ [] →
    (∀ k ∈ keys, ∀ c ∈ k, IsNameChar c) → (∀ v ∈ vs, Fine printable v) →
    WrittenFields keys vs (fields printable keys vs) ∧ '\n' ∉ fields printable keys vs
  | [], [], _, h, _, _ => absurd rfl h
  | [k], [v], _, _, hk, h => by
    rw [fields]
    refine ⟨.one (hk k (by simp)) (h v (by simp)).1, ?_⟩
    simp only [List.mem_append, not_or]
    exact ⟨⟨fun hn => not_name (by decide) (hk k (by simp) _ hn), by decide⟩, (h v (by simp)).2⟩
  | k :: k' :: ks, v :: v' :: vs, hl, _, hk, h => by
    obtain ⟨h1, h2⟩ := fine_fields (keys := k' :: ks) (vs := v' :: vs) (by simpa using hl) (by simp)
      (fun u hu => hk u (List.mem_cons_of_mem _ hu)) fun u hu => h u (List.mem_cons_of_mem _ hu)
    have hv := h v (by simp)
    rw [fields]
    · refine ⟨.more (hk k (by simp)) hv.1 h1, ?_⟩
      simp only [List.mem_append, not_or]
      exact ⟨⟨⟨⟨fun hn => not_name (by decide) (hk k (by simp) _ hn), by decide⟩, hv.2⟩, by decide⟩, h2⟩
    · simp
  | [], _ :: _, hl, _, _, _ => by simp at hl
  | _ :: _, [], hl, _, _, _ => by simp at hl
  | [_], _ :: _ :: _, hl, _, _, _ => by simp at hl
  | _ :: _ :: _, [_], hl, _, _, _ => by simp at hl

theorem fine_seq {vs : List DebugVal} (h : ∀ v ∈ vs, Fine printable v) : Fine printable (.seq vs) := by
  obtain ⟨h1, h2⟩ := fine_all h
  refine ⟨by rw [text]; exact .seq h1, ?_⟩
  rw [text]
  simp only [List.mem_append, not_or]
  exact ⟨⟨by decide, h2⟩, by decide⟩

theorem fine_tuple {name : Str} {vs : List DebugVal} (hn : ∀ c ∈ name, IsNameChar c) (h : ∀ v ∈ vs, Fine printable v) :
    Fine printable (.tuple name vs) := by
  obtain ⟨h1, h2⟩ := fine_all h
  refine ⟨?_, ?_⟩
  · rw [text]
    have := Written.tuple hn h1
    simpa using this
  · rw [text]
    simp only [List.mem_append, not_or]
    exact ⟨⟨⟨fun hc => not_name (by decide) (hn _ hc), by decide⟩, h2⟩, by decide⟩

theorem fine_record {name : Str} {keys : List Str} {vs : List DebugVal} (hn : ∀ c ∈ name, IsNameChar c) (hw : name ≠ [])
    (hl : keys.length = vs.length) (hne : vs ≠ []) (hk : ∀ k ∈ keys, ∀ c ∈ k, IsNameChar c)
    (h : ∀ v ∈ vs, Fine printable v) : Fine printable (.record name keys vs) := by
  obtain ⟨h1, h2⟩ := fine_fields hl hne hk h
  refine ⟨by rw [text]; exact .record hn hw h1, ?_⟩
  rw [text]
  simp only [List.mem_append, not_or]
  exact ⟨⟨⟨fun hc => not_name (by decide) (hn _ hc), by decide⟩, h2⟩, by decide⟩

/-- All of the text is a name. -/
def isName (s : Str) : Bool := s.all fun c => c.isAlphanum || c == '_'

theorem of_isName {s : Str} (h : isName s = true) : ∀ c ∈ s, IsNameChar c := by
  intro c hc
  have := List.all_eq_true.mp h c hc
  simpa [IsNameChar] using this

theorem of_areNames {ks : List Str} (h : ks.all isName = true) : ∀ k ∈ ks, ∀ c ∈ k, IsNameChar c :=
  fun k hk => of_isName (List.all_eq_true.mp h k hk)

theorem fine_nat (n : Nat) : Fine printable (ofNat n) :=
  fine_word (toDigits_name (by decide) (by decide) n) (by
    have : 0 < (Nat.toDigits 10 n).length := Nat.length_toDigits_pos
    intro h; rw [h] at this; exact absurd this (by decide))

theorem fine_bool (b : Bool) : Fine printable (ofBool b) := by
  cases b <;> exact fine_word (of_isName (by decide)) (by decide)

theorem fine_option {f : α → DebugVal} (hf : ∀ a, Fine printable (f a)) (o : Option α) : Fine printable (ofOption f o) := by
  cases o with
  | none => exact fine_word (of_isName (by decide)) (by decide)
  | some a => exact fine_tuple (of_isName (by decide)) (by simpa using hf a)

theorem fine_pos (p : Pos) : Fine printable (ofPos p) :=
  fine_record (of_isName (by decide)) (by decide) rfl (by simp) (of_areNames (by decide))
    (by simpa using ⟨fine_nat p.line, fine_nat p.character⟩)

theorem fine_loc (l : Loc) : Fine printable (ofLoc l) :=
  fine_record (of_isName (by decide)) (by decide) rfl (by simp) (of_areNames (by decide))
    (by simpa using ⟨fine_pos l.start, fine_pos l.stop⟩)

theorem tokenTag_name (k : TokKind) : isName (tokenTag k) = true := by
  cases k with
  | bopen b => cases b <;> decide
  | bclose b => cases b <;> decide
  | _ => rfl

theorem fine_token (t : Token) : Fine printable (ofToken t) := by
  obtain ⟨k, l⟩ := t
  refine fine_tuple (of_isName (tokenTag_name k)) ?_
  cases k with
  | text s => simpa using ⟨fine_str s, fine_loc l⟩
  | module s => simpa using ⟨fine_str s, fine_loc l⟩
  | ident s => simpa using ⟨fine_str s, fine_loc l⟩
  | _ => simpa using fine_loc l

section
variable {L N : Type} {T : Tags L N} (hL : ∀ k, isName (T.leaf k) = true) (hN : ∀ k, isName (T.inner k) = true)
include hL hN

mutual
theorem fine_tree : ∀ t : SNode L N, Fine printable (ofTree T t)
  | .leaf k id value loc => by
    rw [ofTree]
    refine fine_tuple (of_isName (hL k)) ?_
    simp only [List.mem_singleton, forall_eq]
    exact fine_record (of_isName (by decide)) (by decide) rfl (by simp) (of_areNames (by decide))
      (by simpa using ⟨fine_str id, fine_option fine_str value, fine_loc loc⟩)
  | .inner k id cs loc => by
    rw [ofTree]
    refine fine_tuple (of_isName (hN k)) ?_
    simp only [List.mem_singleton, forall_eq]
    exact fine_record (of_isName (by decide)) (by decide) rfl (by simp) (of_areNames (by decide))
      (by simpa using ⟨fine_str id, fine_seq (fine_trees cs), fine_loc loc⟩)
theorem fine_trees : ∀ ts : List (SNode L N), ∀ v ∈ ofTrees T ts, Fine printable v
  | [] => by rw [ofTrees]; simp
  | t :: ts => by
    rw [ofTrees]
    intro v hv
    rcases List.mem_cons.mp hv with rfl | hv
    · exact fine_tree t
    · exact fine_trees ts v hv
end
end

theorem fine_ast (a : AST) : Fine printable (ofTree astTags a.tree) :=
  fine_tree (fun k => by cases k <;> decide) (fun k => by
    cases k with
    | bracket b => cases b <;> decide
    | _ => decide) _

theorem fine_cst (ids : List Nat → Str) (c : CST) (path : List Nat) : Fine printable (ofTree cstTags (c.tree ids path)) :=
  fine_tree (fun k => by
    cases k with
    | bopen b => cases b <;> decide
    | bclose b => cases b <;> decide
    | _ => decide) (fun k => by
    cases k with
    | bracket b => cases b <;> decide
    | _ => decide) _

theorem fine_error (e : TErr) : Fine printable (ofError e) := by
  obtain ⟨k, l⟩ := e
  refine fine_tuple (of_isName ?_) (by simpa using fine_loc l)
  show isName (errorTag k) = true
  clear l
  cases k with
  | notOpened b => cases b <;> decide
  | notClosed b => cases b <;> decide
  | _ => decide

theorem fine_type : ∀ t : PType, Fine printable (ofType t)
  | .inline => fine_word (of_isName (by decide)) (by decide)
  | .block => fine_word (of_isName (by decide)) (by decide)
  | .ast => fine_word (of_isName (by decide)) (by decide)
  | .option t => fine_tuple (of_isName (by decide)) (by simpa using fine_type t)
  | .array t => fine_tuple (of_isName (by decide)) (by simpa using fine_type t)
  | .inlineCmd s => fine_tuple (of_isName (by decide)) (by simpa using fine_str s)
  | .blockCmd s => fine_tuple (of_isName (by decide)) (by simpa using fine_str s)

theorem fine_schema (s : PluginSchema) : Fine printable (ofSchema s) :=
  fine_record (of_isName (by decide)) (by decide) rfl (by simp) (of_areNames (by decide))
    (by simpa using ⟨fine_str s.owner, fine_str s.repo, fine_str s.version, fine_option fine_bool s.exprHook,
      fine_option fine_bool s.stmtHook, fine_option fine_bool s.documentHook, fine_option fine_bool s.textHook⟩)

/-! ### What is shown -/

theorem shows_pos (p : Pos) : (ofPos p).ShowsPos p := ⟨_, _, rfl, rfl, rfl⟩

theorem shows_loc (l : Loc) : (ofLoc l).ShowsLoc l := ⟨_, _, rfl, shows_pos _, shows_pos _⟩

theorem shows_option (o : Option Str) : (ofOption .str o).ShowsOption o := by
  cases o with
  | none => exact .inl ⟨rfl, rfl⟩
  | some s => exact .inr ⟨s, rfl, rfl⟩

theorem shows_token (t : Token) : (ofToken t).ShowsToken t := by
  obtain ⟨k, l⟩ := t
  cases k with
  | text s => exact .text rfl (shows_loc l)
  | module s => exact .module rfl (shows_loc l)
  | ident s => exact .ident rfl (shows_loc l)
  | bopen b => cases b <;> exact .plain (name := tokenTag (.bopen _)) (by decide) rfl (shows_loc l)
  | bclose b => cases b <;> exact .plain (name := tokenTag (.bclose _)) (by decide) rfl (shows_loc l)
  | empty => exact .plain (name := tokenTag .empty) (by decide) rfl (shows_loc l)
  | newLine => exact .plain (name := tokenTag .newLine) (by decide) rfl (shows_loc l)
  | whiteSpace => exact .plain (name := tokenTag .whiteSpace) (by decide) rfl (shows_loc l)
  | dot => exact .plain (name := tokenTag .dot) (by decide) rfl (shows_loc l)
  | backSlash => exact .plain (name := tokenTag .backSlash) (by decide) rfl (shows_loc l)
  | comma => exact .plain (name := tokenTag .comma) (by decide) rfl (shows_loc l)
  | eof => exact .plain (name := tokenTag .eof) (by decide) rfl (shows_loc l)

mutual
theorem shows_ast : ∀ a : AST, (ofTree astTags a.tree).ShowsAST a
  | .leaf k i v l => by
    rw [AST.tree, ofTree]
    exact .leaf (name := astLeaf k) (by cases k <;> decide) (shows_option v) (shows_loc l)
  | .node k i cs l => by
    rw [AST.tree, ofTree]
    refine .node (name := astInner k) ?_ (shows_asts cs) (shows_loc l)
    cases k with
    | bracket b => cases b <;> decide
    | _ => decide
theorem shows_asts : ∀ as : List AST, ShowsASTs (ofTrees astTags (AST.treeL as)) as
  | [] => by rw [AST.treeL, ofTrees]; exact .nil
  | a :: as => by rw [AST.treeL, ofTrees]; exact .cons (shows_ast a) (shows_asts as)
end

mutual
theorem shows_cst (ids : List Nat → Str) : ∀ (c : CST) (path : List Nat), (ofTree cstTags (c.tree ids path)).ShowsCST c
  | .leaf k l, path => by
    rw [CST.tree, ofTree]
    exact .leaf (named_parts k) (shows_option _) (shows_loc l)
  | .node k cs l, path => by
    rw [CST.tree, ofTree]
    refine .node (name := cstInner k) ?_ (shows_csts ids cs path 0) (shows_loc l)
    cases k with
    | bracket b => cases b <;> decide
    | _ => decide
theorem shows_csts (ids : List Nat → Str) : ∀ (cs : List CST) (path : List Nat) (n : Nat),
    ShowsCSTs (ofTrees cstTags (CST.treeL ids path n cs)) cs
  | [], _, _ => by rw [CST.treeL, ofTrees]; exact .nil
  | c :: cs, path, n => by
    rw [CST.treeL, ofTrees]
    exact .cons (shows_cst ids c _) (shows_csts ids cs path (n + 1))
end

theorem shows_error (e : TErr) : (ofError e).ShowsError e := by
  obtain ⟨k, l⟩ := e
  refine ⟨errorTag k, _, ?_, rfl, shows_loc l⟩
  show (k, errorTag k) ∈ errorNames
  clear l
  cases k with
  | notOpened b => cases b <;> decide
  | notClosed b => cases b <;> decide
  | _ => decide

theorem shows_type : ∀ t : PType, (ofType t).ShowsType t
  | .inline => .inline
  | .block => .block
  | .ast => .ast
  | .option t => .option (shows_type t)
  | .array t => .array (shows_type t)
  | .inlineCmd _ => .inlineCmd
  | .blockCmd _ => .blockCmd

/-! ### Nothing else is shown -/

theorem ShowsNat.unique {v : DebugVal} {n m : Nat} (h : v.ShowsNat n) (h' : v.ShowsNat m) : n = m := by
  unfold ShowsNat at h h'
  rw [h] at h'
  injection h' with h'
  exact toDigits_inj (by decide) (by decide) _ _ h'

theorem ShowsPos.unique {v : DebugVal} {p q : Pos} (h : v.ShowsPos p) (h' : v.ShowsPos q) : p = q := by
  obtain ⟨a, b, rfl, ha, hb⟩ := h
  obtain ⟨a', b', he, ha', hb'⟩ := h'
  simp only [record.injEq, List.cons.injEq, and_true, true_and] at he
  obtain ⟨rfl, rfl⟩ := he
  cases p; cases q
  have h1 := ha.unique ha'
  have h2 := hb.unique hb'
  simp only at h1 h2
  rw [h1, h2]

theorem ShowsLoc.unique {v : DebugVal} {l m : Loc} (h : v.ShowsLoc l) (h' : v.ShowsLoc m) : l = m := by
  obtain ⟨a, b, rfl, ha, hb⟩ := h
  obtain ⟨a', b', he, ha', hb'⟩ := h'
  simp only [record.injEq, List.cons.injEq, and_true, true_and] at he
  obtain ⟨rfl, rfl⟩ := he
  cases l; cases m
  have h1 := ha.unique ha'
  have h2 := hb.unique hb'
  simp only at h1 h2
  rw [h1, h2]

theorem ShowsOption.unique {v : DebugVal} {o p : Option Str} (h : v.ShowsOption o) (h' : v.ShowsOption p) : o = p := by
  rcases h with ⟨rfl, rfl⟩ | ⟨s, rfl, rfl⟩ <;> rcases h' with ⟨h', rfl⟩ | ⟨s', h', rfl⟩
  · rfl
  · cases h'
  · cases h'
  · simp only [tuple.injEq, List.cons.injEq, str.injEq, and_true, true_and] at h'
    rw [h']

theorem ShowsToken.unique {v : DebugVal} {t u : Token} (h : v.ShowsToken t) (h' : v.ShowsToken u) : t = u := by
  have two : ∀ {name name' : Str} {s s' : Str} {w w' : DebugVal} {l l' : Loc}, v = .tuple name [.str s, w] →
      v = .tuple name' [.str s', w'] → w.ShowsLoc l → w'.ShowsLoc l' → name = name' ∧ s = s' ∧ l = l' := by
    intro name name' s s' w w' l l' h1 h2 hl hl'
    rw [h1] at h2
    simp only [tuple.injEq, List.cons.injEq, str.injEq, and_true] at h2
    obtain ⟨rfl, rfl, rfl⟩ := h2
    exact ⟨rfl, rfl, hl.unique hl'⟩
  have one : ∀ {name name' : Str} {s : Str} {w w' : DebugVal}, v = .tuple name [w] → v = .tuple name' [.str s, w'] → False := by
    intro name name' s w w' h1 h2
    rw [h1] at h2
    simp at h2
  cases h with
  | plain hk hv hl =>
    cases h' with
    | plain hk' hv' hl' =>
      rw [hv] at hv'
      simp only [tuple.injEq, List.cons.injEq, and_true] at hv'
      obtain ⟨hn, rfl⟩ := hv'
      have := tokenNames_unique _ hk _ hk' hn
      simp only at this
      rw [this, hl.unique hl']
    | text hv' _ => exact (one hv hv').elim
    | module hv' _ => exact (one hv hv').elim
    | ident hv' _ => exact (one hv hv').elim
  | text hv hl =>
    cases h' with
    | plain hk' hv' hl' => exact (one hv' hv).elim
    | text hv' hl' => obtain ⟨_, rfl, rfl⟩ := two hv hv' hl hl'; rfl
    | module hv' hl' => exact absurd (two hv hv' hl hl').1 (by decide)
    | ident hv' hl' => exact absurd (two hv hv' hl hl').1 (by decide)
  | module hv hl =>
    cases h' with
    | plain hk' hv' hl' => exact (one hv' hv).elim
    | text hv' hl' => exact absurd (two hv hv' hl hl').1 (by decide)
    | module hv' hl' => obtain ⟨_, rfl, rfl⟩ := two hv hv' hl hl'; rfl
    | ident hv' hl' => exact absurd (two hv hv' hl hl').1 (by decide)
  | ident hv hl =>
    cases h' with
    | plain hk' hv' hl' => exact (one hv' hv).elim
    | text hv' hl' => exact absurd (two hv hv' hl hl').1 (by decide)
    | module hv' hl' => exact absurd (two hv hv' hl hl').1 (by decide)
    | ident hv' hl' => obtain ⟨_, rfl, rfl⟩ := two hv hv' hl hl'; rfl

theorem ShowsAST.inv {v : DebugVal} {a : AST} (h : v.ShowsAST a) :
    (∃ o x k name id value l, (k, name) ∈ astLeafNames ∧ o.ShowsOption value ∧ x.ShowsLoc l ∧
      v = .tuple name [.record (chars! "LeafNode") [chars! "id", chars! "value", chars! "location"] [.str id, o, x]] ∧
      a = .leaf k id value l) ∨
    ∃ x k name id vs cs l, (k, name) ∈ astNodeNames ∧ ShowsASTs vs cs ∧ x.ShowsLoc l ∧
      v = .tuple name [.record (chars! "InnerNode") [chars! "id", chars! "children", chars! "location"] [.str id, .seq vs, x]] ∧
      a = .node k id cs l := by
  cases h with
  | leaf hk ho hl => exact .inl ⟨_, _, _, _, _, _, _, hk, ho, hl, rfl, rfl⟩
  | node hk hc hl => exact .inr ⟨_, _, _, _, _, _, _, hk, hc, hl, rfl, rfl⟩

mutual
theorem ShowsAST.unique : ∀ {v : DebugVal} {a b : AST}, v.ShowsAST a → v.ShowsAST b → a = b
  | _, _, _, .leaf hk ho hl, h' => by
    rcases h'.inv with ⟨o, x, k, name, id, value, l, hk', ho', hl', hv, rfl⟩ | ⟨x, k, name, id, vs, cs, l, hk', hc', hl', hv, rfl⟩
    · simp only [tuple.injEq, record.injEq, List.cons.injEq, str.injEq, and_true, true_and] at hv
      obtain ⟨hn, rfl, rfl, rfl⟩ := hv
      have := astLeafNames_unique _ hk _ hk' hn
      simp only at this
      rw [this, ho.unique ho', hl.unique hl']
    · injection hv with hv _
      exact absurd hv (astNames_disjoint _ hk _ hk')
  | _, _, _, .node hk hc hl, h' => by
    rcases h'.inv with ⟨o, x, k, name, id, value, l, hk', ho', hl', hv, rfl⟩ | ⟨x, k, name, id, vs, cs, l, hk', hc', hl', hv, rfl⟩
    · injection hv with hv _
      exact absurd hv.symm (astNames_disjoint _ hk' _ hk)
    · simp only [tuple.injEq, record.injEq, List.cons.injEq, str.injEq, seq.injEq, and_true, true_and] at hv
      obtain ⟨hn, rfl, rfl, rfl⟩ := hv
      have := astNodeNames_unique _ hk _ hk' hn
      simp only at this
      rw [this, ShowsASTs.unique hc hc', hl.unique hl']
theorem ShowsASTs.unique : ∀ {vs : List DebugVal} {as bs : List AST}, ShowsASTs vs as → ShowsASTs vs bs → as = bs
  | _, _, _, .nil, .nil => rfl
  | _, _, _, .cons h ht, .cons h' ht' => by rw [ShowsAST.unique h h', ShowsASTs.unique ht ht']
end

theorem ShowsCST.inv {v : DebugVal} {a : CST} (h : v.ShowsCST a) :
    (∃ o x k name id value l, LKind.Named k name value ∧ o.ShowsOption value ∧ x.ShowsLoc l ∧
      v = .tuple name [.record (chars! "LeafNode") [chars! "id", chars! "value", chars! "location"] [.str id, o, x]] ∧
      a = .leaf k l) ∨
    ∃ x k name id vs cs l, (k, name) ∈ cstNodeNames ∧ ShowsCSTs vs cs ∧ x.ShowsLoc l ∧
      v = .tuple name [.record (chars! "InnerNode") [chars! "id", chars! "children", chars! "location"] [.str id, .seq vs, x]] ∧
      a = .node k cs l := by
  cases h with
  | leaf hk ho hl => exact .inl ⟨_, _, _, _, _, _, _, hk, ho, hl, rfl, rfl⟩
  | node hk hc hl => exact .inr ⟨_, _, _, _, _, _, _, hk, hc, hl, rfl, rfl⟩

mutual
theorem ShowsCST.unique : ∀ {v : DebugVal} {a b : CST}, v.ShowsCST a → v.ShowsCST b → a = b
  | _, _, _, .leaf hk ho hl, h' => by
    rcases h'.inv with ⟨o, x, k, name, id, value, l, hk', ho', hl', hv, rfl⟩ | ⟨x, k, name, id, vs, cs, l, hk', hc', hl', hv, rfl⟩
    · simp only [tuple.injEq, record.injEq, List.cons.injEq, str.injEq, and_true, true_and] at hv
      obtain ⟨rfl, rfl, rfl, rfl⟩ := hv
      have := ho.unique ho'
      subst this
      rw [hk.unique hk', hl.unique hl']
    · injection hv with hv _
      subst hv
      exact absurd hk' hk.not_node
  | _, _, _, .node hk hc hl, h' => by
    rcases h'.inv with ⟨o, x, k, name, id, value, l, hk', ho', hl', hv, rfl⟩ | ⟨x, k, name, id, vs, cs, l, hk', hc', hl', hv, rfl⟩
    · injection hv with hv _
      subst hv
      exact absurd hk hk'.not_node
    · simp only [tuple.injEq, record.injEq, List.cons.injEq, str.injEq, seq.injEq, and_true, true_and] at hv
      obtain ⟨hn, rfl, rfl, rfl⟩ := hv
      have := cstNodeNames_unique _ hk _ hk' hn
      simp only at this
      rw [this, ShowsCSTs.unique hc hc', hl.unique hl']
theorem ShowsCSTs.unique : ∀ {vs : List DebugVal} {as bs : List CST}, ShowsCSTs vs as → ShowsCSTs vs bs → as = bs
  | _, _, _, .nil, .nil => rfl
  | _, _, _, .cons h ht, .cons h' ht' => by rw [ShowsCST.unique h h', ShowsCSTs.unique ht ht']
end

theorem errorNames_unique : ∀ a ∈ errorNames, ∀ b ∈ errorNames, a.2 = b.2 → a.1 = b.1 := by decide
theorem errorNames_leaf : ∀ a ∈ errorNames, ∀ b ∈ astLeafNames, a.2 ≠ b.2 := by decide
theorem errorNames_node : ∀ a ∈ errorNames, ∀ b ∈ astNodeNames, a.2 ≠ b.2 := by decide

theorem ShowsError.unique {v : DebugVal} {e f : TErr} (h : v.ShowsError e) (h' : v.ShowsError f) : e = f := by
  obtain ⟨name, w, hk, rfl, hl⟩ := h
  obtain ⟨name', w', hk', hv, hl'⟩ := h'
  simp only [tuple.injEq, List.cons.injEq, and_true] at hv
  obtain ⟨hn, rfl⟩ := hv
  have h1 := errorNames_unique _ hk _ hk' hn
  have h2 := hl.unique hl'
  cases e; cases f
  simp only at h1 h2
  rw [h1, h2]

theorem ShowsError.not_ast {v : DebugVal} {e : TErr} {a : AST} (h : v.ShowsError e) : ¬ v.ShowsAST a := by
  intro h'
  obtain ⟨name, w, hk, rfl, hl⟩ := h
  rcases h'.inv with ⟨o, x, k, name, id, value, l, hk', ho', hl', hv, rfl⟩ | ⟨x, k, name, id, vs, cs, l, hk', hc', hl', hv, rfl⟩
  · injection hv with hv _
    exact errorNames_leaf _ hk _ hk' hv
  · injection hv with hv _
    exact errorNames_node _ hk _ hk' hv

theorem ShowsType.unique {v : DebugVal} {t u : PType} (h : v.ShowsType t) (h' : v.ShowsType u) : t = u := by
  have key : ∀ v t, ShowsType v t → v = ofType t := by
    intro v t h
    induction h with
    | option _ ih => rw [ofType, ← ih]
    | array _ ih => rw [ofType, ← ih]
    | _ => rfl
  have inj : ∀ t u : PType, ofType t = ofType u → t = u := by
    intro t
    induction t with
    | option t ih =>
      intro u h
      cases u with
      | option u =>
        rw [ofType, ofType] at h
        simp only [tuple.injEq, List.cons.injEq, and_true, true_and] at h
        rw [ih u h]
      | _ => rw [ofType, ofType] at h; first | cases h | exact absurd (congrArg (fun | .tuple n _ => n | _ => []) h) (by show ¬ _ = _; decide)
    | array t ih =>
      intro u h
      cases u with
      | array u =>
        rw [ofType, ofType] at h
        simp only [tuple.injEq, List.cons.injEq, and_true, true_and] at h
        rw [ih u h]
      | _ => rw [ofType, ofType] at h; first | cases h | exact absurd (congrArg (fun | .tuple n _ => n | _ => []) h) (by show ¬ _ = _; decide)
    | inlineCmd s =>
      intro u h
      cases u with
      | inlineCmd u =>
        rw [ofType, ofType] at h
        simp only [tuple.injEq, List.cons.injEq, str.injEq, and_true, true_and] at h
        rw [h]
      | _ => rw [ofType, ofType] at h; first | cases h | exact absurd (congrArg (fun | .tuple n _ => n | _ => []) h) (by show ¬ _ = _; decide)
    | blockCmd s =>
      intro u h
      cases u with
      | blockCmd u =>
        rw [ofType, ofType] at h
        simp only [tuple.injEq, List.cons.injEq, str.injEq, and_true, true_and] at h
        rw [h]
      | _ => rw [ofType, ofType] at h; first | cases h | exact absurd (congrArg (fun | .tuple n _ => n | _ => []) h) (by show ¬ _ = _; decide)
    | _ =>
      intro u h
      cases u <;> first | rfl | (rw [ofType, ofType] at h; first | cases h | exact absurd (congrArg (fun | .word n => n | _ => []) h) (by show ¬ _ = _; decide))
  exact inj _ _ ((key _ _ h).symm.trans (key _ _ h'))

theorem shows_flag (o : Option Bool) : (ofOption ofBool o).ShowsFlag o := by
  rcases o with _ | _ | _
  · exact .none
  · exact .no
  · exact .yes

theorem ShowsFlag.unique {v : DebugVal} {o p : Option Bool} (h : v.ShowsFlag o) (h' : v.ShowsFlag p) : o = p := by
  have key : ∀ w q, ShowsFlag w q → w = ofOption ofBool q := by
    intro w q h
    cases h <;> rfl
  have h1 := (key _ _ h).symm.trans (key _ _ h')
  rcases o with _ | _ | _ <;> rcases p with _ | _ | _ <;> first | rfl | (simp [ofOption, ofBool] at h1)

theorem shows_schema (s : PluginSchema) : (ofSchema s).ShowsSchema s :=
  ⟨_, _, _, _, rfl, shows_flag _, shows_flag _, shows_flag _, shows_flag _⟩

theorem ShowsSchema.unique {v : DebugVal} {s t : PluginSchema} (h : v.ShowsSchema s) (h' : v.ShowsSchema t) : s = t := by
  obtain ⟨a, b, c, d, rfl, ha, hb, hc, hd⟩ := h
  obtain ⟨a', b', c', d', he, ha', hb', hc', hd'⟩ := h'
  simp only [record.injEq, List.cons.injEq, str.injEq, and_true, true_and] at he
  obtain ⟨h1, h2, h3, rfl, rfl, rfl, rfl⟩ := he
  have h4 := ha.unique ha'
  have h5 := hb.unique hb'
  have h6 := hc.unique hc'
  have h7 := hd.unique hd'
  cases s; cases t
  simp only at h1 h2 h3 h4 h5 h6 h7
  subst h1 h2 h3 h4 h5 h6 h7
  rfl

theorem ShowsArgument.unique {v : DebugVal} {p q : Str × PType} (h : v.ShowsArgument p) (h' : v.ShowsArgument q) : p = q := by
  obtain ⟨t, rfl, ht⟩ := h
  obtain ⟨t', he, ht'⟩ := h'
  simp only [tuple.injEq, List.cons.injEq, str.injEq, and_true, true_and] at he
  obtain ⟨h1, rfl⟩ := he
  exact Prod.ext h1 (ht.unique ht')

end DebugVal

/-! ### Digests -/

theorem digitChar_hex : ∀ n < 16, Nat.digitChar n ∈ chars! "0123456789abcdef" := by decide

theorem hexByte_hex (b : UInt8) : ∀ c ∈ hexByte b, c ∈ chars! "0123456789abcdef" := by
  have hb : b.toNat < 256 := b.toNat_lt
  intro c hc
  rw [hexByte, List.mem_cons, List.mem_singleton] at hc
  rcases hc with rfl | rfl
  · exact digitChar_hex _ (by omega)
  · exact digitChar_hex _ (by omega)

theorem hashSha256_hex (printable : Char → Bool) (sha : Bytes → Bytes) (s : PluginSchema) :
    ∀ c ∈ hashSha256 printable sha s, c ∈ chars! "0123456789abcdef" := by
  intro c hc
  obtain ⟨b, _, h⟩ := List.mem_flatMap.mp hc
  exact hexByte_hex b c h

theorem hex_length : ∀ bs : Bytes, (bs.flatMap hexByte).length = 2 * bs.length
  | [] => rfl
  | b :: bs => by
    rw [List.flatMap_cons, List.length_append, hex_length bs, List.length_cons]
    show 2 + _ = _
    omega

theorem hex_inj : ∀ {bs cs : Bytes}, bs.flatMap hexByte = cs.flatMap hexByte → bs = cs
  | [], [], _ => rfl
  | [], c :: cs, h => by simp [hexByte] at h
  | b :: bs, [], h => by simp [hexByte] at h
  | b :: bs, c :: cs, h => by
    rw [List.flatMap_cons, List.flatMap_cons] at h
    simp only [hexByte, List.cons_append, List.nil_append, List.cons.injEq] at h
    have hb : b.toNat < 256 := b.toNat_lt
    have hc : c.toNat < 256 := c.toNat_lt
    have h1 := digitChar_inj _ (by omega) _ (by omega) h.1
    have h2 := digitChar_inj _ (by omega) _ (by omega) h.2.1
    have h3 : b.toNat = c.toNat := by omega
    rw [UInt8.toNat_inj.mp h3, hex_inj h.2.2]

/-! ### Signatures -/

theorem ShowsSignature.unique {text : Str} {as as' : List (Str × PType)} {r r' : PType} (h : ShowsSignature text as r)
    (h' : ShowsSignature text as' r') : as = as' ∧ r = r' := by
  obtain ⟨line, line2, vs, v, rfl, h1, h2, h3, h4⟩ := h
  obtain ⟨line', line2', vs', v', he, h1', h2', h3', h4'⟩ := h'
  simp only [List.append_assoc] at he
  have he := List.append_cancel_left he
  obtain ⟨hv, he⟩ := h1.1.unique h1'.1 (.line _) (.line _) he
  injection hv with hv
  subst hv
  have he := List.append_cancel_left (as := chars! "\nReturn Type: ") he
  subst he
  have := h3.1.inj h3'.1
  subst this
  exact ⟨h2.unique (fun _ _ _ h h' => h.unique h') h2', h4.unique h4'⟩

theorem showSignature_reads (printable : Char → Bool) (arguments : List (Str × PType)) (result : PType) :
    ReadsSignature (showSignature printable arguments result) arguments result := by
  have h : ShowsSignature (showSignature printable arguments result) arguments result := by
    refine ⟨_, _, _, _, rfl, DebugVal.fine_seq ?_, .map (f := fun p : Str × PType => DebugVal.tuple [] [.str p.1, .ofType p.2])
      (fun p => ⟨_, rfl, DebugVal.shows_type p.2⟩) arguments, DebugVal.fine_type result, DebugVal.shows_type result⟩
    intro v hv
    obtain ⟨p, _, rfl⟩ := List.mem_map.mp hv
    exact DebugVal.fine_tuple (by simp) (by simpa using ⟨DebugVal.fine_str p.1, DebugVal.fine_type p.2⟩)
  exact ⟨h, fun as r h' => (h'.unique h)⟩

/-- What is shown can be read off what is printed. -/
theorem readOff {α : Type} {R : DebugVal → α → Prop} {printable : Char → Bool} {v : DebugVal} {a : α} (hf : v.Fine printable)
    (h : R v a) (hu : ∀ {v a b}, R v a → R v b → a = b) : ReadOff R (v.text printable) a :=
  ⟨⟨v, hf, h⟩, fun u b hu' hb => hu (hf.1.inj hu'.1 ▸ hb) h⟩

end Brack
