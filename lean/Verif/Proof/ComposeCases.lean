import Verif.Proof.ComposeGen
import Verif.Proof.Room
import Verif.Proof.Cases

/-
Helper lemmas: commands keep apart from what stands around them, and concrete commands.
-/

namespace Brack

namespace UTable

variable (T : UTable)

theorem fin_prev (s : SegSt) (w : Str) (c : Char) : (T.fin s (w ++ [c])).prev = T.gcb c := by
  rw [fin_append]
  simp only [fin]
  split <;> rfl

theorem join_before_ascii (s : SegSt) (x : Char) (hx : x.toNat < 128) (hcr : x ≠ '\r') (hlf : x ≠ '\n') (hs : s.prev ≠ .prepend) :
    T.join s x = false := by
  have hg := T.ascii x hx hcr hlf
  unfold join
  rcases hg with h | h <;> simp [h, hs, T.asciiPict x hx, T.asciiIncb x hx]

theorem clusters_ascii_split (w : Str) (x : Char) (rest : Str) (hx : x.toNat < 128) (hcr : x ≠ '\r') (hlf : x ≠ '\n')
    (hw : ∀ c ∈ w.getLast?, T.gcb c ≠ .prepend) : T.clusters (w ++ x :: rest) = T.clusters w ++ T.clusters (x :: rest) := by
  rcases w with _ | ⟨d, w⟩
  · rfl
  · simp only [List.cons_append, clusters]
    refine T.go_split x rest w _ _ (T.join_before_ascii _ x hx hcr hlf ?_)
    rcases List.eq_nil_or_concat w with rfl | ⟨w', c, rfl⟩
    · exact hw d (by simp)
    · rw [List.concat_eq_append, fin_prev]
      exact hw c (by simp [List.concat_eq_append, List.getLast?_cons])

theorem apart (u w v : Str) (o c : Char) (ho : o.toNat < 128 ∧ o ≠ '\r' ∧ o ≠ '\n') (hc : c.toNat < 128 ∧ c ≠ '\r')
    (hu : ∀ x ∈ u.getLast?, T.gcb x ≠ .prepend) (hv : ∀ x ∈ v.head?, ¬ T.combining x) :
    Apart T.segmenter u (o :: w ++ [c]) v := by
  unfold Apart
  show T.clusters (u ++ (o :: w ++ [c]) ++ v) = T.clusters u ++ T.clusters (o :: w ++ [c]) ++ T.clusters v
  have h1 := T.clusters_ascii_split u o (w ++ [c]) ho.1 ho.2.1 ho.2.2 hu
  have h2 : u ++ (o :: w ++ [c]) = (u ++ o :: w) ++ [c] := by simp
  rcases v with _ | ⟨x, rest⟩
  · rw [List.append_nil, List.cons_append, h1]
    simp [clusters]
  · rw [h2, T.clusters_split (u ++ o :: w) c x rest hc.1 hc.2 (hv x (by simp)), ← h2, List.cons_append, h1]

end UTable

/-! ### trees without a part -/

mutual

/-- Does the tree occur in the other? -/
def Shape.occurs (s : Shape) : Shape → Bool
  | .leaf k v => decide (s = .leaf k v)
  | .node k cs => decide (s = .node k cs) || Shape.occursL s cs

/-- Does the tree occur in one of the others? -/
def Shape.occursL (s : Shape) : List Shape → Bool
  | [] => false
  | c :: cs => Shape.occurs s c || Shape.occursL s cs

end

theorem Shape.occurs_self (s : Shape) : s.occurs s = true := by
  cases s <;> simp [Shape.occurs]

theorem Shape.occursL_mem {s t : Shape} (h : s.occurs t = true) : ∀ {l}, t ∈ l → Shape.occursL s l = true
  | c :: cs, hm => by
    rcases List.mem_cons.mp hm with rfl | hm
    · simp [Shape.occursL, h]
    · simp [Shape.occursL, Shape.occursL_mem h hm]

theorem Shape.Swapped.occurs {s s' t t' : Shape} (h : Shape.Swapped s s' t t') : s.occurs t = true := by
  induction h with
  | here => exact Shape.occurs_self s
  | inside _ ih => simp [Shape.occurs, Shape.occursL_mem ih]

/-! ### concrete commands -/

/-- Are the brackets in pairs? With the brackets open around. -/
def nestedB : List Bracket → List Token → Bool
  | [], [] => true
  | _ :: _, [] => false
  | st, t :: ts =>
    match t.kind with
    | .bopen b => nestedB (b :: st) ts
    | .bclose b =>
      match st with
      | [] => false
      | b' :: st => decide (b' = b) && nestedB st ts
    | .backSlash | .eof | .empty => false
    | _ => nestedB st ts

theorem nestedB_split : ∀ (ts : List Token) (b : Bracket) (st : List Bracket), nestedB (b :: st) ts = true →
    ∃ inner c rest, ts = inner ++ c :: rest ∧ Nested inner ∧ c.kind = .bclose b ∧ nestedB st rest = true
  | [], b, st, h => by simp [nestedB] at h
  | t :: ts, b, st, h => by
    rcases t with ⟨k, l⟩
    have hword : (Token.IsWord ⟨k, l⟩) → nestedB (b :: st) ts = true →
        ∃ inner c rest, (⟨k, l⟩ : Token) :: ts = inner ++ c :: rest ∧ Nested inner ∧ c.kind = .bclose b ∧ nestedB st rest = true := by
      intro hw h
      obtain ⟨inner, c, rest, rfl, h2, h3, h4⟩ := nestedB_split ts b st h
      exact ⟨_ :: inner, c, rest, rfl, .word hw h2, h3, h4⟩
    cases k with
    | bopen b' =>
      have h : nestedB (b' :: b :: st) ts = true := h
      obtain ⟨inner, c, rest, h1, h2, h3, h4⟩ := nestedB_split ts b' (b :: st) h
      have : rest.length < ts.length := by rw [h1]; simp; omega
      obtain ⟨inner', c', rest', h1', h2', h3', h4'⟩ := nestedB_split rest b st h4
      refine ⟨⟨.bopen b', l⟩ :: inner ++ c :: inner', c', rest', ?_, .group rfl h2 h3 h2', h3', h4'⟩
      rw [h1, h1']; simp
    | bclose b' =>
      have h : (decide (b = b') && nestedB st ts) = true := h
      simp only [Bool.and_eq_true, decide_eq_true_eq] at h
      exact ⟨[], _, ts, rfl, .nil, by rw [h.1], h.2⟩
    | backSlash => cases h
    | eof => cases h
    | empty => cases h
    | _ => exact hword (by simp [Token.IsWord]) h
  termination_by ts => ts.length

theorem nested_of (ts : List Token) (h : nestedB [] ts = true) : Nested ts := by
  match ts, h with
  | [], _ => exact .nil
  | ⟨k, l⟩ :: ts, h =>
    cases k with
    | bopen b =>
      obtain ⟨inner, c, rest, h1, h2, h3, h4⟩ := nestedB_split ts b [] h
      have : rest.length < ts.length := by rw [h1]; simp; omega
      rw [h1]
      exact .group (o := ⟨.bopen b, l⟩) rfl h2 h3 (nested_of rest h4)
    | bclose b => cases h
    | backSlash => cases h
    | eof => cases h
    | empty => cases h
    | _ => exact .word (by simp [Token.IsWord]) (nested_of ts h)
  termination_by ts.length

/-- Are these the tokens of a command? -/
def commandB (b : Bracket) (ts : List Token) : Bool :=
  match ts with
  | o :: rest =>
    let body := rest.dropLast.dropLast
    match rest.drop body.length with
    | [c, e] => decide (rest = body ++ [c, e]) && decide (o.kind = .bopen b ∧ c.kind = .bclose b) && nestedB [] body &&
        decide (depth body = 0) && (List.range (body.length + 1)).all (fun n => decide (0 ≤ depth (body.take n))) &&
        !nameDue false (o :: body)
    | _ => false
  | [] => false

theorem command_case (S : Segmenter) (b : Bracket) (x : Str) (h : ∀ c ∈ x, c.toNat < 128 ∧ c ≠ '\r')
    (hn : Char.ofNat 0 ∉ x) (hs : x.head? = some b.openChar)
    (hc : ((caseParse x).any fun (ts, _) => commandB b ts) = true) : Command S b x := by
  obtain ⟨ts, c, h1, _, h3⟩ := parse_case S x h (fun ts _ => commandB b ts = true) (by simpa using hc)
  refine ⟨hn, ?_, ?_⟩
  · rcases x with _ | ⟨y, x⟩
    · cases hs
    · simp only [List.head?_cons, Option.some.injEq] at hs
      subst hs
      exact ⟨x.map (fun c => [c]), by rw [S.ascii _ h]; rfl⟩
  · rcases ts with _ | ⟨o, rest⟩
    · cases h3
    · unfold commandB at h3
      dsimp only at h3
      generalize rest.drop rest.dropLast.dropLast.length = l at h3
      match l, h3 with
      | [c, e], h3 =>
        simp only [Bool.and_eq_true, decide_eq_true_eq, List.all_eq_true, Bool.not_eq_true'] at h3
        obtain ⟨⟨⟨⟨⟨k1, k2, k3⟩, k4⟩, k5⟩, k6⟩, k7⟩ := h3
        refine ⟨o, rest.dropLast.dropLast, c, e, ?_, k2, k3, nested_of _ k4, k5, fun p hp => ?_, k7⟩
        · rw [h1, List.cons_append, ← k1]
        · rw [List.prefix_iff_eq_take.mp hp]
          exact k6 _ (List.mem_range.mpr (Nat.lt_succ_of_le hp.length_le))

/-- Are these the tokens before a place? -/
def placeB (ts : List Token) : Bool :=
  decide (ts ≠ [] ∧ (∀ p ∈ ts.dropLast.getLast?, p.kind ≠ .backSlash) ∧ nameDue false ts.dropLast = false ∧ 0 ≤ depth ts.dropLast)

theorem place_case (S : Segmenter) (u : Str) (h : ∀ c ∈ u, c.toNat < 128 ∧ c ≠ '\r') (hn : Char.ofNat 0 ∉ u)
    (hc : ((caseParse u).any fun (ts, _) => placeB ts) = true) : Place S u := by
  obtain ⟨ts, c, h1, _, h3⟩ := parse_case S u h (fun ts _ => placeB ts = true) (by simpa using hc)
  obtain ⟨k1, k2, k3, k4⟩ := of_decide_eq_true h3
  exact ⟨hn, ts.dropLast, ts.getLast k1, by rw [h1, List.dropLast_concat_getLast], k2, k3, k4⟩

end Brack
