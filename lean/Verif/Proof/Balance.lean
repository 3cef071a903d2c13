import Verif.Proof.Sources
import Verif.Proof.GenMain
import Verif.Proof.GenDone

/-
Nothing is lost and nothing is used twice: by induction over what a tree produces.
-/

namespace Brack

variable {W : Wasm}

theorem ArrayEnds.tail {t : PType} {ts : List PType} (h : ArrayEnds (t :: ts)) : ArrayEnds ts := by
  intro k u hu ha
  have := h (k + 1) u (by simpa using hu) ha
  simpa using this

theorem passed_arrayEnds (args : List Str) : ∀ (ts : List PType) (i : Nat) (vs : List Value), ArrayEnds ts →
    (ts.any PType.isArray = true ∨ args.length ≤ i + ts.length) → PassedFrom args i ts vs →
    vs.flatMap Value.arguments = args.drop i := by
  intro ts
  induction ts with
  | nil =>
    intro i vs _ hl h
    have : vs = [] := List.length_eq_zero_iff.mp (by simpa using h.1)
    subst this
    rcases hl with hl | hl
    · cases hl
    · simp at hl; simp [hl]
  | cons t ts ih =>
    intro i vs ha hl h
    obtain ⟨v, vs', rfl, hp, h'⟩ := h.cons
    by_cases hta : t.isArray = true
    · have h0 := ha 0 t rfl hta
      have : ts = [] := List.length_eq_zero_iff.mp (by simp at h0; simpa using h0)
      subst this
      have : vs' = [] := List.length_eq_zero_iff.mp (by simpa using h'.1)
      subst this
      cases hp with
      | option => cases hta
      | array => simp [Value.arguments]
      | required _ _ hr => rw [required_not_array hta] at hr; cases hr
    · rw [List.flatMap_cons, ih (i + 1) vs' ha.tail (hl.imp (fun h => by simpa [hta] using h) (fun h => by simp at h; omega)) h']
      cases hp with
      | option =>
        by_cases hi : i < args.length
        · rw [List.drop_eq_getElem_cons hi, List.getElem?_eq_getElem hi]
          rfl
        · have h1 : args.length ≤ i := by omega
          rw [List.drop_eq_nil_of_le h1, List.drop_eq_nil_of_le (show args.length ≤ i + 1 by omega),
            List.getElem?_eq_none h1]
          rfl
      | array => exact absurd rfl hta
      | required _ a _ hi =>
        obtain ⟨h1, h2⟩ := List.getElem?_eq_some_iff.mp hi
        rw [List.drop_eq_getElem_cons h1, h2]; rfl

theorem ArrayEnds.delivers {ts : List PType} (h : ArrayEnds ts) {args vs} (ha : Admissible ts args.length)
    (hp : PassedAll args ts vs) : vs.flatMap Value.arguments = args := by
  have := passed_arrayEnds args ts 0 vs h (by simpa using ha.2) ⟨hp.1, fun j t v ht hv => by simpa using hp.2 j t v ht hv⟩
  simpa using this

/-- How many arguments are passed, if there are enough for all parameters. -/
theorem passed_length (args : List Str) : ∀ (ts : List PType) (i : Nat) (vs : List Value), i + ts.length ≤ args.length →
    PassedFrom args i ts vs → ts.length ≤ (vs.flatMap Value.arguments).length ∧
    ∀ (k : Nat) (t : PType), ts[k]? = some t → t.isArray = true → k + 1 ≠ ts.length →
      args.length - i < (vs.flatMap Value.arguments).length := by
  intro ts
  induction ts with
  | nil => intro i vs _ h; simp
  | cons t ts ih =>
    intro i vs hl h
    obtain ⟨v, vs', rfl, hp, h'⟩ := h.cons
    simp only [List.length_cons] at hl
    obtain ⟨h1, h2⟩ := ih (i + 1) vs' (by omega) h'
    have hv : 1 ≤ v.arguments.length ∧ (t.isArray = true → v.arguments.length = args.length - i) := by
      cases hp with
      | option => simp [Value.arguments, show i < args.length by omega, PType.isArray]
      | array => simp [Value.arguments]; omega
      | required _ a hr => exact ⟨by simp [Value.arguments], fun h => by rw [required_not_array h] at hr; cases hr⟩
    rw [List.flatMap_cons, List.length_append]
    refine ⟨by simp only [List.length_cons]; omega, ?_⟩
    intro k u hu ha hk
    cases k with
    | zero =>
      simp only [List.getElem?_cons_zero, Option.some.injEq] at hu
      subst hu
      have := hv.2 ha
      simp only [List.length_cons] at hk
      omega
    | succ k =>
      have := h2 k u (by simpa using hu) ha (by simp only [List.length_cons] at hk; omega)
      omega

/-- Enough arguments for all parameters can be bound. -/
theorem bindArgs_enough (args : List Str) (ts : List PType) (h : ts.length ≤ args.length) :
    ∃ vs, bindArgs args 0 ts = .ok vs := by
  rcases hb : bindArgs args 0 ts with vs | m | _
  · exact ⟨vs, rfl⟩
  · exact absurd hb (bindArgs_not_err args ts 0 m)
  · obtain ⟨j, t, hj, hl⟩ := (bindArgs_panic args ts 0).mp hb
    have := (List.getElem?_eq_some_iff.mp hj).1
    simp only [Lacks] at hl
    omega

/-- `Balanced` for lists of results, each result with its own pieces. -/
def BalancedAll (written : List Str) (calls : List Call) (outs : List Str) : Prop :=
  ∃ (uses : List (List Str)) (groups : List (List Str)), uses.length = calls.length ∧
    (∀ x ∈ calls.zip uses, MadeOf x.1.texts x.2) ∧ groups.map List.flatten = outs ∧
    (uses.flatten ++ groups.flatten).Perm (written ++ calls.filterMap Call.result?)

theorem zip_append_of {α β : Type} {P : α × β → Prop} : ∀ {as : List α} {bs : List β} {as' : List α} {bs' : List β},
    bs.length = as.length → (∀ x ∈ as.zip bs, P x) → (∀ x ∈ as'.zip bs', P x) → ∀ x ∈ (as ++ as').zip (bs ++ bs'), P x
  | as, bs, as', bs', hl, h, h', x, hx => by
    rw [List.zip_append hl.symm] at hx
    rcases List.mem_append.mp hx with hx | hx
    · exact h x hx
    · exact h' x hx

theorem BalancedAll.nil : BalancedAll [] [] [] := ⟨[], [], rfl, by simp, rfl, .refl _⟩

theorem perm_middle {α : Type} {a b c d a' b' c' d' : List α} (h : (a ++ b).Perm (c ++ d)) (h' : (a' ++ b').Perm (c' ++ d')) :
    ((a ++ a') ++ (b ++ b')).Perm ((c ++ c') ++ (d ++ d')) := by
  have key : ∀ (a b a' b' : List α), ((a ++ a') ++ (b ++ b')).Perm ((a ++ b) ++ (a' ++ b')) := by
    intro a b a' b'
    simp only [List.append_assoc]
    refine List.Perm.append_left a ?_
    rw [← List.append_assoc, ← List.append_assoc]
    exact List.Perm.append_right b' List.perm_append_comm
  exact ((key a b a' b').trans (h.append h')).trans (key c d c' d').symm

theorem BalancedAll.cons {w w' : List Str} {c c' : List Call} {r : Str} {rs : List Str} (h : Balanced w c r)
    (h' : BalancedAll w' c' rs) : BalancedAll (w ++ w') (c ++ c') (r :: rs) := by
  obtain ⟨u, p, h1, h2, rfl, h4⟩ := h
  obtain ⟨u', g, k1, k2, rfl, k4⟩ := h'
  refine ⟨u ++ u', p :: g, by simp [h1, k1], zip_append_of h1 h2 k2, by simp, ?_⟩
  rw [List.flatten_append, List.flatten_cons, List.filterMap_append]
  exact perm_middle h4 k4

/-- Joining the results. -/
theorem BalancedAll.join {w : List Str} {c : List Call} {rs : List Str} (h : BalancedAll w c rs) :
    Balanced w c rs.flatten := by
  obtain ⟨u, g, h1, h2, rfl, h4⟩ := h
  exact ⟨u, g.flatten, h1, h2, List.flatten_flatten.symm ▸ rfl, h4⟩

/-- A further call that is given the results. -/
theorem BalancedAll.call {w : List Str} {c : List Call} {rs : List Str} (h : BalancedAll w c rs) {call : Call} {r : Str}
    (ht : call.texts = rs) (hr : call.result? = some r) : Balanced w (c ++ [call]) r := by
  obtain ⟨u, g, h1, h2, rfl, h4⟩ := h
  refine ⟨u ++ [g.flatten], [r], by simp [h1], zip_append_of h1 h2 ?_, by simp, ?_⟩
  · intro x hx
    simp only [List.zip_cons_cons, List.zip_nil_right, List.mem_singleton] at hx
    subst hx
    exact ⟨g, ht.symm, rfl⟩
  · simp only [List.flatten_append, List.flatten_cons, List.flatten_nil, List.append_nil, List.filterMap_append,
      List.filterMap_cons, hr, List.filterMap_nil]
    rw [← List.append_assoc w]
    exact h4.append_right [r]

theorem Balanced.single {w : List Str} {c : List Call} {r : Str} (h : Balanced w c r) : BalancedAll w c [r] := by
  have := BalancedAll.cons h .nil
  simpa using this

theorem HookCall.balanced {plugin : Option Str} {tag : Tag} {command : Str} {typ : PType} {s : Str}
    {calls : List (Tag × Call)} {r : Str} (h : HookCall plugin tag command typ s calls r) {w : List Str} {c : List Call}
    (hb : Balanced w c s) : Balanced w (c ++ calls.map (·.2)) r := by
  cases h with
  | absent _ => simpa using hb
  | called p r _ => exact hb.single.call (by simp [Call.texts, Value.arguments]) rfl

mutual

theorem Produces.balanced {ps : Plugins W} (hs : ps.AllArrayEnds) : ∀ {a : AST} {calls : List (Tag × Call)} {r : Str},
    Produces ps a calls r → Balanced (textsOf a.contents) (calls.map (·.2)) r
  | _, _, _, .text (v := v) h => by
    have : Balanced [v] [] v := ⟨[], [v], rfl, by simp, by simp, by simp⟩
    simpa [AST.contents, Content.text?] using h.balanced this
  | _, _, _, .expr h h' => by
    have := h'.balanced (ProducesAll.balanced hs h).join
    simpa [AST.contents] using this
  | _, _, _, .stmt h h' => by
    have := h'.balanced (ProducesAll.balanced hs h).join
    simpa [AST.contents] using this
  | _, _, _, .document h h' => by
    have := h'.balanced (ProducesAll.balanced hs h).join
    simpa [AST.contents] using this
  | _, _, _, .command (m := m) (c := c) (typ := typ) (ts := ts) (vs := vs) (r := r) h hb hsig ha hp => by
    have := (ProducesAll.balanced hs h).call (call := ⟨m, c, typ, .values vs, .text r⟩) (r := r)
      ((hs m c typ ts hsig).delivers ha hp) rfl
    simp only [List.map_append, List.map_cons, List.map_nil, AST.contents, AST.contentsL, textsOf, List.nil_append,
      List.cons_append, List.filterMap_cons, Content.text?]
    exact this

theorem ProducesAll.balanced {ps : Plugins W} (hs : ps.AllArrayEnds) : ∀ {as : List AST} {calls : List (Tag × Call)}
    {rs : List Str}, ProducesAll ps as calls rs → BalancedAll (textsOf (AST.contentsL as)) (calls.map (·.2)) rs
  | _, _, _, .nil => .nil
  | _, _, _, .cons h h' => by
    have := BalancedAll.cons (Produces.balanced hs h) (ProducesAll.balanced hs h')
    simpa [AST.contentsL, textsOf] using this

end

/-- Conservation of single characters. -/
theorem Balanced.count {w : List Str} {calls : List Call} {out : Str} (h : Balanced w calls out) (ch : Char) :
    (calls.flatMap Call.texts).flatten.count ch + out.count ch =
      w.flatten.count ch + (calls.filterMap Call.result?).flatten.count ch := by
  obtain ⟨u, p, h1, h2, rfl, h4⟩ := h
  have key : ∀ (calls : List Call) (u : List (List Str)), u.length = calls.length →
      (∀ x ∈ calls.zip u, MadeOf x.1.texts x.2) → (calls.flatMap Call.texts).flatten = u.flatten.flatten := by
    intro calls
    induction calls with
    | nil => intro u hl _; cases u with
      | nil => rfl
      | cons => cases hl
    | cons c cs ih =>
      intro u hl hm
      cases u with
      | nil => cases hl
      | cons x xs =>
        have h1 := ih xs (by simpa using hl) fun y hy => hm y (by simp [hy])
        obtain ⟨g, hg, hg'⟩ := hm (c, x) (by simp)
        simp only at hg hg'
        rw [List.flatMap_cons, List.flatten_append, h1, ← hg, ← hg', List.flatten_cons, List.flatten_append,
          List.flatten_flatten (L := g)]
  have hf := (h4.flatten).count_eq ch
  rw [List.flatten_append, List.flatten_append, List.count_append, List.count_append, ← key calls u h1 h2] at hf
  exact hf

theorem ok_such {α : Type} {r : Res α} {P : α → Prop} [DecidablePred P]
    (h : (match r with | .ok x => decide (P x) | _ => false) = true) : ∃ x, r = .ok x ∧ P x := by
  rcases r with x | e | _
  · exact ⟨x, rfl, of_decide_eq_true h⟩
  · cases h
  · cases h

end Brack
