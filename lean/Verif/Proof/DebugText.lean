import Verif.Spec.DebugText

namespace Brack

/-! ### Numbers -/

theorem digitChar_inj : ∀ a < 16, ∀ b < 16, Nat.digitChar a = Nat.digitChar b → a = b := by decide

theorem toDigits_inj {b : Nat} (hb : 1 < b) (hb' : b ≤ 16) : ∀ n m, Nat.toDigits b n = Nat.toDigits b m → n = m := by
  intro n
  induction n using Nat.strongRecOn with
  | _ n ih =>
    intro m h
    by_cases hn : n < b <;> by_cases hm : m < b
    · rw [Nat.toDigits_of_lt_base hn, Nat.toDigits_of_lt_base hm] at h
      injection h with h _
      exact digitChar_inj n (by omega) m (by omega) h
    · rw [Nat.toDigits_of_lt_base hn, Nat.toDigits_of_base_le hb (by omega)] at h
      have h1 := congrArg List.length h
      have h2 : 0 < (Nat.toDigits b (m / b)).length := Nat.length_toDigits_pos
      rw [List.length_append, List.length_singleton, List.length_singleton] at h1
      omega
    · rw [Nat.toDigits_of_lt_base hm, Nat.toDigits_of_base_le hb (by omega)] at h
      have h1 := congrArg List.length h
      have h2 : 0 < (Nat.toDigits b (n / b)).length := Nat.length_toDigits_pos
      rw [List.length_append, List.length_singleton, List.length_singleton] at h1
      omega
    · rw [Nat.toDigits_of_base_le hb (n := n) (by omega), Nat.toDigits_of_base_le hb (n := m) (by omega)] at h
      obtain ⟨h1, h2⟩ := List.append_inj' h rfl
      have := ih (n / b) (Nat.div_lt_self (by omega) hb) (m / b) h1
      injection h2 with h2 _
      have h3 := digitChar_inj _ (by have := Nat.mod_lt n (y := b) (by omega); omega) _
        (by have := Nat.mod_lt m (y := b) (by omega); omega) h2
      rw [← Nat.div_add_mod n b, ← Nat.div_add_mod m b, this, h3]

theorem digitChar_alnum : ∀ a < 16, (Nat.digitChar a).isAlphanum = true := by decide

theorem mem_toDigits {b : Nat} (hb : 1 < b) (hb' : b ≤ 16) : ∀ n, ∀ c ∈ Nat.toDigits b n, ∃ a, a < 16 ∧ c = Nat.digitChar a := by
  intro n
  induction n using Nat.strongRecOn with
  | _ n ih =>
    intro c hc
    by_cases hn : n < b
    · rw [Nat.toDigits_of_lt_base hn, List.mem_singleton] at hc
      exact ⟨n, by omega, hc⟩
    · rw [Nat.toDigits_of_base_le hb (by omega), List.mem_append, List.mem_singleton] at hc
      rcases hc with hc | hc
      · exact ih _ (Nat.div_lt_self (by omega) hb) c hc
      · exact ⟨_, by have := Nat.mod_lt n (y := b) (by omega); omega, hc⟩

theorem toDigits_name {b : Nat} (hb : 1 < b) (hb' : b ≤ 16) (n : Nat) : ∀ c ∈ Nat.toDigits b n, IsNameChar c := by
  intro c hc
  obtain ⟨a, ha, rfl⟩ := mem_toDigits hb hb' n c hc
  exact .inl (digitChar_alnum a ha)

/-! ### Reading is unambiguous -/

/-- What comes after a name is not part of it. -/
theorem names_split {w w' r r' : Str} (hw : ∀ c ∈ w, IsNameChar c) (hw' : ∀ c ∈ w', IsNameChar c)
    (hr : ∀ c, r.head? = some c → ¬ IsNameChar c) (hr' : ∀ c, r'.head? = some c → ¬ IsNameChar c)
    (h : w ++ r = w' ++ r') : w = w' ∧ r = r' := by
  induction w generalizing w' with
  | nil =>
    cases w' with
    | nil => exact ⟨rfl, h⟩
    | cons c w' =>
      rw [List.nil_append] at h
      rw [h] at hr
      exact absurd (hw' c (by simp)) (hr c rfl)
  | cons c w ih =>
    cases w' with
    | nil =>
      rw [List.nil_append] at h
      rw [← h] at hr'
      exact absurd (hw c (by simp)) (hr' c rfl)
    | cons c' w' =>
      rw [List.cons_append, List.cons_append] at h
      injection h with h1 h2
      obtain ⟨rfl, rfl⟩ := ih (fun c h => hw c (by simp [h])) (fun c h => hw' c (by simp [h])) h2
      exact ⟨by rw [h1], rfl⟩

theorem not_name {c : Char} (h : c.isAlphanum = false ∧ c ≠ '_') : ¬ IsNameChar c := by
  rintro (h' | h')
  · rw [h.1] at h'; cases h'
  · exact h.2 h'

theorem head_not_name {c : Char} {s : Str} (h : c.isAlphanum = false ∧ c ≠ '_') :
    ∀ d, (c :: s).head? = some d → ¬ IsNameChar d := by
  intro d hd
  injection hd with hd
  rw [← hd]
  exact not_name h

theorem shortEscapes_fst : ∀ p ∈ shortEscapes, ∀ q ∈ shortEscapes, p.2 = q.2 → p.1 = q.1 := by decide

theorem shortEscapes_u : ∀ p ∈ shortEscapes, p.2 ≠ 'u' := by decide

theorem Quotes.unique {s t : Str} (h : Quotes s t) : ∀ {s' t' r r' : Str}, Quotes s' t' → t ++ '"' :: r = t' ++ '"' :: r' →
    s = s' ∧ r = r' := by
  induction h with
  | nil =>
    intro s' t' r r' h' he
    cases h' with
    | nil => simpa using he
    | plain h _ => simp only [List.nil_append, List.cons_append, List.cons.injEq] at he; exact absurd he.1.symm h.1
    | short h _ => simp only [List.nil_append, List.cons_append, List.cons.injEq] at he; exact absurd he.1 (by decide)
    | code _ => simp only [List.nil_append, List.cons_append, List.cons.injEq] at he; exact absurd he.1 (by decide)
  | @plain c s t h ht ih =>
    intro s' t' r r' h' he
    cases h' with
    | nil => simp only [List.nil_append, List.cons_append, List.cons.injEq] at he; exact absurd he.1 h.1
    | plain h' ht' =>
      simp only [List.cons_append, List.cons.injEq] at he
      obtain ⟨h1, h2⟩ := ih ht' he.2
      exact ⟨by rw [h1, he.1], h2⟩
    | short h' _ => simp only [List.cons_append, List.cons.injEq] at he; exact absurd he.1 h.2
    | code _ => simp only [List.nil_append, List.cons_append, List.cons.injEq] at he; exact absurd he.1 h.2
  | @short c e s t h ht ih =>
    intro s' t' r r' h' he
    cases h' with
    | nil => simp only [List.nil_append, List.cons_append, List.cons.injEq] at he; exact absurd he.1 (by decide)
    | plain h' ht' => simp only [List.cons_append, List.cons.injEq] at he; exact absurd he.1.symm h'.2
    | short h' ht' =>
      simp only [List.cons_append, List.cons.injEq] at he
      obtain ⟨h1, h2⟩ := ih ht' he.2.2
      have := shortEscapes_fst _ h _ h' he.2.1
      exact ⟨by rw [h1, show c = _ from this], h2⟩
    | code _ =>
      simp only [List.nil_append, List.cons_append, List.cons.injEq] at he
      exact absurd he.2.1 (shortEscapes_u _ h)
  | @code c s t ht ih =>
    intro s' t' r r' h' he
    cases h' with
    | nil => simp only [List.nil_append, List.cons_append, List.cons.injEq] at he; exact absurd he.1 (by decide)
    | plain h' ht' => simp only [List.nil_append, List.cons_append, List.cons.injEq] at he; exact absurd he.1.symm h'.2
    | short h' ht' =>
      simp only [List.nil_append, List.cons_append, List.cons.injEq] at he
      exact absurd he.2.1.symm (shortEscapes_u _ h')
    | @code c' s' t' ht' =>
      simp only [List.nil_append, List.cons_append, List.append_assoc, List.cons.injEq, true_and] at he
      obtain ⟨h1, h2⟩ := names_split (toDigits_name (by decide) (by decide) _) (toDigits_name (by decide) (by decide) _)
        (head_not_name (by decide)) (head_not_name (by decide)) he
      have hc : c = c' := Char.toNat_inj.mp (toDigits_inj (by decide) (by decide) _ _ h1)
      injection h2 with _ h2
      obtain ⟨h3, h4⟩ := ih ht' h2
      exact ⟨by rw [h3, hc], h4⟩

/-- What may follow a value. -/
inductive Ends : Str → Prop
  | nil : Ends []
  | comma (r : Str) : Ends (',' :: r)
  | tuple (r : Str) : Ends (')' :: r)
  | seq (r : Str) : Ends (']' :: r)
  | line (r : Str) : Ends ('\n' :: r)
  | record (r : Str) : Ends (' ' :: '}' :: r)

theorem Ends.not_name {r : Str} (h : Ends r) : ∀ c, r.head? = some c → ¬ IsNameChar c := by
  cases h with
  | nil => simp
  | comma => exact head_not_name (by decide)
  | tuple => exact head_not_name (by decide)
  | seq => exact head_not_name (by decide)
  | line => exact head_not_name (by decide)
  | record => exact head_not_name (by decide)

/-- What may follow a list of values. -/
inductive Closes : Str → Prop
  | tuple (r : Str) : Closes (')' :: r)
  | seq (r : Str) : Closes (']' :: r)
  | record (r : Str) : Closes (' ' :: '}' :: r)

theorem Closes.ends {r : Str} (h : Closes r) : Ends r := by
  cases h with
  | tuple => exact .tuple _
  | seq => exact .seq _
  | record => exact .record _

/-- The value written as a name with this after it. -/
inductive DebugVal.Starts : DebugVal → Str → Str → Prop
  | word {w : Str} (hw : w ≠ []) : Starts (.word w) w []
  | str {s t : Str} (h : Quotes s t) : Starts (.str s) [] ('"' :: (t ++ ['"']))
  | seq {vs : List DebugVal} {t : Str} (h : DebugVal.WrittenAll vs t) : Starts (.seq vs) [] ('[' :: (t ++ [']']))
  | tuple {name t : Str} {vs : List DebugVal} (h : DebugVal.WrittenAll vs t) : Starts (.tuple name vs) name ('(' :: (t ++ [')']))
  | record {name t : Str} {keys : List Str} {vs : List DebugVal} (hw : name ≠ []) (h : DebugVal.WrittenFields keys vs t) :
      Starts (.record name keys vs) name (' ' :: '{' :: ' ' :: (t ++ chars! " }"))

theorem DebugVal.Written.starts {v : DebugVal} {t : Str} (h : v.Written t) :
    ∃ name tail, t = name ++ tail ∧ (∀ c ∈ name, IsNameChar c) ∧ v.Starts name tail := by
  cases h with
  | word h hw => exact ⟨t, [], by simp, h, .word hw⟩
  | str h => exact ⟨[], _, rfl, by simp, .str h⟩
  | seq h => exact ⟨[], _, rfl, by simp, .seq h⟩
  | tuple hn h => exact ⟨_, _, rfl, hn, .tuple h⟩
  | record hn hw h => exact ⟨_, _, by simp, hn, .record hw h⟩

theorem DebugVal.Starts.not_name {v : DebugVal} {name tail r : Str} (h : v.Starts name tail) (hr : Ends r) :
    ∀ c, (tail ++ r).head? = some c → ¬ IsNameChar c := by
  cases h with
  | word => exact hr.not_name
  | str => exact head_not_name (by decide)
  | seq => exact head_not_name (by decide)
  | tuple => exact head_not_name (by decide)
  | record => exact head_not_name (by decide)

theorem DebugVal.WrittenAll.head {v : DebugVal} {vs : List DebugVal} {t : Str} (h : DebugVal.WrittenAll (v :: vs) t) :
    ∃ t1 t2, v.Written t1 ∧ t = t1 ++ t2 ∧ ((vs = [] ∧ t2 = []) ∨
      ∃ v' vs' u, vs = v' :: vs' ∧ t2 = chars! ", " ++ u ∧ DebugVal.WrittenAll (v' :: vs') u) := by
  cases h with
  | one h => exact ⟨t, [], h, by simp, .inl ⟨rfl, rfl⟩⟩
  | more h hs => exact ⟨_, _, h, List.append_assoc .., .inr ⟨_, _, _, rfl, rfl, hs⟩⟩

theorem Closes.head_ne {c : Char} {r s : Str} (h : Closes r) (hc : c ≠ ')' ∧ c ≠ ']' ∧ c ≠ ' ') : r ≠ c :: s := by
  cases h with
  | tuple => intro he; injection he with he _; exact hc.1 he.symm
  | seq => intro he; injection he with he _; exact hc.2.1 he.symm
  | record => intro he; injection he with he _; exact hc.2.2 he.symm

/-- A written value does not begin like the end of a list. -/
theorem DebugVal.Written.not_closes {v : DebugVal} {t r s : Str} (h : v.Written t) (hr : Closes r) (hs : Ends s) : t ++ s ≠ r := by
  obtain ⟨name, tail, rfl, hn, hst⟩ := h.starts
  rcases name with _ | ⟨c, name⟩
  · intro he
    cases hst with
    | word g => exact g rfl
    | str => exact hr.head_ne (by decide) he.symm
    | seq => exact hr.head_ne (by decide) he.symm
    | tuple => exact hr.head_ne (by decide) he.symm
    | record g => exact g rfl
  · intro he
    have := hn c (by simp)
    rw [← he] at hr
    generalize hq : c :: name ++ tail ++ s = q at hr
    have hq' : q.head? = some c := by rw [← hq]; rfl
    exact hr.ends.not_name c hq' this

theorem DebugVal.Written.unique {v : DebugVal} {t : Str} (h : v.Written t) : ∀ {v' : DebugVal} {t' r r' : Str}, v'.Written t' →
    Ends r → Ends r' → t ++ r = t' ++ r' → v = v' ∧ r = r' := by
  refine DebugVal.Written.rec
    (motive_1 := fun v t _ => ∀ {v' : DebugVal} {t' r r' : Str}, v'.Written t' → Ends r → Ends r' → t ++ r = t' ++ r' →
      v = v' ∧ r = r')
    (motive_2 := fun vs t _ => ∀ {vs' : List DebugVal} {t' r r' : Str}, DebugVal.WrittenAll vs' t' → Closes r → Closes r' →
      t ++ r = t' ++ r' → vs = vs' ∧ r = r')
    (motive_3 := fun keys vs t _ => ∀ {keys' : List Str} {vs' : List DebugVal} {t' r r' : Str},
      DebugVal.WrittenFields keys' vs' t' → Closes r → Closes r' → t ++ r = t' ++ r' → keys = keys' ∧ vs = vs' ∧ r = r')
    ?_ ?_ ?_ ?_ ?_ ?_ ?_ ?_ ?_ ?_ h
  · intro w hw hne v' t' r r' h' hr hr' he
    obtain ⟨name, tail, rfl, hn, hst⟩ := h'.starts
    rw [List.append_assoc] at he
    obtain ⟨rfl, h2⟩ := names_split hw hn hr.not_name (hst.not_name hr') he
    cases hst with
    | word => exact ⟨rfl, h2⟩
    | str => exact absurd rfl hne
    | seq => exact absurd rfl hne
    | tuple => rw [h2] at hr; cases hr
    | record => rw [h2] at hr; cases hr
  · intro s t h v' t' r r' h' hr hr' he
    obtain ⟨name, tail, rfl, hn, hst⟩ := h'.starts
    rw [List.append_assoc] at he
    obtain ⟨rfl, h2⟩ := names_split (w := []) (by simp) hn (head_not_name (by decide)) (hst.not_name hr') he
    cases hst with
    | word hw => exact absurd rfl hw
    | str g =>
      simp only [List.cons_append, List.append_assoc, List.nil_append, List.append_eq, List.cons.injEq, true_and] at h2
      obtain ⟨rfl, h3⟩ := h.unique g h2
      exact ⟨rfl, h3⟩
    | seq => injection h2 with h2 _; exact absurd h2 (by decide)
    | tuple => injection h2 with h2 _; exact absurd h2 (by decide)
    | record hw => exact absurd rfl hw
  · intro vs t h ih v' t' r r' h' hr hr' he
    obtain ⟨name, tail, rfl, hn, hst⟩ := h'.starts
    rw [List.append_assoc] at he
    obtain ⟨rfl, h2⟩ := names_split (w := []) (by simp) hn (head_not_name (by decide)) (hst.not_name hr') he
    cases hst with
    | word hw => exact absurd rfl hw
    | str => injection h2 with h2 _; exact absurd h2 (by decide)
    | seq g =>
      simp only [List.cons_append, List.append_assoc, List.nil_append, List.append_eq, List.cons.injEq, true_and] at h2
      obtain ⟨rfl, h3⟩ := ih g (.seq _) (.seq _) h2
      injection h3 with _ h3
      exact ⟨rfl, h3⟩
    | tuple => injection h2 with h2 _; exact absurd h2 (by decide)
    | record hw => exact absurd rfl hw
  · intro name t vs hname h ih v' t' r r' h' hr hr' he
    obtain ⟨name', tail, rfl, hn, hst⟩ := h'.starts
    rw [List.append_assoc, List.append_assoc] at he
    obtain ⟨rfl, h2⟩ := names_split hname hn (head_not_name (by decide)) (hst.not_name hr') he
    cases hst with
    | word => rw [List.nil_append] at h2; rw [← h2] at hr'; cases hr'
    | str => injection h2 with h2 _; exact absurd h2 (by decide)
    | seq => injection h2 with h2 _; exact absurd h2 (by decide)
    | tuple g =>
      simp only [List.cons_append, List.append_assoc, List.nil_append, List.append_eq, List.cons.injEq, true_and] at h2
      obtain ⟨rfl, h3⟩ := ih g (.tuple _) (.tuple _) h2
      injection h3 with _ h3
      exact ⟨rfl, h3⟩
    | record => injection h2 with h2 _; exact absurd h2 (by decide)
  · intro name t keys vs hname hne h ih v' t' r r' h' hr hr' he
    obtain ⟨name', tail, rfl, hn, hst⟩ := h'.starts
    rw [List.append_assoc, List.append_assoc, List.append_assoc, List.append_assoc] at he
    obtain ⟨rfl, h2⟩ := names_split hname hn (head_not_name (by decide)) (hst.not_name hr') he
    cases hst with
    | word => rw [List.nil_append] at h2; rw [← h2] at hr'; cases hr'
    | str => injection h2 with h2 _; exact absurd h2 (by decide)
    | seq => injection h2 with h2 _; exact absurd h2 (by decide)
    | tuple => injection h2 with h2 _; exact absurd h2 (by decide)
    | record hw g =>
      simp only [List.cons_append, List.append_assoc, List.nil_append, List.append_eq, List.cons.injEq, true_and] at h2
      obtain ⟨rfl, rfl, h3⟩ := ih g (.record _) (.record _) h2
      simp only [List.cons.injEq, true_and] at h3
      exact ⟨rfl, h3⟩
  · intro vs' t' r r' h' hr hr' he
    cases h' with
    | nil => exact ⟨rfl, he⟩
    | one h => exact absurd he.symm (h.not_closes hr hr'.ends)
    | more h hs =>
      rw [List.append_assoc, List.append_assoc] at he
      exact absurd he.symm (h.not_closes hr (.comma _))
  · intro v t h ih vs' t' r r' h' hr hr' he
    cases vs' with
    | nil => cases h'; exact absurd he (h.not_closes hr' hr.ends)
    | cons v' vs' =>
      obtain ⟨t1, t2, h1, rfl, ⟨rfl, rfl⟩ | ⟨_, _, u, rfl, rfl, hu⟩⟩ := h'.head
      · rw [List.append_nil] at he
        obtain ⟨rfl, h2⟩ := ih h1 hr.ends hr'.ends he
        exact ⟨rfl, h2⟩
      · rw [List.append_assoc, List.append_assoc] at he
        obtain ⟨_, h2⟩ := ih h1 hr.ends (.comma _) he
        exact absurd h2 (hr.head_ne (by decide))
  · intro v w vs t u h hs ih ihs vs' t' r r' h' hr hr' he
    rw [List.append_assoc, List.append_assoc] at he
    cases vs' with
    | nil => cases h'; exact absurd he (h.not_closes hr' (.comma _))
    | cons v' vs' =>
      obtain ⟨t1, t2, h1, rfl, ⟨rfl, rfl⟩ | ⟨_, _, u', rfl, rfl, hu⟩⟩ := h'.head
      · rw [List.append_nil] at he
        obtain ⟨_, h2⟩ := ih h1 (.comma _) hr'.ends he
        exact absurd h2.symm (hr'.head_ne (by decide))
      · rw [List.append_assoc, List.append_assoc] at he
        obtain ⟨rfl, h2⟩ := ih h1 (.comma _) (.comma _) he
        simp only [List.append_eq, List.cons_append, List.nil_append, List.cons.injEq, true_and] at h2
        obtain ⟨h3, h4⟩ := ihs hu hr hr' h2
        exact ⟨by rw [h3], h4⟩
  · intro k v t hk h ih keys' vs' t' r r' h' hr hr' he
    cases h' with
    | one hk' h' =>
      rw [List.append_assoc, List.append_assoc, List.append_assoc, List.append_assoc] at he
      obtain ⟨rfl, h2⟩ := names_split hk hk' (head_not_name (by decide)) (head_not_name (by decide)) he
      simp only [List.append_eq, List.cons_append, List.nil_append, List.cons.injEq, true_and] at h2
      obtain ⟨rfl, h3⟩ := ih h' hr.ends hr'.ends h2
      exact ⟨rfl, rfl, h3⟩
    | more hk' h' hs' =>
      simp only [List.append_assoc] at he
      obtain ⟨rfl, h2⟩ := names_split hk hk' (head_not_name (by decide)) (head_not_name (by decide)) he
      simp only [List.append_eq, List.cons_append, List.nil_append, List.cons.injEq, true_and] at h2
      obtain ⟨_, h3⟩ := ih h' hr.ends (.comma _) h2
      exact absurd h3 (hr.head_ne (by decide))
  · intro k ks v vs t u hk h hs ih ihs keys' vs' t' r r' h' hr hr' he
    cases h' with
    | one hk' h' =>
      simp only [List.append_assoc] at he
      obtain ⟨rfl, h2⟩ := names_split hk hk' (head_not_name (by decide)) (head_not_name (by decide)) he
      simp only [List.append_eq, List.cons_append, List.nil_append, List.cons.injEq, true_and] at h2
      obtain ⟨_, h3⟩ := ih h' (.comma _) hr'.ends h2
      exact absurd h3.symm (hr'.head_ne (by decide))
    | more hk' h' hs' =>
      simp only [List.append_assoc] at he
      obtain ⟨rfl, h2⟩ := names_split hk hk' (head_not_name (by decide)) (head_not_name (by decide)) he
      simp only [List.append_eq, List.cons_append, List.nil_append, List.cons.injEq, true_and] at h2
      obtain ⟨rfl, h3⟩ := ih h' (.comma _) (.comma _) h2
      simp only [List.cons.injEq, true_and] at h3
      obtain ⟨rfl, rfl, h4⟩ := ihs hs' hr hr' h3
      exact ⟨rfl, rfl, h4⟩

/-- A text is one value only. -/
theorem DebugVal.Written.inj {v v' : DebugVal} {t : Str} (h : v.Written t) (h' : v'.Written t) : v = v' :=
  (h.unique h' .nil .nil rfl).1

end Brack
