import Verif.Model.JsonText
import Verif.Spec.Json
import Verif.Spec.JsonGrammar

/-
Decimal numbers, and that the JSON reader accepts the grammar of JSON texts and nothing else.
-/

namespace Brack

theorem digitValue_isDigit {c : Char} (h : c.isDigit = true) : digitValue c = some (c.toNat - '0'.toNat) := by
  rw [digitValue, if_pos]
  simp only [Char.isDigit, Bool.and_eq_true, decide_eq_true_eq] at h
  exact ⟨h.1, h.2⟩

theorem digitsValue_digits (s : Str) (h : ∀ c ∈ s, c.isDigit = true) (n : Nat) :
    digitsValue n s = some (Nat.ofDigitChars 10 s n) := by
  induction s generalizing n with
  | nil => rw [digitsValue, Nat.ofDigitChars_nil]
  | cons c s ih =>
    rw [digitsValue, digitValue_isDigit (h c (by simp))]
    simp only
    rw [ih (fun d hd => h d (by simp [hd])), Nat.ofDigitChars_cons]

theorem decimal_digits (n : Nat) : ∀ c ∈ decimal n, c.isDigit = true := fun _ h =>
  Nat.isDigit_of_mem_toDigits (by omega) (by omega) h

theorem decimal_ne_nil (n : Nat) : decimal n ≠ [] := Nat.toDigits_ne_nil

theorem digitsValue_decimal (n : Nat) : digitsValue 0 (decimal n) = some n := by
  rw [digitsValue_digits _ (decimal_digits n), decimal, Nat.ofDigitChars_ten_toDigits]

theorem digitsValue_some {s : Str} {n m : Nat} (h : digitsValue n s = some m) : ∀ c ∈ s, c.isDigit = true := by
  induction s generalizing n with
  | nil => simp
  | cons c s ih =>
    rw [digitsValue] at h
    rcases hd : digitValue c with _ | d
    · rw [hd] at h; cases h
    · rw [hd] at h
      intro e he
      rcases List.mem_cons.mp he with rfl | he
      · rw [digitValue] at hd
        split at hd
        · next hc => simp only [Char.isDigit, Bool.and_eq_true, decide_eq_true_eq]; exact ⟨hc.1, hc.2⟩
        · cases hd
      · exact ih h e he

theorem digitChar_of {c : Char} (h : c.isDigit = true) : Nat.digitChar (c.toNat - '0'.toNat) = c := by
  simp only [Char.isDigit, Bool.and_eq_true, decide_eq_true_eq] at h
  have h1 : 48 ≤ c.toNat := h.1
  have h2 : c.toNat ≤ 57 := h.2
  have : ∀ m < 58, 48 ≤ m → Nat.digitChar (m - 48) = Char.ofNat m := by decide
  rw [show '0'.toNat = 48 from rfl, this c.toNat (by omega) h1, Char.ofNat_toNat]

theorem digit_lt {c : Char} (h : c.isDigit = true) : c.toNat - '0'.toNat < 10 := by
  simp only [Char.isDigit, Bool.and_eq_true, decide_eq_true_eq] at h
  have h2 : c.toNat ≤ 57 := h.2
  have : '0'.toNat = 48 := rfl
  omega

/-- Digits after a positive number are the digits of the number they make up. -/
theorem toDigits_ofDigits (s : Str) (h : ∀ c ∈ s, c.isDigit = true) (n : Nat) (hn : 0 < n) :
    Nat.toDigits 10 n ++ s = Nat.toDigits 10 (Nat.ofDigitChars 10 s n) := by
  induction s generalizing n with
  | nil => rw [Nat.ofDigitChars_nil, List.append_nil]
  | cons c s ih =>
    have hc := h c (by simp)
    rw [Nat.ofDigitChars_cons, ← ih (fun d hd => h d (by simp [hd])) _ (by omega),
      ← Nat.toDigits_append_toDigits (by omega) hn (digit_lt hc), Nat.toDigits_of_lt_base (digit_lt hc), digitChar_of hc]
    simp

theorem digit_zero {c : Char} (h : c.isDigit = true) (h0 : c.toNat - '0'.toNat = 0) : c = '0' := by
  rw [← digitChar_of h, h0]; rfl

/-- The head of a numeral is not zero, unless it is the only digit. -/
theorem toDigits_head (n : Nat) : (Nat.toDigits 10 n).length = 1 ∨ (Nat.toDigits 10 n).head? ≠ some '0' := by
  induction n using Nat.strongRecOn with
  | ind n ih =>
    by_cases hn : n < 10
    · left; rw [Nat.toDigits_of_lt_base hn]; rfl
    · right
      rw [Nat.toDigits_of_base_le (by omega) (by omega)]
      have hne : Nat.toDigits 10 (n / 10) ≠ [] := Nat.toDigits_ne_nil
      rcases ih (n / 10) (by omega) with h | h
      · by_cases h1 : n / 10 < 10
        · rw [Nat.toDigits_of_lt_base h1]
          simp only [List.cons_append, List.head?_cons, ne_eq, Option.some.injEq]
          have : ∀ m < 10, m ≠ 0 → Nat.digitChar m ≠ '0' := by decide
          exact this _ h1 (by omega)
        · exfalso
          rw [Nat.toDigits_of_base_le (by omega) (by omega), List.length_append] at h
          have : 0 < (Nat.toDigits 10 (n / 10 / 10)).length := Nat.length_toDigits_pos
          simp only [List.length_cons, List.length_nil] at h
          omega
      · rcases hd : Nat.toDigits 10 (n / 10) with _ | ⟨c, s⟩
        · exact absurd hd hne
        · rw [hd] at h
          simpa using h

namespace JsonText

open JsonGrammar

/-! ### Numbers -/

theorem isDigits_iff (s : Str) : isDigits s = true ↔ Digits s := by
  cases s <;> simp [isDigits, Digits]

theorem isNatural_iff (s : Str) : isNatural s = true ↔ ∃ n, s = Nat.toDigits 10 n := by
  constructor
  · intro h
    rw [isNatural, Bool.and_eq_true, isDigits_iff] at h
    obtain ⟨⟨hne, hd⟩, hz⟩ := h
    rcases s with _ | ⟨c, s⟩
    · exact absurd rfl hne
    · have hc := hd c (by simp)
      by_cases h0 : c.toNat - '0'.toNat = 0
      · have := digit_zero hc h0
        subst this
        refine ⟨0, ?_⟩
        simp at hz
        subst hz
        rfl
      · refine ⟨Nat.ofDigitChars 10 s (c.toNat - '0'.toNat), ?_⟩
        rw [← toDigits_ofDigits s (fun d hd' => hd d (by simp [hd'])) (c.toNat - '0'.toNat) (by omega),
          Nat.toDigits_of_lt_base (digit_lt hc), digitChar_of hc]
        rfl
  · rintro ⟨n, rfl⟩
    rw [isNatural, Bool.and_eq_true, isDigits_iff]
    refine ⟨⟨Nat.toDigits_ne_nil, decimal_digits n⟩, ?_⟩
    rcases toDigits_head n with h | h
    · simp [h]
    · simp only [Bool.or_eq_true, decide_eq_true_eq]
      exact .inr h

theorem isExponent_iff (s : Str) : isExponent s = true ↔ IsExponent s := by
  constructor
  · intro h
    rcases s with _ | ⟨e, _ | ⟨c, t⟩⟩
    · exact .none
    · simp [isExponent] at h
    · simp only [isExponent, Bool.and_eq_true, Bool.or_eq_true, decide_eq_true_eq] at h
      obtain ⟨he, h⟩ := h
      split at h
      · next hc =>
        exact .some (sign := [c]) he (by simpa using hc) ((isDigits_iff t).mp h)
      · exact .some (sign := []) he (.inl rfl) ((isDigits_iff _).mp h)
  · intro h
    cases h with
    | none => rfl
    | @some e sign ds he hs h =>
      have he' : (decide (e = 'e') || decide (e = 'E')) = true := by simpa using he
      obtain ⟨hne, hd⟩ := h
      rcases ds with _ | ⟨c, t⟩
      · exact absurd rfl hne
      rcases hs with rfl | rfl | rfl
      · simp only [List.nil_append, isExponent, he', Bool.true_and]
        have hc := hd c (by simp)
        rw [if_neg, isDigits_iff]
        · exact ⟨hne, hd⟩
        · rintro (rfl | rfl) <;> revert hc <;> decide
      · simp only [List.cons_append, List.nil_append, isExponent, he', Bool.true_and]
        rw [if_pos (.inl trivial), isDigits_iff]
        exact ⟨hne, hd⟩
      · simp only [List.cons_append, List.nil_append, isExponent, he', Bool.true_and]
        rw [if_pos (.inr trivial), isDigits_iff]
        exact ⟨hne, hd⟩

theorem span_digits (t r : Str) (ht : ∀ c ∈ t, c.isDigit = true) (hr : ∀ c ∈ r.head?, c.isDigit = false) :
    (t ++ r).takeWhile Char.isDigit = t ∧ (t ++ r).dropWhile Char.isDigit = r := by
  have hr0 : r.takeWhile Char.isDigit = [] ∧ r.dropWhile Char.isDigit = r := by
    cases r with
    | nil => exact ⟨rfl, rfl⟩
    | cons c r => simp [hr c (by simp)]
  constructor
  · rw [List.takeWhile_append_of_pos ht, hr0.1, List.append_nil]
  · rw [List.dropWhile_append_of_pos ht, hr0.2]

theorem exponent_head {e : Str} (h : IsExponent e) : ∀ c ∈ e.head?, c = 'e' ∨ c = 'E' := by
  cases h with
  | none => simp
  | some he => simpa using he

theorem fraction_head {f e : Str} (hf : IsFraction f) (he : IsExponent e) : ∀ c ∈ (f ++ e).head?, c.isDigit = false := by
  cases hf with
  | none =>
    intro c hc
    rcases exponent_head he c hc with rfl | rfl <;> decide
  | some h => simp

theorem isFraction_iff (s : Str) : isFraction s = true ↔ ∃ f e, s = f ++ e ∧ IsFraction f ∧ IsExponent e := by
  constructor
  · intro h
    rcases s with _ | ⟨c, s⟩
    · exact ⟨[], [], rfl, .none, .none⟩
    · rw [isFraction] at h
      split at h
      · next hc =>
        subst hc
        rw [Bool.and_eq_true, isDigits_iff, isExponent_iff] at h
        refine ⟨'.' :: s.takeWhile Char.isDigit, s.dropWhile Char.isDigit, ?_, .some h.1, h.2⟩
        rw [List.cons_append, List.takeWhile_append_dropWhile]
      · exact ⟨[], _, rfl, .none, (isExponent_iff _).mp h⟩
  · rintro ⟨f, e, rfl, hf, he⟩
    cases hf with
    | none =>
      rcases e with _ | ⟨c, s⟩
      · rfl
      · rw [List.nil_append, isFraction, if_neg, isExponent_iff]
        · exact he
        · rcases exponent_head he c (by simp) with rfl | rfl <;> decide
    | @some ds h =>
      have hs := span_digits ds e h.2 (fun c hc => by rcases exponent_head he c hc with rfl | rfl <;> decide)
      rw [List.cons_append, isFraction, if_pos rfl, hs.1, hs.2, Bool.and_eq_true, isDigits_iff, isExponent_iff]
      exact ⟨h, he⟩

theorem isUnsigned_iff (s : Str) : isUnsigned s = true ↔
    ∃ n f e, s = Nat.toDigits 10 n ++ (f ++ e) ∧ IsFraction f ∧ IsExponent e := by
  rw [isUnsigned, Bool.and_eq_true, isNatural_iff, isFraction_iff]
  constructor
  · rintro ⟨⟨n, hn⟩, f, e, hfe, hf, he⟩
    refine ⟨n, f, e, ?_, hf, he⟩
    rw [← hn, ← hfe, List.takeWhile_append_dropWhile]
  · rintro ⟨n, f, e, rfl, hf, he⟩
    have hs := span_digits (Nat.toDigits 10 n) (f ++ e) (decimal_digits n) (fraction_head hf he)
    exact ⟨⟨n, hs.1⟩, f, e, hs.2, hf, he⟩

theorem digitsValue_other {n : Nat} {f e : Str} (hf : IsFraction f) (he : IsExponent e) (h : f ++ e ≠ []) :
    digitsValue 0 (Nat.toDigits 10 n ++ (f ++ e)) = none := by
  rcases hd : digitsValue 0 (Nat.toDigits 10 n ++ (f ++ e)) with _ | m
  · rfl
  · exfalso
    have := digitsValue_some hd
    rcases hfe : f ++ e with _ | ⟨c, s⟩
    · exact h hfe
    · have h1 := fraction_head hf he c (by simp [hfe])
      rw [this c (by simp [hfe])] at h1
      cases h1

theorem signed_sound {negative : Bool} {t ds : Str} {v : Json} (ht : t = (if negative then '-' :: ds else ds))
    (h : signed negative t ds = some v) : IsNumber t v := by
  rw [signed] at h
  split at h
  · next hu =>
    obtain ⟨n, f, e, rfl, hf, he⟩ := (isUnsigned_iff ds).mp hu
    by_cases hfe : f ++ e = []
    · rw [hfe, List.append_nil] at h ht
      have hv : digitsValue 0 (Nat.toDigits 10 n) = some n := digitsValue_decimal n
      rw [hv] at h
      cases negative
      · simp only [Bool.false_eq_true, if_false, Option.some.injEq] at h ht
        subst h ht
        exact .nat n
      · simp only [if_true] at h ht
        split at h
        · next h0 =>
          subst h0
          simp only [Option.some.injEq] at h
          subst h ht
          exact .other (sign := ['-']) (f := []) (e := []) 0 (.inr rfl) .none .none (.inr ⟨rfl, rfl⟩)
        · next h0 =>
          simp only [Option.some.injEq] at h
          subst h ht
          exact .neg h0
    · rw [digitsValue_other hf he hfe] at h
      simp only [Option.some.injEq] at h
      subst h
      cases negative
      · simp only [Bool.false_eq_true, if_false] at ht
        subst ht
        exact .other (sign := []) n (.inl rfl) hf he (.inl hfe)
      · simp only [if_true] at ht
        subst ht
        exact .other (sign := ['-']) n (.inr rfl) hf he (.inl hfe)
  · cases h

theorem isDigit_ne {c : Char} (h : c.isDigit = true) (d : Char) (hd : d.isDigit = false) : c ≠ d := by
  rintro rfl
  rw [h] at hd
  cases hd

theorem parseNumber_plain {ds : Str} (hne : ds ≠ []) (h : ∀ c ∈ ds.head?, c.isDigit = true) :
    parseNumber ds = signed false ds ds := by
  rcases ds with _ | ⟨c, s⟩
  · exact absurd rfl hne
  · rw [parseNumber, if_neg (isDigit_ne (h c (by simp)) '-' (by decide))]

theorem parseNumber_minus (ds : Str) : parseNumber ('-' :: ds) = signed true ('-' :: ds) ds := by
  rw [parseNumber, if_pos rfl]

theorem numeral_head (n : Nat) (r : Str) : Nat.toDigits 10 n ++ r ≠ [] ∧
    ∀ c ∈ (Nat.toDigits 10 n ++ r).head?, c.isDigit = true := by
  have hd := decimal_digits n
  rw [decimal] at hd
  rcases hn : Nat.toDigits 10 n with _ | ⟨c, s⟩
  · exact absurd hn Nat.toDigits_ne_nil
  · rw [hn] at hd
    simpa using hd c (by simp)

theorem parseNumber_iff (t : Str) (v : Json) : parseNumber t = some v ↔ IsNumber t v := by
  constructor
  · intro h
    rcases t with _ | ⟨c, ds⟩
    · cases h
    · rw [parseNumber] at h
      split at h
      · next hc => subst hc; exact signed_sound (negative := true) rfl h
      · exact signed_sound (negative := false) rfl h
  · intro h
    have hn : ∀ n, isUnsigned (Nat.toDigits 10 n) = true := fun n =>
      (isUnsigned_iff _).mpr ⟨n, [], [], by simp, .none, .none⟩
    have hv : ∀ n, digitsValue 0 (Nat.toDigits 10 n) = some n := digitsValue_decimal
    cases h with
    | nat n =>
      have := numeral_head n []
      rw [List.append_nil] at this
      rw [parseNumber_plain this.1 this.2, signed, if_pos (hn n), hv]
      rfl
    | @neg n h => simp only [parseNumber_minus, signed, hn, hv, if_true, if_neg h]
    | @other sign f e n hs hf he h =>
      have hu : isUnsigned (Nat.toDigits 10 n ++ (f ++ e)) = true := (isUnsigned_iff _).mpr ⟨n, f, e, rfl, hf, he⟩
      by_cases hfe : f ++ e = []
      · rcases h with h | ⟨rfl, rfl⟩
        · exact absurd hfe h
        · rw [hfe]
          rfl
      · rcases hs with rfl | rfl
        · rw [List.nil_append, parseNumber_plain (numeral_head n _).1 (numeral_head n _).2, signed, if_pos hu,
            digitsValue_other hf he hfe]
        · rw [List.cons_append, List.nil_append, parseNumber_minus, signed, if_pos hu, digitsValue_other hf he hfe]

theorem isNumeric_digit {c : Char} (h : c.isDigit = true) : isNumeric c = true := by
  simp [isNumeric, h]

theorem number_numeric {t : Str} {v : Json} (h : IsNumber t v) : ∀ c ∈ t, isNumeric c = true := by
  have hn : ∀ n, ∀ c ∈ Nat.toDigits 10 n, isNumeric c = true := fun n c hc => isNumeric_digit (decimal_digits n c hc)
  cases h with
  | nat n => exact hn n
  | @neg n h =>
    intro c hc
    rcases List.mem_cons.mp hc with rfl | hc
    · decide
    · exact hn n c hc
  | @other sign f e n hs hf he h =>
    intro c hc
    simp only [List.mem_append] at hc
    rcases hc with hc | hc | hc | hc
    · rcases hs with rfl | rfl
      · cases hc
      · simp only [List.mem_cons, List.not_mem_nil, or_false] at hc; subst hc; decide
    · exact hn n c hc
    · cases hf with
      | none => cases hc
      | some hd =>
        rcases List.mem_cons.mp hc with rfl | hc
        · decide
        · exact isNumeric_digit (hd.2 c hc)
    · cases he with
      | none => cases hc
      | some he hs hd =>
        rcases List.mem_cons.mp hc with rfl | hc
        · rcases he with rfl | rfl <;> decide
        · rcases List.mem_append.mp hc with hc | hc
          · rcases hs with rfl | rfl | rfl
            · cases hc
            · simp only [List.mem_cons, List.not_mem_nil, or_false] at hc; subst hc; decide
            · simp only [List.mem_cons, List.not_mem_nil, or_false] at hc; subst hc; decide
          · exact isNumeric_digit (hd.2 c hc)

theorem number_head {t : Str} {v : Json} (h : IsNumber t v) : ∃ c s, t = c :: s ∧ (c = '-' ∨ c.isDigit = true) := by
  have hn : ∀ n r, ∃ c s, Nat.toDigits 10 n ++ r = c :: s ∧ (c = '-' ∨ c.isDigit = true) := by
    intro n r
    obtain ⟨h1, h2⟩ := numeral_head n r
    rcases hr : Nat.toDigits 10 n ++ r with _ | ⟨c, s⟩
    · exact absurd hr h1
    · exact ⟨c, s, rfl, .inr (h2 c (by simp [hr]))⟩
  cases h with
  | nat n => simpa using hn n []
  | neg h => exact ⟨_, _, rfl, .inl rfl⟩
  | other n hs hf he h =>
    rcases hs with rfl | rfl
    · exact hn n _
    · exact ⟨_, _, rfl, .inl rfl⟩

/-! ### Strings -/

theorem hexValue_iff (c : Char) (n : Nat) : hexValue c = some n ↔ IsHex c n := by
  constructor
  · intro h
    have key : ∀ m < 128, hexValue (Char.ofNat m) = none ∨ ∃ k < 16, hexValue (Char.ofNat m) = some k ∧ IsHex (Char.ofNat m) k := by
      unfold IsHex; decide +kernel
    by_cases hc : c.toNat < 128
    · have := key c.toNat hc
      rw [Char.ofNat_toNat, h] at this
      rcases this with h | ⟨k, _, hk, hx⟩
      · cases h
      · cases hk; exact hx
    · exfalso
      have hle : ∀ d : Char, d.toNat < 128 → ¬ c ≤ d := by
        intro d hd hcd
        have : c.toNat ≤ d.toNat := hcd
        omega
      rw [hexValue, if_neg (fun h => hle '9' (by decide) h.2), if_neg (fun h => hle 'f' (by decide) h.2),
        if_neg (fun h => hle 'F' (by decide) h.2)] at h
      cases h
  · intro h
    have key : ∀ k < 16, ∀ c ∈ (chars! "0123456789abcdef")[k]?, hexValue c = some k := by decide +kernel
    have key' : ∀ k < 16, ∀ c ∈ (chars! "0123456789ABCDEF")[k]?, hexValue c = some k := by decide +kernel
    have hlen : ∀ {l : Str} {c}, l.length = 16 → l[n]? = some c → n < 16 := by
      intro l c hl h
      have := (List.getElem?_eq_some_iff.mp h).1
      omega
    rcases h with h | h
    · exact key n (hlen (by decide) h) c h
    · exact key' n (hlen (by decide) h) c h

theorem unescape_iff (l c : Char) : unescape l = some c ↔ (l, c) ∈ escapes := by
  rw [unescape]
  constructor
  · intro h
    split at h
    · next hl => rcases hl with rfl | rfl | rfl <;> (cases h; simp [escapes])
    split at h
    · next hl => subst hl; cases h; simp [escapes]
    split at h
    · next hl => subst hl; cases h; simp [escapes]
    split at h
    · next hl => subst hl; cases h; simp [escapes]
    split at h
    · next hl => subst hl; cases h; simp [escapes]
    split at h
    · next hl => subst hl; cases h; simp [escapes]
    · cases h
  · intro h
    simp only [escapes, List.mem_cons, Prod.mk.injEq, List.not_mem_nil, or_false] at h
    rcases h with ⟨rfl, rfl⟩ | ⟨rfl, rfl⟩ | ⟨rfl, rfl⟩ | ⟨rfl, rfl⟩ | ⟨rfl, rfl⟩ | ⟨rfl, rfl⟩ | ⟨rfl, rfl⟩ | ⟨rfl, rfl⟩ <;> rfl

theorem charOf_iff (n : Nat) (c : Char) : charOf n = some c ↔ n = c.toNat := by
  rw [charOf]
  constructor
  · intro h
    split at h
    · next hv =>
      cases h
      unfold Char.ofNat
      rw [dif_pos hv]
      rfl
    · cases h
  · rintro rfl
    have hv : c.toNat.isValidChar := c.valid
    rw [if_pos hv, Char.ofNat_toNat]

theorem char_not_surrogate (c : Char) : ¬ (0xD800 ≤ c.toNat ∧ c.toNat < 0xDC00) := by
  rintro ⟨h1, h2⟩
  rcases (show c.toNat.isValidChar from c.valid) with h | h <;> omega

theorem escape_ne_u {l c : Char} (h : (l, c) ∈ escapes) : l ≠ 'u' := by
  rintro rfl
  have := (unescape_iff 'u' c).mpr h
  rw [show unescape 'u' = none from rfl] at this
  cases this

theorem isHigh_iff (n : Nat) : isHigh n = true ↔ 0xD800 ≤ n ∧ n < 0xDC00 := by
  rw [isHigh, Bool.and_eq_true, decide_eq_true_eq, decide_eq_true_eq]

theorem isLow_iff (n : Nat) : isLow n = true ↔ 0xDC00 ≤ n ∧ n < 0xE000 := by
  rw [isLow, Bool.and_eq_true, decide_eq_true_eq, decide_eq_true_eq]

/-- The end of `parseStr` for the last hexadecimal digit. -/
def finish (high : Option Nat) (n : Nat) (s : Str) : Option (Str × Str) :=
  match high with
  | none =>
    if isHigh n then parseStr (.backslash n) s
    else pushSome (charOf n) (parseStr .char s)
  | some high =>
    if isLow n then pushSome (pairOf high n) (parseStr .char s) else none

theorem parseStr_hex {c₁ c₂ c₃ c₄ : Char} {n₁ n₂ n₃ n₄ : Nat} (h₁ : IsHex c₁ n₁) (h₂ : IsHex c₂ n₂) (h₃ : IsHex c₃ n₃)
    (h₄ : IsHex c₄ n₄) (high : Option Nat) (s : Str) :
    parseStr (.hex high 3 0) (c₁ :: c₂ :: c₃ :: c₄ :: s) = finish high (4096 * n₁ + 256 * n₂ + 16 * n₃ + n₄) s := by
  rw [← hexValue_iff] at h₁ h₂ h₃ h₄
  simp only [parseStr, h₁, h₂, h₃, h₄]
  rw [show 16 * (16 * (16 * (16 * 0 + n₁) + n₂) + n₃) + n₄ = 4096 * n₁ + 256 * n₂ + 16 * n₃ + n₄ by omega]
  rfl

theorem parseStr_unicode {t : Str} {n : Nat} (h : IsUnicode t n) (s : Str) :
    parseStr .char (t ++ s) = finish none n s ∧ ∀ high, parseStr (.backslash high) (t ++ s) = finish (some high) n s := by
  cases h with
  | intro h₁ h₂ h₃ h₄ =>
    constructor
    · simp only [List.cons_append, List.nil_append]
      rw [parseStr, if_neg (by decide), if_pos rfl, parseStr, if_pos rfl, parseStr_hex h₁ h₂ h₃ h₄]
    · intro high
      simp only [List.cons_append, List.nil_append]
      rw [parseStr, if_pos rfl, parseStr, if_pos rfl, parseStr_hex h₁ h₂ h₃ h₄]

theorem parseStr_char {t : Str} {c : Char} (h : IsChar t c) (s : Str) :
    parseStr .char (t ++ s) = push c (parseStr .char s) := by
  cases h with
  | plain h h' hc => rw [List.cons_append, List.nil_append, parseStr, if_neg h, if_neg h', if_neg (by omega)]
  | escape h =>
    simp only [List.cons_append, List.nil_append]
    rw [parseStr, if_neg (by decide), if_pos rfl, parseStr, if_neg (escape_ne_u h), (unescape_iff _ _).mpr h]
    rfl
  | unicode h =>
    rw [(parseStr_unicode h s).1, finish, if_neg (fun h => char_not_surrogate c ((isHigh_iff _).mp h)), (charOf_iff _ c).mpr rfl]
    rfl
  | pair h h' hh hl hc =>
    rw [List.append_assoc, (parseStr_unicode h _).1, finish, if_pos ((isHigh_iff _).mpr hh), (parseStr_unicode h' s).2, finish, if_pos ((isLow_iff _).mpr hl),
      pairOf, (charOf_iff _ c).mpr hc.symm]
    rfl

theorem parseStr_chars {t x : Str} (h : IsChars t x) (r : Str) : parseStr .char (t ++ '"' :: r) = some (x, r) := by
  induction h with
  | nil => rw [List.nil_append, parseStr, if_pos rfl]
  | cons h ht ih => rw [List.append_assoc, parseStr_char h, ih]; rfl

/-- Some hexadecimal digits and their value. -/
inductive Hexes : Str → Nat → Prop
  | nil : Hexes [] 0
  | snoc {s : Str} {n d : Nat} {c : Char} (h : Hexes s n) (hc : IsHex c d) : Hexes (s ++ [c]) (16 * n + d)

theorem Hexes.unicode {s : Str} {n d : Nat} {c : Char} (h : Hexes s n) (hl : s.length = 3) (hc : IsHex c d) :
    IsUnicode ('\\' :: 'u' :: (s ++ [c])) (16 * n + d) := by
  cases h with
  | nil => simp at hl
  | snoc h h3 =>
    cases h with
    | nil => simp at hl
    | snoc h h2 =>
      cases h with
      | nil => simp at hl
      | snoc h h1 =>
        cases h with
        | nil =>
          have := IsUnicode.intro h1 h2 h3 hc
          rename_i n3 _ n2 _ n1 _
          rw [show 16 * (16 * (16 * (16 * 0 + n1) + n2) + n3) + d = 4096 * n1 + 256 * n2 + 16 * n3 + d by omega]
          exact this
        | snoc h h0 => simp at hl

/-- What has been read of a character that is not complete. -/
inductive Pending : Expected → Str → Prop
  | char : Pending .char []
  | escape : Pending .escape ['\\']
  | backslash {t : Str} {high : Nat} (h : IsUnicode t high) (hh : 0xD800 ≤ high ∧ high < 0xDC00) :
      Pending (.backslash high) t
  | letter {t : Str} {high : Nat} (h : IsUnicode t high) (hh : 0xD800 ≤ high ∧ high < 0xDC00) :
      Pending (.letter high) (t ++ ['\\'])
  | first {s : Str} {left value : Nat} (h : Hexes s value) (hl : s.length + left = 3) :
      Pending (.hex none left value) ('\\' :: 'u' :: s)
  | second {s t : Str} {left value high : Nat} (ht : IsUnicode t high) (hh : 0xD800 ≤ high ∧ high < 0xDC00)
      (h : Hexes s value) (hl : s.length + left = 3) :
      Pending (.hex (some high) left value) (t ++ '\\' :: 'u' :: s)

theorem pushSome_some {c : Option Char} {o : Option (Str × Str)} {x r : Str} (h : pushSome c o = some (x, r)) :
    ∃ d, c = some d ∧ push d o = some (x, r) := by
  cases c with
  | none => cases h
  | some d => exact ⟨d, rfl, h⟩

theorem push_some {c : Char} {o : Option (Str × Str)} {x r : Str} (h : push c o = some (x, r)) :
    ∃ y, o = some (y, r) ∧ x = c :: y := by
  rcases o with _ | ⟨y, r'⟩
  · cases h
  · simp only [push, Option.map_some, Option.some.injEq, Prod.mk.injEq] at h
    obtain ⟨rfl, rfl⟩ := h
    exact ⟨y, rfl, rfl⟩

theorem parseStr_sound (s : Str) : ∀ st p x r, Pending st p → parseStr st s = some (x, r) →
    ∃ b, p ++ s = b ++ '"' :: r ∧ IsChars b x := by
  induction s with
  | nil => intro st p x r _ h; simp [parseStr] at h
  | cons c s ih =>
    have next : ∀ {p x r d}, IsChar (p ++ [c]) d → push d (parseStr .char s) = some (x, r) →
        ∃ b, p ++ c :: s = b ++ '"' :: r ∧ IsChars b x := by
      intro p x r d hd h
      obtain ⟨y, hy, rfl⟩ := push_some h
      obtain ⟨b, hb, hx⟩ := ih _ _ _ _ .char hy
      rw [List.nil_append] at hb
      refine ⟨(p ++ [c]) ++ b, ?_, .cons hd hx⟩
      rw [hb]; simp
    intro st p x r hp h
    cases hp with
    | char =>
      rw [parseStr] at h
      split at h
      · next hc => subst hc; cases h; exact ⟨[], rfl, .nil⟩
      split at h
      · next hc => subst hc; exact ih _ _ _ _ .escape h
      split at h
      · cases h
      · next h1 h2 h3 => exact next (p := []) (.plain h1 h2 (by omega)) h
    | escape =>
      rw [parseStr] at h
      split at h
      · next hc => subst hc; exact ih _ _ _ _ (.first .nil rfl) h
      · obtain ⟨d, hd, h⟩ := pushSome_some h
        exact next (p := ['\\']) (.escape ((unescape_iff _ _).mp hd)) h
    | backslash ht hh =>
      rw [parseStr] at h
      split at h
      · next hc =>
        subst hc
        obtain ⟨b, hb, hx⟩ := ih _ _ _ _ (.letter ht hh) h
        exact ⟨b, by rw [← hb]; simp, hx⟩
      · cases h
    | letter ht hh =>
      rw [parseStr] at h
      split at h
      · next hc =>
        subst hc
        obtain ⟨b, hb, hx⟩ := ih _ _ _ _ (.second ht hh .nil rfl) h
        exact ⟨b, by rw [← hb]; simp, hx⟩
      · cases h
    | @first s' left value hs hl =>
      rw [parseStr] at h
      split at h
      · cases h
      · next d hd =>
        rw [hexValue_iff] at hd
        split at h
        · next left =>
          obtain ⟨b, hb, hx⟩ := ih _ _ _ _ (.first (.snoc hs hd) (by simp only [List.length_append, List.length_cons, List.length_nil]; omega)) h
          exact ⟨b, by rw [← hb]; simp, hx⟩
        · have hu := hs.unicode hl hd
          simp only at h
          split at h
          · next hh =>
            obtain ⟨b, hb, hx⟩ := ih _ _ _ _ (.backslash hu ((isHigh_iff _).mp hh)) h
            exact ⟨b, by rw [← hb]; simp, hx⟩
          · obtain ⟨e, he, h⟩ := pushSome_some h
            rw [charOf_iff] at he
            exact next (p := '\\' :: 'u' :: s') (.unicode (he ▸ hu)) h
    | @second s' t left value high ht hh hs hl =>
      rw [parseStr] at h
      split at h
      · cases h
      · next d hd =>
        rw [hexValue_iff] at hd
        split at h
        · next left =>
          obtain ⟨b, hb, hx⟩ := ih _ _ _ _ (.second ht hh (.snoc hs hd) (by simp only [List.length_append, List.length_cons, List.length_nil]; omega)) h
          exact ⟨b, by rw [← hb]; simp, hx⟩
        · have hu := hs.unicode hl hd
          simp only at h
          split at h
          · next hl =>
            obtain ⟨e, he, h⟩ := pushSome_some h
            rw [pairOf, charOf_iff] at he
            refine next (p := t ++ '\\' :: 'u' :: s') ?_ h
            have := IsChar.pair ht hu hh ((isLow_iff _).mp hl) he.symm
            simpa using this
          · cases h

/-! ### Values -/

theorem isSpace_iff (c : Char) : isSpace c = true ↔ c = ' ' ∨ c = '\n' ∨ c = '\r' ∨ c = '\t' := by
  simp [isSpace, or_assoc]

theorem skip_spaces {a : Str} (h : Spaces a) (s : Str) : skip (a ++ s) = skip s := by
  rw [skip, List.dropWhile_append_of_pos (fun c hc => (isSpace_iff c).mpr (h c hc))]
  rfl

theorem skip_of {c : Char} {s : Str} (h : isSpace c = false) : skip (c :: s) = c :: s := by
  rw [skip, List.dropWhile_cons_of_neg (by simp [h])]

theorem skip_split (s : Str) : ∃ a, s = a ++ skip s ∧ Spaces a := by
  refine ⟨s.takeWhile isSpace, (List.takeWhile_append_dropWhile).symm, fun c hc => ?_⟩
  rw [← isSpace_iff]
  have : ∀ (l : Str), ∀ c ∈ l.takeWhile isSpace, isSpace c = true := by
    intro l
    induction l with
    | nil => simp
    | cons d l ih =>
      intro c hc
      by_cases hd : isSpace d = true
      · rw [List.takeWhile_cons_of_pos hd] at hc
        rcases List.mem_cons.mp hc with rfl | hc
        · exact hd
        · exact ih c hc
      · rw [List.takeWhile_cons_of_neg hd] at hc
        cases hc
  exact this s c hc

theorem notSpace_of_digit {c : Char} (h : c.isDigit = true) : isSpace c = false := by
  simp [isSpace, isDigit_ne h ' ' (by decide), isDigit_ne h '\n' (by decide), isDigit_ne h '\r' (by decide),
    isDigit_ne h '\t' (by decide)]

/-- The first character of a value. -/
theorem value_head {t : Str} {v : Json} (h : IsValue t v) : ∃ c s, t = c :: s ∧ isSpace c = false ∧ c ≠ ']' ∧ c ≠ '}' := by
  cases h with
  | number h =>
    obtain ⟨c, s, rfl, hc⟩ := number_head h
    refine ⟨c, s, rfl, ?_⟩
    rcases hc with rfl | hc
    · exact ⟨by decide, by decide, by decide⟩
    · exact ⟨notSpace_of_digit hc, isDigit_ne hc _ (by decide), isDigit_ne hc _ (by decide)⟩
  | _ => exact ⟨_, _, rfl, by decide, by decide, by decide⟩

/-- What follows a value does not continue a number. -/
def Ends (r : Str) : Prop := ∀ c ∈ r.head?, isNumeric c = false

theorem span_numeric (t r : Str) (ht : ∀ c ∈ t, isNumeric c = true) (hr : Ends r) :
    (t ++ r).takeWhile isNumeric = t ∧ (t ++ r).dropWhile isNumeric = r := by
  have hr0 : r.takeWhile isNumeric = [] ∧ r.dropWhile isNumeric = r := by
    cases r with
    | nil => exact ⟨rfl, rfl⟩
    | cons c r => simp [hr c (by simp)]
  constructor
  · rw [List.takeWhile_append_of_pos ht, hr0.1, List.append_nil]
  · rw [List.dropWhile_append_of_pos ht, hr0.2]

theorem ends_spaces {b : Str} (hb : Spaces b) {c : Char} (hc : isNumeric c = false) (r : Str) : Ends (b ++ c :: r) := by
  rcases b with _ | ⟨d, b⟩
  · simpa [Ends] using hc
  · intro e he
    simp only [List.cons_append, List.head?_cons, Option.mem_def, Option.some.injEq] at he
    subst he
    rcases hb d (by simp) with rfl | rfl | rfl | rfl <;> decide

theorem prefix_ne {c d : Char} (h : c ≠ d) (ds s : Str) : (d :: ds).isPrefixOf (c :: s) = false := by
  rw [List.isPrefixOf, beq_eq_false_iff_ne.mpr (fun e => h e.symm)]
  rfl

theorem parseValue_number {t : Str} {v : Json} (h : IsNumber t v) (fuel : Nat) (a r : Str) (ha : Spaces a) (hr : Ends r) :
    parseValue (fuel + 1) (a ++ (t ++ r)) = some (v, r) := by
  obtain ⟨h5, h6⟩ := span_numeric t r (number_numeric h) hr
  have h4 := (parseNumber_iff t v).mpr h
  obtain ⟨c, s, rfl, h2⟩ := number_head h
  have hne : ∀ d : Char, d.isDigit = false → d ≠ '-' → c ≠ d := by
    rintro d hd hd' rfl
    rcases h2 with h2 | h2
    · exact hd' h2
    · rw [hd] at h2; cases h2
  have hsp : isSpace c = false := by
    rcases h2 with rfl | h2
    · decide
    · exact notSpace_of_digit h2
  rw [parseValue, skip_spaces ha, List.cons_append, skip_of hsp]
  simp only
  rw [if_neg (hne _ (by decide) (by decide)), if_neg (hne _ (by decide) (by decide)),
    if_neg (hne _ (by decide) (by decide)), prefix_ne (hne _ (by decide) (by decide)),
    prefix_ne (hne _ (by decide) (by decide)), prefix_ne (hne _ (by decide) (by decide))]
  simp only [Bool.false_eq_true, if_false]
  rw [← List.cons_append, h5, h6, h4]
  rfl

mutual
theorem complete_value : ∀ {t : Str} {v : Json}, IsValue t v → ∀ (fuel : Nat) (a r : Str), t.length ≤ fuel → Spaces a →
    Ends r → parseValue fuel (a ++ (t ++ r)) = some (v, r)
  | _, _, .null => fun fuel a r hl ha hr => by
    obtain ⟨fuel, rfl⟩ : ∃ n, fuel = n + 1 := ⟨fuel - 1, by simp at hl; omega⟩
    rw [parseValue, skip_spaces ha]
    simp [skip, isSpace, List.isPrefixOf]
  | _, _, .true => fun fuel a r hl ha hr => by
    obtain ⟨fuel, rfl⟩ : ∃ n, fuel = n + 1 := ⟨fuel - 1, by simp at hl; omega⟩
    rw [parseValue, skip_spaces ha]
    simp [skip, isSpace, List.isPrefixOf]
  | _, _, .false => fun fuel a r hl ha hr => by
    obtain ⟨fuel, rfl⟩ : ∃ n, fuel = n + 1 := ⟨fuel - 1, by simp at hl; omega⟩
    rw [parseValue, skip_spaces ha]
    simp [skip, isSpace, List.isPrefixOf]
  | _, _, .number h => fun fuel a r hl ha hr => by
    obtain ⟨c, s, rfl, _⟩ := number_head h
    obtain ⟨fuel, rfl⟩ : ∃ n, fuel = n + 1 := ⟨fuel - 1, by simp at hl; omega⟩
    exact parseValue_number h fuel a r ha hr
  | _, _, @IsValue.string t s h => fun fuel a r hl ha hr => by
    obtain ⟨fuel, rfl⟩ : ∃ n, fuel = n + 1 := ⟨fuel - 1, by simp at hl; omega⟩
    rw [parseValue, skip_spaces ha, List.cons_append, skip_of (by decide)]
    simp only
    rw [if_pos trivial, List.append_assoc, List.cons_append, List.nil_append, parseStr_chars h]
    rfl
  | _, _, @IsValue.emptyArray b hb => fun fuel a r hl ha hr => by
    obtain ⟨fuel, rfl⟩ : ∃ n, fuel = n + 1 := ⟨fuel - 1, by simp at hl; omega⟩
    rw [parseValue, skip_spaces ha, List.cons_append, skip_of (by decide)]
    simp only
    rw [if_neg (by decide), if_pos trivial, List.append_assoc, skip_spaces hb, List.cons_append, List.nil_append,
      skip_of (by decide), List.head?_cons, if_pos rfl]
    rfl
  | _, _, @IsValue.array t vs h => fun fuel a r hl ha hr => by
    obtain ⟨fuel, rfl⟩ : ∃ n, fuel = n + 1 := ⟨fuel - 1, by simp at hl; omega⟩
    simp only [List.length_cons, List.length_append, List.length_nil] at hl
    obtain ⟨v, us, s, rfl, h1, h2, h3⟩ := complete_elements h fuel r (by omega)
    rw [parseValue, skip_spaces ha, List.cons_append, skip_of (by decide)]
    simp only
    rw [if_neg (by decide), if_pos trivial, List.append_assoc, List.cons_append, List.nil_append, if_neg h3, h1]
    simp only
    rw [h2]
    rfl
  | _, _, @IsValue.emptyObject b hb => fun fuel a r hl ha hr => by
    obtain ⟨fuel, rfl⟩ : ∃ n, fuel = n + 1 := ⟨fuel - 1, by simp at hl; omega⟩
    rw [parseValue, skip_spaces ha, List.cons_append, skip_of (by decide)]
    simp only
    rw [if_neg (by decide), if_neg (by decide), if_pos trivial, List.append_assoc, skip_spaces hb, List.cons_append,
      List.nil_append, skip_of (by decide), List.head?_cons, if_pos rfl]
    rfl
  | _, _, @IsValue.object t fs h => fun fuel a r hl ha hr => by
    obtain ⟨fuel, rfl⟩ : ∃ n, fuel = n + 1 := ⟨fuel - 1, by simp at hl; omega⟩
    simp only [List.length_cons, List.length_append, List.length_nil] at hl
    obtain ⟨h1, h2⟩ := complete_members h fuel r (by omega)
    rw [parseValue, skip_spaces ha, List.cons_append, skip_of (by decide)]
    simp only
    rw [if_neg (by decide), if_neg (by decide), if_pos trivial, List.append_assoc, List.cons_append, List.nil_append,
      if_neg h2, h1]
    rfl
theorem complete_elements : ∀ {t : Str} {vs : List Json}, IsElements t vs → ∀ (fuel : Nat) (r : Str), t.length + 1 ≤ fuel →
    ∃ v us s, vs = v :: us ∧ parseValue fuel (t ++ ']' :: r) = some (v, s) ∧ parseArr fuel s = some (us, r) ∧
      (skip (t ++ ']' :: r)).head? ≠ some ']'
  | _, _, @IsElements.one a t b v ha h hb => fun fuel r hl => by
    simp only [List.length_append] at hl
    obtain ⟨c, s, rfl, hc, hc', _⟩ := value_head h
    obtain ⟨fuel, rfl⟩ : ∃ n, fuel = n + 1 := ⟨fuel - 1, by omega⟩
    refine ⟨v, [], b ++ ']' :: r, rfl, ?_, ?_, ?_⟩
    · rw [List.append_assoc, List.append_assoc]
      exact complete_value h (fuel + 1) a _ (by omega) ha (ends_spaces hb (by decide) r)
    · rw [parseArr, skip_spaces hb, skip_of (by decide)]
      simp
    · rw [List.append_assoc, skip_spaces ha, List.append_assoc, List.cons_append, skip_of hc]
      simpa using hc'
  | _, _, @IsElements.more a t b ts v vs ha h hb ht => fun fuel r hl => by
    simp only [List.length_append, List.length_cons] at hl
    obtain ⟨c, s, rfl, hc, hc', _⟩ := value_head h
    obtain ⟨fuel, rfl⟩ : ∃ n, fuel = n + 1 := ⟨fuel - 1, by omega⟩
    obtain ⟨u, us, s', rfl, h1, h2, h3⟩ := complete_elements ht fuel r (by simp at hl; omega)
    refine ⟨v, u :: us, b ++ ',' :: (ts ++ ']' :: r), rfl, ?_, ?_, ?_⟩
    · have := complete_value h (fuel + 1) a (b ++ ',' :: (ts ++ ']' :: r)) (by omega) ha (ends_spaces hb (by decide) _)
      rw [← this]
      simp
    · rw [parseArr, skip_spaces hb, skip_of (by decide)]
      simp only
      rw [if_neg (by decide), if_pos trivial, h1]
      simp only
      rw [h2]
      rfl
    · rw [List.append_assoc, skip_spaces ha, List.append_assoc, List.cons_append, skip_of hc]
      simpa using hc'
theorem complete_members : ∀ {t : Str} {fs : List (Str × Json)}, IsMembers t fs → ∀ (fuel : Nat) (r : Str),
    t.length + 1 ≤ fuel → parseFields fuel (t ++ '}' :: r) = some (fs, r) ∧ (skip (t ++ '}' :: r)).head? ≠ some '}'
  | _, _, @IsMembers.one a k b c t d s v ha hk hb hc h hd => fun fuel r hl => by
    simp only [List.length_append, List.length_cons] at hl
    obtain ⟨fuel, rfl⟩ : ∃ n, fuel = n + 1 := ⟨fuel - 1, by omega⟩
    have hv := complete_value h fuel c (d ++ '}' :: r) (by omega) hc (ends_spaces hd (by decide) _)
    have he : a ++ '"' :: (k ++ '"' :: (b ++ ':' :: (c ++ (t ++ d)))) ++ '}' :: r =
      a ++ '"' :: (k ++ '"' :: (b ++ ':' :: (c ++ (t ++ (d ++ '}' :: r))))) := by simp
    rw [he]
    refine ⟨?_, ?_⟩
    · rw [parseFields, skip_spaces ha, skip_of (by decide)]
      simp only
      rw [if_pos trivial, parseStr_chars hk]
      simp only
      rw [skip_spaces hb, skip_of (by decide)]
      simp only
      rw [if_pos trivial, hv]
      simp only
      rw [skip_spaces hd, skip_of (by decide)]
      simp
    · rw [skip_spaces ha, skip_of (by decide)]
      simp
  | _, _, @IsMembers.more a k b c t d s ts v fs ha hk hb hc h hd ht => fun fuel r hl => by
    simp only [List.length_append, List.length_cons] at hl
    obtain ⟨fuel, rfl⟩ : ∃ n, fuel = n + 1 := ⟨fuel - 1, by omega⟩
    have hv := complete_value h fuel c (d ++ ',' :: (ts ++ '}' :: r)) (by omega) hc (ends_spaces hd (by decide) _)
    have hm := (complete_members ht fuel r (by omega)).1
    have he : a ++ '"' :: (k ++ '"' :: (b ++ ':' :: (c ++ (t ++ (d ++ ',' :: ts))))) ++ '}' :: r =
      a ++ '"' :: (k ++ '"' :: (b ++ ':' :: (c ++ (t ++ (d ++ ',' :: (ts ++ '}' :: r)))))) := by simp
    rw [he]
    refine ⟨?_, ?_⟩
    · rw [parseFields, skip_spaces ha, skip_of (by decide)]
      simp only
      rw [if_pos trivial, parseStr_chars hk]
      simp only
      rw [skip_spaces hb, skip_of (by decide)]
      simp only
      rw [if_pos trivial, hv]
      simp only
      rw [skip_spaces hd, skip_of (by decide)]
      simp only
      rw [if_neg (by decide), if_pos trivial, hm]
      rfl
    · rw [skip_spaces ha, skip_of (by decide)]
      simp
end

theorem cons_of_head {s : Str} {c : Char} (h : s.head? = some c) : s = c :: s.tail := by
  rcases s with _ | ⟨d, s⟩
  · cases h
  · simp only [List.head?_cons, Option.some.injEq] at h
    rw [h, List.tail_cons]

theorem prefix_split {t s : Str} (h : t.isPrefixOf s = true) : s = t ++ s.drop t.length := by
  obtain ⟨r, rfl⟩ := List.isPrefixOf_iff_prefix.mp h
  simp

theorem takeWhile_split (p : Char → Bool) (s : Str) : s = s.takeWhile p ++ s.dropWhile p :=
  (List.takeWhile_append_dropWhile).symm

theorem sound (fuel : Nat) :
    (∀ s v r, parseValue fuel s = some (v, r) → ∃ a t, s = a ++ (t ++ r) ∧ Spaces a ∧ IsValue t v) ∧
    (∀ s vs r, parseArr fuel s = some (vs, r) → ∃ a, Spaces a ∧
      ((s = a ++ ']' :: r ∧ vs = []) ∨ ∃ e, s = a ++ ',' :: (e ++ ']' :: r) ∧ IsElements e vs)) ∧
    (∀ s fs r, parseFields fuel s = some (fs, r) → ∃ m, s = m ++ '}' :: r ∧ IsMembers m fs) := by
  induction fuel with
  | zero =>
    refine ⟨?_, ?_, ?_⟩
    · intro s v r h; simp [parseValue] at h
    · intro s v r h; simp [parseArr] at h
    · intro s v r h; simp [parseFields] at h
  | succ fuel ih =>
    obtain ⟨ihv, iha, iho⟩ := ih
    have elements : ∀ {s v r us r'}, parseValue fuel s = some (v, r) → parseArr fuel r = some (us, r') →
        ∃ e, s = e ++ ']' :: r' ∧ IsElements e (v :: us) := by
      intro s v r us r' h1 h2
      obtain ⟨a, t, rfl, ha, ht⟩ := ihv _ _ _ h1
      obtain ⟨b, hb, ⟨rfl, rfl⟩ | ⟨e, rfl, he⟩⟩ := iha _ _ _ h2
      · exact ⟨_, by simp, .one ha ht hb⟩
      · exact ⟨_, by simp, .more ha ht hb he⟩
    refine ⟨?_, ?_, ?_⟩
    · intro s v r h
      obtain ⟨a, hs, ha⟩ := skip_split s
      rw [parseValue] at h
      rcases hk : skip s with _ | ⟨c, s'⟩
      · rw [hk] at h; cases h
      rw [hk] at h hs
      simp only at h
      refine ⟨a, ?_⟩
      suffices ∃ t, c :: s' = t ++ r ∧ IsValue t v by
        obtain ⟨t, ht, hv⟩ := this
        exact ⟨t, by rw [hs, ht], ha, hv⟩
      split at h
      · next hc =>
        subst hc
        rcases hp : parseStr .char s' with _ | ⟨x, r'⟩
        · rw [hp] at h; cases h
        · rw [hp] at h
          simp only [Option.map_some, Option.some.injEq, Prod.mk.injEq] at h
          obtain ⟨rfl, rfl⟩ := h
          obtain ⟨b, hb, hx⟩ := parseStr_sound _ _ _ _ _ .char hp
          rw [List.nil_append] at hb
          exact ⟨_, by rw [hb]; simp, .string hx⟩
      split at h
      · next hc =>
        subst hc
        split at h
        · next hh =>
          simp only [Option.some.injEq, Prod.mk.injEq] at h
          obtain ⟨rfl, rfl⟩ := h
          obtain ⟨b, hb, hbs⟩ := skip_split s'
          refine ⟨_, ?_, .emptyArray hbs⟩
          conv => lhs; rw [hb, cons_of_head hh]
          simp
        · rcases hp : parseValue fuel s' with _ | ⟨u, r'⟩
          · rw [hp] at h; cases h
          · rw [hp] at h
            simp only at h
            rcases hq : parseArr fuel r' with _ | ⟨us, r''⟩
            · rw [hq] at h; cases h
            · rw [hq] at h
              simp only [Option.map_some, Option.some.injEq, Prod.mk.injEq] at h
              obtain ⟨rfl, rfl⟩ := h
              obtain ⟨e, rfl, he⟩ := elements hp hq
              exact ⟨_, by simp, .array he⟩
      split at h
      · next hc =>
        subst hc
        split at h
        · next hh =>
          simp only [Option.some.injEq, Prod.mk.injEq] at h
          obtain ⟨rfl, rfl⟩ := h
          obtain ⟨b, hb, hbs⟩ := skip_split s'
          refine ⟨_, ?_, .emptyObject hbs⟩
          conv => lhs; rw [hb, cons_of_head hh]
          simp
        · rcases hp : parseFields fuel s' with _ | ⟨fs, r'⟩
          · rw [hp] at h; cases h
          · rw [hp] at h
            simp only [Option.map_some, Option.some.injEq, Prod.mk.injEq] at h
            obtain ⟨rfl, rfl⟩ := h
            obtain ⟨m, rfl, hm⟩ := iho _ _ _ hp
            exact ⟨_, by simp, .object hm⟩
      split at h
      · next hp =>
        simp only [Option.some.injEq, Prod.mk.injEq] at h
        obtain ⟨rfl, rfl⟩ := h
        exact ⟨_, prefix_split hp, .null⟩
      split at h
      · next hp =>
        simp only [Option.some.injEq, Prod.mk.injEq] at h
        obtain ⟨rfl, rfl⟩ := h
        exact ⟨_, prefix_split hp, .true⟩
      split at h
      · next hp =>
        simp only [Option.some.injEq, Prod.mk.injEq] at h
        obtain ⟨rfl, rfl⟩ := h
        exact ⟨_, prefix_split hp, .false⟩
      · rcases hp : parseNumber ((c :: s').takeWhile isNumeric) with _ | u
        · rw [hp] at h; cases h
        · rw [hp] at h
          simp only [Option.map_some, Option.some.injEq, Prod.mk.injEq] at h
          obtain ⟨rfl, rfl⟩ := h
          exact ⟨_, takeWhile_split isNumeric _, .number ((parseNumber_iff _ _).mp hp)⟩
    · intro s vs r h
      obtain ⟨a, hs, ha⟩ := skip_split s
      rw [parseArr] at h
      rcases hk : skip s with _ | ⟨c, s'⟩
      · rw [hk] at h; cases h
      rw [hk] at h hs
      simp only at h
      refine ⟨a, ha, ?_⟩
      split at h
      · next hc =>
        subst hc
        simp only [Option.some.injEq, Prod.mk.injEq] at h
        obtain ⟨rfl, rfl⟩ := h
        exact .inl ⟨hs, rfl⟩
      split at h
      · next hc =>
        subst hc
        rcases hp : parseValue fuel s' with _ | ⟨u, r'⟩
        · rw [hp] at h; cases h
        · rw [hp] at h
          simp only at h
          rcases hq : parseArr fuel r' with _ | ⟨us, r''⟩
          · rw [hq] at h; cases h
          · rw [hq] at h
            simp only [Option.map_some, Option.some.injEq, Prod.mk.injEq] at h
            obtain ⟨rfl, rfl⟩ := h
            obtain ⟨e, rfl, he⟩ := elements hp hq
            exact .inr ⟨e, hs, he⟩
      · cases h
    · intro s fs r h
      obtain ⟨a, hs, ha⟩ := skip_split s
      rw [parseFields] at h
      rcases hk : skip s with _ | ⟨c, s'⟩
      · rw [hk] at h; cases h
      rw [hk] at h hs
      simp only at h
      split at h
      rotate_left
      · cases h
      next hc =>
      subst hc
      rcases hp : parseStr .char s' with _ | ⟨x, r1⟩
      · rw [hp] at h; cases h
      rw [hp] at h
      simp only at h
      obtain ⟨k, hk', hx⟩ := parseStr_sound _ _ _ _ _ .char hp
      rw [List.nil_append] at hk'
      obtain ⟨b, hb, hbs⟩ := skip_split r1
      rcases hk1 : skip r1 with _ | ⟨c1, s1⟩
      · rw [hk1] at h; cases h
      rw [hk1] at h hb
      simp only at h
      split at h
      rotate_left
      · cases h
      next hc1 =>
      subst hc1
      rcases hv : parseValue fuel s1 with _ | ⟨v, r2⟩
      · rw [hv] at h; cases h
      rw [hv] at h
      simp only at h
      obtain ⟨c, t, hct, hcs, ht⟩ := ihv _ _ _ hv
      obtain ⟨d, hd, hds⟩ := skip_split r2
      rcases hk2 : skip r2 with _ | ⟨c2, s2⟩
      · rw [hk2] at h; cases h
      rw [hk2] at h hd
      simp only at h
      split at h
      · next hc2 =>
        subst hc2
        simp only [Option.some.injEq, Prod.mk.injEq] at h
        obtain ⟨rfl, rfl⟩ := h
        refine ⟨_, ?_, .one ha hx hbs hcs ht hds⟩
        rw [hs, hk', hb, hct, hd]
        simp
      split at h
      · next hc2 =>
        subst hc2
        rcases hm : parseFields fuel s2 with _ | ⟨fs', r3⟩
        · rw [hm] at h; cases h
        rw [hm] at h
        simp only [Option.map_some, Option.some.injEq, Prod.mk.injEq] at h
        obtain ⟨rfl, rfl⟩ := h
        obtain ⟨m, hm1, hm2⟩ := iho _ _ _ hm
        refine ⟨_, ?_, .more ha hx hbs hcs ht hds hm2⟩
        rw [hs, hk', hb, hct, hd, hm1]
        simp
      · cases h

/-- The reader accepts the grammar, and nothing else. -/
theorem parse_iff (s : Str) (v : Json) : parse s = some v ↔ IsJson s v := by
  constructor
  · intro h
    rw [parse] at h
    rcases hp : parseValue (s.length + 1) s with _ | ⟨u, r⟩
    · rw [hp] at h; cases h
    · rw [hp] at h
      simp only at h
      split at h
      · next hr =>
        simp only [Option.some.injEq] at h
        subst h
        obtain ⟨a, t, rfl, ha, ht⟩ := (sound _).1 _ _ _ hp
        obtain ⟨b, hb, hbs⟩ := skip_split r
        rw [hr, List.append_nil] at hb
        subst hb
        exact ⟨a, t, r, rfl, ha, ht, hbs⟩
      · cases h
  · rintro ⟨a, t, b, rfl, ha, ht, hb⟩
    have he : Ends b := by
      intro c hc
      rcases b with _ | ⟨d, b⟩
      · cases hc
      · simp only [List.head?_cons, Option.mem_def, Option.some.injEq] at hc
        subst hc
        rcases hb d (by simp) with rfl | rfl | rfl | rfl <;> decide
    have hs : skip b = [] := by
      have := skip_spaces hb []
      rw [List.append_nil] at this
      rw [this]; rfl
    rw [parse, complete_value ht _ a b (by simp only [List.length_append]; omega) ha he]
    simp [hs]

/-! ### Printing -/

theorem isHex_hexDigit : ∀ k < 16, IsHex (hexDigit k) k := by
  intro k hk
  left
  have : ∀ k < 16, (chars! "0123456789abcdef")[k]? = some (hexDigit k) := by decide
  exact this k hk

theorem isChar_print (c : Char) : IsChar (printChar c) c := by
  unfold printChar
  split
  · next h => subst h; exact .escape (by decide)
  split
  · next h => subst h; exact .escape (by decide)
  split
  · next h => subst h; exact .escape (by decide)
  split
  · next h => subst h; exact .escape (by decide)
  split
  · next h => subst h; exact .escape (by decide)
  split
  · next h => subst h; exact .escape (by decide)
  split
  · next h => subst h; exact .escape (by decide)
  split
  · next h =>
    refine .unicode ?_
    have h0 : IsHex '0' 0 := .inl rfl
    have := IsUnicode.intro h0 h0 (isHex_hexDigit (c.toNat / 16) (by omega)) (isHex_hexDigit (c.toNat % 16) (by omega))
    rw [show 4096 * 0 + 256 * 0 + 16 * (c.toNat / 16) + c.toNat % 16 = c.toNat by omega] at this
    exact this
  · next h1 h2 _ _ _ _ _ h3 => exact .plain h1 h2 (by omega)

theorem isChars_print (s : Str) : IsChars (s.flatMap printChar) s := by
  induction s with
  | nil => exact .nil
  | cons c s ih => rw [List.flatMap_cons]; exact .cons (isChar_print c) ih

theorem isNumber_print (n : Int) : IsNumber (printInt n) (.int n) := by
  rw [printInt]
  split
  · next h =>
    have := IsNumber.neg (n := n.natAbs) (by omega)
    rw [show -((n.natAbs : Nat) : Int) = n by omega] at this
    exact this
  · next h =>
    have := IsNumber.nat n.natAbs
    rw [show ((n.natAbs : Nat) : Int) = n by omega] at this
    exact this

theorem spaces_nil : Spaces [] := fun _ h => nomatch h

theorem isElements_print {v : Json} {vs : List Json} (hv : IsValue (print v) v) (hvs : ∀ u ∈ vs, IsValue (print u) u) :
    ∃ e, print v ++ printArr vs = e ++ [']'] ∧ IsElements e (v :: vs) := by
  induction vs generalizing v with
  | nil => exact ⟨_, by simp [printArr], .one spaces_nil hv spaces_nil⟩
  | cons u vs ih =>
    obtain ⟨e, h1, h2⟩ := ih (hvs u (by simp)) (fun w hw => hvs w (by simp [hw]))
    refine ⟨_, ?_, .more spaces_nil hv spaces_nil h2⟩
    simp [printArr, h1]

theorem isMembers_print {k : Str} {v : Json} {fs : List (Str × Json)} (hv : IsValue (print v) v)
    (hfs : ∀ f ∈ fs, IsValue (print f.2) f.2) :
    ∃ m, printStr k ++ (':' :: (print v ++ printObj fs)) = m ++ ['}'] ∧ IsMembers m ((k, v) :: fs) := by
  induction fs generalizing k v with
  | nil =>
    refine ⟨_, ?_, .one spaces_nil (isChars_print k) spaces_nil spaces_nil hv spaces_nil⟩
    simp [printObj, printStr]
  | cons f fs ih =>
    obtain ⟨k', v'⟩ := f
    obtain ⟨m, h1, h2⟩ := ih (k := k') (hfs (k', v') (by simp)) (fun w hw => hfs w (by simp [hw]))
    refine ⟨_, ?_, .more spaces_nil (isChars_print k) spaces_nil spaces_nil hv spaces_nil h2⟩
    simp only [printObj, List.nil_append, List.cons_append, List.append_assoc] at h1 ⊢
    rw [h1]
    simp [printStr]

theorem isValue_print {v : Json} (h : v.Integral) : IsValue (print v) v := by
  induction h with
  | null => rw [print]; exact .null
  | bool b => cases b <;> rw [print]; exact .false; exact .true
  | int n => rw [print]; exact .number (isNumber_print n)
  | str s => rw [print, printStr]; exact .string (isChars_print s)
  | @arr vs h ih =>
    rcases vs with _ | ⟨v, vs⟩
    · rw [print]; exact .emptyArray (a := []) spaces_nil
    · obtain ⟨e, h1, h2⟩ := isElements_print (vs := vs) (ih v (by simp)) (fun u hu => ih u (by simp [hu]))
      rw [print, h1]
      exact .array h2
  | @obj fs h ih =>
    rcases fs with _ | ⟨⟨k, v⟩, fs⟩
    · rw [print]; exact .emptyObject (a := []) spaces_nil
    · obtain ⟨m, h1, h2⟩ := isMembers_print (k := k) (fs := fs) (ih (k, v) (by simp)) (fun f hf => ih f (by simp [hf]))
      rw [print, h1]
      exact .object h2

/-- The printed text of a value without numbers other than integers is a text of the value. -/
theorem isJson_print (v : Json) (hv : v.Integral) : IsJson (print v) v :=
  ⟨[], print v, [], by simp, spaces_nil, isValue_print hv, spaces_nil⟩

/-- Printing a value without numbers other than integers and reading the text gives the value. -/
theorem parse_print (v : Json) (hv : v.Integral) : parse (print v) = some v := (parse_iff _ _).mpr (isJson_print v hv)

end JsonText

/-- A text is the text of at most one value. -/
theorem IsJson.unique {s : Str} {v w : Json} (h : IsJson s v) (h' : IsJson s w) : v = w := by
  rw [← JsonText.parse_iff] at h h'
  rw [h] at h'
  exact Option.some.inj h'

end Brack
