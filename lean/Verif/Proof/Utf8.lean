import Verif.Model.Utf8

/-
Helper lemmas on UTF-8.
-/

namespace Brack

theorem toNat_ofNat_lt {n : Nat} (h : n < 256) : (UInt8.ofNat n).toNat = n := by
  rw [UInt8.toNat_ofNat']
  exact Nat.mod_eq_of_lt h

theorem isCont_ofNat {n : Nat} (h : n < 64) : isCont (UInt8.ofNat (128 + n)) = true := by
  rw [isCont, toNat_ofNat_lt (by omega)]
  simp
  omega

theorem char_lt (c : Char) : c.toNat < 0x110000 := by
  have := c.valid
  simp only [UInt32.isValidChar, Nat.isValidChar] at this
  have h : c.toNat = c.val.toNat := rfl
  omega

theorem charAtLeast_self {c : Char} {least : Nat} (h : least ≤ c.toNat) :
    charAtLeast least c.toNat = some c := by
  have hv : c.toNat.isValidChar := c.valid
  rw [charAtLeast, if_pos ⟨h, hv⟩]
  simp

theorem utf8Head_char (c : Char) (rest : Bytes) : utf8Head (utf8Char c ++ rest) = some (c, rest) := by
  have hc := char_lt c
  unfold utf8Char
  extract_lets n
  have hn : n = c.toNat := rfl
  clear_value n
  split
  · next h =>
    simp only [List.cons_append, List.nil_append, utf8Head]
    rw [toNat_ofNat_lt (by omega), if_pos h, hn]
    simp
  · next h1 =>
    split
    · next h2 =>
      simp only [List.cons_append, List.nil_append, utf8Head]
      rw [toNat_ofNat_lt (by omega), if_neg (by omega), if_neg (by omega),
        if_pos (by omega), if_pos (by simp only [isCont_ofNat (Nat.mod_lt _ (show 64 > 0 by omega)), Bool.and_self]), toNat_ofNat_lt (by omega),
        show (0xC0 + n / 64 - 0xC0) * 64 + (0x80 + n % 64 - 0x80) = c.toNat by omega,
        charAtLeast_self (by omega)]
      rfl
    · next h2 =>
      split
      · next h3 =>
        simp only [List.cons_append, List.nil_append, utf8Head]
        rw [toNat_ofNat_lt (by omega),
          if_neg (by omega), if_neg (by omega), if_neg (by omega), if_pos (by omega),
          if_pos (by simp only [isCont_ofNat (Nat.mod_lt _ (show 64 > 0 by omega)), Bool.and_self]), toNat_ofNat_lt (by omega), toNat_ofNat_lt (by omega),
          show (0xE0 + n / 4096 - 0xE0) * 4096 + (0x80 + n / 64 % 64 - 0x80) * 64 +
            (0x80 + n % 64 - 0x80) = c.toNat by omega,
          charAtLeast_self (by omega)]
        rfl
      · next h3 =>
        simp only [List.cons_append, List.nil_append, utf8Head]
        rw [toNat_ofNat_lt (by omega),
          if_neg (by omega), if_neg (by omega), if_neg (by omega), if_neg (by omega), if_pos (by omega),
          if_pos (by simp only [isCont_ofNat (Nat.mod_lt _ (show 64 > 0 by omega)), Bool.and_self]), toNat_ofNat_lt (by omega), toNat_ofNat_lt (by omega),
          toNat_ofNat_lt (by omega),
          show (0xF0 + n / 262144 - 0xF0) * 262144 + (0x80 + n / 4096 % 64 - 0x80) * 4096 +
            (0x80 + n / 64 % 64 - 0x80) * 64 + (0x80 + n % 64 - 0x80) = c.toNat by omega,
          charAtLeast_self (by omega)]
        rfl

theorem utf8Char_ne_nil (c : Char) : ∃ b bs, utf8Char c = b :: bs := by
  unfold utf8Char
  extract_lets n
  split <;> first | exact ⟨_, _, rfl⟩ | skip
  split <;> first | exact ⟨_, _, rfl⟩ | skip
  split <;> exact ⟨_, _, rfl⟩

theorem utf8_length_ge (s : Str) : s.length ≤ (utf8 s).length := by
  induction s with
  | nil => simp
  | cons c s ih =>
    obtain ⟨b, bs, h⟩ := utf8Char_ne_nil c
    simp only [utf8, List.flatMap_cons, List.length_append, h, List.length_cons] at ih ⊢
    omega

theorem fromUtf8Loop_utf8 (s : Str) (fuel : Nat) (h : s.length ≤ fuel) :
    fromUtf8Loop fuel (utf8 s) = some s := by
  induction s generalizing fuel with
  | nil => cases fuel <;> rfl
  | cons c s ih =>
    cases fuel with
    | zero => simp at h
    | succ fuel =>
      simp only [List.length_cons] at h
      obtain ⟨b, bs, hb⟩ := utf8Char_ne_nil c
      have h1 := utf8Head_char c (utf8 s)
      rw [utf8, List.flatMap_cons, ← utf8]
      rw [hb, List.cons_append] at h1 ⊢
      rw [fromUtf8Loop, h1]
      simp only
      rw [ih fuel (by omega)]
      rfl

/-- Decoding an encoded string gives the string. -/
theorem fromUtf8_utf8 (s : Str) : fromUtf8 (utf8 s) = some s :=
  fromUtf8Loop_utf8 s _ (utf8_length_ge s)

theorem utf8_injective {s t : Str} (h : utf8 s = utf8 t) : s = t := by
  have := fromUtf8_utf8 s
  rw [h, fromUtf8_utf8] at this
  exact (Option.some.inj this).symm

theorem utf8_append (s t : Str) : utf8 (s ++ t) = utf8 s ++ utf8 t := by simp [utf8]

theorem ofNat_toNat_eq {b : UInt8} {n : Nat} (h : b.toNat = n) : UInt8.ofNat n = b := by
  rw [← h]; simp

theorem ofNat_toNat_char {n : Nat} (h : n.isValidChar) : (Char.ofNat n).toNat = n := by
  rw [Char.ofNat, dif_pos h]
  rfl

theorem charAtLeast_some {least n : Nat} {c : Char} (h : charAtLeast least n = some c) :
    c.toNat = n ∧ least ≤ n := by
  unfold charAtLeast at h
  split at h
  · next h1 =>
    injection h with h
    subst h
    refine ⟨?_, h1.1⟩
    exact ofNat_toNat_char h1.2
  · cases h

theorem isCont_iff {b : UInt8} : isCont b = true ↔ 0x80 ≤ b.toNat ∧ b.toNat < 0xC0 := by
  simp [isCont]

/-- The first character read is the first character encoded. -/
theorem utf8Head_some {bs : Bytes} {c : Char} {rest : Bytes} (h : utf8Head bs = some (c, rest)) :
    bs = utf8Char c ++ rest := by
  rcases bs with _ | ⟨b1, r1⟩
  · simp [utf8Head] at h
  unfold utf8Head at h
  simp only at h
  split at h
  · next h1 =>
    injection h with h
    injection h with h2 h3
    subst h2 h3
    have hv : b1.toNat.isValidChar := by left; omega
    have hn : (Char.ofNat b1.toNat).toNat = b1.toNat := by exact ofNat_toNat_char hv
    rw [utf8Char]
    simp only [hn]
    rw [if_pos h1, ofNat_toNat_eq rfl]
    rfl
  split at h
  · cases h
  split at h
  · split at h
    · next b2 r2 =>
      split at h
      · next h1 h2 h3 h4 =>
        rw [isCont_iff] at h4
        cases hc : charAtLeast 0x80 ((b1.toNat - 0xC0) * 64 + (b2.toNat - 0x80)) with
        | none => simp [hc] at h
        | some d =>
          rw [hc] at h
          simp only [Option.map_some, Option.some.injEq, Prod.mk.injEq] at h
          obtain ⟨rfl, rfl⟩ := h
          obtain ⟨hn, hl⟩ := charAtLeast_some hc
          rw [utf8Char]
          rw [if_neg (by omega), if_pos (by omega), ofNat_toNat_eq (b := b1) (by omega),
            ofNat_toNat_eq (b := b2) (by omega)]
          rfl
      · cases h
    · cases h
  split at h
  · split at h
    · next b2 b3 r3 =>
      split at h
      · next h1 h2 h3 h4 h5 =>
        rw [Bool.and_eq_true, isCont_iff, isCont_iff] at h5
        cases hc : charAtLeast 0x800
            ((b1.toNat - 0xE0) * 4096 + (b2.toNat - 0x80) * 64 + (b3.toNat - 0x80)) with
        | none => simp [hc] at h
        | some d =>
          rw [hc] at h
          simp only [Option.map_some, Option.some.injEq, Prod.mk.injEq] at h
          obtain ⟨rfl, rfl⟩ := h
          obtain ⟨hn, hl⟩ := charAtLeast_some hc
          rw [utf8Char]
          rw [if_neg (by omega), if_neg (by omega), if_pos (by omega), ofNat_toNat_eq (b := b1) (by omega),
            ofNat_toNat_eq (b := b2) (by omega), ofNat_toNat_eq (b := b3) (by omega)]
          rfl
      · cases h
    · cases h
  split at h
  · split at h
    · next b2 b3 b4 r4 =>
      split at h
      · next h1 h2 h3 h4 h5 h6 =>
        rw [Bool.and_eq_true, Bool.and_eq_true, isCont_iff, isCont_iff, isCont_iff] at h6
        cases hc : charAtLeast 0x10000 ((b1.toNat - 0xF0) * 262144 + (b2.toNat - 0x80) * 4096 +
            (b3.toNat - 0x80) * 64 + (b4.toNat - 0x80)) with
        | none => simp [hc] at h
        | some d =>
          rw [hc] at h
          simp only [Option.map_some, Option.some.injEq, Prod.mk.injEq] at h
          obtain ⟨rfl, rfl⟩ := h
          obtain ⟨hn, hl⟩ := charAtLeast_some hc
          rw [utf8Char]
          rw [if_neg (by omega), if_neg (by omega), if_neg (by omega), ofNat_toNat_eq (b := b1) (by omega),
            ofNat_toNat_eq (b := b2) (by omega), ofNat_toNat_eq (b := b3) (by omega),
            ofNat_toNat_eq (b := b4) (by omega)]
          rfl
      · cases h
    · cases h
  · cases h

theorem fromUtf8Loop_some {fuel : Nat} {bs : Bytes} {s : Str} (h : fromUtf8Loop fuel bs = some s) :
    bs = utf8 s := by
  induction fuel generalizing bs s with
  | zero =>
    cases bs with
    | nil => simp [fromUtf8Loop] at h; subst h; rfl
    | cons b bs => simp [fromUtf8Loop] at h
  | succ fuel ih =>
    cases bs with
    | nil => simp [fromUtf8Loop] at h; subst h; rfl
    | cons b bs =>
      rw [fromUtf8Loop] at h
      rcases hh : utf8Head (b :: bs) with _ | ⟨c, rest⟩
      · simp [hh] at h
      · rw [hh] at h
        simp only at h
        cases hr : fromUtf8Loop fuel rest with
        | none => simp [hr] at h
        | some t =>
          rw [hr] at h
          simp only [Option.map_some, Option.some.injEq] at h
          subst h
          rw [utf8Head_some hh, ih hr]
          simp [utf8]

/-- Only encoded strings can be decoded. -/
theorem fromUtf8_some {bs : Bytes} {s : Str} (h : fromUtf8 bs = some s) : bs = utf8 s := fromUtf8Loop_some h

/-- If an encoded string begins with an encoded string, then the string begins with that string. -/
theorem utf8_prefix {t s : Str} {x : Bytes} (h : utf8 t ++ x = utf8 s) : ∃ r, s = t ++ r ∧ x = utf8 r := by
  induction t generalizing s with
  | nil => exact ⟨s, rfl, by simpa [utf8] using h⟩
  | cons c t ih =>
    have h1 := utf8Head_char c (utf8 t ++ x)
    have h2 : utf8 (c :: t) ++ x = utf8Char c ++ (utf8 t ++ x) := by simp [utf8]
    rw [h2] at h
    rw [h] at h1
    cases s with
    | nil => simp [utf8, utf8Head] at h1
    | cons d s =>
      have h3 : utf8 (d :: s) = utf8Char d ++ utf8 s := by simp [utf8]
      rw [h3, utf8Head_char] at h1
      simp only [Option.some.injEq, Prod.mk.injEq] at h1
      obtain ⟨rfl, h4⟩ := h1
      obtain ⟨r, rfl, hr⟩ := ih h4.symm
      exact ⟨r, rfl, hr⟩

end Brack
