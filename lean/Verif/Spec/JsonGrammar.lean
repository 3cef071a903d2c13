import Verif.Model.Json

/-
The grammar of JSON texts (RFC 8259) and the values they stand for.
-/

namespace Brack

namespace JsonGrammar

/-- White space, possibly none. -/
def Spaces (s : Str) : Prop := ∀ c ∈ s, c = ' ' ∨ c = '\n' ∨ c = '\r' ∨ c = '\t'

/-- The characters written as a backslash and a letter. -/
def escapes : List (Char × Char) :=
  [('"', '"'), ('\\', '\\'), ('/', '/'), ('n', '\n'), ('r', '\r'), ('t', '\t'), ('b', Char.ofNat 8), ('f', Char.ofNat 12)]

/-- The hexadecimal digit with the value `n`. -/
def IsHex (c : Char) (n : Nat) : Prop :=
  (chars! "0123456789abcdef")[n]? = some c ∨ (chars! "0123456789ABCDEF")[n]? = some c

/-- `\uXXXX`, with the value of the four digits. -/
inductive IsUnicode : Str → Nat → Prop
  | intro {c₁ c₂ c₃ c₄ : Char} {n₁ n₂ n₃ n₄ : Nat} (h₁ : IsHex c₁ n₁) (h₂ : IsHex c₂ n₂) (h₃ : IsHex c₃ n₃)
      (h₄ : IsHex c₄ n₄) : IsUnicode ['\\', 'u', c₁, c₂, c₃, c₄] (4096 * n₁ + 256 * n₂ + 16 * n₃ + n₄)

/-- How a character may be written inside a string. -/
inductive IsChar : Str → Char → Prop
  | plain {c : Char} (h : c ≠ '"') (h' : c ≠ '\\') (hc : 32 ≤ c.toNat) : IsChar [c] c
  | escape {l c : Char} (h : (l, c) ∈ escapes) : IsChar ['\\', l] c
  | unicode {t : Str} {c : Char} (h : IsUnicode t c.toNat) : IsChar t c
  | pair {t t' : Str} {high low : Nat} {c : Char} (h : IsUnicode t high) (h' : IsUnicode t' low)
      (hh : 0xD800 ≤ high ∧ high < 0xDC00) (hl : 0xDC00 ≤ low ∧ low < 0xE000)
      (hc : c.toNat = 0x10000 + (high - 0xD800) * 0x400 + (low - 0xDC00)) : IsChar (t ++ t') c

/-- Some characters inside a string. -/
inductive IsChars : Str → Str → Prop
  | nil : IsChars [] []
  | cons {t ts : Str} {c : Char} {cs : Str} (h : IsChar t c) (ht : IsChars ts cs) : IsChars (t ++ ts) (c :: cs)

/-- One or more digits. -/
def Digits (s : Str) : Prop := s ≠ [] ∧ ∀ c ∈ s, c.isDigit = true

/-- The fraction of a number, if any. -/
inductive IsFraction : Str → Prop
  | none : IsFraction []
  | some {ds : Str} (h : Digits ds) : IsFraction ('.' :: ds)

/-- The exponent of a number, if any. -/
inductive IsExponent : Str → Prop
  | none : IsExponent []
  | some {e : Char} {sign ds : Str} (he : e = 'e' ∨ e = 'E') (hs : sign = [] ∨ sign = ['+'] ∨ sign = ['-'])
      (h : Digits ds) : IsExponent (e :: (sign ++ ds))

/-- Numbers. Those that are not written as an integer, and `-0`, are kept as their text. -/
inductive IsNumber : Str → Json → Prop
  | nat (n : Nat) : IsNumber (Nat.toDigits 10 n) (.int n)
  | neg {n : Nat} (h : n ≠ 0) : IsNumber ('-' :: Nat.toDigits 10 n) (.int (-n))
  | other {sign f e : Str} (n : Nat) (hs : sign = [] ∨ sign = ['-']) (hf : IsFraction f) (he : IsExponent e)
      (h : f ++ e ≠ [] ∨ (sign = ['-'] ∧ n = 0)) :
      IsNumber (sign ++ (Nat.toDigits 10 n ++ (f ++ e))) (.number (sign ++ (Nat.toDigits 10 n ++ (f ++ e))))

mutual
/-- The text of a value, without white space around it. -/
inductive IsValue : Str → Json → Prop
  | null : IsValue (chars! "null") .null
  | true : IsValue (chars! "true") (.bool Bool.true)
  | false : IsValue (chars! "false") (.bool Bool.false)
  | number {t : Str} {v : Json} (h : IsNumber t v) : IsValue t v
  | string {t s : Str} (h : IsChars t s) : IsValue ('"' :: (t ++ ['"'])) (.str s)
  | emptyArray {a : Str} (ha : Spaces a) : IsValue ('[' :: (a ++ [']'])) (.arr [])
  | array {t : Str} {vs : List Json} (h : IsElements t vs) : IsValue ('[' :: (t ++ [']'])) (.arr vs)
  | emptyObject {a : Str} (ha : Spaces a) : IsValue ('{' :: (a ++ ['}'])) (.obj [])
  | object {t : Str} {fs : List (Str × Json)} (h : IsMembers t fs) : IsValue ('{' :: (t ++ ['}'])) (.obj fs)
/-- The elements of an array. -/
inductive IsElements : Str → List Json → Prop
  | one {a t b : Str} {v : Json} (ha : Spaces a) (h : IsValue t v) (hb : Spaces b) : IsElements (a ++ (t ++ b)) [v]
  | more {a t b ts : Str} {v : Json} {vs : List Json} (ha : Spaces a) (h : IsValue t v) (hb : Spaces b)
      (ht : IsElements ts vs) : IsElements (a ++ (t ++ (b ++ ',' :: ts))) (v :: vs)
/-- The members of an object. -/
inductive IsMembers : Str → List (Str × Json) → Prop
  | one {a k b c t d s : Str} {v : Json} (ha : Spaces a) (hk : IsChars k s) (hb : Spaces b) (hc : Spaces c)
      (h : IsValue t v) (hd : Spaces d) :
      IsMembers (a ++ '"' :: (k ++ '"' :: (b ++ ':' :: (c ++ (t ++ d))))) [(s, v)]
  | more {a k b c t d s ts : Str} {v : Json} {fs : List (Str × Json)} (ha : Spaces a) (hk : IsChars k s)
      (hb : Spaces b) (hc : Spaces c) (h : IsValue t v) (hd : Spaces d) (ht : IsMembers ts fs) :
      IsMembers (a ++ '"' :: (k ++ '"' :: (b ++ ':' :: (c ++ (t ++ (d ++ ',' :: ts)))))) ((s, v) :: fs)
end

end JsonGrammar

/-- The JSON text of a value, with white space around it. -/
def IsJson (text : Str) (v : Json) : Prop :=
  ∃ a t b, text = a ++ (t ++ b) ∧ JsonGrammar.Spaces a ∧ JsonGrammar.IsValue t v ∧ JsonGrammar.Spaces b

end Brack
