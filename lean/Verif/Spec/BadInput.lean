import Verif.Spec.Stops

/-
Vocabulary for input that is not as the base protocol demands.
-/

namespace Brack

/-- The header of the text is what comes before the first empty line (CR LF CR LF), the rest is what comes after it. -/
def HeaderOf (text header rest : Str) : Prop :=
  text = header ++ chars! "\r\n\r\n" ++ rest ∧ ¬ chars! "\r\n\r\n" <:+: header ++ chars! "\r\n\r"

/-- The lines of the header: it consists of them, with CR LF between them, and they contain no CR LF. -/
def LinesOf (header : Str) (lines : List Str) : Prop :=
  lines ≠ [] ∧ header = (chars! "\r\n").intercalate lines ∧ ∀ l ∈ lines, ¬ chars! "\r\n" <:+: l

/-- The line has this name and this value: a colon and a blank come first after the name, and the value ends before the
next colon and blank. -/
def FieldOf (line name value : Str) : Prop :=
  ∃ more, line = name ++ chars! ": " ++ value ++ more ∧ ¬ chars! ": " <:+: name ∧ ¬ chars! ": " <:+: value ∧
    (more = [] ∨ chars! ": " <+: more)

/-- The text is a number of 32 bits, with or without a sign. -/
def IsI32 (text : Str) (n : Int) : Prop :=
  ∃ digits, digits ≠ [] ∧ (∀ c ∈ digits, '0' ≤ c ∧ c ≤ '9') ∧ (-2 ^ 31 ≤ n ∧ n < 2 ^ 31) ∧
    let value : Nat := digits.foldl (fun m c => 10 * m + (c.toNat - 48)) 0
    ((text = digits ∨ text = '+' :: digits) ∧ n = value) ∨ (text = '-' :: digits ∧ n = -(value : Int))

/-- The line has a name and a value, and if it is the length, it is a number. -/
def SoundLine (line : Str) : Prop :=
  ∃ name value, FieldOf line name value ∧ (name = chars! "Content-Length" → ∃ n, IsI32 value n)

/-- The length announced by the lines: that of the last line with a length. -/
def LengthOf (lines : List Str) (n : Int) : Prop :=
  ∃ before line after value, lines = before ++ line :: after ∧ FieldOf line (chars! "Content-Length") value ∧ IsI32 value n ∧
    ∀ l ∈ after, ∀ value', ¬ FieldOf l (chars! "Content-Length") value'

/-- Bytes that make the server crash. -/
inductive Upsetting (bytes : Bytes) : Prop where
  /-- a line of the header without a colon and a blank, with no wrong length before it -/
  | line {text header rest line : Str} {before after : List Str} : bytes = utf8 text → HeaderOf text header rest →
      LinesOf header (before ++ line :: after) → (∀ l ∈ before, SoundLine l) → ¬ chars! ": " <:+: line → Upsetting bytes
  /-- a negative length, but not -1 and not such that even with the header added it is negative -/
  | negative {text header rest : Str} {lines : List Str} {n : Int} : bytes = utf8 text → HeaderOf text header rest →
      LinesOf header lines → (∀ l ∈ lines, SoundLine l) → LengthOf lines n → n < -1 →
      0 ≤ ((utf8 header).length : Int) + 4 + n → Upsetting bytes
  /-- a length that ends inside a character -/
  | inside {text header rest : Str} {lines : List Str} {n : Nat} : bytes = utf8 text → HeaderOf text header rest →
      LinesOf header lines → (∀ l ∈ lines, SoundLine l) → LengthOf lines n → n ≤ (utf8 rest).length →
      (∀ a b, rest = a ++ b → (utf8 a).length ≠ n) → Upsetting bytes

/-- Bytes after which the server stops with an error. -/
inductive Refused (P : Protocol) (bytes : Bytes) : Prop where
  /-- no text -/
  | encoding : (∀ text, bytes ≠ utf8 text) → Refused P bytes
  /-- a length that is no number, all lines before it being sound -/
  | length {text header rest line value : Str} {before after : List Str} : bytes = utf8 text → HeaderOf text header rest →
      LinesOf header (before ++ line :: after) → (∀ l ∈ before, SoundLine l) →
      FieldOf line (chars! "Content-Length") value → (∀ n, ¬ IsI32 value n) → Refused P bytes
  /-- a content that is no JSON -/
  | content {text header content more : Str} {lines : List Str} : bytes = utf8 text →
      HeaderOf text header (content ++ more) → LinesOf header lines → (∀ l ∈ lines, SoundLine l) →
      LengthOf lines (utf8 content).length → P.parse content = none → Refused P bytes

/-- The bytes begin with a message, `rest` is what follows it. -/
def Begins (P : Protocol) (bytes : Bytes) (msg : Json) (rest : Bytes) : Prop :=
  ∃ header content more lines, bytes = utf8 (header ++ chars! "\r\n\r\n" ++ content ++ more) ∧
    HeaderOf (header ++ chars! "\r\n\r\n" ++ content ++ more) header (content ++ more) ∧ LinesOf header lines ∧
    (∀ l ∈ lines, SoundLine l) ∧ LengthOf lines (utf8 content).length ∧ P.parse content = some msg ∧ rest = utf8 more

/-- Bytes after which the server waits for ever: the header is complete but announces no length, or -1, or a length that
even with the header added is negative. -/
def Deafening (bytes : Bytes) : Prop :=
  ∃ text header rest lines, bytes = utf8 text ∧ HeaderOf text header rest ∧ LinesOf header lines ∧ (∀ l ∈ lines, SoundLine l) ∧
    ((∀ n, ¬ LengthOf lines n) ∨ LengthOf lines (-1) ∨
      ∃ n, LengthOf lines n ∧ ((utf8 header).length : Int) + 4 + n < 0)

end Brack
