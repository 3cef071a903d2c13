import Verif.Model.Server

/-
The text of JSON values, as printed and read by the crate serde_json: `serde_json::to_string` prints
compactly, with the escapes below. Theorems about the language server do not depend on these definitions,
but on parameters `parse` and `print`; there they show that what is assumed can be met.
-/

namespace Brack

namespace JsonText

/-- A hexadecimal digit. Library code (serde_json), used in crates/brack-language-server/src/server.rs L18,
L44, L165 and, through extism, in crates/brack-plugin/src/plugins.rs L102-138. -/
def hexDigit (n : Nat) : Char := (chars! "0123456789abcdef").getD n '0'

/-- A character inside a string. Library code (serde_json), used in
crates/brack-language-server/src/server.rs L18, L44, L165 and, through extism, in
crates/brack-plugin/src/plugins.rs L102-138. -/
def printChar (c : Char) : Str :=
  if c = '"' then ['\\', '"']
  else if c = '\\' then ['\\', '\\']
  else if c = '\n' then ['\\', 'n']
  else if c = '\r' then ['\\', 'r']
  else if c = '\t' then ['\\', 't']
  else if c = Char.ofNat 8 then ['\\', 'b']
  else if c = Char.ofNat 12 then ['\\', 'f']
  else if c.toNat < 32 then chars! "\\u00" ++ [hexDigit (c.toNat / 16), hexDigit (c.toNat % 16)]
  else [c]

/-- A string. Library code (serde_json), used in crates/brack-language-server/src/server.rs L18, L44, L165
and, through extism, in crates/brack-plugin/src/plugins.rs L102-138. -/
def printStr (s : Str) : Str := '"' :: (s.flatMap printChar ++ ['"'])

/-- An integer. Library code (serde_json), used in crates/brack-language-server/src/server.rs L18, L44, L165
and, through extism, in crates/brack-plugin/src/plugins.rs L102-138. -/
def printInt (n : Int) : Str := if n < 0 then '-' :: decimal n.natAbs else decimal n.natAbs

mutual
/-- A value. Library code (serde_json), used in crates/brack-language-server/src/server.rs L18, L44, L165
and, through extism, in crates/brack-plugin/src/plugins.rs L102-138. -/
def print : Json → Str
  | .null => chars! "null"
  | .bool true => chars! "true"
  | .bool false => chars! "false"
  | .int n => printInt n
  | .number t => t
  | .str s => printStr s
  | .arr [] => chars! "[]"
  | .arr (v :: vs) => '[' :: (print v ++ printArr vs)
  | .obj [] => chars! "{}"
  | .obj ((k, v) :: fs) => '{' :: (printStr k ++ (':' :: (print v ++ printObj fs)))
/-- The rest of an array. Library code (serde_json), used in crates/brack-language-server/src/server.rs L18,
L44, L165 and, through extism, in crates/brack-plugin/src/plugins.rs L102-138. -/
def printArr : List Json → Str
  | [] => [']']
  | v :: vs => ',' :: (print v ++ printArr vs)
/-- The rest of an object. Library code (serde_json), used in crates/brack-language-server/src/server.rs
L18, L44, L165 and, through extism, in crates/brack-plugin/src/plugins.rs L102-138. -/
def printObj : List (Str × Json) → Str
  | [] => ['}']
  | (k, v) :: fs => ',' :: (printStr k ++ (':' :: (print v ++ printObj fs)))
end

/-- White space. Library code (serde_json), used in crates/brack-language-server/src/server.rs L18, L44,
L165 and, through extism, in crates/brack-plugin/src/plugins.rs L102-138. -/
def isSpace (c : Char) : Bool := c = ' ' || c = '\n' || c = '\r' || c = '\t'

/-- The text after white space. Library code (serde_json), used in
crates/brack-language-server/src/server.rs L18, L44, L165 and, through extism, in
crates/brack-plugin/src/plugins.rs L102-138. -/
def skip (s : Str) : Str := s.dropWhile isSpace

/-- The value of a hexadecimal digit. Library code (serde_json), used in
crates/brack-language-server/src/server.rs L18, L44, L165 and, through extism, in
crates/brack-plugin/src/plugins.rs L102-138. -/
def hexValue (c : Char) : Option Nat :=
  if '0' ≤ c ∧ c ≤ '9' then some (c.toNat - 48)
  else if 'a' ≤ c ∧ c ≤ 'f' then some (c.toNat - 87)
  else if 'A' ≤ c ∧ c ≤ 'F' then some (c.toNat - 55)
  else none

/-- The character with a code, if there is one. Library code (serde_json), used in
crates/brack-language-server/src/server.rs L18, L44, L165 and, through extism, in
crates/brack-plugin/src/plugins.rs L102-138. -/
def charOf (n : Nat) : Option Char := if n.isValidChar then some (Char.ofNat n) else none

/-- The first of two surrogates. Library code (serde_json), used in
crates/brack-language-server/src/server.rs L18, L44, L165 and, through extism, in
crates/brack-plugin/src/plugins.rs L102-138. -/
def isHigh (n : Nat) : Bool := 0xD800 ≤ n && n < 0xDC00

/-- The second of two surrogates. Library code (serde_json), used in
crates/brack-language-server/src/server.rs L18, L44, L165 and, through extism, in
crates/brack-plugin/src/plugins.rs L102-138. -/
def isLow (n : Nat) : Bool := 0xDC00 ≤ n && n < 0xE000

/-- The character with two surrogates as its code. Library code (serde_json), used in
crates/brack-language-server/src/server.rs L18, L44, L165 and, through extism, in
crates/brack-plugin/src/plugins.rs L102-138. -/
def pairOf (high low : Nat) : Option Char := charOf (0x10000 + (high - 0xD800) * 0x400 + (low - 0xDC00))

/-- What is expected next inside a string: a character; the character after a backslash; the backslash or
the `u` of the surrogate after the surrogate `high`; or a hexadecimal digit with `left` digits after it, the
digits before having the value `value`, with the surrogate before it. Library code (serde_json), used in
crates/brack-language-server/src/server.rs L18, L44, L165 and, through extism, in
crates/brack-plugin/src/plugins.rs L102-138. -/
inductive Expected where
  | char
  | escape
  | backslash (high : Nat)
  | letter (high : Nat)
  | hex (high : Option Nat) (left value : Nat)

/-- The character written as a backslash and a letter. Library code (serde_json), used in
crates/brack-language-server/src/server.rs L18, L44, L165 and, through extism, in
crates/brack-plugin/src/plugins.rs L102-138. -/
def unescape (c : Char) : Option Char :=
  if c = '"' ∨ c = '\\' ∨ c = '/' then some c
  else if c = 'n' then some '\n'
  else if c = 'r' then some '\r'
  else if c = 't' then some '\t'
  else if c = 'b' then some (Char.ofNat 8)
  else if c = 'f' then some (Char.ofNat 12)
  else none

/-- Add a character in front of the string read. Library code (serde_json), used in
crates/brack-language-server/src/server.rs L18, L44, L165 and, through extism, in
crates/brack-plugin/src/plugins.rs L102-138. -/
def push (c : Char) (x : Option (Str × Str)) : Option (Str × Str) := x.map (fun p => (c :: p.1, p.2))

/-- Add a character, if there is one. Library code (serde_json), used in
crates/brack-language-server/src/server.rs L18, L44, L165 and, through extism, in
crates/brack-plugin/src/plugins.rs L102-138. -/
def pushSome (c : Option Char) (x : Option (Str × Str)) : Option (Str × Str) := c.bind (fun c => push c x)

/-- The rest of a string after the opening quote, and the text after it: `parse_str_bytes`, `parse_escape`
and `parse_unicode_escape` in src/read.rs of serde_json. Library code (serde_json), used in
crates/brack-language-server/src/server.rs L18, L44, L165 and, through extism, in
crates/brack-plugin/src/plugins.rs L102-138. -/
def parseStr : Expected → Str → Option (Str × Str)
  | _, [] => none
  | .char, c :: s =>
    if c = '"' then some ([], s)
    else if c = '\\' then parseStr .escape s
    else if c.toNat < 32 then none
    else push c (parseStr .char s)
  | .escape, c :: s =>
    if c = 'u' then parseStr (.hex none 3 0) s
    else pushSome (unescape c) (parseStr .char s)
  | .backslash high, c :: s => if c = '\\' then parseStr (.letter high) s else none
  | .letter high, c :: s => if c = 'u' then parseStr (.hex (some high) 3 0) s else none
  | .hex high left value, c :: s =>
    match hexValue c with
    | none => none
    | some d =>
      match left with
      | left + 1 => parseStr (.hex high left (16 * value + d)) s
      | 0 =>
        match high with
        | none =>
          if isHigh (16 * value + d) then parseStr (.backslash (16 * value + d)) s
          else pushSome (charOf (16 * value + d)) (parseStr .char s)
        | some high =>
          if isLow (16 * value + d) then pushSome (pairOf high (16 * value + d)) (parseStr .char s) else none

/-- The characters of numbers. Library code (serde_json), used in crates/brack-language-server/src/server.rs
L18, L44, L165 and, through extism, in crates/brack-plugin/src/plugins.rs L102-138. -/
def isNumeric (c : Char) : Bool :=
  c.isDigit || c = '-' || c = '+' || c = '.' || c = 'e' || c = 'E'

/-- One or more digits. Library code (serde_json), used in crates/brack-language-server/src/server.rs L18,
L44, L165 and, through extism, in crates/brack-plugin/src/plugins.rs L102-138. -/
def isDigits (s : Str) : Bool := !s.isEmpty && s.all Char.isDigit

/-- Digits without a zero in front of them. Library code (serde_json), used in
crates/brack-language-server/src/server.rs L18, L44, L165 and, through extism, in
crates/brack-plugin/src/plugins.rs L102-138. -/
def isNatural (s : Str) : Bool := isDigits s && (s.length = 1 || s.head? ≠ some '0')

/-- An exponent, or nothing. Library code (serde_json), used in crates/brack-language-server/src/server.rs
L18, L44, L165 and, through extism, in crates/brack-plugin/src/plugins.rs L102-138. -/
def isExponent : Str → Bool
  | [] => true
  | e :: s =>
    (e = 'e' || e = 'E') &&
      match s with
      | [] => false
      | c :: t => if c = '+' ∨ c = '-' then isDigits t else isDigits (c :: t)

/-- A fraction and an exponent; both may be missing. Library code (serde_json), used in
crates/brack-language-server/src/server.rs L18, L44, L165 and, through extism, in
crates/brack-plugin/src/plugins.rs L102-138. -/
def isFraction : Str → Bool
  | [] => true
  | c :: s =>
    if c = '.' then isDigits (s.takeWhile Char.isDigit) && isExponent (s.dropWhile Char.isDigit)
    else isExponent (c :: s)

/-- A number without a sign. Library code (serde_json), used in crates/brack-language-server/src/server.rs
L18, L44, L165 and, through extism, in crates/brack-plugin/src/plugins.rs L102-138. -/
def isUnsigned (s : Str) : Bool := isNatural (s.takeWhile Char.isDigit) && isFraction (s.dropWhile Char.isDigit)

/-- The value of a number without a sign, with the text `t` including the sign. Library code (serde_json),
used in crates/brack-language-server/src/server.rs L18, L44, L165 and, through extism, in
crates/brack-plugin/src/plugins.rs L102-138. -/
def signed (negative : Bool) (t ds : Str) : Option Json :=
  if isUnsigned ds then
    match digitsValue 0 ds with
    | some n => if negative then (if n = 0 then some (.number t) else some (.int (-(n : Int)))) else some (.int n)
    | none => some (.number t)
  else none

/-- The value of a number: `parse_any_number` in src/de.rs of serde_json, where `-0` is no integer.
Simplified: integers are unbounded; numbers with a fraction or exponent that are too large are accepted.
Library code (serde_json), used in crates/brack-language-server/src/server.rs L18, L44, L165 and, through
extism, in crates/brack-plugin/src/plugins.rs L102-138. -/
def parseNumber (t : Str) : Option Json :=
  match t with
  | [] => none
  | c :: ds => if c = '-' then signed true t ds else signed false t t

mutual
/-- A value, and the text after it. Library code (serde_json), used in
crates/brack-language-server/src/server.rs L18, L44, L165 and, through extism, in
crates/brack-plugin/src/plugins.rs L102-138. -/
def parseValue : (fuel : Nat) → Str → Option (Json × Str)
  | 0, _ => none
  | fuel + 1, s =>
    match skip s with
    | [] => none
    | c :: r =>
      if c = '"' then (parseStr .char r).map (fun p => (.str p.1, p.2))
      else if c = '[' then
        if (skip r).head? = some ']' then some (.arr [], (skip r).tail)
        else
          match parseValue fuel r with
          | none => none
          | some (v, r) => (parseArr fuel r).map (fun p => (.arr (v :: p.1), p.2))
      else if c = '{' then
        if (skip r).head? = some '}' then some (.obj [], (skip r).tail)
        else (parseFields fuel r).map (fun p => (.obj p.1, p.2))
      else if (chars! "null").isPrefixOf (c :: r) then some (.null, r.drop 3)
      else if (chars! "true").isPrefixOf (c :: r) then some (.bool true, r.drop 3)
      else if (chars! "false").isPrefixOf (c :: r) then some (.bool false, r.drop 4)
      else (parseNumber ((c :: r).takeWhile isNumeric)).map (fun v => (v, (c :: r).dropWhile isNumeric))
/-- The rest of an array. Library code (serde_json), used in crates/brack-language-server/src/server.rs L18,
L44, L165 and, through extism, in crates/brack-plugin/src/plugins.rs L102-138. -/
def parseArr : (fuel : Nat) → Str → Option (List Json × Str)
  | 0, _ => none
  | fuel + 1, s =>
    match skip s with
    | [] => none
    | c :: r =>
      if c = ']' then some ([], r)
      else if c = ',' then
        match parseValue fuel r with
        | none => none
        | some (v, r) => (parseArr fuel r).map (fun p => (v :: p.1, p.2))
      else none
/-- The fields of an object, after the brace or a comma. Library code (serde_json), used in
crates/brack-language-server/src/server.rs L18, L44, L165 and, through extism, in
crates/brack-plugin/src/plugins.rs L102-138. -/
def parseFields : (fuel : Nat) → Str → Option (List (Str × Json) × Str)
  | 0, _ => none
  | fuel + 1, s =>
    match skip s with
    | [] => none
    | c :: r =>
      if c = '"' then
        match parseStr .char r with
        | none => none
        | some (k, r) =>
          match skip r with
          | [] => none
          | c :: r =>
            if c = ':' then
              match parseValue fuel r with
              | none => none
              | some (v, r) =>
                match skip r with
                | [] => none
                | c :: r =>
                  if c = '}' then some ([(k, v)], r)
                  else if c = ',' then (parseFields fuel r).map (fun p => ((k, v) :: p.1, p.2))
                  else none
            else none
      else none
end

/-- A text: `serde_json::from_str`. Library code (serde_json), used in
crates/brack-language-server/src/server.rs L18, L44, L165 and, through extism, in
crates/brack-plugin/src/plugins.rs L102-138. -/
def parse (s : Str) : Option Json :=
  match parseValue (s.length + 1) s with
  | some (v, r) => if skip r = [] then some v else none
  | none => none

end JsonText

end Brack
