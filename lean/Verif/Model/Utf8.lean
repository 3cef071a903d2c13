import Verif.Model.Plugin

/-
UTF-8, the encoding of Rust strings and of the text files read by brack.
-/

namespace Brack

/-- The UTF-8 encoding of a character, as in `char::encode_utf8`. Library code, used in
crates/brack-language-server/src/server.rs L137 and wherever texts are read or written, e.g.
crates/brack-project-manager/src/project.rs L32, L143. -/
def utf8Char (c : Char) : Bytes :=
  let n := c.toNat
  if n < 0x80 then [.ofNat n]
  else if n < 0x800 then [.ofNat (0xC0 + n / 64), .ofNat (0x80 + n % 64)]
  else if n < 0x10000 then
    [.ofNat (0xE0 + n / 4096), .ofNat (0x80 + n / 64 % 64), .ofNat (0x80 + n % 64)]
  else
    [.ofNat (0xF0 + n / 262144), .ofNat (0x80 + n / 4096 % 64), .ofNat (0x80 + n / 64 % 64),
      .ofNat (0x80 + n % 64)]

/-- The bytes of a string, as in `str::as_bytes`. Library code, used in
crates/brack-language-server/src/server.rs L137 and wherever texts are read or written, e.g.
crates/brack-project-manager/src/project.rs L32, L143. -/
def utf8 (s : Str) : Bytes := s.flatMap utf8Char

/-- A continuation byte. Library code, used in crates/brack-language-server/src/server.rs L137 and wherever
texts are read or written, e.g. crates/brack-project-manager/src/project.rs L32, L143. -/
def isCont (b : UInt8) : Bool := 0x80 ≤ b.toNat && b.toNat < 0xC0

/-- The character with this code, if there is one and its encoding has the length belonging to codes from
`least` on. Library code, used in crates/brack-language-server/src/server.rs L137 and wherever texts are
read or written, e.g. crates/brack-project-manager/src/project.rs L32, L143. -/
def charAtLeast (least n : Nat) : Option Char :=
  if least ≤ n ∧ n.isValidChar then some (Char.ofNat n) else none

/-- The first character of a byte string, and the rest; overlong forms, surrogates, codes above 10FFFF,
stray or missing continuation bytes are rejected. Library code, used in
crates/brack-language-server/src/server.rs L137 and wherever texts are read or written, e.g.
crates/brack-project-manager/src/project.rs L32, L143. -/
def utf8Head : Bytes → Option (Char × Bytes)
  | [] => none
  | b1 :: r1 =>
    if b1.toNat < 0x80 then some (Char.ofNat b1.toNat, r1)
    else if b1.toNat < 0xC0 then none
    else if b1.toNat < 0xE0 then
      match r1 with
      | b2 :: r2 =>
        if isCont b2 then
          (charAtLeast 0x80 ((b1.toNat - 0xC0) * 64 + (b2.toNat - 0x80))).map (·, r2)
        else none
      | _ => none
    else if b1.toNat < 0xF0 then
      match r1 with
      | b2 :: b3 :: r3 =>
        if isCont b2 && isCont b3 then
          (charAtLeast 0x800
            ((b1.toNat - 0xE0) * 4096 + (b2.toNat - 0x80) * 64 + (b3.toNat - 0x80))).map (·, r3)
        else none
      | _ => none
    else if b1.toNat < 0xF8 then
      match r1 with
      | b2 :: b3 :: b4 :: r4 =>
        if isCont b2 && isCont b3 && isCont b4 then
          (charAtLeast 0x10000 ((b1.toNat - 0xF0) * 262144 + (b2.toNat - 0x80) * 4096 +
            (b3.toNat - 0x80) * 64 + (b4.toNat - 0x80))).map (·, r4)
        else none
      | _ => none
    else none

/-- `fromUtf8` for at most `fuel` characters. Library code, used in
crates/brack-language-server/src/server.rs L137 and wherever texts are read or written, e.g.
crates/brack-project-manager/src/project.rs L32, L143. -/
def fromUtf8Loop : (fuel : Nat) → Bytes → Option Str
  | _, [] => some []
  | 0, _ :: _ => none
  | fuel + 1, b :: bs =>
    match utf8Head (b :: bs) with
    | some (c, rest) => (fromUtf8Loop fuel rest).map (c :: ·)
    | none => none

/-- `String::from_utf8` and `std::fs::read_to_string`: the string with these bytes. Library code, used in
crates/brack-language-server/src/server.rs L137 and wherever texts are read or written, e.g.
crates/brack-project-manager/src/project.rs L32, L143. -/
def fromUtf8 (bs : Bytes) : Option Str := fromUtf8Loop bs.length bs

end Brack
