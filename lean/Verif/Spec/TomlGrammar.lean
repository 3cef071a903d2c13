import Verif.Model.Config

/-
A part of the grammar of TOML (version 1.0.0): tables with bare keys whose values are basic strings, booleans
and arrays of basic strings, each on its own line. Escape sequences with code points, comments, other kinds of
values and other ways to write the same are left out.
-/

namespace Brack

namespace TomlGrammar

/-- The escape sequences of basic strings, other than those with code points. -/
def escapes : List (Char × Char) :=
  [('b', Char.ofNat 8), ('t', '\t'), ('n', '\n'), ('f', Char.ofNat 12), ('r', '\r'), ('"', '"'), ('\\', '\\')]

/-- A character that stands for itself in a basic string. -/
def Unescaped (c : Char) : Prop := c = '\t' ∨ (32 ≤ c.toNat ∧ c.toNat ≠ 127 ∧ c ≠ '"' ∧ c ≠ '\\')

instance (c : Char) : Decidable (Unescaped c) := inferInstanceAs (Decidable (_ ∨ _))

/-- The inside of a basic string and the text it stands for. -/
inductive IsChars : Str → Str → Prop where
  | nil : IsChars [] []
  | plain {c : Char} {s t : Str} (hc : Unescaped c) (h : IsChars s t) : IsChars (c :: s) (c :: t)
  | escape {e c : Char} {s t : Str} (he : (e, c) ∈ escapes) (h : IsChars s t) : IsChars ('\\' :: e :: s) (c :: t)

/-- The elements of an array of strings. -/
inductive IsElements : Str → List TVal → Prop where
  | one {s t : Str} (h : IsChars s t) : IsElements (chars! "\"" ++ s ++ chars! "\"") [.str t]
  | more {s t r : Str} {vs : List TVal} (h : IsChars s t) (hr : IsElements r vs) :
      IsElements (chars! "\"" ++ s ++ chars! "\", " ++ r) (.str t :: vs)

/-- A value. -/
inductive IsValue : Str → TVal → Prop where
  | str {s t : Str} (h : IsChars s t) : IsValue (chars! "\"" ++ s ++ chars! "\"") (.str t)
  | yes : IsValue (chars! "true") (.bool true)
  | no : IsValue (chars! "false") (.bool false)
  | empty : IsValue (chars! "[]") (.array [])
  | array {s : Str} {vs : List TVal} (h : IsElements s vs) : IsValue (chars! "[" ++ s ++ chars! "]") (.array vs)

/-- A character of a bare key. -/
def KeyChar (c : Char) : Prop :=
  ('a' ≤ c ∧ c ≤ 'z') ∨ ('A' ≤ c ∧ c ≤ 'Z') ∨ ('0' ≤ c ∧ c ≤ '9') ∨ c = '_' ∨ c = '-'

instance (c : Char) : Decidable (KeyChar c) := inferInstanceAs (Decidable (_ ∨ _))

/-- A bare key. -/
def IsKey (k : Str) : Prop := k ≠ [] ∧ ∀ c ∈ k, KeyChar c

/-- The lines of a table. -/
inductive IsLines : Str → List (Str × TVal) → Prop where
  | nil : IsLines [] []
  | blank {s : Str} {kvs : List (Str × TVal)} (h : IsLines s kvs) : IsLines ('\n' :: s) kvs
  | field {k s r : Str} {v : TVal} {kvs : List (Str × TVal)} (hk : IsKey k) (hv : IsValue s v) (h : IsLines r kvs) :
      IsLines (k ++ chars! " = " ++ s ++ chars! "\n" ++ r) ((k, v) :: kvs)

/-- The tables of a document. -/
inductive IsTables : Str → List (Str × TVal) → Prop where
  | nil : IsTables [] []
  | table {k s r : Str} {kvs ts : List (Str × TVal)} (hk : IsKey k) (hs : IsLines s kvs) (hn : (kvs.map (·.1)).Nodup)
      (h : IsTables r ts) : IsTables (chars! "[" ++ k ++ chars! "]\n" ++ s ++ r) ((k, .table kvs) :: ts)

end TomlGrammar

/-- The text is a TOML document of the part described with this value. -/
def IsToml (text : Str) (v : TVal) : Prop :=
  ∃ ts, TomlGrammar.IsTables text ts ∧ (ts.map (·.1)).Nodup ∧ v = .table ts

/-- The parser reads the TOML documents of this part as TOML prescribes. -/
def Toml.Conforms (T : Toml) : Prop := ∀ text v, IsToml text v → T.parse text = some v

end Brack
