import Verif.Model.Segment

/-
Extended grapheme cluster segmentation following UAX #29 (rules GB1–GB999), parametric in the
Unicode property tables. The external crate unicode-segmentation implements these rules; the
property tables themselves are not reproduced, only the facts about ASCII needed by the model.
-/

namespace Brack

/-- Grapheme_Cluster_Break property values (UAX #29, table 2). Library code (unicode-segmentation), used in
crates/brack-tokenizer/src/utils.rs L4-9. -/
inductive GCB where
  | cr | lf | control | extend | zwj | regional | prepend | spacing | l | v | t | lv | lvt | other
  deriving DecidableEq, Repr

/-- Indic_Conjunct_Break property values (UAX #44). Library code (unicode-segmentation), used in
crates/brack-tokenizer/src/utils.rs L4-9. -/
inductive InCB where
  | none | consonant | extend | linker
  deriving DecidableEq, Repr

/-- The Unicode tables used by the rules, with the facts about ASCII characters. Library code
(unicode-segmentation), used in crates/brack-tokenizer/src/utils.rs L4-9. -/
structure UTable where
  gcb : Char → GCB
  pict : Char → Bool
  incb : Char → InCB
  cr : ∀ c, gcb c = .cr ↔ c = '\r'
  lf : ∀ c, gcb c = .lf ↔ c = '\n'
  nul : gcb (Char.ofNat 0) = .control
  ascii : ∀ c : Char, c.toNat < 128 → c ≠ '\r' → c ≠ '\n' → gcb c = .other ∨ gcb c = .control
  asciiPict : ∀ c : Char, c.toNat < 128 → pict c = false
  asciiIncb : ∀ c : Char, c.toNat < 128 → incb c = .none

/-- Emoji sequence context for GB11. Library code (unicode-segmentation), used in
crates/brack-tokenizer/src/utils.rs L4-9. -/
inductive PictSt where
  | no | seen | zwj
  deriving DecidableEq, Repr

/-- Conjunct context for GB9c. Library code (unicode-segmentation), used in
crates/brack-tokenizer/src/utils.rs L4-9. -/
inductive ConjSt where
  | no | consonant | linked
  deriving DecidableEq, Repr

/-- Context of the current cluster needed to decide whether the next character belongs to it. Library code
(unicode-segmentation), used in crates/brack-tokenizer/src/utils.rs L4-9. -/
structure SegSt where
  prev : GCB
  /-- odd number of regional indicators directly before -/
  odd : Bool
  pict : PictSt
  conj : ConjSt
  deriving DecidableEq, Repr

namespace UTable

variable (T : UTable)

/-- Context after the first character of a cluster. Library code (unicode-segmentation), used in
crates/brack-tokenizer/src/utils.rs L4-9. -/
def start (c : Char) : SegSt where
  prev := T.gcb c
  odd := T.gcb c == .regional
  pict := if T.pict c then .seen else .no
  conj := if T.incb c = .consonant then .consonant else .no

/-- Context after one more character. Library code (unicode-segmentation), used in
crates/brack-tokenizer/src/utils.rs L4-9. -/
def next (s : SegSt) (c : Char) : SegSt where
  prev := T.gcb c
  odd := T.gcb c == .regional && !s.odd
  pict :=
    if T.pict c then .seen
    else if s.pict = .seen ∧ T.gcb c = .extend then .seen
    else if s.pict = .seen ∧ T.gcb c = .zwj then .zwj
    else .no
  conj :=
    match T.incb c with
    | .consonant => .consonant
    | .linker => if s.conj = .no then .no else .linked
    | .extend => s.conj
    | .none => .no

/-- No boundary before `c` in context `s`: rules GB3–GB13 in order, GB999 otherwise. Library code
(unicode-segmentation), used in crates/brack-tokenizer/src/utils.rs L4-9. -/
def join (s : SegSt) (c : Char) : Bool :=
  let n := T.gcb c
  if s.prev = .cr ∧ n = .lf then true                                                    -- GB3
  else if s.prev = .cr ∨ s.prev = .lf ∨ s.prev = .control then false                     -- GB4
  else if n = .cr ∨ n = .lf ∨ n = .control then false                                    -- GB5
  else if s.prev = .l ∧ (n = .l ∨ n = .v ∨ n = .lv ∨ n = .lvt) then true                 -- GB6
  else if (s.prev = .lv ∨ s.prev = .v) ∧ (n = .v ∨ n = .t) then true                     -- GB7
  else if (s.prev = .lvt ∨ s.prev = .t) ∧ n = .t then true                               -- GB8
  else if n = .extend ∨ n = .zwj then true                                               -- GB9
  else if n = .spacing then true                                                         -- GB9a
  else if s.prev = .prepend then true                                                    -- GB9b
  else if s.conj = .linked ∧ T.incb c = .consonant then true                             -- GB9c
  else if s.pict = .zwj ∧ T.pict c then true                                             -- GB11
  else if s.odd ∧ s.prev = .regional ∧ n = .regional then true                           -- GB12/13
  else false                                                                             -- GB999

/-- Left-to-right segmentation with the current cluster `cur` in context `s`. Library code
(unicode-segmentation), used in crates/brack-tokenizer/src/utils.rs L4-9. -/
def go (s : SegSt) (cur : Str) : Str → List Str
  | [] => [cur]
  | c :: cs =>
    if T.join s c then go (T.next s c) (cur ++ [c]) cs
    else cur :: go (T.start c) [c] cs

/-- The extended grapheme clusters of a text. Library code (unicode-segmentation), used in
crates/brack-tokenizer/src/utils.rs L4-9. -/
def clusters : Str → List Str
  | [] => []
  | c :: cs => T.go (T.start c) [c] cs

end UTable

end Brack
