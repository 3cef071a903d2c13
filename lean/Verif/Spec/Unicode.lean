import Verif.Model.Uax29

/-
Vocabulary for statements about user-perceived characters: the boundaries between extended grapheme clusters, stated
directly from the rules of UAX #29.
-/

namespace Brack

/-- Facts about the tables of Unicode: emoji and consonants have no other role in the rules, and the marks of conjuncts are
extending characters. -/
structure UTable.Coherent (T : UTable) : Prop where
  pict : ∀ c, T.pict c = true → T.gcb c = .other
  consonant : ∀ c, T.incb c = .consonant → T.gcb c = .other
  mark : ∀ c, T.incb c = .extend ∨ T.incb c = .linker → T.gcb c = .extend ∨ T.gcb c = .zwj

/-- A control character or line end, before and after which there is always a boundary (GB4, GB5). -/
def UTable.IsControl (T : UTable) (c : Char) : Prop := T.gcb c = .cr ∨ T.gcb c = .lf ∨ T.gcb c = .control

/-- The text ends with a consonant and marks, one of them a linker (the left side of GB9c). -/
def UTable.EndsLinked (T : UTable) (text : Str) : Prop :=
  ∃ x k ms, text = x ++ k :: ms ∧ T.incb k = .consonant ∧ (∀ m ∈ ms, T.incb m = .extend ∨ T.incb m = .linker) ∧
    ∃ m ∈ ms, T.incb m = .linker

/-- The text ends with an emoji, extending characters and a joiner (the left side of GB11). -/
def UTable.EndsJoined (T : UTable) (text : Str) : Prop :=
  ∃ x k ms z, text = x ++ k :: ms ++ [z] ∧ T.pict k = true ∧ (∀ m ∈ ms, T.gcb m = .extend) ∧ T.gcb z = .zwj

/-- The number of regional indicators at the end of the text. -/
def UTable.flags (T : UTable) (text : Str) : Nat := (text.reverse.takeWhile fun c => T.gcb c = .regional).length

/-- Rules GB3 to GB13 forbid a boundary after this text, which ends with `p`, before the character `n`. -/
def UTable.Forbidden (T : UTable) (text : Str) (p n : Char) : Prop :=
  (T.gcb p = .cr ∧ T.gcb n = .lf) ∨                                                              -- GB3
  (¬ T.IsControl p ∧ ¬ T.IsControl n ∧                                                           -- GB4, GB5
    ((T.gcb p = .l ∧ (T.gcb n = .l ∨ T.gcb n = .v ∨ T.gcb n = .lv ∨ T.gcb n = .lvt)) ∨           -- GB6
     ((T.gcb p = .lv ∨ T.gcb p = .v) ∧ (T.gcb n = .v ∨ T.gcb n = .t)) ∨                          -- GB7
     ((T.gcb p = .lvt ∨ T.gcb p = .t) ∧ T.gcb n = .t) ∨                                          -- GB8
     T.gcb n = .extend ∨ T.gcb n = .zwj ∨                                                        -- GB9
     T.gcb n = .spacing ∨                                                                        -- GB9a
     T.gcb p = .prepend ∨                                                                        -- GB9b
     (T.EndsLinked text ∧ T.incb n = .consonant) ∨                                               -- GB9c
     (T.EndsJoined text ∧ T.pict n = true) ∨                                                     -- GB11
     (T.flags text % 2 = 1 ∧ T.gcb n = .regional)))                                              -- GB12, GB13

/-- Between these two parts of a text there is a boundary between user-perceived characters: GB1 and GB2, and GB999 if
no other rule forbids it. -/
def UTable.Boundary (T : UTable) (before rest : Str) : Prop :=
  ∀ x p n y, before = x ++ [p] → rest = n :: y → ¬ T.Forbidden before p n

/-- The user-perceived characters of the text: it is cut at every boundary and nowhere else. -/
structure UTable.Characters (T : UTable) (text : Str) (cs : List Str) : Prop where
  whole : cs.flatten = text
  nonempty : ∀ c ∈ cs, c ≠ []
  cut : ∀ before rest, text = before ++ rest → (T.Boundary before rest ↔ ∃ as bs, cs = as ++ bs ∧ as.flatten = before)

end Brack
