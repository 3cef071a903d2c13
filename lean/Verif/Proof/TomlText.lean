import Verif.Spec.TomlGrammar

/-
A parser that reads the part of TOML described, to show that there are such parsers.
-/

namespace Brack

namespace TomlText
open TomlGrammar

/-- The character an escape sequence stands for. -/
def unescape (e : Char) : Option Char := (escapes.find? (·.1 = e)).map (·.2)

theorem unescape_of_mem {e c : Char} (h : (e, c) ∈ escapes) : unescape e = some c := by
  simp only [escapes, List.mem_cons, Prod.mk.injEq, List.not_mem_nil, or_false] at h
  rcases h with ⟨rfl, rfl⟩ | ⟨rfl, rfl⟩ | ⟨rfl, rfl⟩ | ⟨rfl, rfl⟩ | ⟨rfl, rfl⟩ | ⟨rfl, rfl⟩ | ⟨rfl, rfl⟩ <;> decide

/-- The inside of a string up to the closing quote, the text it stands for and the rest. -/
def parseChars : Str → Option (Str × Str)
  | [] => none
  | c :: s =>
    if c = '"' then some ([], s)
    else if c = '\\' then
      match s with
      | [] => none
      | e :: s => do
        let c ← unescape e
        let (t, r) ← parseChars s
        return (c :: t, r)
    else do
      let (t, r) ← parseChars s
      return (c :: t, r)

theorem parseChars_of {s t : Str} (h : IsChars s t) (r : Str) : parseChars (s ++ '"' :: r) = some (t, r) := by
  induction h with
  | nil => rw [List.nil_append, parseChars.eq_def]; exact if_pos rfl
  | @plain c s t hc _ ih =>
    have h1 : ¬ c = '"' := by
      rintro rfl
      revert hc
      decide
    have h2 : ¬ c = '\\' := by
      rintro rfl
      revert hc
      decide
    rw [List.cons_append, parseChars.eq_def]
    simp only
    rw [if_neg h1, if_neg h2, ih]
    rfl
  | escape he _ ih =>
    rw [List.cons_append, List.cons_append, parseChars.eq_def]
    simp only
    rw [if_neg (by decide), if_pos trivial]
    simp only [unescape_of_mem he, ih]
    rfl

/-- The elements of an array up to the closing bracket. -/
def parseElements : Nat → Str → Option (List TVal × Str)
  | 0, _ => none
  | n + 1, s =>
    match s with
    | '"' :: s =>
      match parseChars s with
      | some (t, ',' :: ' ' :: r) => (parseElements n r).map fun x => (.str t :: x.1, x.2)
      | some (t, ']' :: r) => some ([.str t], r)
      | _ => none
    | _ => none

theorem parseElements_of {s : Str} {vs : List TVal} (h : IsElements s vs) (r : Str) :
    ∀ n, s.length ≤ n → parseElements n (s ++ ']' :: r) = some (vs, r) := by
  induction h with
  | @one s t h =>
    intro n hn
    rcases n with _ | n
    · simp at hn
    · have : chars! "\"" ++ s ++ chars! "\"" ++ ']' :: r = '"' :: (s ++ '"' :: ']' :: r) := by simp
      rw [this, parseElements]
      simp only [parseChars_of h]
  | @more s t e vs h _ ih =>
    intro n hn
    rcases n with _ | n
    · simp at hn
    · have : chars! "\"" ++ s ++ chars! "\", " ++ e ++ ']' :: r = '"' :: (s ++ '"' :: ',' :: ' ' :: (e ++ ']' :: r)) := by
        simp
      rw [this, parseElements]
      simp only [parseChars_of h]
      rw [ih n (by simp at hn; omega)]
      rfl

/-- A value at the beginning. -/
def parseValue (s : Str) : Option (TVal × Str) :=
  match s with
  | '"' :: s => (parseChars s).map fun x => (.str x.1, x.2)
  | '[' :: ']' :: s => some (.array [], s)
  | '[' :: s => (parseElements s.length s).map fun x => (.array x.1, x.2)
  | 't' :: 'r' :: 'u' :: 'e' :: s => some (.bool true, s)
  | 'f' :: 'a' :: 'l' :: 's' :: 'e' :: s => some (.bool false, s)
  | _ => none

theorem isElements_quote {s : Str} {vs : List TVal} (h : IsElements s vs) : ∃ s', s = '"' :: s' := by
  cases h with
  | one => exact ⟨_, rfl⟩
  | more => exact ⟨_, rfl⟩

theorem parseValue_of {s : Str} {v : TVal} (h : IsValue s v) (r : Str) : parseValue (s ++ r) = some (v, r) := by
  cases h with
  | @str s t h =>
    have : chars! "\"" ++ s ++ chars! "\"" ++ r = '"' :: (s ++ '"' :: r) := by simp
    rw [this, parseValue, parseChars_of h]
    rfl
  | yes => rfl
  | no => rfl
  | empty => rfl
  | @array s vs h =>
    obtain ⟨s', rfl⟩ := isElements_quote h
    have : chars! "[" ++ ('"' :: s') ++ chars! "]" ++ r = '[' :: ('"' :: s' ++ ']' :: r) := by simp
    rw [this]
    have := parseElements_of h r ('"' :: s' ++ ']' :: r).length (by simp)
    simp only [List.cons_append] at this ⊢
    rw [parseValue, this]
    · rfl
    · simp

/-- The lines of a table up to the next header. -/
def parseLines : Nat → Str → Option (List (Str × TVal) × Str)
  | 0, _ => none
  | n + 1, s =>
    match s with
    | [] => some ([], [])
    | '\n' :: s => parseLines n s
    | '[' :: s => some ([], '[' :: s)
    | s =>
      let k := s.takeWhile fun c => decide (KeyChar c)
      match s.dropWhile (fun c => decide (KeyChar c)) with
      | ' ' :: '=' :: ' ' :: s =>
        match parseValue s with
        | some (v, '\n' :: r) => (parseLines n r).map fun x => ((k, v) :: x.1, x.2)
        | _ => none
      | _ => none

theorem takeWhile_key {k r : Str} {c : Char} (hk : ∀ c ∈ k, KeyChar c) (hc : ¬ KeyChar c) :
    (k ++ c :: r).takeWhile (fun c => decide (KeyChar c)) = k ∧
      (k ++ c :: r).dropWhile (fun c => decide (KeyChar c)) = c :: r := by
  induction k with
  | nil => simp [hc]
  | cons a k ih =>
    have ih := ih fun c h => hk c (List.mem_cons_of_mem _ h)
    have ha : decide (KeyChar a) = true := by simpa using hk a List.mem_cons_self
    rw [List.cons_append, List.takeWhile_cons_of_pos (p := fun c => decide (KeyChar c)) ha,
      List.dropWhile_cons_of_pos (p := fun c => decide (KeyChar c)) ha, ih.1, ih.2]
    exact ⟨rfl, rfl⟩

/-- What follows a table: nothing or a header. -/
def Next (r : Str) : Prop := r = [] ∨ ∃ r', r = '[' :: r'

theorem parseLines_of {s : Str} {kvs : List (Str × TVal)} (h : IsLines s kvs) (r : Str) (hr : Next r) :
    ∀ n, s.length + 1 ≤ n → parseLines n (s ++ r) = some (kvs, r) := by
  induction h with
  | nil =>
    intro n hn
    rcases n with _ | n
    · simp at hn
    · rcases hr with rfl | ⟨r', rfl⟩ <;> rfl
  | blank _ ih =>
    intro n hn
    rcases n with _ | n
    · simp at hn
    · rw [List.cons_append, parseLines]
      exact ih n (by simp at hn; omega)
  | @field k s e v kvs hk hv _ ih =>
    intro n hn
    rcases n with _ | n
    · simp at hn
    · obtain ⟨hne, hk⟩ := hk
      have : k ++ chars! " = " ++ s ++ chars! "\n" ++ e ++ r = k ++ ' ' :: '=' :: ' ' :: (s ++ '\n' :: (e ++ r)) := by simp
      rw [this]
      have htw := takeWhile_key (r := '=' :: ' ' :: (s ++ '\n' :: (e ++ r))) hk (c := ' ') (by decide)
      rcases k with _ | ⟨a, k⟩
      · exact absurd rfl hne
      · have ha := hk a List.mem_cons_self
        rw [List.cons_append] at htw ⊢
        rw [parseLines]
        · simp only [htw.1, htw.2, parseValue_of hv]
          rw [ih n (by simp at hn; omega)]
          rfl
        · simp
        · intro s' hs
          injection hs with hs _
          subst hs
          revert ha
          decide
        · intro s' hs
          injection hs with hs _
          subst hs
          revert ha
          decide

/-- The tables of a document. -/
def parseTables : Nat → Str → Option (List (Str × TVal))
  | 0, _ => none
  | n + 1, s =>
    match s with
    | [] => some []
    | '[' :: s =>
      let k := s.takeWhile fun c => decide (KeyChar c)
      match s.dropWhile (fun c => decide (KeyChar c)) with
      | ']' :: '\n' :: s =>
        match parseLines (s.length + 1) s with
        | some (kvs, r) => (parseTables n r).map fun ts => (k, .table kvs) :: ts
        | none => none
      | _ => none
    | _ => none

theorem isTables_next {s : Str} {ts : List (Str × TVal)} (h : IsTables s ts) : Next s := by
  cases h with
  | nil => exact .inl rfl
  | table => exact .inr ⟨_, rfl⟩

theorem parseTables_of {s : Str} {ts : List (Str × TVal)} (h : IsTables s ts) :
    ∀ n, s.length + 1 ≤ n → parseTables n s = some ts := by
  induction h with
  | nil =>
    intro n hn
    rcases n with _ | n
    · simp at hn
    · rfl
  | @table k s r kvs ts hk hs _ hr ih =>
    intro n hn
    rcases n with _ | n
    · simp at hn
    · have : chars! "[" ++ k ++ chars! "]\n" ++ s ++ r = '[' :: (k ++ ']' :: '\n' :: (s ++ r)) := by simp
      rw [this, parseTables]
      have htw := takeWhile_key (r := '\n' :: (s ++ r)) hk.2 (c := ']') (by decide)
      simp only [htw.1, htw.2]
      rw [parseLines_of hs r (isTables_next hr) _ (by simp)]
      simp only
      rw [ih n (by simp at hn; omega)]
      rfl

/-- A crate that reads this part of TOML. -/
def toml : Toml where
  parse text := (parseTables (text.length + 1) text).map .table
  print _ := []

theorem toml_conforms : toml.Conforms := by
  rintro text v ⟨ts, h, _, rfl⟩
  simp only [toml, parseTables_of h _ (Nat.le_refl _), Option.map_some]

end TomlText

end Brack
