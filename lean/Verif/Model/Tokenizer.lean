import Verif.Model.Segment

/-
Model of crates/brack-tokenizer.
-/

namespace Brack

/-- `Tokenizer`, crates/brack-tokenizer/src/tokenizer.rs L3-17.
Simplified: `i32` counters are `Int` (C07 bounds them), `usize` is `Nat`. -/
structure Tokenizer where
  uri : Str := []
  line : Option Nat := none
  column : Option Nat := none
  tokenStartLine : Option Nat := none
  tokenStartColumn : Option Nat := none
  untreated : Option Str := none
  pool : Option Str := none
  tokens : Option (List Token) := none
  angleNestCount : Option Int := none
  squareNestCount : Option Int := none
  curlyNestCount : Option Int := none
  lookingForIdentifier : Option Bool := none
  deriving Repr

/-- `Tokenizer::merge`, crates/brack-tokenizer/src/tokenizer.rs L20-68. -/
def Tokenizer.merge (self other : Tokenizer) : Tokenizer where
  uri := other.uri
  line := other.line <|> self.line
  column := other.column <|> self.column
  tokenStartLine := other.tokenStartLine <|> self.tokenStartLine
  tokenStartColumn := other.tokenStartColumn <|> self.tokenStartColumn
  untreated := other.untreated <|> self.untreated
  pool := other.pool <|> self.pool
  tokens := other.tokens <|> self.tokens
  angleNestCount := other.angleNestCount <|> self.angleNestCount
  squareNestCount := other.squareNestCount <|> self.squareNestCount
  curlyNestCount := other.curlyNestCount <|> self.curlyNestCount
  lookingForIdentifier := other.lookingForIdentifier <|> self.lookingForIdentifier

/-- `separate`, crates/brack-tokenizer/src/utils.rs L3-15. -/
def separate (S : Segmenter) (s : Str) : Str × Str :=
  match S.graphemes s with
  | [] => (NUL, [])
  | [g] => (g, [])
  | g :: gs => (g, gs.flatten)

/-- `t.field.clone().ok_or_else(|| anyhow!("`t.field` is not set"))?`, used throughout the crate,
e.g. crates/brack-tokenizer/src/dispatch.rs L13-16. -/
def field (o : Option α) (name : String) : Res α :=
  match o with
  | some a => .ok a
  | none => .err ("`t." ++ name ++ "` is not set")

/-- The body shared by `text::tokenize`, `identifier::tokenize` and `module::tokenize`
(crates/brack-tokenizer/src/{text.rs L9-60, identifier.rs L9-62, module.rs L9-60}): push the pool
extended by the current cluster as one token. `mk` is the token constructor and `look` the value
given to `looking_for_identifier`. Returns the state passed to the recursive `dispatch`. -/
def pushPool (S : Segmenter) (mk : Str → TokKind) (look : Option Bool) (t : Tokenizer) :
    Res Tokenizer := do
  let s ← field t.untreated "untreated"
  let (head, tail) := separate S s
  let pool ← field t.pool "pool"
  let pool := pool ++ head
  let tokens ← field t.tokens "tokens"
  let tokenStartLine ← field t.tokenStartLine "token_start_line"
  let tokenStartColumn ← field t.tokenStartColumn "token_start_column"
  let line ← field t.line "line"
  let column ← field t.column "column"
  let tokens := tokens ++ [⟨mk pool, ⟨⟨tokenStartLine, tokenStartColumn⟩, ⟨line, column + 1⟩⟩⟩]
  return t.merge
    { column := some (column + 1)
      tokenStartColumn := some (column + 1)
      untreated := some tail
      pool := some []
      tokens := some tokens
      lookingForIdentifier := look }

/-- `text::tokenize`, crates/brack-tokenizer/src/text.rs L9-60. -/
def tokText (S : Segmenter) (t : Tokenizer) : Res Tokenizer := pushPool S .text none t

/-- `identifier::tokenize`, crates/brack-tokenizer/src/identifier.rs L9-62. -/
def tokIdentifier (S : Segmenter) (t : Tokenizer) : Res Tokenizer :=
  pushPool S .ident (some false) t

/-- `module::tokenize`, crates/brack-tokenizer/src/module.rs L9-60. -/
def tokModule (S : Segmenter) (t : Tokenizer) : Res Tokenizer := pushPool S .module none t

/-- `backslash::tokenize`, crates/brack-tokenizer/src/backslash.rs L9-45 (does not reset `pool`). -/
def tokBackslash (S : Segmenter) (t : Tokenizer) : Res Tokenizer := do
  let s ← field t.untreated "untreated"
  let (_, tail) := separate S s
  let tokens ← field t.tokens "tokens"
  let line ← field t.line "line"
  let column ← field t.column "column"
  let tokens := tokens ++ [⟨.backSlash, ⟨⟨line, column⟩, ⟨line, column + 1⟩⟩⟩]
  return t.merge
    { column := some (column + 1)
      tokenStartColumn := some (column + 1)
      untreated := some tail
      tokens := some tokens }

/-- The body shared by `dot::tokenize` (dot.rs L9-47), `comma::tokenize` (comma.rs L9-47) and
`whitespace::tokenize` (whitespace.rs L9-47) of crates/brack-tokenizer/src. -/
def pushSep (S : Segmenter) (k : TokKind) (t : Tokenizer) : Res Tokenizer := do
  let s ← field t.untreated "untreated"
  let (_, tail) := separate S s
  let tokens ← field t.tokens "tokens"
  let line ← field t.line "line"
  let column ← field t.column "column"
  let tokens := tokens ++ [⟨k, ⟨⟨line, column⟩, ⟨line, column + 1⟩⟩⟩]
  return t.merge
    { column := some (column + 1)
      tokenStartColumn := some (column + 1)
      untreated := some tail
      pool := some []
      tokens := some tokens }

/-- `newline::tokenize`, crates/brack-tokenizer/src/newline.rs L9-48. -/
def tokNewline (S : Segmenter) (t : Tokenizer) : Res Tokenizer := do
  let s ← field t.untreated "untreated"
  let line ← field t.line "line"
  let column ← field t.column "column"
  let (_, tail) := separate S s
  let tokens ← field t.tokens "tokens"
  let tokens := tokens ++ [⟨.newLine, ⟨⟨line, column⟩, ⟨line, column + 1⟩⟩⟩]
  return t.merge
    { line := some (line + 1)
      column := some 0
      tokenStartLine := some (line + 1)
      tokenStartColumn := some 0
      untreated := some tail
      pool := some []
      tokens := some tokens }

/-- The update record with only the nesting counter of `b` set to `v`,
crates/brack-tokenizer/src/angle_bracket_open.rs L47 and the files below. -/
def withCount (b : Bracket) (v : Int) (t : Tokenizer) : Tokenizer :=
  match b with
  | .angle => { t with angleNestCount := some v }
  | .curly => { t with curlyNestCount := some v }
  | .square => { t with squareNestCount := some v }

/-- The nesting counter of `b`, crates/brack-tokenizer/src/angle_bracket_open.rs L26-28 and the files below.
-/
def getCount (b : Bracket) (t : Tokenizer) : Res Int :=
  match b with
  | .angle => field t.angleNestCount "angle_nest_count"
  | .curly => field t.curlyNestCount "curly_nest_count"
  | .square => field t.squareNestCount "square_nest_count"

/-- `angle_bracket_open::tokenize` (angle_bracket_open.rs L9-52), `curly_bracket_open::tokenize`
(curly_bracket_open.rs L9-52), `square_bracket_open::tokenize` (square_bracket_open.rs L9-52) of
crates/brack-tokenizer/src; the three files differ in the bracket kind only. -/
def tokOpen (S : Segmenter) (b : Bracket) (t : Tokenizer) : Res Tokenizer := do
  let s ← field t.untreated "untreated"
  let (_, tail) := separate S s
  let tokens ← field t.tokens "tokens"
  let line ← field t.line "line"
  let column ← field t.column "column"
  let nest ← getCount b t
  let tokens := tokens ++ [⟨.bopen b, ⟨⟨line, column⟩, ⟨line, column + 1⟩⟩⟩]
  return t.merge (withCount b (nest + 1)
    { column := some (column + 1)
      tokenStartColumn := some (column + 1)
      untreated := some tail
      pool := some []
      tokens := some tokens
      lookingForIdentifier := some true })

/-- `angle_bracket_close::tokenize` (angle_bracket_close.rs L9-51), `curly_bracket_close::tokenize`
(curly_bracket_close.rs L9-51), `square_bracket_close::tokenize` (square_bracket_close.rs L9-51) of
crates/brack-tokenizer/src; the three files differ in the bracket kind only. -/
def tokClose (S : Segmenter) (b : Bracket) (t : Tokenizer) : Res Tokenizer := do
  let s ← field t.untreated "untreated"
  let (_, tail) := separate S s
  let tokens ← field t.tokens "tokens"
  let line ← field t.line "line"
  let column ← field t.column "column"
  let nest ← getCount b t
  let tokens := tokens ++ [⟨.bclose b, ⟨⟨line, column⟩, ⟨line, column + 1⟩⟩⟩]
  return t.merge (withCount b (nest - 1)
    { column := some (column + 1)
      tokenStartColumn := some (column + 1)
      untreated := some tail
      pool := some []
      tokens := some tokens })

/-- The arms of the `match` in `dispatch`, crates/brack-tokenizer/src/dispatch.rs L66-97. -/
inductive Action where
  | backslash | identifier | bopen (b : Bracket) | bclose (b : Bracket)
  | dot | comma | whitespace | newline | module | text | pool
  deriving Repr, DecidableEq

/-- Which arm of the `match (&head[..], &head2[..])` is taken, in source order;
crates/brack-tokenizer/src/dispatch.rs L66-97. -/
def action (head head2 : Str) (look nested : Bool) : Action :=
  if head = ['\\'] then .backslash
  else if head2 = ['>'] ∧ look then .identifier
  else if head2 = ['}'] ∧ look then .identifier
  else if head2 = [']'] ∧ look then .identifier
  else if head = ['<'] then .bopen .angle
  else if head = ['>'] then .bclose .angle
  else if head = ['{'] then .bopen .curly
  else if head = ['}'] then .bclose .curly
  else if head = ['['] then .bopen .square
  else if head = [']'] then .bclose .square
  else if head = ['.'] ∧ nested then .dot
  else if head = [','] ∧ nested then .comma
  else if head = [' '] ∧ nested then .whitespace
  else if head = ['\n'] then .newline
  else if head2 = [' '] ∧ look then .identifier
  else if head2 = ['.'] ∧ look then .module
  else if head2 = ['<'] ∨ head2 = ['{'] ∨ head2 = ['['] ∨ head2 = ['\n'] ∨ head2 = NUL then .text
  else if head2 = [' '] ∧ nested then .text
  else if head2 = [','] ∧ nested then .text
  else if head2 = ['.'] ∧ nested then .text
  else if head2 = ['>'] ∨ head2 = [']'] ∨ head2 = ['}'] ∨ head2 = ['\\'] then .text
  else .pool

/-- The default arm of `dispatch`, crates/brack-tokenizer/src/dispatch.rs L88-96. -/
def tokPool (S : Segmenter) (t : Tokenizer) : Res Tokenizer := do
  let s ← field t.untreated "untreated"
  let pool ← field t.pool "pool"
  let column ← field t.column "column"
  let (head, tail) := separate S s
  return t.merge
    { column := some (column + 1)
      untreated := some tail
      pool := some (pool ++ head) }

/-- One activation of `dispatch` up to the recursive call in tail position,
crates/brack-tokenizer/src/dispatch.rs L12-98: `inl` is the returned token list, `inr` the
tokenizer handed to the next `dispatch`. -/
def step (S : Segmenter) (t : Tokenizer) : Res (List Token ⊕ Tokenizer) := do
  let s ← field t.untreated "untreated"
  let _ ← field t.pool "pool"
  let _ ← field t.column "column"
  let (head, tail) := separate S s
  if head = NUL then
    let tokens ← field t.tokens "tokens"
    let line ← field t.line "line"
    let column ← field t.column "column"
    return .inl (tokens ++ [⟨.eof, ⟨⟨line, column⟩, ⟨line, column⟩⟩⟩])
  else
    let (head2, _) := separate S tail
    let angle ← field t.angleNestCount "angle_nest_count"
    let curly ← field t.curlyNestCount "curly_nest_count"
    let square ← field t.squareNestCount "square_nest_count"
    let look ← field t.lookingForIdentifier "looking_for_identifier"
    let nested := decide (angle + curly + square > 0)
    let t' ←
      match action head head2 look nested with
      | .backslash => tokBackslash S t
      | .identifier => tokIdentifier S t
      | .bopen b => tokOpen S b t
      | .bclose b => tokClose S b t
      | .dot => pushSep S .dot t
      | .comma => pushSep S .comma t
      | .whitespace => pushSep S .whiteSpace t
      | .newline => tokNewline S t
      | .module => tokModule S t
      | .text => tokText S t
      | .pool => tokPool S t
    return .inr t'

/-- Number of clusters still to be treated; the termination measure of `dispatch`. Of the recursion of
crates/brack-tokenizer/src/dispatch.rs L12-98. -/
def remaining (S : Segmenter) (t : Tokenizer) : Nat :=
  match t.untreated with
  | some s => (S.graphemes s).length
  | none => 0

theorem separate_tail_length (S : Segmenter) (s : Str) (h : (separate S s).1 ≠ NUL) :
    (S.graphemes (separate S s).2).length < (S.graphemes s).length := by
  unfold separate at *
  rcases hg : S.graphemes s with _ | ⟨g, _ | ⟨g2, gs⟩⟩
  · simp [hg] at h
  · have := S.suffix s g [] hg
    simp at this
    simp [this]
  · have := S.suffix s g (g2 :: gs) hg
    simp only []
    rw [this]
    simp

theorem step_untreated (S : Segmenter) (t t' : Tokenizer) (h : step S t = .ok (.inr t')) :
    ∃ s, t.untreated = some s ∧ (separate S s).1 ≠ NUL ∧
      t'.untreated = some (separate S s).2 := by
  rcases t with ⟨uri, line, column, tsl, tsc, untreated, pool, tokens, angle, square, curly, look⟩
  simp only [step, field, Bind.bind, Res.bind, pure] at h
  cases untreated <;> simp only [reduceCtorEq] at h
  cases pool <;> simp only [reduceCtorEq] at h
  cases column <;> simp only [reduceCtorEq] at h
  rename_i s pool column
  refine ⟨s, rfl, ?_⟩
  by_cases hn : (separate S s).1 = NUL
  · rw [if_pos hn] at h
    cases tokens <;> simp only [reduceCtorEq] at h
    cases line <;> simp only [reduceCtorEq] at h
    simp at h
  · refine ⟨hn, ?_⟩
    rw [if_neg hn] at h
    cases angle <;> simp only [reduceCtorEq] at h
    cases curly <;> simp only [reduceCtorEq] at h
    cases square <;> simp only [reduceCtorEq] at h
    cases look <;> simp only [reduceCtorEq] at h
    generalize action _ _ _ _ = a at h
    cases tokens <;> cases line <;> cases tsl <;> cases tsc <;>
      rcases a with _ | _ | (_ | _ | _) | (_ | _ | _) | _ | _ | _ | _ | _ | _ | _ <;>
      simp [tokBackslash, tokIdentifier, tokOpen, tokClose, pushSep, tokNewline, tokModule,
          tokText, tokPool, pushPool, getCount, withCount, field, Bind.bind, Res.bind, pure,
          Tokenizer.merge] at h <;>
      rw [← h]

theorem step_decreases (S : Segmenter) (t t' : Tokenizer) (h : step S t = .ok (.inr t')) :
    remaining S t' < remaining S t := by
  obtain ⟨s, h1, h2, h3⟩ := step_untreated S t t' h
  simp only [remaining, h1, h3]
  exact separate_tail_length S s h2

/-- `dispatch`, crates/brack-tokenizer/src/dispatch.rs L12-98, as iteration of `step`. -/
def dispatch (S : Segmenter) (t : Tokenizer) : Res (List Token) :=
  match _h : step S t with
  | .ok (.inl tokens) => .ok tokens
  | .ok (.inr t') => dispatch S t'
  | .err m => .err m
  | .panic => .panic
termination_by remaining S t
decreasing_by exact step_decreases S t t' (by assumption)

/-- The initial state in `tokenize_str`, crates/brack-tokenizer/src/tokenize.rs L14-27. -/
def initTokenizer (text : Str) : Tokenizer where
  tokens := some []
  line := some 0
  column := some 0
  pool := some []
  tokenStartLine := some 0
  tokenStartColumn := some 0
  untreated := some text
  curlyNestCount := some 0
  squareNestCount := some 0
  angleNestCount := some 0
  lookingForIdentifier := some false

/-- `tokenize_str`, crates/brack-tokenizer/src/tokenize.rs L13-29. -/
def tokenizeStr (S : Segmenter) (text : Str) : Res (List Token) := dispatch S (initTokenizer text)

end Brack
