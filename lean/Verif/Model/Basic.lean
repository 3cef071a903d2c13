/-
Basic vocabulary shared by all parts of the model: strings, results, locations, tokens.
-/

namespace Brack

/-- A Rust `String` / `&str`: a sequence of Unicode scalar values. Simplified: the UTF-8 encoding is not
represented here (see `Model/Utf8.lean` for byte lengths). E.g. crates/brack-tokenizer/src/tokens.rs L7. -/
abbrev Str := List Char

/-- `chars! "ab"` is the list `['a', 'b']` (notation only). -/
macro "chars!" s:str : term => do
  let cs := s.getString.toList.map Lean.Syntax.mkCharLit
  `(([$(cs.toArray),*] : List Char))

/-- The outcome of a Rust function returning `anyhow::Result<T>` that may also panic. `ok`/`err` are
`Ok`/`Err` (the error reduced to its message), `panic` is an unwinding panic. The return type of the
functions of all crates, e.g. crates/brack-tokenizer/src/dispatch.rs L12. -/
inductive Res (α : Type u) where
  | ok (a : α)
  | err (msg : String)
  | panic
  deriving Repr, DecidableEq

namespace Res

/-- The `?` operator. E.g. crates/brack-tokenizer/src/dispatch.rs L16. -/
def bind (x : Res α) (f : α → Res β) : Res β :=
  match x with
  | .ok a => f a
  | .err m => .err m
  | .panic => .panic

instance : Monad Res where
  pure := .ok
  bind := bind

/-- Did the function return `Ok`? As in crates/brack-parser/src/expr.rs L14. -/
def isOk : Res α → Bool
  | .ok _ => true
  | _ => false

/-- Did the function return `Err`? As in crates/brack-language-server/src/request.rs L117. -/
def isErr : Res α → Bool
  | .err _ => true
  | _ => false

/-- Did the function panic? As in crates/brack-transformer/src/transform.rs L63. -/
def isPanic : Res α → Bool
  | .panic => true
  | _ => false

end Res

/-- `LocationData`, crates/brack-tokenizer/src/tokens.rs L24-28. -/
structure Pos where
  line : Nat
  character : Nat
  deriving Repr, DecidableEq

/-- `Location`, crates/brack-tokenizer/src/tokens.rs L30-34 (field `end` is called `stop`). -/
structure Loc where
  start : Pos
  stop : Pos
  deriving Repr, DecidableEq

/-- `mock_location`, crates/brack-tokenizer/src/tokens.rs L36-47. -/
def mockLocation : Loc := ⟨⟨0, 0⟩, ⟨0, 0⟩⟩

/-- `merge_location`, crates/brack-tokenizer/src/tokens.rs L49-69, including the comparison of
`location1.end.line` with `location2.end.character` on L61. -/
def mergeLocation (l1 l2 : Loc) : Loc :=
  let start :=
    match compare l1.start.line l2.start.line with
    | .lt => l1.start
    | .eq =>
      match compare l1.start.character l2.start.character with
      | .lt => l1.start
      | _ => l2.start
    | .gt => l2.start
  let stop :=
    match compare l1.stop.line l2.stop.line with
    | .lt => l2.stop
    | .eq =>
      match compare l1.stop.line l2.stop.character with
      | .gt => l1.stop
      | _ => l2.stop
    | .gt => l1.stop
  ⟨start, stop⟩

/-- The three bracket kinds: `<>`, `{}` and `[]`, crates/brack-tokenizer/src/tokens.rs L14-19. -/
inductive Bracket where
  | angle | curly | square
  deriving Repr, DecidableEq

/-- The constructors of `Token`, crates/brack-tokenizer/src/tokens.rs L4-22.
Simplified: the location carried by every constructor is factored out into `Token.loc`, and the
six bracket constructors are `bopen`/`bclose` applied to the bracket kind. -/
inductive TokKind where
  | empty
  | text (s : Str)
  | module (s : Str)
  | ident (s : Str)
  | newLine
  | whiteSpace
  | dot
  | backSlash
  | bopen (b : Bracket)
  | bclose (b : Bracket)
  | comma
  | eof
  deriving Repr, DecidableEq

/-- `Token`, crates/brack-tokenizer/src/tokens.rs L4-22. `loc` is `get_location` (L72-91). -/
structure Token where
  kind : TokKind
  loc : Loc
  deriving Repr, DecidableEq

end Brack
