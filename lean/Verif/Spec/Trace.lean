import Verif.Spec.Grammar

/-
Specification of bracket matching and escapes on token lists, independent of the parser: one
left-to-right scan with the stack of the brackets that are open.
-/

namespace Brack

/-- What happens while a token list is read. `stack` is the list of the opening brackets that are
still open, innermost first. -/
inductive Event where
  /-- a token that is neither a bracket nor a backslash -/
  | plain (stack : List Token) (t : Token)
  /-- a backslash followed by the token of an escapable character -/
  | escape (stack : List Token) (bs : Token) (c : Char) (t : Token)
  /-- a backslash followed by anything else -/
  | stray (stack : List Token) (bs : Token)
  /-- an opening bracket and its closing bracket -/
  | closed (o c : Token)
  /-- an opening bracket that is never closed -/
  | unclosed (o : Token)
  /-- a closing bracket of a kind of which no bracket is open -/
  | unopened (c : Token)
  deriving Repr, DecidableEq

/-- The character standing for a token after a backslash. -/
def escapedChar (k : TokKind) : Option Char :=
  (escapes.find? (fun p => p.2 = k)).map (·.1)

/-- Read a token list up to EOF: a closing bracket closes the innermost open bracket of its kind, the
brackets opened after that one stay unclosed; at the end of the document all open brackets stay
unclosed. -/
def trace (st : List Token) : List Token → List Event
  | [] => st.map .unclosed
  | t :: ts =>
    match t.kind with
    | .eof | .empty => st.map .unclosed
    | .bopen _ => trace (t :: st) ts
    | .bclose b =>
      (st.takeWhile (fun o => o.kind ≠ .bopen b)).map .unclosed ++
        match st.dropWhile (fun o => o.kind ≠ .bopen b) with
        | o :: st' => .closed o t :: trace st' ts
        | [] => .unopened t :: trace [] ts
    | .backSlash =>
      match ts with
      | [] => .stray st t :: st.map .unclosed
      | u :: us =>
        match escapedChar u.kind with
        | some c => .escape st t c u :: trace st us
        | none => .stray st t :: trace st (u :: us)
    | _ => .plain st t :: trace st ts

/-- Is this a dot, comma or space outside all brackets? -/
def Event.looseSeparator : Event → Bool
  | .plain [] ⟨.dot, _⟩ | .plain [] ⟨.comma, _⟩ | .plain [] ⟨.whiteSpace, _⟩ => true
  | _ => false

/-- Is this an escaped opening bracket (`\\[`, `\\{`, `\\<`)? -/
def Event.escapedOpen : Event → Bool
  | .escape _ _ _ ⟨.bopen _, _⟩ => true
  | _ => false

/-- Is this an escaped bracket? -/
def Event.escapedBracket : Event → Bool
  | .escape _ _ _ ⟨.bopen _, _⟩ | .escape _ _ _ ⟨.bclose _, _⟩ => true
  | _ => false

/-- Brackets are left unclosed by the end of the document only, not by the closing bracket of an outer
bracket. -/
def UnclosedAtEnd (evs : List Event) : Prop :=
  ∃ (body : List Event) (rest : List Token), evs = body ++ rest.map .unclosed ∧
    ∀ e ∈ body, ∀ o, e ≠ .unclosed o

/-- The kind and start of a bracket that is never closed. -/
def Event.unclosed? : Event → Option (Bracket × Pos)
  | .unclosed ⟨.bopen b, l⟩ => some (b, l.start)
  | _ => none

/-- The range of a backslash that escapes nothing. -/
def Event.stray? : Event → Option Loc
  | .stray _ t => some t.loc
  | _ => none

/-- A closing bracket that is not the counterpart of the innermost open bracket shows in one of two
ways: an open bracket stays unclosed or the closing bracket is unopened. -/
def Event.unopened? : Event → Option Token
  | .unopened t => some t
  | _ => none

end Brack
