import Verif.Model.Tokenizer
import Verif.Model.Parser
import Verif.Proof.Uax29

/-
The unit tests of /repo, transcribed: the model gives what they expect. These are tests of the model, not proofs of
properties.
-/

namespace Brack

/-! ### crates/brack-tokenizer/src/tokenize.rs L37-1242, on the files of crates/brack-tokenizer/test -/

/-- `test_split_no_commands`, L39. -/
example : tokenizeStr UTable.sampleSeg (chars! "Hello, World!") = .ok [
    ⟨.text (chars! "Hello, World!"), ⟨⟨0, 0⟩, ⟨0, 13⟩⟩⟩,
    ⟨.eof, ⟨⟨0, 13⟩, ⟨0, 13⟩⟩⟩] := by decide +kernel

/-- `test_split_commands_with_an_argument_includes_square_brackets`, L78. -/
example : tokenizeStr UTable.sampleSeg (chars! "Hello, [std.* World!]") = .ok [
    ⟨.text (chars! "Hello, "), ⟨⟨0, 0⟩, ⟨0, 7⟩⟩⟩,
    ⟨.bopen .square, ⟨⟨0, 7⟩, ⟨0, 8⟩⟩⟩,
    ⟨.module (chars! "std"), ⟨⟨0, 8⟩, ⟨0, 11⟩⟩⟩,
    ⟨.dot, ⟨⟨0, 11⟩, ⟨0, 12⟩⟩⟩,
    ⟨.ident (chars! "*"), ⟨⟨0, 12⟩, ⟨0, 13⟩⟩⟩,
    ⟨.whiteSpace, ⟨⟨0, 13⟩, ⟨0, 14⟩⟩⟩,
    ⟨.text (chars! "World!"), ⟨⟨0, 14⟩, ⟨0, 20⟩⟩⟩,
    ⟨.bclose .square, ⟨⟨0, 20⟩, ⟨0, 21⟩⟩⟩,
    ⟨.eof, ⟨⟨0, 21⟩, ⟨0, 21⟩⟩⟩] := by decide +kernel

/-- `test_split_commands_with_an_argument_includes_curly_brackets`, L196. -/
example : tokenizeStr UTable.sampleSeg (chars! "Hello, {std.* World!}") = .ok [
    ⟨.text (chars! "Hello, "), ⟨⟨0, 0⟩, ⟨0, 7⟩⟩⟩,
    ⟨.bopen .curly, ⟨⟨0, 7⟩, ⟨0, 8⟩⟩⟩,
    ⟨.module (chars! "std"), ⟨⟨0, 8⟩, ⟨0, 11⟩⟩⟩,
    ⟨.dot, ⟨⟨0, 11⟩, ⟨0, 12⟩⟩⟩,
    ⟨.ident (chars! "*"), ⟨⟨0, 12⟩, ⟨0, 13⟩⟩⟩,
    ⟨.whiteSpace, ⟨⟨0, 13⟩, ⟨0, 14⟩⟩⟩,
    ⟨.text (chars! "World!"), ⟨⟨0, 14⟩, ⟨0, 20⟩⟩⟩,
    ⟨.bclose .curly, ⟨⟨0, 20⟩, ⟨0, 21⟩⟩⟩,
    ⟨.eof, ⟨⟨0, 21⟩, ⟨0, 21⟩⟩⟩] := by decide +kernel

/-- `test_split_commands_with_an_argument_includes_angle_brackets`, L314. -/
example : tokenizeStr UTable.sampleSeg (chars! "Hello, <* World!>") = .ok [
    ⟨.text (chars! "Hello, "), ⟨⟨0, 0⟩, ⟨0, 7⟩⟩⟩,
    ⟨.bopen .angle, ⟨⟨0, 7⟩, ⟨0, 8⟩⟩⟩,
    ⟨.ident (chars! "*"), ⟨⟨0, 8⟩, ⟨0, 9⟩⟩⟩,
    ⟨.whiteSpace, ⟨⟨0, 9⟩, ⟨0, 10⟩⟩⟩,
    ⟨.text (chars! "World!"), ⟨⟨0, 10⟩, ⟨0, 16⟩⟩⟩,
    ⟨.bclose .angle, ⟨⟨0, 16⟩, ⟨0, 17⟩⟩⟩,
    ⟨.eof, ⟨⟨0, 17⟩, ⟨0, 17⟩⟩⟩] := by decide +kernel

/-- `test_split_commands_with_two_arguments_includes_square_brackets`, L409. -/
example : tokenizeStr UTable.sampleSeg (chars! "Hello, [std.@ World!, https://example\\.com/]") = .ok [
    ⟨.text (chars! "Hello, "), ⟨⟨0, 0⟩, ⟨0, 7⟩⟩⟩,
    ⟨.bopen .square, ⟨⟨0, 7⟩, ⟨0, 8⟩⟩⟩,
    ⟨.module (chars! "std"), ⟨⟨0, 8⟩, ⟨0, 11⟩⟩⟩,
    ⟨.dot, ⟨⟨0, 11⟩, ⟨0, 12⟩⟩⟩,
    ⟨.ident (chars! "@"), ⟨⟨0, 12⟩, ⟨0, 13⟩⟩⟩,
    ⟨.whiteSpace, ⟨⟨0, 13⟩, ⟨0, 14⟩⟩⟩,
    ⟨.text (chars! "World!"), ⟨⟨0, 14⟩, ⟨0, 20⟩⟩⟩,
    ⟨.comma, ⟨⟨0, 20⟩, ⟨0, 21⟩⟩⟩,
    ⟨.whiteSpace, ⟨⟨0, 21⟩, ⟨0, 22⟩⟩⟩,
    ⟨.text (chars! "https://example"), ⟨⟨0, 22⟩, ⟨0, 37⟩⟩⟩,
    ⟨.backSlash, ⟨⟨0, 37⟩, ⟨0, 38⟩⟩⟩,
    ⟨.dot, ⟨⟨0, 38⟩, ⟨0, 39⟩⟩⟩,
    ⟨.text (chars! "com/"), ⟨⟨0, 39⟩, ⟨0, 43⟩⟩⟩,
    ⟨.bclose .square, ⟨⟨0, 43⟩, ⟨0, 44⟩⟩⟩,
    ⟨.eof, ⟨⟨0, 44⟩, ⟨0, 44⟩⟩⟩] := by decide +kernel

/-- `test_split_nesting_commands`, L593. -/
example : tokenizeStr UTable.sampleSeg (chars! "Hello, [std.* [std.@ World!, https://example\\.com/]]") = .ok [
    ⟨.text (chars! "Hello, "), ⟨⟨0, 0⟩, ⟨0, 7⟩⟩⟩,
    ⟨.bopen .square, ⟨⟨0, 7⟩, ⟨0, 8⟩⟩⟩,
    ⟨.module (chars! "std"), ⟨⟨0, 8⟩, ⟨0, 11⟩⟩⟩,
    ⟨.dot, ⟨⟨0, 11⟩, ⟨0, 12⟩⟩⟩,
    ⟨.ident (chars! "*"), ⟨⟨0, 12⟩, ⟨0, 13⟩⟩⟩,
    ⟨.whiteSpace, ⟨⟨0, 13⟩, ⟨0, 14⟩⟩⟩,
    ⟨.bopen .square, ⟨⟨0, 14⟩, ⟨0, 15⟩⟩⟩,
    ⟨.module (chars! "std"), ⟨⟨0, 15⟩, ⟨0, 18⟩⟩⟩,
    ⟨.dot, ⟨⟨0, 18⟩, ⟨0, 19⟩⟩⟩,
    ⟨.ident (chars! "@"), ⟨⟨0, 19⟩, ⟨0, 20⟩⟩⟩,
    ⟨.whiteSpace, ⟨⟨0, 20⟩, ⟨0, 21⟩⟩⟩,
    ⟨.text (chars! "World!"), ⟨⟨0, 21⟩, ⟨0, 27⟩⟩⟩,
    ⟨.comma, ⟨⟨0, 27⟩, ⟨0, 28⟩⟩⟩,
    ⟨.whiteSpace, ⟨⟨0, 28⟩, ⟨0, 29⟩⟩⟩,
    ⟨.text (chars! "https://example"), ⟨⟨0, 29⟩, ⟨0, 44⟩⟩⟩,
    ⟨.backSlash, ⟨⟨0, 44⟩, ⟨0, 45⟩⟩⟩,
    ⟨.dot, ⟨⟨0, 45⟩, ⟨0, 46⟩⟩⟩,
    ⟨.text (chars! "com/"), ⟨⟨0, 46⟩, ⟨0, 50⟩⟩⟩,
    ⟨.bclose .square, ⟨⟨0, 50⟩, ⟨0, 51⟩⟩⟩,
    ⟨.bclose .square, ⟨⟨0, 51⟩, ⟨0, 52⟩⟩⟩,
    ⟨.eof, ⟨⟨0, 52⟩, ⟨0, 52⟩⟩⟩] := by decide +kernel

/-- `test_split_newlines`, L843. -/
example : tokenizeStr UTable.sampleSeg (chars! "Hello,\nWorld,\n{std.** Contact}\n[std.@ My website, https://example\\.com/]\n\n2023.12.28") = .ok [
    ⟨.text (chars! "Hello,"), ⟨⟨0, 0⟩, ⟨0, 6⟩⟩⟩,
    ⟨.newLine, ⟨⟨0, 6⟩, ⟨0, 7⟩⟩⟩,
    ⟨.text (chars! "World,"), ⟨⟨1, 0⟩, ⟨1, 6⟩⟩⟩,
    ⟨.newLine, ⟨⟨1, 6⟩, ⟨1, 7⟩⟩⟩,
    ⟨.bopen .curly, ⟨⟨2, 0⟩, ⟨2, 1⟩⟩⟩,
    ⟨.module (chars! "std"), ⟨⟨2, 1⟩, ⟨2, 4⟩⟩⟩,
    ⟨.dot, ⟨⟨2, 4⟩, ⟨2, 5⟩⟩⟩,
    ⟨.ident (chars! "**"), ⟨⟨2, 5⟩, ⟨2, 7⟩⟩⟩,
    ⟨.whiteSpace, ⟨⟨2, 7⟩, ⟨2, 8⟩⟩⟩,
    ⟨.text (chars! "Contact"), ⟨⟨2, 8⟩, ⟨2, 15⟩⟩⟩,
    ⟨.bclose .curly, ⟨⟨2, 15⟩, ⟨2, 16⟩⟩⟩,
    ⟨.newLine, ⟨⟨2, 16⟩, ⟨2, 17⟩⟩⟩,
    ⟨.bopen .square, ⟨⟨3, 0⟩, ⟨3, 1⟩⟩⟩,
    ⟨.module (chars! "std"), ⟨⟨3, 1⟩, ⟨3, 4⟩⟩⟩,
    ⟨.dot, ⟨⟨3, 4⟩, ⟨3, 5⟩⟩⟩,
    ⟨.ident (chars! "@"), ⟨⟨3, 5⟩, ⟨3, 6⟩⟩⟩,
    ⟨.whiteSpace, ⟨⟨3, 6⟩, ⟨3, 7⟩⟩⟩,
    ⟨.text (chars! "My"), ⟨⟨3, 7⟩, ⟨3, 9⟩⟩⟩,
    ⟨.whiteSpace, ⟨⟨3, 9⟩, ⟨3, 10⟩⟩⟩,
    ⟨.text (chars! "website"), ⟨⟨3, 10⟩, ⟨3, 17⟩⟩⟩,
    ⟨.comma, ⟨⟨3, 17⟩, ⟨3, 18⟩⟩⟩,
    ⟨.whiteSpace, ⟨⟨3, 18⟩, ⟨3, 19⟩⟩⟩,
    ⟨.text (chars! "https://example"), ⟨⟨3, 19⟩, ⟨3, 34⟩⟩⟩,
    ⟨.backSlash, ⟨⟨3, 34⟩, ⟨3, 35⟩⟩⟩,
    ⟨.dot, ⟨⟨3, 35⟩, ⟨3, 36⟩⟩⟩,
    ⟨.text (chars! "com/"), ⟨⟨3, 36⟩, ⟨3, 40⟩⟩⟩,
    ⟨.bclose .square, ⟨⟨3, 40⟩, ⟨3, 41⟩⟩⟩,
    ⟨.newLine, ⟨⟨3, 41⟩, ⟨3, 42⟩⟩⟩,
    ⟨.newLine, ⟨⟨4, 0⟩, ⟨4, 1⟩⟩⟩,
    ⟨.text (chars! "2023.12.28"), ⟨⟨5, 0⟩, ⟨5, 10⟩⟩⟩,
    ⟨.eof, ⟨⟨5, 10⟩, ⟨5, 10⟩⟩⟩] := by decide +kernel

/-- `test_split_japanese_and_emoji`, L1206. -/
example : tokenizeStr UTable.sampleSeg (chars! "こんにちは！🇯🇵") = .ok [
    ⟨.text (chars! "こんにちは！🇯🇵"), ⟨⟨0, 0⟩, ⟨0, 7⟩⟩⟩,
    ⟨.eof, ⟨⟨0, 7⟩, ⟨0, 7⟩⟩⟩] := by decide +kernel

/-- `test_angle_bracket_open`, crates/brack-tokenizer/src/angle_bracket_open.rs L59. -/
example : tokenizeStr UTable.sampleSeg (chars! "<") = .ok [
    ⟨.bopen .angle, ⟨⟨0, 0⟩, ⟨0, 1⟩⟩⟩,
    ⟨.eof, ⟨⟨0, 1⟩, ⟨0, 1⟩⟩⟩] := by decide +kernel

/-! ### crates/brack-tokenizer/src/tokenizer.rs L74-157 -/

/-- `test_merge`: all fields are those of the second tokenizer. -/
example :
    let one (u : Str) (n : Nat) (look : Bool) : Tokenizer :=
      { uri := u, line := some n, column := some n, tokenStartLine := some n, tokenStartColumn := some n, untreated := some u,
        pool := some u, tokens := some [⟨.text u, ⟨⟨n, n⟩, ⟨n, n⟩⟩⟩], angleNestCount := some n, squareNestCount := some n,
        curlyNestCount := some n, lookingForIdentifier := some look }
    (one ['a'] 1 true).merge (one ['b'] 2 false) = one ['b'] 2 false := rfl

/-! ### crates/brack-parser/src -/

/-- `matches_kind`, crates/brack-parser/src/cst.rs L278-303: the same variant, other than `Invalid`. -/
def CST.matchesKind : CST → CST → Bool
  | .node k _ _, .node k' _ _ => decide (k = k')
  | .leaf (.module _) _, .leaf (.module _) _ => true
  | .leaf (.ident _) _, .leaf (.ident _) _ => true
  | .leaf (.text _) _, .leaf (.text _) _ => true
  | .leaf .invalid _, _ => false
  | .leaf k _, .leaf k' _ => decide (k = k')
  | _, _ => false

/-- The parser succeeds, leaves this many tokens, and its result satisfies the assertion. -/
def parsesTo (r : PRes) (left : Nat) (p : CST → Bool) : Bool :=
  match r with
  | .ok (c, ts) => decide (ts.length = left) && p c
  | _ => false

/-- The child at this index is of this kind; where there is no such child the test fails. -/
def childIs (i : Nat) (k : CST) (c : CST) : Bool :=
  match c.children[i]? with
  | some d => d.matchesKind k
  | none => false

/-- The child at this index satisfies the assertion. -/
def childHas (i : Nat) (p : CST → Bool) (c : CST) : Bool :=
  match c.children[i]? with
  | some d => p d
  | none => false

/-- The tests of crates/brack-parser/src/text.rs. -/
example : parsesTo (pText [⟨.text (chars! "text"), mockLocation⟩]) 0 (·.matchesKind (.leaf (.text (chars! "text")) mockLocation)) = true ∧
    (pText [⟨.dot, mockLocation⟩]).isErr = true := by decide +kernel

/-- The tests of crates/brack-parser/src/comma.rs. -/
example : parsesTo (pComma [⟨.comma, mockLocation⟩]) 0 (·.matchesKind (.leaf (.comma) mockLocation)) = true ∧
    (pComma [⟨.bopen .angle, mockLocation⟩]).isErr = true := by decide +kernel

/-- The tests of crates/brack-parser/src/dot.rs. -/
example : parsesTo (pDot [⟨.dot, mockLocation⟩]) 0 (·.matchesKind (.leaf (.dot) mockLocation)) = true ∧
    (pDot []).isErr = true ∧
    (pDot [⟨.bopen .angle, mockLocation⟩]).isErr = true := by decide +kernel

/-- The tests of crates/brack-parser/src/eof.rs. -/
example : parsesTo (pEof [⟨.eof, mockLocation⟩]) 0 (·.matchesKind (.leaf (.eof) mockLocation)) = true ∧
    (pEof []).isErr = true ∧
    (pEof [⟨.bopen .angle, mockLocation⟩]).isErr = true := by decide +kernel

/-- The tests of crates/brack-parser/src/ident.rs. -/
example : parsesTo (pIdent [⟨.ident (chars! "foo"), mockLocation⟩]) 0 (·.matchesKind (.leaf (.ident (chars! "foo")) mockLocation)) = true ∧
    (pIdent [⟨.dot, mockLocation⟩]).isErr = true := by decide +kernel

/-- The tests of crates/brack-parser/src/modules.rs. -/
example : parsesTo (pModule [⟨.module (chars! "module"), mockLocation⟩]) 0 (·.matchesKind (.leaf (.module (chars! "module")) mockLocation)) = true ∧
    (pModule [⟨.dot, mockLocation⟩]).isErr = true := by decide +kernel

/-- The tests of crates/brack-parser/src/newline.rs. -/
example : parsesTo (pNewline [⟨.newLine, mockLocation⟩]) 0 (·.matchesKind (.leaf (.newline) mockLocation)) = true ∧
    (pNewline [⟨.dot, mockLocation⟩]).isErr = true := by decide +kernel

/-- The tests of crates/brack-parser/src/whitespace.rs. -/
example : parsesTo (pWhitespace [⟨.whiteSpace, mockLocation⟩]) 0 (·.matchesKind (.leaf (.whitespace) mockLocation)) = true ∧
    (pWhitespace [⟨.dot, mockLocation⟩]).isErr = true := by decide +kernel

/-- The tests of crates/brack-parser/src/bracket_close.rs. -/
example : parsesTo (pBracketClose [⟨.bclose .angle, mockLocation⟩]) 0 (·.matchesKind (.leaf (.bclose .angle) mockLocation)) = true ∧
    parsesTo (pBracketClose [⟨.bclose .square, mockLocation⟩]) 0 (·.matchesKind (.leaf (.bclose .square) mockLocation)) = true ∧
    parsesTo (pBracketClose [⟨.bclose .curly, mockLocation⟩]) 0 (·.matchesKind (.leaf (.bclose .curly) mockLocation)) = true ∧
    (pBracketClose []).isErr = true ∧
    (pBracketClose [⟨.bopen .angle, mockLocation⟩]).isErr = true ∧
    (pBracketClose [⟨.bopen .square, mockLocation⟩]).isErr = true ∧
    (pBracketClose [⟨.bopen .curly, mockLocation⟩]).isErr = true := by decide +kernel

/-- The tests of crates/brack-parser/src/escaped.rs L86-178. -/
example : parsesTo (pEscaped [⟨.backSlash, mockLocation⟩, ⟨.dot, mockLocation⟩]) 0 (fun c => c.matchesKind (.node .backSlash [] mockLocation) &&
      childIs 0 (.leaf (.text (chars! ".")) mockLocation) c) = true ∧
    parsesTo (pEscaped [⟨.backSlash, mockLocation⟩, ⟨.comma, mockLocation⟩]) 0 (fun c => c.matchesKind (.node .backSlash [] mockLocation) &&
      childIs 0 (.leaf (.text (chars! ",")) mockLocation) c) = true ∧
    parsesTo (pEscaped [⟨.backSlash, mockLocation⟩, ⟨.bopen .angle, mockLocation⟩]) 0 (fun c => c.matchesKind (.node .backSlash [] mockLocation) &&
      childIs 0 (.leaf (.text (chars! "<")) mockLocation) c) = true ∧
    parsesTo (pEscaped [⟨.backSlash, mockLocation⟩, ⟨.bclose .angle, mockLocation⟩]) 0 (fun c => c.matchesKind (.node .backSlash [] mockLocation) &&
      childIs 0 (.leaf (.text (chars! ">")) mockLocation) c) = true ∧
    parsesTo (pEscaped [⟨.backSlash, mockLocation⟩, ⟨.backSlash, mockLocation⟩]) 0 (fun c => c.matchesKind (.node .backSlash [] mockLocation) &&
      childIs 0 (.leaf (.text (chars! "\\")) mockLocation) c) = true ∧
    parsesTo (pEscaped [⟨.backSlash, mockLocation⟩, ⟨.text (chars! "Hello!"), mockLocation⟩]) 1 (fun c => c.matchesKind (.node .backSlash [] mockLocation) &&
      decide (c.children.length = 0)) = true := by decide +kernel

/-- `test_escaped_parse_failures`, crates/brack-parser/src/escaped.rs L179-198. -/
example : (pEscaped []).isErr = true ∧
    (pEscaped [⟨.dot, mockLocation⟩]).isErr = true ∧
    (pEscaped [⟨.comma, mockLocation⟩]).isErr = true ∧
    (pEscaped [⟨.bopen .angle, mockLocation⟩]).isErr = true ∧
    (pEscaped [⟨.bclose .angle, mockLocation⟩]).isErr = true ∧
    (pEscaped [⟨.text (chars! "Hello!"), mockLocation⟩]).isErr = true := by decide +kernel

/-- `test_bracket_parse_valid_angle_bracket`, crates/brack-parser/src/angle.rs L92. -/
example : parsesTo (pBracket pBodyItems [⟨.bopen .angle, mockLocation⟩, ⟨.module (chars! "std"), mockLocation⟩, ⟨.dot, mockLocation⟩, ⟨.ident (chars! "*"), mockLocation⟩, ⟨.whiteSpace, mockLocation⟩, ⟨.text (chars! "Hello!"), mockLocation⟩, ⟨.bclose .angle, mockLocation⟩]) 0
    (fun c => c.matchesKind (.node (.bracket .angle) [] mockLocation) && childIs 0 (.leaf (.bopen .angle) mockLocation) c &&
      childIs 1 (.node .expr [] mockLocation) c &&
      childHas 1 (childIs 0 (.leaf (.module (chars! "std")) mockLocation)) c &&
      childHas 1 (childIs 1 (.leaf (.dot) mockLocation)) c &&
      childHas 1 (childIs 2 (.leaf (.ident (chars! "*")) mockLocation)) c &&
      childHas 1 (childIs 3 (.leaf (.whitespace) mockLocation)) c &&
      childHas 1 (childIs 4 (.leaf (.text (chars! "Hello!")) mockLocation)) c &&
      childIs 2 (.leaf (.bclose .angle) mockLocation) c) = true := by decide +kernel

/-- `test_bracket_parse_invalid_angle_bracket`, crates/brack-parser/src/angle.rs L139. -/
example : parsesTo (pBracket pBodyItems [⟨.bopen .angle, mockLocation⟩, ⟨.module (chars! "std"), mockLocation⟩, ⟨.dot, mockLocation⟩, ⟨.ident (chars! "*"), mockLocation⟩, ⟨.whiteSpace, mockLocation⟩, ⟨.text (chars! "Hello!"), mockLocation⟩, ⟨.eof, mockLocation⟩]) 1
    (fun c => c.matchesKind (.node (.bracket .angle) [] mockLocation) && childIs 0 (.leaf (.bopen .angle) mockLocation) c &&
      childIs 1 (.node .expr [] mockLocation) c &&
      childHas 1 (childIs 0 (.leaf (.module (chars! "std")) mockLocation)) c &&
      childHas 1 (childIs 1 (.leaf (.dot) mockLocation)) c &&
      childHas 1 (childIs 2 (.leaf (.ident (chars! "*")) mockLocation)) c &&
      childHas 1 (childIs 3 (.leaf (.whitespace) mockLocation)) c &&
      childHas 1 (childIs 4 (.leaf (.text (chars! "Hello!")) mockLocation)) c) = true := by decide +kernel

end Brack
