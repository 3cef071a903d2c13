import Verif.Model.Tokenizer

/-
What the tokenizer keeps in memory while it runs: each call of `dispatch` happens inside the previous
one, whose tokenizer (an owned value with a copy of the remaining text and of the tokens so far) is
dropped only after it has returned.
-/

namespace Brack

/-- The tokenizers of the nested calls of `dispatch`, outermost first, at the moment of the innermost
call; crates/brack-tokenizer/src/dispatch.rs L12-98 calls e.g. text.rs L9-60, which ends in
`dispatch(&t.merge(&t2))`: the merged tokenizer is a temporary that lives until this call returns, and
so do the locals of the callers. Simplified: the further copies (`s`, `tail`, `tokens`, `t2`) that the
same frames own are not listed; compilers that turn such calls into jumps are not considered (the
temporaries have destructors). -/
def activations (S : Segmenter) (t : Tokenizer) : List Tokenizer :=
  match _h : step S t with
  | .ok (.inr t') => t :: activations S t'
  | _ => [t]
termination_by remaining S t
decreasing_by exact step_decreases S t t' (by assumption)

/-- The number of characters of the remaining text held by one tokenizer,
crates/brack-tokenizer/src/tokenizer.rs L9. -/
def Tokenizer.held (t : Tokenizer) : Nat := (t.untreated.getD []).length

/-- How many calls of `dispatch` are nested in each other while a text is tokenized
(`tokenize_str`, crates/brack-tokenizer/src/tokenize.rs L13-29). -/
def callDepth (S : Segmenter) (text : Str) : Nat := (activations S (initTokenizer text)).length

/-- How many characters of remaining text these calls hold at the same time,
crates/brack-tokenizer/src/tokenize.rs L13-29. -/
def charsHeld (S : Segmenter) (text : Str) : Nat :=
  ((activations S (initTokenizer text)).map Tokenizer.held).sum

end Brack
