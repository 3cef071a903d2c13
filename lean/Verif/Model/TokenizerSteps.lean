import Verif.Model.Resources

/-
The steps the tokenizer takes: one for each call, and one for each character and each token that is copied or
looked at to find the clusters. The tokenizers of the calls are those of `Model/Resources.lean`. Simplified:
numbers, locations and the path of the document, which is empty in all but the first tokenizer, are not
counted, and finding the clusters of a text counts as looking at each of its characters once.
-/

namespace Brack

/-- The characters of the word in a token, crates/brack-tokenizer/src/tokens.rs L4-22. -/
def TokKind.word : TokKind → Str
  | .text s | .module s | .ident s => s
  | _ => []

/-- What is copied to copy a list of tokens (`t.tokens.clone()`, e.g.
crates/brack-tokenizer/src/text.rs L21-24): the tokens with their words. -/
def tokensBulk (ts : List Token) : Nat := (ts.map fun t => 1 + t.kind.word.length).sum

/-- What is copied to copy a tokenizer, crates/brack-tokenizer/src/tokenizer.rs L3-17; also what `merge`
(L20-68) copies, which clones each field of its result. -/
def Tokenizer.bulk (t : Tokenizer) : Nat :=
  (t.untreated.getD []).length + (t.pool.getD []).length + tokensBulk (t.tokens.getD [])

/-- `separate`, crates/brack-tokenizer/src/utils.rs L3-15: the clusters are counted, then copied. -/
def separateSteps (s : Str) : Nat := 1 + 2 * s.length

/-- An arm of the `match` in `dispatch` (crates/brack-tokenizer/src/dispatch.rs L66-97) up to the `merge`. The
default arm (L88-96) joins the pool and the cluster; text.rs L9-60, identifier.rs L9-62 and module.rs L9-60 copy
the remaining text, separate it, copy the pool and the tokens and push one; the others do the same without the
pool. -/
def armSteps (s pool head : Str) (tokens : List Token) : Action → Nat
  | .pool => pool.length + head.length
  | .text | .identifier | .module =>
    1 + s.length + separateSteps s + pool.length + head.length + tokensBulk tokens + 1
  | _ => 1 + s.length + separateSteps s + tokensBulk tokens + 1

/-- One call of `dispatch` up to the next one, crates/brack-tokenizer/src/dispatch.rs L12-98: the remaining text
and the pool are copied (L13-20), the text is separated (L25), and at its end the tokens are copied and one is
pushed (L27-48); otherwise the tail is separated (L51), and an arm is taken, whose `merge` copies a tokenizer. -/
def dispatchSteps (S : Segmenter) (t : Tokenizer) : Nat :=
  let s := t.untreated.getD []
  let pool := t.pool.getD []
  let tokens := t.tokens.getD []
  let head := (separate S s).1
  let tail := (separate S s).2
  let nested := decide (t.angleNestCount.getD 0 + t.curlyNestCount.getD 0 + t.squareNestCount.getD 0 > 0)
  1 + s.length + pool.length + separateSteps s +
  if head = NUL then tokensBulk tokens + 1
  else
    separateSteps tail +
    armSteps s pool head tokens (action head (separate S tail).1 (t.lookingForIdentifier.getD false) nested) +
    match step S t with
    | .ok (.inr t') => t'.bulk
    | _ => 0

/-- `tokenize_str`, crates/brack-tokenizer/src/tokenize.rs L13-29, which copies the text. -/
def tokenizerSteps (S : Segmenter) (text : Str) : Nat :=
  1 + text.length + ((activations S (initTokenizer text)).map (dispatchSteps S)).sum

end Brack
