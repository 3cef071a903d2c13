import Verif.Proof.Lexed
import Verif.Props.Tokenizer
import Verif.Proof.Cases

/-
C131: the tokens of a text are exactly those read off its characters.
-/

namespace Brack

open UTable (sampleSeg)

/-- C131: the kinds of the tokens, with the words they carry, are those read off the characters of
the text from left to right. -/
theorem C131_kinds (S : Segmenter) (text : Str) :
    ∃ ts, tokenizeStr S text = .ok ts ∧ ts.map (·.kind) = lexed 0 false (S.graphemes text) :=
  ⟨_, tokenizeStr_eq S text, (run_lexed (S.graphemes text)).1 M.init rfl⟩

/-- C131: the tokens of a text are the one list that has these kinds and tiles the text. -/
theorem C131_tokens (S : Segmenter) (text : Str) (ts : List Token) :
    tokenizeStr S text = .ok ts ↔
      ts.map (·.kind) = lexed 0 false (S.graphemes text) ∧ Tiles S ⟨0, 0⟩ ts := by
  obtain ⟨us, hus, hk⟩ := C131_kinds S text
  constructor
  · intro h
    rw [hus] at h
    injection h with h
    subst h
    exact ⟨hk, C03_tiles S text us hus⟩
  · rintro ⟨h1, h2⟩
    rw [hus, tiles_unique S us ts ⟨0, 0⟩ (C03_tiles S text us hus) h2 (by rw [hk, h1])]

/-- A text with words of all kinds: a module, a name, text inside and outside, an escaped bracket. -/
example : ∃ ts, tokenizeStr sampleSeg (chars! "a. [b.c d,e] \\]") = .ok ts ∧
    ts.map (·.kind) = [.text (chars! "a. "), .bopen .square, .module (chars! "b"), .dot,
      .ident (chars! "c"), .whiteSpace, .text (chars! "d"), .comma, .text (chars! "e"),
      .bclose .square, .text (chars! " "), .backSlash, .bclose .square, .eof] :=
  ⟨_, tokenize_ascii _ _ (by decide), by decide⟩

/-- The same kinds, from the specification. -/
example : lexed 0 false ((chars! "a. [b.c d,e] \\]").map fun c => [c]) =
    [.text (chars! "a. "), .bopen .square, .module (chars! "b"), .dot,
      .ident (chars! "c"), .whiteSpace, .text (chars! "d"), .comma, .text (chars! "e"),
      .bclose .square, .text (chars! " "), .backSlash, .bclose .square, .eof] := by
  decide +kernel

end Brack
