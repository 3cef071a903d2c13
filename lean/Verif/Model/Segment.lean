import Verif.Model.Basic

/-
Grapheme segmentation (`unicode_segmentation::UnicodeSegmentation::graphemes(true)`), an external
crate: a parameter of the model.
-/

namespace Brack

/-- A cluster consisting of the NUL character, `"\0"` in the source, crates/brack-tokenizer/src/utils.rs L6.
-/
def NUL : Str := [Char.ofNat 0]

/-- The assumed behaviour of `str::graphemes(true)` (unicode-segmentation 1.12, called in
crates/brack-tokenizer/src/utils.rs L4, L7, L9). All fields are facts about the extended grapheme
clusters of UAX #29; `Model/Uax29.lean` builds an inhabitant from the published rules. -/
structure Segmenter where
  /-- the clusters of a text, in order -/
  graphemes : Str → List Str
  /-- clusters partition the text -/
  flatten : ∀ s, (graphemes s).flatten = s
  /-- clusters are not empty -/
  nonempty : ∀ s, ∀ g ∈ graphemes s, g ≠ []
  /-- segmentation of the text remaining after the first cluster is the remaining segmentation -/
  suffix : ∀ s g gs, graphemes s = g :: gs → graphemes gs.flatten = gs
  /-- segmentation of the text before a boundary is the segmentation before that boundary -/
  pre : ∀ s as bs, graphemes s = as ++ bs → graphemes as.flatten = as
  /-- ASCII texts without carriage returns are segmented character by character -/
  ascii : ∀ s : Str, (∀ c ∈ s, c.toNat < 128 ∧ c ≠ '\r') → graphemes s = s.map (fun c => [c])
  /-- a CR LF pair is one cluster -/
  crlf : ∀ s, graphemes ('\r' :: '\n' :: s) = ['\r', '\n'] :: graphemes s
  /-- a NUL is always a cluster of its own -/
  nul : ∀ s, ∀ g ∈ graphemes s, Char.ofNat 0 ∈ g → g = NUL
  /-- a carriage return is a cluster of its own or begins a CR LF cluster -/
  cr : ∀ s, ∀ g ∈ graphemes s, '\r' ∈ g → g = ['\r'] ∨ g = ['\r', '\n']
  /-- a line feed is a cluster of its own or ends a CR LF cluster -/
  lf : ∀ s, ∀ g ∈ graphemes s, '\n' ∈ g → g = ['\n'] ∨ g = ['\r', '\n']

end Brack
