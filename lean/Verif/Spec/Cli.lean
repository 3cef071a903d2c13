import Verif.Model.Cli
import Verif.Spec.World
import Verif.Spec.Project
import Verif.Spec.Calls
import Verif.Spec.Identifiers

/-
Vocabulary for statements about `brack compile`.
-/

namespace Brack

/-- An ASCII letter. -/
def IsLetter (c : Char) : Prop := ('a' ≤ c ∧ c ≤ 'z') ∨ ('A' ≤ c ∧ c ≤ 'Z')

/-- An ASCII letter or digit. -/
def IsAlphanumeric (c : Char) : Prop := IsLetter c ∨ ('0' ≤ c ∧ c ≤ '9')

/-- The text begins with this name in letters, an underscore, letters or digits, any character but a line feed, and
`wasm`: the pattern `[[:alpha:]]+_[[:alnum:]]+.wasm`. -/
def FitsPattern (s name : Str) : Prop :=
  name ≠ [] ∧ (∀ c ∈ name, IsLetter c) ∧
  ∃ hash c rest, hash ≠ [] ∧ (∀ d ∈ hash, IsAlphanumeric d) ∧ c ≠ '\n' ∧
    s = name ++ chars! "_" ++ hash ++ [c] ++ chars! "wasm" ++ rest

/-- The name found by a search for the pattern in the text: that of the leftmost match. -/
def Captured (text name : Str) : Prop :=
  ∃ before s, text = before ++ s ∧ FitsPattern s name ∧
    ∀ before' s' n, text = before' ++ s' → before'.length < before.length → ¬ FitsPattern s' n

/-- The text has these tokens. -/
def HasTokens (S : Segmenter) (text : Str) (ts : List Token) : Prop := tokenizeStr S text = .ok ts

/-- The text has this concrete syntax tree. -/
def HasCST (S : Segmenter) (text : Str) (c : CST) : Prop := ∃ ts, HasTokens S text ts ∧ parse ts = .ok c

/-- The text has this abstract syntax tree and these errors. -/
def HasAST (S : Segmenter) (ids : Nat → Str) (text : Str) (a : AST) (es : List TErr) : Prop :=
  ∃ c, HasCST S text c ∧ transform ids c = .ok (a, es)

/-- The text has this abstract syntax tree after macro expansion by these plugins. -/
def HasExpanded {W : Wasm} (S : Segmenter) (ids : Nat → Str) (text : Str) (ps : Plugins W) (b : AST) : Prop :=
  ∃ a es, HasAST S ids text a es ∧ (expander a ps).1 = .ok b

/-- There is no macro call in the text. -/
def MacroFree (S : Segmenter) (text : Str) : Prop :=
  ∀ ids a es, HasAST S ids text a es → a.macros = []

/-- Calls of commands and hooks leave nothing behind: the state after a call is as good as the state
before. -/
structure Wasm.Traceless (W : Wasm) (R : W.State → W.State → Prop) : Prop where
  equivalence : Equivalence R
  text : ∀ s f vs, R s (W.callText s f vs).2

/-- The command prints lines as described and succeeds, or there are no such lines, it fails and prints
nothing. -/
def Prints (x : IOM Unit) (w : World) (P : List Str → Prop) : Prop :=
  (∃ ls, P ls ∧ (x w).1 = .ok () ∧ (x w).2.lines = w.lines ++ ls) ∨
  ((∀ ls, ¬ P ls) ∧ (x w).1 ≠ .ok () ∧ (x w).2.lines = w.lines)

/-- The directory of plugins: the option, or else the environment variable. -/
def PluginDir (args : CompileArgs) (envDir : Option Str) (dir : Str) : Prop :=
  args.pluginsDir = some dir ∨ (args.pluginsDir = none ∧ envDir = some dir)

end Brack
