import Verif.Spec.Written

/-
Specification vocabulary: how to write a call with given arguments.
-/

namespace Brack

/-- The line for one cluster of an argument: dots, commas and backslashes are written after a backslash. -/
def argLine (g : Str) : Str :=
  if g = ['.'] ∨ g = [','] ∨ g = ['\\'] then '\\' :: g ++ ['\n'] else g ++ ['\n']

/-- An argument, one cluster per line. -/
def argLines (S : Segmenter) (arg : Str) : Str := '\n' :: ((S.graphemes arg).map argLine).flatten

/-- The document that calls `module.name` with these arguments. -/
def callDoc (S : Segmenter) (b : Bracket) (module name : Str) (args : List Str) : Str :=
  b.openChar :: module ++ '.' :: name ++ [' '] ++
    (if args = [] then ['\n'] else List.intercalate [','] (args.map (argLines S))) ++ [b.closeChar]

/-- The argument can be written: it is not empty, and has no spaces, line ends, carriage returns, brackets or NUL; its
dots, commas and backslashes carry no combining marks. -/
structure Passable (S : Segmenter) (arg : Str) : Prop where
  nonempty : arg ≠ []
  chars : ∀ c ∈ arg, c ∈ markChars → c = '.' ∨ c = ',' ∨ c = '\\'
  cr : '\r' ∉ arg
  own : OwnClusters S arg

end Brack
