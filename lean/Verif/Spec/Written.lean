import Verif.Model.Uax29
import Verif.Spec.Ast
import Verif.Spec.Tokens

/-
Specification vocabulary for documents as their authors think of them: paragraphs of lines of words and
commands, how they are written down, and the syntax tree they mean.
-/

namespace Brack

/-- What a line or an argument is made of. -/
inductive Markup where
  /-- plain text -/
  | words (s : Str)
  /-- a character written after a backslash -/
  | escaped (c : Char)
  /-- a space or a line end within an argument -/
  | blank (c : Char)
  /-- a command or macro with its arguments -/
  | call (b : Bracket) (module name : Str) (args : List (List Markup))

mutual

/-- How it is written: `[module.name argument,argument]`. -/
def Markup.write : Markup → Str
  | .words s => s
  | .escaped c => ['\\', c]
  | .blank c => [c]
  | .call b m n args =>
    b.openChar :: m ++ '.' :: n ++ (if args.isEmpty then [] else ' ' :: Markup.writeArgs args) ++ [b.closeChar]

/-- How a line or an argument is written. -/
def Markup.writeL : List Markup → Str
  | [] => []
  | i :: is => i.write ++ Markup.writeL is

/-- How arguments are written: with commas between them. -/
def Markup.writeArgs : List (List Markup) → Str
  | [] => []
  | a :: as => Markup.writeL a ++ (if as.isEmpty then [] else ',' :: Markup.writeArgs as)

end

/-- Is this a blank? -/
def Markup.isBlank : Markup → Bool
  | .blank _ => true
  | _ => false

/-- Is there nothing but blanks where the arguments would be, as in `[module.name ]`? -/
def onlyBlanks (args : List (List Markup)) : Bool := args.length == 1 && args.all (fun a => a.all Markup.isBlank)

/-- The number of arguments. -/
def argCount (args : List (List Markup)) : Nat := if onlyBlanks args then 0 else args.length

mutual

/-- The syntax tree it means; blanks mean nothing. -/
def Markup.shape : Markup → List Shape
  | .words s => [.leaf .text (some s)]
  | .escaped c => [.leaf .text (some [c])]
  | .blank _ => []
  | .call b m n args =>
    [.node (.bracket b) (.leaf .module (some m) :: .leaf .ident (some n) ::
      (if onlyBlanks args then [] else Markup.shapeArgs args))]

/-- The trees of a line or an argument. -/
def Markup.shapeL : List Markup → List Shape
  | [] => []
  | i :: is => i.shape ++ Markup.shapeL is

/-- The trees of the arguments: one expression each. -/
def Markup.shapeArgs : List (List Markup) → List Shape
  | [] => []
  | a :: as => .node .expr (Markup.shapeL a) :: Markup.shapeArgs as

end

/-- Characters with a meaning inside brackets. -/
def markChars : List Char := [' ', '.', ','] ++ specialChars

/-- A name or a word: not empty, without special characters. -/
def plainBut (special : List Char) (s : Str) : Bool := !s.isEmpty && s.all (fun c => !special.contains c)

/-- Is this plain text? -/
def Markup.isWords : Markup → Bool
  | .words _ => true
  | _ => false

mutual

/-- Can this be written here? Inside brackets texts are words separated by blanks, outside they can hold
spaces, dots and commas. Backslashes can be escaped, inside brackets also dots and commas. No argument of
several is blank. -/
def Markup.ok (inside : Bool) : Markup → Bool
  | .words s => plainBut (if inside then markChars else specialChars) s
  | .escaped c => c == '\\' || (inside && (c == '.' || c == ','))
  | .blank c => inside && (c == ' ' || c == '\n')
  | .call _ m n args => plainBut markChars m && plainBut markChars n && (Markup.okArgs args &&
    (onlyBlanks args || args.all (fun a => a.any (fun i => !i.isBlank))))

/-- Can this line or argument be written here? Texts do not follow each other immediately. -/
def Markup.okL (inside : Bool) : List Markup → Bool
  | [] => true
  | i :: is => i.ok inside && Markup.okL inside is && !(i.isWords && (is.head?.any Markup.isWords))

/-- Can each of these arguments be written? -/
def Markup.okArgs : List (List Markup) → Bool
  | [] => true
  | a :: as => Markup.okL true a && Markup.okArgs as

end

/-- A paragraph: one or more lines, none empty. -/
def paragraphOk (p : List (List Markup)) : Bool :=
  !p.isEmpty && p.all (fun line => !line.isEmpty && Markup.okL false line)

/-- How a paragraph is written: line by line. -/
def writeLines : List (List Markup) → Str
  | [] => []
  | line :: lines => Markup.writeL line ++ (if lines.isEmpty then [] else '\n' :: writeLines lines)

/-- How a document can be written: with one or more blank lines between paragraphs, and any number of line
ends at the end. -/
inductive WrittenAs : List (List (List Markup)) → Str → Prop
  | empty (n : Nat) : WrittenAs [] (List.replicate n '\n')
  | last (p : List (List Markup)) (n : Nat) : paragraphOk p = true →
    WrittenAs [p] (writeLines p ++ List.replicate n '\n')
  | more (p : List (List Markup)) (n : Nat) (d : List (List (List Markup))) (s : Str) : paragraphOk p = true →
    2 ≤ n → d ≠ [] → WrittenAs d s → WrittenAs (p :: d) (writeLines p ++ List.replicate n '\n' ++ s)

/-- The syntax tree of a document: a statement for each paragraph, an expression for each line. -/
def documentShape (d : List (List (List Markup))) : Shape :=
  .node .document (d.map (fun p => .node .stmt (p.map (fun line => .node .expr (Markup.shapeL line)))))

/-- Every character with a meaning is a user-perceived character of its own (none carries a combining
mark). -/
def OwnClusters (S : Segmenter) (text : Str) : Prop :=
  ∀ g ∈ S.graphemes text, ∀ c ∈ g, c ∈ markChars → g = [c]

/-- By the rules of Unicode: no character with a meaning is followed by a combining character or preceded
by a prepended one, and lines do not end in carriage return and line feed. -/
def Uncombined (T : UTable) (text : Str) : Prop :=
  ∀ pre c d post, text = pre ++ c :: d :: post →
    (c ∈ markChars → T.gcb d ≠ .extend ∧ T.gcb d ≠ .zwj ∧ T.gcb d ≠ .spacing) ∧
    (d ∈ markChars → T.gcb c ≠ .prepend) ∧ ¬ (c = '\r' ∧ d = '\n')

mutual

/-- A syntax tree of this shape. -/
def Shape.tree : Shape → AST
  | .leaf k v => .leaf k [] v ⟨⟨0, 0⟩, ⟨0, 0⟩⟩
  | .node k cs => .node k [] (Shape.treeL cs) ⟨⟨0, 0⟩, ⟨0, 0⟩⟩

/-- Syntax trees of these shapes. -/
def Shape.treeL : List Shape → List AST
  | [] => []
  | c :: cs => c.tree :: Shape.treeL cs

end

mutual

/-- Is there a macro call in it? -/
def Markup.hasMacro : Markup → Bool
  | .call b _ _ args => b == .angle || Markup.hasMacroArgs args
  | _ => false

/-- Is there a macro call in the list? -/
def Markup.hasMacroL : List Markup → Bool
  | [] => false
  | i :: is => i.hasMacro || Markup.hasMacroL is

/-- Is there a macro call in the arguments? -/
def Markup.hasMacroArgs : List (List Markup) → Bool
  | [] => false
  | a :: as => Markup.hasMacroL a || Markup.hasMacroArgs as

end

/-- Is there a macro call in the document? -/
def hasMacros (d : List (List (List Markup))) : Bool := d.any (fun p => p.any Markup.hasMacroL)

/-- The call is in the line or argument, possibly within arguments of other calls. -/
inductive CallIn (b : Bracket) (m n : Str) (args : List (List Markup)) : List Markup → Prop
  | here {is} : Markup.call b m n args ∈ is → CallIn b m n args is
  | deeper {is b' m' n' args' a} : Markup.call b' m' n' args' ∈ is → a ∈ args' → CallIn b m n args a →
    CallIn b m n args is

mutual

/-- The same with escaped characters taken as plain text. -/
def Markup.unescape : Markup → Markup
  | .escaped c => .words [c]
  | .words s => .words s
  | .blank c => .blank c
  | .call b m n args => .call b m n (Markup.unescapeArgs args)

/-- The same for a line or an argument. -/
def Markup.unescapeL : List Markup → List Markup
  | [] => []
  | i :: is => i.unescape :: Markup.unescapeL is

/-- The same for arguments. -/
def Markup.unescapeArgs : List (List Markup) → List (List Markup)
  | [] => []
  | a :: as => Markup.unescapeL a :: Markup.unescapeArgs as

end

end Brack
