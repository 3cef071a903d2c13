import Verif.Model.Codegen
import Verif.Spec.Calls
import Verif.Spec.Written

/-
The output of a document as authors write them, read off from the document and what the commands return.
-/

namespace Brack

/-- What a function returns for given values does not depend on which functions were called before. -/
def Wasm.Steady (W : Wasm) : Prop :=
  ∀ s f vs g ws, (W.callText (W.callText s f vs).2 g ws).1 = (W.callText s g ws).1

instance (ts : List PType) (n : Nat) : Decidable (Admissible ts n) := inferInstanceAs (Decidable (_ ∧ _))

/-- What a command or hook returns for these values, if it exists and does not fail. -/
def Plugins.answer {W : Wasm} (ps : Plugins W) (plugin command : Str) (typ : PType) (vs : List Value) : Option Str := do
  let p ← ps.nameToPlugin.get plugin
  let m ← p.signatures.get (command, typ)
  match (W.callText p.extism m.callName vs).1 with
  | .ok r => some r
  | .error _ => none

/-- A text after the hook, if a plugin has it. -/
def Plugins.hooked {W : Wasm} (ps : Plugins W) (hook : Option Str) (command : Str) (typ : PType) (s : Str) : Option Str :=
  match hook with
  | none => some s
  | some p => ps.answer p command typ [.text s]

/-- The value of the parameter of type `t` at position `i`: the argument at this position, for an array all arguments from
there on. -/
def valueAt (args : List Str) (i : Nat) : PType → Value
  | .option _ => .textOption args[i]?
  | .array _ => .textArray (args.drop i)
  | _ => .text (args[i]?.getD [])

/-- What a command returns for these arguments, if their number is admissible. -/
def Plugins.applied {W : Wasm} (ps : Plugins W) (b : Bracket) (m n : Str) (args : List Str) : Option Str := do
  let typ ← b.commandType
  let ts ← ps.signature m n typ
  if Admissible ts args.length then ps.answer m n typ (ts.mapIdx (valueAt args)) else none

mutual

/-- The output of a part: texts after the text hook, and what commands return for the outputs of their arguments. -/
def Markup.output {W : Wasm} (ps : Plugins W) : Markup → Option Str
  | .words s => ps.hooked ps.textHook (chars! "text") .inline s
  | .escaped c => ps.hooked ps.textHook (chars! "text") .inline [c]
  | .blank _ => some []
  | .call b m n args =>
    if onlyBlanks args then ps.applied b m n [] else (Markup.outputArgs ps args).bind (ps.applied b m n)

/-- The outputs of the parts of a line or an argument, put together. -/
def Markup.outputL {W : Wasm} (ps : Plugins W) : List Markup → Option Str
  | [] => some []
  | i :: is => do return (← i.output ps) ++ (← Markup.outputL ps is)

/-- The outputs of arguments, each after the hook for expressions. -/
def Markup.outputArgs {W : Wasm} (ps : Plugins W) : List (List Markup) → Option (List Str)
  | [] => some []
  | a :: as => do
    return (← (Markup.outputL ps a).bind (ps.hooked ps.exprHook (chars! "expr") .inline)) :: (← Markup.outputArgs ps as)

end

/-- The output of a paragraph: of its lines, each after the hook for expressions, together after the hook for statements. -/
def paragraphOutput {W : Wasm} (ps : Plugins W) (p : List (List Markup)) : Option Str :=
  (Markup.outputArgs ps p).bind fun rs => ps.hooked ps.stmtHook (chars! "stmt") .block rs.flatten

/-- The output of a document: of its paragraphs, together after the hook for documents. -/
def documentOutput {W : Wasm} (ps : Plugins W) (d : List (List (List Markup))) : Option Str :=
  (d.mapM (paragraphOutput ps)).bind fun rs => ps.hooked ps.documentHook (chars! "document") .block rs.flatten

/-- `Put x y is js`: the lines or arguments `is` and `js` are the same, except for one place, possibly within arguments of
commands, where the first has `x` and the second has `y`. -/
inductive Markup.Put (x y : List Markup) : List Markup → List Markup → Prop
  | here (before after : List Markup) : Put x y (before ++ x ++ after) (before ++ y ++ after)
  | inside {before after b m n args a a' args'} : Put x y a a' →
      Put x y (before ++ [.call b m n (args ++ a :: args')] ++ after) (before ++ [.call b m n (args ++ a' :: args')] ++ after)

/-- The same for documents. -/
def PutInto (x y : List Markup) (d d' : List (List (List Markup))) : Prop :=
  ∃ before lines line line' lines' after, Markup.Put x y line line' ∧
    d = before ++ (lines ++ line :: lines') :: after ∧ d' = before ++ (lines ++ line' :: lines') :: after

end Brack
