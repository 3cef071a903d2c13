import Verif.Model.Pipeline
import Verif.Spec.Calls

/-
Vocabulary for what a document decides and what plugins decide.
-/

namespace Brack

/-- A value without its texts: one text, a list of so many texts, or an optional text that is given or not. -/
inductive ValueForm where
  | text
  | list (length : Nat)
  | option (given : Bool)
  deriving Repr, DecidableEq

/-- The form of a value. -/
def Value.form : Value → ValueForm
  | .text _ => .text
  | .textArray ss => .list ss.length
  | .textOption o => .option o.isSome

/-- A call without the texts passed and returned: the plugin, the command, and the form of the values; for a macro the whole
tree and the identifier of the call. -/
inductive CallForm where
  | command (plugin command : Str) (typ : PType) (values : List ValueForm)
  | macro (plugin command : Str) (typ : PType) (tree : AST) (id : Str)

/-- The form of a call. -/
def Call.form (c : Call) : CallForm :=
  match c.input with
  | .values vs => .command c.plugin c.command c.typ (vs.map Value.form)
  | .tree a id => .macro c.plugin c.command c.typ a id

/-- Two sets of plugins, possibly with different implementations, declare the same commands and hooks. -/
structure SameDeclarations {V W : Wasm} (ps : Plugins V) (qs : Plugins W) : Prop where
  documentHook : ps.documentHook = qs.documentHook
  stmtHook : ps.stmtHook = qs.stmtHook
  exprHook : ps.exprHook = qs.exprHook
  textHook : ps.textHook = qs.textHook
  plugins : ∀ n, (ps.nameToPlugin.get n).map (·.signatures) = (qs.nameToPlugin.get n).map (·.signatures)

/-- The function that the plugin declares for this call returned this error. -/
def Gave {W : Wasm} (ps : Plugins W) (c : Call) (e : String) : Prop :=
  ∃ p m s s', ps.nameToPlugin.get c.plugin = some p ∧ p.signatures.get (c.command, c.typ) = some m ∧
    match c.input with
    | .values vs => W.callText s m.callName vs = (.error e, s')
    | .tree a id => W.callMacro s m.callName a id = (.error e, s')

end Brack
