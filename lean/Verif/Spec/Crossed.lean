import Verif.Spec.Exchange
import Verif.Spec.Registry

/-
Vocabulary for C127: plugins that offer their inline commands as block commands and the other way around.
-/

namespace Brack

/-- Inline for block and the other way around. -/
def PType.other : PType → PType
  | .inline => .block
  | .block => .inline
  | t => t

/-- Neither is offered, or both are, as the same function and with the same parameters. -/
def SameOffer : Option Metadata → Option Metadata → Prop
  | none, none => True
  | some m, some m' => m.callName = m'.callName ∧ m.argumentTypes = m'.argumentTypes
  | _, _ => False

/-- What a call was, except for the kind of the command. -/
def Call.what (c : Call) : Str × Str × Input × Output := (c.plugin, c.command, c.input, c.output)

/-- The plugins of `qs` are those of `ps`, in the same states, except that what is offered as an inline command in `ps` is
offered as a block command in `qs`, and the other way around; the hooks are bound to the same plugins and to the same functions
of them. -/
structure Crossed {W : Wasm} (ps qs : Plugins W) : Prop where
  hook : ∀ k : Hook, ps.hook k = qs.hook k
  plugins : ∀ n, (ps.nameToPlugin.get n = none ∧ qs.nameToPlugin.get n = none) ∨
    ∃ p q, ps.nameToPlugin.get n = some p ∧ qs.nameToPlugin.get n = some q ∧ p.extism = q.extism ∧
      (∀ c t, t = .inline ∨ t = .block → SameOffer (p.signatures.get (c, t)) (q.signatures.get (c, t.other))) ∧
      ∀ k : Hook, ps.hook k = some n →
        SameOffer (p.signatures.get (k.command, k.typ)) (q.signatures.get (k.command, k.typ))
  log : ps.log.map Call.what = qs.log.map Call.what

/-- No word and no name of the tree contains a square or curly bracket. (Only an escaped bracket can.) -/
def AST.Unbracketed (a : AST) : Prop :=
  ∀ c ∈ a.contents, ∀ x ∈ c.value.getD [], x ∉ ['{', '}', '[', ']']

end Brack
