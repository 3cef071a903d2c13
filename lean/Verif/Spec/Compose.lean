import Verif.Spec.Paragraphs
import Verif.Spec.Identifiers

/-
Specification vocabulary for commands that are replaced by others: texts that are one command, places where a
command may stand, and trees that differ at one place.
-/

namespace Brack

/-- A token that is neither a bracket nor a backslash nor the end. -/
def Token.IsWord (t : Token) : Prop :=
  t.kind ≠ .backSlash ∧ t.kind ≠ .eof ∧ t.kind ≠ .empty ∧ ∀ b, t.kind ≠ .bopen b ∧ t.kind ≠ .bclose b

/-- Tokens in which brackets come in pairs: every opening bracket is followed, after tokens of the same sort, by
the closing bracket of its kind. A token after a backslash does not count. -/
inductive Nested : List Token → Prop
  | nil : Nested []
  | word {t ts} : t.IsWord → Nested ts → Nested (t :: ts)
  | escape {t u ts} : t.kind = .backSlash → u.kind ≠ .eof → u.kind ≠ .empty → Nested ts → Nested (t :: u :: ts)
  | group {o c b inner ts} : o.kind = .bopen b → Nested inner → c.kind = .bclose b → Nested ts →
      Nested (o :: inner ++ c :: ts)

/-- The text `x` is one command in brackets of kind `b`: it starts with such a bracket, which is closed by its last
token; inside, brackets come in pairs; brackets after a backslash come in pairs, too; and the last command in it has
a name. -/
structure Command (S : Segmenter) (b : Bracket) (x : Str) : Prop where
  noNul : Char.ofNat 0 ∉ x
  starts : ∃ gs, S.graphemes x = [b.openChar] :: gs
  tokens : ∃ o body c e, tokenizeStr S x = .ok (o :: body ++ [c, e]) ∧ o.kind = .bopen b ∧ c.kind = .bclose b ∧
    Nested body ∧ depth body = 0 ∧ (∀ p, p <+: body → 0 ≤ depth p) ∧ nameDue false (o :: body) = false

/-- A command may stand after the text `u`: it does not end in a backslash, its last command has a name already, and
it has no more closing than opening brackets. -/
structure Place (S : Segmenter) (u : Str) : Prop where
  noNul : Char.ofNat 0 ∉ u
  tokens : ∃ ts e, tokenizeStr S u = .ok (ts ++ [e]) ∧ (∀ p ∈ ts.getLast?, p.kind ≠ .backSlash) ∧
    nameDue false ts = false ∧ 0 ≤ depth ts

/-- No character cluster extends over the limits of `x` in `u ++ x ++ v`. -/
def Apart (S : Segmenter) (u x v : Str) : Prop :=
  S.graphemes (u ++ x ++ v) = S.graphemes u ++ S.graphemes x ++ S.graphemes v

/-- `Shape.Swapped s s' t t'`: the trees `t` and `t'` are the same, except for one place, where the first has `s` and
the second has `s'`. -/
inductive Shape.Swapped (s s' : Shape) : Shape → Shape → Prop
  | here : Swapped s s' s s'
  | inside {k before t t' after} : Swapped s s' t t' →
      Swapped s s' (.node k (before ++ t :: after)) (.node k (before ++ t' :: after))

/-- Read on its own, the text is a document whose only content is `s`; the errors reported are of the kinds `ks`. -/
def Alone (S : Segmenter) (ids : Nat → Str) (x : Str) (s : Shape) (ks : List TErrKind) : Prop :=
  ∃ a es, Reads S ids x a es ∧ a.shape = .node .document [.node .stmt [.node .expr [s]]] ∧ es.map TErr.kind = ks

/-- The same plugins without a hook for documents and without one for statements. -/
def Plugins.plain {W : Wasm} (ps : Plugins W) : Plugins W := { ps with documentHook := none, stmtHook := none }

/-- Whenever the text `x` is compiled, so is `x'`, with the same result, and the plugins are left in the same state.
This for all states of the plugins of `ps`. -/
def Yields {W : Wasm} (S : Segmenter) (ids : Nat → Str) (checks : Bool) (ps : Plugins W) (x x' : Str) : Prop :=
  ∀ qs qs', Plugins.Related (fun _ _ => True) ps qs → Plugins.Related Eq qs qs' → ∀ gen qs1,
    compileText S ids checks x qs = (.ok gen, qs1) →
    ∃ qs1', compileText S ids checks x' qs' = (.ok gen, qs1') ∧ Plugins.Related Eq qs1 qs1'

end Brack
