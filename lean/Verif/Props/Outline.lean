import Verif.Proof.Outline
import Verif.Proof.Cases

/-
Properties of the abstract tree of a document (C129).
-/

namespace Brack

/-! ### C129 -/

/-- C129: the abstract tree of a document, errors or not, is the one read off its tokens from left to right. -/
theorem C129_tree {ts : List Token} {c : CST} {ids : Nat → Str} {a : AST} {es : List TErr}
    (hp : parse ts = .ok c) (hx : transform ids c = .ok (a, es)) : a.shape = outline ts :=
  transform_outline hp hx

/-- A document with two statements, the first one with two lines, commands in commands, an empty argument, a useless backslash and
two commands that are not closed. -/
example (S : Segmenter) : ∃ ts c a es,
    tokenizeStr S (chars! "a[m.f b,,{n.g} c]\n\\[\n\n<p q [x.y z\\q\n") = .ok ts ∧ parse ts = .ok c ∧
      transform someIds c = .ok (a, es) ∧ (es.length = 7 ∧ outline ts =
        .node .document [
          .node .stmt [
            .node .expr [.leaf .text (some ['a']), .node (.bracket .square) [.leaf .module (some ['m']), .leaf .ident (some ['f']),
              .node .expr [.leaf .text (some ['b'])],
              .node .expr [.node (.bracket .curly) [.leaf .module (some ['n']), .leaf .ident (some ['g'])],
                .leaf .text (some ['c'])]]],
            .node .expr [.leaf .text (some ['['])]],
          .node .stmt [
            .node .expr [.node (.bracket .angle) [.leaf .ident (some ['p']), .leaf .text (some ['q']),
              .node (.bracket .square) [.leaf .module (some ['x']), .leaf .ident (some ['y']),
                .node .expr [.leaf .text (some ['z']), .leaf .invalid none, .leaf .text (some ['q'])]]]]]]) :=
  front_case S (chars! "a[m.f b,,{n.g} c]\n\\[\n\n<p q [x.y z\\q\n") (by decide +kernel)
    (fun ts _ _ es => es.length = 7 ∧ outline ts = _) (by decide +kernel)

/-- A closing bracket that closes nothing may stand on a line of its own and leaves no trace but the line. -/
example : outline [⟨.text ['a'], l⟩, ⟨.newLine, l⟩, ⟨.bclose .curly, l⟩, ⟨.newLine, l⟩, ⟨.text ['b'], l⟩, ⟨.eof, l⟩] =
    .node .document [.node .stmt [.node .expr [.leaf .text (some ['a'])], .node .expr [.leaf .text (some ['b'])]]] := rfl

end Brack
