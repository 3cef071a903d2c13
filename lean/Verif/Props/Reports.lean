import Verif.Proof.Reports
import Verif.Proof.Cases
import Verif.Props.Editor

/-
Properties of the errors of a document (C128).
-/

namespace Brack

/-! ### C128 -/

/-- C128: the errors of a document are those read off its tokens from left to right: the same errors, at the same places, in the
same order. -/
theorem C128_errors {ts : List Token} {c : CST} {ids : Nat → Str} {a : AST} {es : List TErr}
    (hp : parse ts = .ok c) (hx : transform ids c = .ok (a, es)) : es = report [] ts :=
  transform_report hp hx

/-- A document with commands in commands, two of which end with the document, and errors of all kinds but one. -/
example (S : Segmenter) : ∃ ts c a es,
    tokenizeStr S (chars! "[a.b [p q] {x.y c,} ,,d.e, <g.f\nz\\q") = .ok ts ∧ parse ts = .ok c ∧
      transform someIds c = .ok (a, es) ∧ (es.length = 11 ∧ report [] ts = es) :=
  front_case S (chars! "[a.b [p q] {x.y c,} ,,d.e, <g.f\nz\\q") (by decide +kernel)
    (fun ts _ _ es => es.length = 11 ∧ report [] ts = es) (by decide +kernel)

/-- C128: when a document is saved in an editor that shows diagnostics, the diagnostics sent to it are those read off its
tokens, unless the document makes the server crash (C17, C51). -/
theorem C128_published (X : ServerEnv) (s : Server) (msg : Json) (uri path text : Str) (w : World)
    (toks : List Token) (c : CST) (hw : w.Healthy) (hm : msg.IsEvent (chars! "textDocument/didSave"))
    (hp : X.P.didSave (msg.index (chars! "params")) = some uri) (hf : X.P.toFilePath uri = some path)
    (hc : w.Contains path text) (hlen : text.length < 2 ^ 32) (ht : tokenizeStr X.E.S text = .ok toks)
    (hpc : parse toks = .ok c) (hl : ∀ e ∈ trace [] toks, e.looseSeparator = false) (hs : s.publishDiagnostics = true) :
    ∃ v, w.Said X.P (Server.dispatch X s msg w).2 [v] ∧ v.IsNotification ∧
      v.seenDiagnostics = some ((report [] toks).map (fun e => ⟨e.loc.start.line, e.loc.start.character, e.loc.stop.line,
        e.loc.stop.character, e.kind.description⟩)) := by
  obtain ⟨a, es, hx, _, _, h⟩ := C51_published_partial X s msg uri path text w toks c hw hm hp hf hc hlen ht hpc hl
  rw [← C128_errors hpc hx]
  exact h hs

/-- The errors of single commands: a comma that ends no argument, a missing name, and a command that is not closed. -/
example : report [] [⟨.bopen .curly, l⟩, ⟨.module m, l⟩, ⟨.dot, l⟩, ⟨.ident i, l⟩, ⟨.whiteSpace, l⟩, ⟨.comma, k⟩,
      ⟨.bclose .curly, l⟩, ⟨.eof, l⟩] = [⟨.unexpectedComma, k⟩] ∧
    report [] [⟨.bopen .curly, l⟩, ⟨.module m, l⟩, ⟨.dot, l⟩, ⟨.bclose .curly, k⟩, ⟨.eof, l⟩] = [⟨.identifierNotFound, k⟩] ∧
    report [] [⟨.bopen .square, l⟩, ⟨.module m, l⟩, ⟨.dot, l⟩, ⟨.ident i, k⟩, ⟨.bclose .curly, l⟩, ⟨.eof, l⟩] =
      [⟨.notClosed .square, mergeLocation l k⟩] := by
  refine ⟨rfl, rfl, rfl⟩

end Brack
