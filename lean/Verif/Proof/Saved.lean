import Verif.Spec.Saved
import Verif.Spec.Paragraphs
import Verif.Props.Editor

/-
Lemmas for C139: the diagnostics shown for a document that can be read.
-/

namespace Brack

theorem shows_of_reads {X : ServerEnv} {text : Str} {a : AST} {es : List TErr} (hlen : text.length < 2 ^ 32)
    (h : Reads X.E.S (X.E.ids 0) text a es) : X.Shows text (es.map Server.seenError) := by
  obtain ⟨ts, c, h1, h2, h3⟩ := h
  intro s msg uri path w hw hm hp hf hc hs
  have hl : ∀ e ∈ trace [] ts, e.looseSeparator = false := by
    have := (C17_panic_iff ts c (X.E.ids 0) h2).1
    rw [h3] at this
    simpa using this
  obtain ⟨a', es', k1, k2, _, k3⟩ := C51_published_partial X s msg uri path text w ts c hw hm hp hf hc hlen h1 h2 hl
  rw [h3] at k1
  injection k1 with k1
  injection k1 with _ k1
  subst k1
  exact ⟨k2, k3 hs⟩

theorem seenError_notClosed (e : TErr) : (Server.seenError e).notClosed? = e.notClosed? := by
  rcases e with ⟨k, l⟩
  cases k with
  | notClosed b => cases b <;> rfl
  | notOpened b => cases b <;> rfl
  | _ => rfl

theorem seenErrors_notClosed (es : List TErr) :
    (es.map Server.seenError).filterMap SeenDiagnostic.notClosed? = es.filterMap TErr.notClosed? := by
  rw [List.filterMap_map]
  congr 1
  funext e
  exact seenError_notClosed e

theorem seenErrors_lines (es : List TErr) :
    (es.map Server.seenError).map (fun d => (d.message, d.startLine, d.endLine)) =
      (es.map (fun e => (e.kind, e.loc.start.line, e.loc.stop.line))).map (fun x => (x.1.description, x.2)) := by
  rw [List.map_map, List.map_map]; rfl

end Brack
