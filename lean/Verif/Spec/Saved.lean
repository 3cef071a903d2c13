import Verif.Spec.Server
import Verif.Spec.World

/-
Specification vocabulary for C139: what an editor shows when a document is saved.
-/

namespace Brack

/-- Whenever a document with this text is saved in an editor that shows diagnostics, the server goes on as before and sends one
message, a notification with these diagnostics. -/
def ServerEnv.Shows (X : ServerEnv) (text : Str) (ds : List SeenDiagnostic) : Prop :=
  ∀ (s : Server) (msg : Json) (uri path : Str) (w : World), w.Healthy → msg.IsEvent (chars! "textDocument/didSave") →
    X.P.didSave (msg.index (chars! "params")) = some uri → X.P.toFilePath uri = some path → w.Contains path text →
    s.publishDiagnostics = true →
    (Server.dispatch X s msg w).1 = .ok s ∧
      ∃ v, w.Said X.P (Server.dispatch X s msg w).2 [v] ∧ v.IsNotification ∧ v.seenDiagnostics = some ds

/-- The bracket a diagnostic says not to be closed, and the place where it begins. -/
def SeenDiagnostic.notClosed? (d : SeenDiagnostic) : Option (Bracket × Pos) :=
  if d.message = chars! "Angle bracket not closed" then some (.angle, ⟨d.startLine, d.startCharacter⟩)
  else if d.message = chars! "Curly bracket not closed" then some (.curly, ⟨d.startLine, d.startCharacter⟩)
  else if d.message = chars! "Square bracket not closed" then some (.square, ⟨d.startLine, d.startCharacter⟩)
  else none

end Brack
