import Verif.Spec.Server

/-
Vocabulary for statements about questions to the language server.
-/

namespace Brack

/-- A message other than those by which the client introduces itself or a document. -/
def Json.Question (v : Json) : Prop :=
  v.get (chars! "method") ≠ some (.str (chars! "initialize")) ∧
    v.get (chars! "method") ≠ some (.str (chars! "textDocument/didOpen"))

/-- The network answers a request in the same way at all times. -/
def World.Steady (w : World) : Prop := ∀ n m url, w.http n url = w.http m url

/-- What has been done since: the events of the log after those of `w`. -/
def World.Since (w w' : World) (events : List IOEvent) : Prop := w'.log = w.log ++ events

end Brack
