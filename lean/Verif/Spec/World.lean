import Verif.Model.World

/-
Vocabulary for statements about the effects of commands.
-/

namespace Brack

/-- The address of a request. -/
def IOEvent.url? : IOEvent → Option Str
  | .request url => some url
  | _ => none

/-- The path and contents of a write. -/
def IOEvent.write? : IOEvent → Option (Str × Bytes)
  | .wrote path bytes => some (path, bytes)
  | _ => none

/-- The line printed. -/
def IOEvent.line? : IOEvent → Option Str
  | .printed line => some line
  | _ => none

/-- The requests made so far. -/
def World.requests (w : World) : List Str := w.log.filterMap IOEvent.url?

/-- The writes made so far. -/
def World.writes (w : World) : List (Str × Bytes) := w.log.filterMap IOEvent.write?

/-- The lines printed so far. -/
def World.lines (w : World) : List Str := w.log.filterMap IOEvent.line?

/-- Nothing goes wrong on the file system from now on. -/
def World.Healthy (w : World) : Prop := ∀ n, w.clock ≤ n → w.faults n = .none

/-- No write stops in the middle from now on. -/
def World.Uncut (w : World) : Prop := ∀ n k, w.clock ≤ n → w.faults n ≠ .cut k

/-- Two worlds with the same files and directories. -/
def World.SameDisk (w w' : World) : Prop := w'.files = w.files ∧ w'.dirs = w.dirs

end Brack
