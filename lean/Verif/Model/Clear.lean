import Verif.Model.Project

/-
Clearing the cache of plugins.
-/

namespace Brack

/-- Is this path in the directory or in one of its subdirectories? Library code, used in
crates/brack-project-manager/src/project.rs L38. -/
def isBelow (dir path : Str) : Bool := (dir ++ ['/']).isPrefixOf path

/-- The files that remain after the first `n` files below a directory are deleted,
crates/brack-project-manager/src/project.rs L38. -/
def deleteBelow (dir : Str) : Nat → HMap Str Bytes → HMap Str Bytes
  | 0, m => m
  | _, [] => []
  | n + 1, x :: m => if isBelow dir x.1 then deleteBelow dir n m else x :: deleteBelow dir (n + 1) m

/-- `std::fs::remove_dir_all`, crates/brack-project-manager/src/project.rs L38. Fails if there is no such
directory. It may stop after some of the files have been deleted. Simplified: files are deleted before
directories, in the order of the list; links do not exist. -/
def IOM.removeDirAll (dir : Str) : IOM Unit := fun w =>
  let w' := { w with clock := w.clock + 1 }
  if dir ∈ w.dirs then
    match w.faults w.clock with
    | .none =>
      (.ok (), { w' with
        files := w.files.filter fun x => !isBelow dir x.1
        dirs := w.dirs.filter fun d => d ≠ dir && !isBelow dir d })
    | .refused => (.err "input/output error", w')
    | .cut n => (.err "input/output error", { w' with files := deleteBelow dir n w.files })
  else (.err "no such directory", w')

/-- `clear_plugins`, crates/brack-project-manager/src/project.rs L37-42, with the metadata of the plugins
known to the project before and after. The path is relative to the current directory whatever the root of
the project. -/
def clearPlugins (md : PluginsMetadata) : World → (Res Unit × PluginsMetadata) × World := fun w =>
  let run : IOM Unit := do
    IOM.removeDirAll (chars! "plugins")
    IOM.createDir (chars! "plugins")
  match run w with
  | (.ok (), w) => ((.ok (), []), w)
  | (.err m, w) => ((.err m, md), w)
  | (.panic, w) => ((.panic, md), w)

end Brack
