import Verif.Model.Utf8

/-
The file system, the network and the terminal, as far as the commands of brack use them.
-/

namespace Brack

/-- What goes wrong in one operation on the file system: nothing, it is refused, or the process dies or the
disk fills up after some bytes have been written. Of the operations of
crates/brack-project-manager/src/project.rs L32-160, plugin.rs L183-281 and src/main.rs L35-149. -/
inductive Fault where
  | none
  | refused
  | cut (written : Nat)
  deriving Repr, DecidableEq

/-- What the program does to the outside, crates/brack-project-manager/src/project.rs L89, L112, L143, L150,
plugin.rs L249, L265, L281, src/main.rs L65-149. -/
inductive IOEvent where
  | request (url : Str)
  | wrote (path : Str) (bytes : Bytes)
  | printed (line : Str)
  | sent (bytes : Bytes)
  deriving Repr, DecidableEq

/-- The outside of the program. Simplified: paths are compared as strings, so there are no links and no
different spellings of one path; names are UTF-8; `dirs` are the directories other than the current one.
`faults n` says what goes wrong in the n-th operation, `http n url` is the body of a successful response to
a request made as n-th operation, or `none` if the request fails, has another status or breaks off; `clock`
counts the operations. Reads of a file or directory that is changed by another process at the same time are
not represented. `log` is not read by the program. What crates/brack-project-manager/src/project.rs,
plugin.rs (L183-281) and src/main.rs (L35-149) act on. -/
structure World where
  files : HMap Str Bytes
  dirs : List Str
  faults : Nat → Fault
  http : Nat → Str → Option Bytes
  clock : Nat
  log : List IOEvent

/-- A function with access to the outside that returns a `Result`. E.g.
crates/brack-project-manager/src/project.rs L120. -/
abbrev IOM (α : Type) := World → Res α × World

namespace IOM

/-- `Ok(a)`. E.g. crates/brack-project-manager/src/project.rs L161. -/
def pure (a : α) : IOM α := fun w => (.ok a, w)

/-- The `?` operator. E.g. crates/brack-project-manager/src/project.rs L127. -/
def bind (x : IOM α) (f : α → IOM β) : IOM β := fun w =>
  match x w with
  | (.ok a, w) => f a w
  | (.err m, w) => (.err m, w)
  | (.panic, w) => (.panic, w)

instance : Monad IOM where
  pure := IOM.pure
  bind := IOM.bind

/-- `return Err(..)`. E.g. crates/brack-project-manager/src/plugin.rs L188. -/
def fail (m : String) : IOM α := fun w => (.err m, w)

/-- A result computed without access to the outside. E.g. crates/brack-project-manager/src/project.rs L138. -/
def lift (r : Res α) : IOM α := fun w => (r, w)

end IOM

/-- The directory part of a path, as in `Path::parent`: the text before the last slash. Library code, used
in crates/brack-project-manager/src/project.rs L112, L143. -/
def parentDir (path : Str) : Str := ((path.reverse.dropWhile (· ≠ '/')).drop 1).reverse

/-- The file name of an entry of a directory: what follows the directory and a slash. Library code, used in
crates/brack-project-manager/src/project.rs L129-130. -/
def entryName (dir path : Str) : Option Str :=
  if (dir ++ ['/']).isPrefixOf path then
    let name := path.drop (dir.length + 1)
    if name = [] ∨ '/' ∈ name then none else some name
  else none

namespace World

/-- Is there such a directory? The empty path stands for the current directory, which always exists. Library
code, used in crates/brack-project-manager/src/project.rs L112, L143. -/
def hasDir (w : World) (dir : Str) : Bool := dir = [] || dir ∈ w.dirs

/-- `Path::exists`, crates/brack-project-manager/src/plugin.rs L181-184, project.rs L72. -/
def pathExists (w : World) (path : Str) : Bool := (w.files.get path).isSome || path ∈ w.dirs

/-- The names of the files and directories in a directory, crates/brack-project-manager/src/project.rs L127,
L151. -/
def entries (w : World) (dir : Str) : List Str :=
  (w.files.map (·.1)).filterMap (entryName dir) ++ w.dirs.filterMap (entryName dir)

end World

namespace IOM

/-- An operation on the file system that has no result but may go wrong. E.g.
crates/brack-project-manager/src/project.rs L129. -/
def step : IOM Unit := fun w =>
  match w.faults w.clock with
  | .none => (.ok (), { w with clock := w.clock + 1 })
  | _ => (.err "input/output error", { w with clock := w.clock + 1 })

/-- `Path::exists`, crates/brack-project-manager/src/plugin.rs L181-184, project.rs L72. -/
def pathExists (path : Str) : IOM Bool := fun w => (.ok (w.pathExists path), w)

/-- `std::fs::read`, crates/brack-plugin/src/plugin.rs L26. -/
def readFile (path : Str) : IOM Bytes := do
  step
  fun w =>
    match w.files.get path with
    | some bytes => (.ok bytes, w)
    | none => (.err "no such file", w)

/-- `std::fs::read_to_string`, crates/brack-project-manager/src/project.rs L32,
crates/brack-tokenizer/src/tokenize.rs L7-9. -/
def readText (path : Str) : IOM Str := do
  let bytes ← readFile path
  match fromUtf8 bytes with
  | some text => return text
  | none => fail "stream did not contain valid UTF-8"

/-- `std::fs::write`, which truncates the file before it writes; also `File::create` with `io::copy` into
the new file. Fails if the directory does not exist or the path is a directory,
crates/brack-project-manager/src/project.rs L112, L143, plugin.rs L265-266, L281. -/
def writeFile (path : Str) (bytes : Bytes) : IOM Unit := fun w =>
  let w' := { w with clock := w.clock + 1 }
  if w.hasDir (parentDir path) && path ∉ w.dirs then
    match w.faults w.clock with
    | .none =>
      (.ok (), { w' with files := w.files.insert path bytes, log := w.log ++ [.wrote path bytes] })
    | .refused => (.err "input/output error", w')
    | .cut n =>
      (.err "input/output error",
        { w' with
          files := w.files.insert path (bytes.take n), log := w.log ++ [.wrote path (bytes.take n)] })
  else (.err "no such directory", w')

/-- `std::fs::create_dir_all`, crates/brack-project-manager/src/project.rs L142, plugin.rs L264. Simplified:
for a path without slashes, as in all its uses. -/
def createDirAll (dir : Str) : IOM Unit := do
  step
  fun w =>
    if (w.files.get dir).isSome then (.err "not a directory", w)
    else if dir ∈ w.dirs then (.ok (), w)
    else (.ok (), { w with dirs := w.dirs ++ [dir] })

/-- `std::fs::create_dir`, src/main.rs L127-128. -/
def createDir (dir : Str) : IOM Unit := do
  step
  fun w =>
    if w.pathExists dir || !w.hasDir (parentDir dir) || dir = [] then (.err "cannot create directory", w)
    else (.ok (), { w with dirs := w.dirs ++ [dir] })

/-- `std::fs::read_dir`: the names of the entries. Their order, unspecified in Rust, is that of the model of
the file system. The empty path is not accepted, crates/brack-project-manager/src/project.rs L127, L151,
src/main.rs L35. -/
def readDir (dir : Str) : IOM (List Str) := do
  step
  fun w => if dir ∈ w.dirs then (.ok (w.entries dir), w) else (.err "no such directory", w)

/-- `println!`, crates/brack-project-manager/src/project.rs L150, L159, src/main.rs L65-118. Simplified:
printing does not fail. -/
def printLine (line : Str) : IOM Unit := fun w =>
  (.ok (), { w with log := w.log ++ [.printed line] })

/-- `reqwest::get(url)` followed by the check of the status and `response.bytes()`,
crates/brack-project-manager/src/project.rs L89-101, plugin.rs L249-263. -/
def httpGet (url : Str) : IOM (Option Bytes) := fun w =>
  (.ok (w.http w.clock url), { w with clock := w.clock + 1, log := w.log ++ [.request url] })

end IOM

end Brack
