import Verif.Model.Main
import Verif.Spec.Project

/-
Vocabulary for statements about all commands.
-/

namespace Brack

/-- The path names a file directly in the directory. -/
def FileIn (dir path : Str) : Prop := ∃ name, name ≠ [] ∧ '/' ∉ name ∧ path = dir ++ chars! "/" ++ name

/-- The files a command may write. -/
def SubCommand.MayWrite : SubCommand → Str → Prop
  | .new name, path =>
    path = name ++ chars! "/docs/main.[]" ∨ path = name ++ chars! "/Brack.toml" ∨ path = name ++ chars! "/.gitignore"
  | .add _, path => path = chars! "Brack.toml" ∨ FileIn (chars! "plugins") path
  | .build, path => FileIn (chars! "plugins") path ∨ FileIn (chars! "out") path
  | .languageServer _, path => FileIn (chars! "plugins") path
  | .compile _, _ => False
  | .version, _ => False

/-- The directories a command may create. -/
def SubCommand.MayCreate : SubCommand → Str → Prop
  | .new name, dir => dir = name ∨ dir = name ++ chars! "/docs"
  | .add _, dir => dir = chars! "plugins"
  | .build, dir => dir = chars! "out"
  | .languageServer _, _ => False
  | .compile _, _ => False
  | .version, _ => False

/-- The commands that use the network. -/
def SubCommand.Online : SubCommand → Prop
  | .add _ | .build | .languageServer _ => True
  | _ => False

/-- The commands that read the plugin names and the backend from a configuration and use them for paths. -/
def SubCommand.UsesConfig : SubCommand → Prop
  | .build | .languageServer _ => True
  | _ => False

/-- The backend and the names of the plugins contain no slash. -/
def Config.Flat (c : Config) : Prop :=
  '/' ∉ c.document.backend ∧ ∀ name s, c.plugin name = some s → '/' ∉ name

/-- All configurations found in files `Brack.toml` have names without slashes. -/
def World.FlatConfigs (w : World) (T : Toml) : Prop :=
  ∀ path bytes text v c, chars! "Brack.toml" <:+ path → w.files.get path = some bytes → fromUtf8 bytes = some text →
    T.parse text = some v → Config.ofToml v = .ok c → c.Flat

/-- Every file and directory lies in a directory that exists. -/
def World.Rooted (w : World) : Prop :=
  ∀ path, w.pathExists path = true → parentDir path = [] ∨ parentDir path ∈ w.dirs

/-- What follows the directory and a slash in a path. -/
def below (dir path : Str) : Option Str :=
  if dir ++ chars! "/" <+: path then some (path.drop (dir.length + 1)) else none

/-- The outside as seen from a directory, as far as it lies in the directory: after `cd dir`. -/
def World.enter (w : World) (dir : Str) : World :=
  { w with
    files := w.files.filterMap fun f => (below dir f.1).map fun path => (path, f.2)
    dirs := w.dirs.filterMap (below dir) }

/-- Between the two moments nothing but the files described has been written and nothing but the directories
described has been created; no file or directory has disappeared. -/
structure Confined (write create : Str → Prop) (w w' : World) : Prop where
  log : ∃ l, w'.log = w.log ++ l ∧ ∀ path bytes, IOEvent.wrote path bytes ∈ l → write path
  files : ∀ path, ¬ write path → w'.files.get path = w.files.get path
  keeps : ∀ path, (w.files.get path).isSome → (w'.files.get path).isSome
  dirs : ∀ dir, dir ∈ w'.dirs → dir ∈ w.dirs ∨ create dir
  keepsDirs : ∀ dir, dir ∈ w.dirs → dir ∈ w'.dirs

end Brack
