import Verif.Model.Cli
import Verif.Model.Server

/-
Model of `main`, src/main.rs L153-181.
-/

namespace Brack

/-- `SubCommands`, src/sub_commands.rs L3-34. Simplified: what the language server reads from the standard
input is given with the subcommand. The options are taken as parsed by the crate `clap`. -/
inductive SubCommand where
  | compile (args : CompileArgs)
  | build
  | languageServer (reads : List Bytes)
  | new (name : Str)
  | add (schema : Str)
  | version

/-- What the commands depend on besides the options and the outside: the libraries, the output formats and
the environment variables `BRACK_PLUGINS_PATH` and `APP_VERSION`, absent if not set or not UTF-8,
src/main.rs L31, L171. -/
structure MainEnv where
  X : ServerEnv
  F : Formats
  pluginsPath : Option Str
  appVersion : Option Str

/-- `SubCommands::LanguageServer`, src/main.rs L164-167. -/
def languageServerCommand (X : ServerEnv) (reads : List Bytes) : IOM Unit := do
  let _ ← Server.run X reads [] {}
  return ()

/-- `SubCommands::Version`, src/main.rs L170-178. -/
def versionCommand (appVersion : Option Str) : IOM Unit :=
  IOM.printLine (chars! "Brack " ++ appVersion.getD (chars! "0.2.0"))

/-- `main`, src/main.rs L153-181. -/
def mainCommand (M : MainEnv) : SubCommand → IOM Unit
  | .build => buildCommand M.X.W M.X.E
  | .compile args => runCompile M.X.W M.X.E M.F M.pluginsPath args
  | .languageServer reads => languageServerCommand M.X reads
  | .new name => newProject name
  | .add schema => addPlugin M.X.E.toml schema
  | .version => versionCommand M.appVersion

end Brack
