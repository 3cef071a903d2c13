import Verif.Model.Project

/-
Model of `run_compile`, src/main.rs L15-124.
-/

namespace Brack

/-- `[[:alpha:]]`, src/main.rs L34. -/
def isAlpha (c : Char) : Bool := ('a' ≤ c && c ≤ 'z') || ('A' ≤ c && c ≤ 'Z')

/-- `[[:alnum:]]`, src/main.rs L34. -/
def isAlnum (c : Char) : Bool := isAlpha c || ('0' ≤ c && c ≤ '9')

/-- `[[:alnum:]]*.wasm` at the beginning of the text, `.` being any character but a line feed, src/main.rs
L34. -/
def matchesTail : Str → Bool
  | [] => false
  | c :: s => (c ≠ '\n' && (chars! "wasm").isPrefixOf s) || (isAlnum c && matchesTail s)

/-- The pattern of src/main.rs L34 at the beginning of the text: the group `module_name`. The letters
are followed by `_`, so that the group is the longest run of letters. -/
def moduleAt (s : Str) : Option Str :=
  let name := s.takeWhile isAlpha
  match s.dropWhile isAlpha with
  | '_' :: c :: rest => if name ≠ [] ∧ isAlnum c ∧ matchesTail rest then some name else none
  | _ => none

/-- `pattern.captures(path)` and the group `module_name`, src/main.rs L39-44: the leftmost match. -/
def moduleName : Str → Option Str
  | [] => none
  | c :: s =>
    match moduleAt (c :: s) with
    | some name => some name
    | none => moduleName s

/-- The loop over the plugin directory, src/main.rs L36-47. -/
def scanPlugins (dir : Str) : List Str → PluginsMetadata → IOM PluginsMetadata
  | [], md => return md
  | name :: rest, md => do
    IOM.step
    let path := dir ++ chars! "/" ++ name
    match moduleName path with
    | some m => scanPlugins dir rest (md.insert m (path, {}))
    | none => scanPlugins dir rest md

/-- The plugins of `brack compile`, src/main.rs L35-53. Simplified: the order of iteration over `pathes` is
that of the insertions. -/
def compilePlugins (W : Wasm) (dir : Str) : IOM (List (Plugin W)) := do
  let entries ← IOM.readDir dir
  let md ← scanPlugins dir entries []
  loadPlugins W md

/-- The options of `brack compile`, src/sub_commands.rs L5-24; `backend`, which is not used, is left
out. -/
structure CompileArgs where
  pluginsDir : Option Str
  filename : Str
  level : Nat
  json : Bool

/-- The output formats of `run_compile`: `serde_json::to_string` if the flag is set, `{:?}` otherwise,
src/main.rs L63-70, L75-80, L86-95, L102-107. -/
structure Formats where
  tokens : Bool → List Token → List Str
  cst : Bool → CST → List Str
  ast : Bool → AST → List Str
  errors : List TErr → List Str

/-- Several lines printed, src/main.rs L67-69, L90-92. -/
def printLines : List Str → IOM Unit
  | [] => return ()
  | l :: ls => do
    IOM.printLine l
    printLines ls

/-- `str::ends_with`. Library code, used in src/main.rs L56. -/
def endsWith (suffix s : Str) : Bool := suffix.reverse.isPrefixOf s.reverse

/-- The part of `run_compile` after the plugins have been loaded, src/main.rs L56-121. -/
def runStage {W : Wasm} (E : Env) (F : Formats) (args : CompileArgs) (ps : Plugins W) : IOM Unit :=
  if !endsWith (chars! ".[]") args.filename then IOM.fail "Filename must end with .[]"
  else
    match args.level with
    | 1 => do
      let tokens ← IOM.lift (tokenizeStr E.S (← IOM.readText args.filename))
      printLines (F.tokens args.json tokens)
    | 2 => do
      let tokens ← IOM.lift (tokenizeStr E.S (← IOM.readText args.filename))
      let cst ← IOM.lift (parse tokens)
      printLines (F.cst args.json cst)
    | 3 => do
      let tokens ← IOM.lift (tokenizeStr E.S (← IOM.readText args.filename))
      let cst ← IOM.lift (parse tokens)
      let (ast, errors) ← IOM.lift (transform (E.ids 0) cst)
      if args.json then printLines (F.ast true ast)
      else if errors ≠ [] then printLines (F.errors errors)
      else printLines (F.ast false ast)
    | 4 => do
      let tokens ← IOM.lift (tokenizeStr E.S (← IOM.readText args.filename))
      let cst ← IOM.lift (parse tokens)
      let (ast, _errors) ← IOM.lift (transform (E.ids 0) cst)
      let expanded ← IOM.lift (expander ast ps).1
      printLines (F.ast args.json expanded)
    | 5 =>
      if args.json then IOM.fail "Cannot output JSON at output level 5."
      else do
        let tokens ← IOM.lift (tokenizeStr E.S (← IOM.readText args.filename))
        let cst ← IOM.lift (parse tokens)
        let (ast, _errors) ← IOM.lift (transform (E.ids 0) cst)
        let (expanded, ps) := expander ast ps
        let expanded ← IOM.lift expanded
        let gen ← IOM.lift (generate E.checks expanded ps).1
        IOM.printLine gen
    | _ => IOM.fail "Invalid output level."

/-- `run_compile`, src/main.rs L15-124. `envDir` is the value of the environment variable
`BRACK_PLUGINS_PATH`. -/
def runCompile (W : Wasm) (E : Env) (F : Formats) (envDir : Option Str) (args : CompileArgs) : IOM Unit := do
  let plugins ← compilePlugins W (args.pluginsDir.getD (envDir.getD []))
  let ps ← IOM.lift (Plugins.new plugins)
  runStage E F args ps

end Brack
