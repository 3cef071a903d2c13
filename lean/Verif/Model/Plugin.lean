import Verif.Model.Ast

/-
Model of crates/brack-plugin.
-/

namespace Brack

/-- `std::collections::HashMap`: a list of pairs with at most one pair per key. Simplified: the order of
iteration, unspecified in Rust, is that of the list; theorems about iteration are stated up to permutation.
Library code, used in crates/brack-plugin/src/plugin.rs L16, plugins.rs L11. -/
abbrev HMap (κ α : Type) := List (κ × α)

namespace HMap

/-- `HashMap::get`. Library code, used in crates/brack-plugin/src/plugins.rs L72, L76. -/
def get [DecidableEq κ] (k : κ) : HMap κ α → Option α
  | [] => none
  | (k', a) :: m => if k' = k then some a else get k m

/-- `HashMap::insert`: replaces the value of a key already present. Library code, used in
crates/brack-plugin/src/plugin.rs L63. -/
def insert [DecidableEq κ] (k : κ) (a : α) : HMap κ α → HMap κ α
  | [] => [(k, a)]
  | (k', a') :: m => if k' = k then (k, a) :: m else (k', a') :: insert k a m

end HMap

/-- `Type`, crates/brack-plugin/src/types.rs L3-12. -/
inductive PType where
  | inline
  | option (t : PType)
  | block
  | array (t : PType)
  | inlineCmd (s : Str)
  | blockCmd (s : Str)
  | ast
  deriving Repr, DecidableEq

/-- `Value`, crates/brack-plugin/src/value.rs L3-8. -/
inductive Value where
  | text (s : Str)
  | textArray (ss : List Str)
  | textOption (s : Option Str)
  deriving Repr, DecidableEq

/-- `Metadata`, crates/brack-plugin/src/metadata.rs L5-11. -/
structure Metadata where
  commandName : Str
  callName : Str
  argumentTypes : List (Str × PType)
  returnType : PType
  deriving Repr, DecidableEq

/-- `FeatureFlag`, crates/brack-plugin/src/feature_flag.rs L3-9. -/
structure FeatureFlag where
  documentHook : Bool := false
  stmtHook : Bool := false
  exprHook : Bool := false
  textHook : Bool := false
  deriving Repr, DecidableEq

/-- `usize::MAX` on 64-bit targets, crates/brack-plugin/src/types.rs L25. -/
def usizeMax : Nat := 2 ^ 64 - 1

/-- `x += 1` on `usize`: on overflow a panic if overflow checks are on (debug builds), zero otherwise
(release builds), crates/brack-plugin/src/types.rs L21, L28-29. -/
def usizeIncr (checks : Bool) (x : Nat) : Res Nat :=
  if x < usizeMax then .ok (x + 1) else if checks then .panic else .ok 0

/-- The loop of `arg_counter`, crates/brack-plugin/src/types.rs L17-32. Simplified: `min` is a natural
number; it cannot overflow since it is at most the length of a vector. -/
def argCounterLoop (checks : Bool) (min max : Nat) : List PType → Res (Nat × Nat)
  | [] => .ok (min, max)
  | .option _ :: ts =>
    match usizeIncr checks max with
    | .ok max => argCounterLoop checks min max ts
    | .err m => .err m
    | .panic => .panic
  | .array _ :: ts => argCounterLoop checks min usizeMax ts
  | _ :: ts =>
    match usizeIncr checks max with
    | .ok max => argCounterLoop checks (min + 1) max ts
    | .err m => .err m
    | .panic => .panic

/-- `arg_counter`, crates/brack-plugin/src/types.rs L14-34. -/
def argCounter (checks : Bool) (ts : List PType) : Res (Nat × Nat) := argCounterLoop checks 0 0 ts

/-- The contents of a file. The result of crates/brack-plugin/src/plugin.rs L26. -/
abbrev Bytes := List UInt8

/-- WebAssembly modules as run by extism. The functions stand for `ExtismPlugin::new` and
`ExtismPlugin::call` including the conversion of arguments and results; they return an error or a result,
and the instance has some internal state. Nothing is assumed about them, except that extism itself does not
panic, crates/brack-plugin/src/plugin.rs L27-28, L97-99. -/
structure Wasm where
  /-- the state of an instance -/
  State : Type
  /-- `ExtismPlugin::new(wasm_bin, [], true)` -/
  load : Bytes → Except String State
  /-- `call::<(), Json<Vec<Metadata>>>("get_metadata", ())` -/
  metadata : State → Except String (List Metadata) × State
  /-- `call::<Json<Vec<Value>>, String>(call_name, args)` -/
  callText : State → (callName : Str) → List Value → Except String Str × State
  /-- `call::<Json<(AST, String)>, Json<AST>>(call_name, (ast, id))` -/
  callMacro : State → (callName : Str) → AST → (id : Str) → Except String AST × State

/-- `Plugin`, crates/brack-plugin/src/plugin.rs L12-18. -/
structure Plugin (W : Wasm) where
  name : Str
  extism : W.State
  signatures : HMap (Str × PType) Metadata
  flag : FeatureFlag

/-- The four variables `exists_…_hook`, crates/brack-plugin/src/plugin.rs L31-34. -/
abbrev HooksSeen := FeatureFlag

/-- One iteration of the loop of `Plugin::new`, crates/brack-plugin/src/plugin.rs L36-64. -/
def newStep (flag : FeatureFlag) (m : Metadata) (seen : HooksSeen)
    (sigs : HMap (Str × PType) Metadata) :
    Res (HooksSeen × HMap (Str × PType) Metadata) :=
  let isDocument := m.commandName = chars! "document" ∧ flag.documentHook
  let isStmt := m.commandName = chars! "stmt" ∧ flag.stmtHook
  let isExpr := m.commandName = chars! "expr" ∧ flag.exprHook
  let isText := m.commandName = chars! "text" ∧ flag.textHook
  if isDocument ∧ m.returnType ≠ .block then .err "document hook must return TBlock"
  else if isStmt ∧ m.returnType ≠ .block then .err "stmt hook must return TBlock"
  else if isExpr ∧ m.returnType ≠ .inline then .err "expr hook must return TInline"
  else if isText ∧ m.returnType ≠ .inline then .err "text hook must return TInline"
  else .ok (⟨seen.documentHook || decide isDocument, seen.stmtHook || decide isStmt,
      seen.exprHook || decide isExpr, seen.textHook || decide isText⟩,
    sigs.insert (m.commandName, m.returnType) m)

/-- The loop of `Plugin::new`, crates/brack-plugin/src/plugin.rs L36-64. -/
def newLoop (flag : FeatureFlag) : List Metadata → HooksSeen → HMap (Str × PType) Metadata →
    Res (HooksSeen × HMap (Str × PType) Metadata)
  | [], seen, sigs => .ok (seen, sigs)
  | m :: ms, seen, sigs =>
    match newStep flag m seen sigs with
    | .ok (seen, sigs) => newLoop flag ms seen sigs
    | .err e => .err e
    | .panic => .panic

/-- `Plugin::new`, crates/brack-plugin/src/plugin.rs L21-85, given the contents of the file. -/
def Plugin.new (W : Wasm) (name : Str) (wasmBin : Bytes) (flag : FeatureFlag) : Res (Plugin W) :=
  match W.load wasmBin with
  | .error e => .err e
  | .ok s =>
    match W.metadata s with
    | (.error e, _) => .err e
    | (.ok metadatas, s) =>
      match newLoop flag metadatas ⟨false, false, false, false⟩ [] with
      | .err e => .err e
      | .panic => .panic
      | .ok (seen, sigs) =>
        if flag.documentHook && !seen.documentHook then .err "document hook not found"
        else if flag.stmtHook && !seen.stmtHook then .err "stmt hook not found"
        else if flag.exprHook && !seen.exprHook then .err "expr hook not found"
        else if flag.textHook && !seen.textHook then .err "text hook not found"
        else .ok ⟨name, s, sigs, flag⟩

/-- What a plugin is called with: the values of a command or hook, or an AST and the identifier of the macro
in it, crates/brack-plugin/src/plugins.rs L102-107, L133-138. -/
inductive Input where
  | values (vs : List Value)
  | tree (a : AST) (id : Str)
  deriving Repr

/-- What a plugin returned, crates/brack-plugin/src/plugins.rs L102, L117, L133. -/
inductive Output where
  | text (s : Str)
  | tree (a : AST)
  | failed
  deriving Repr

/-- A call of a function of a plugin, crates/brack-plugin/src/plugin.rs L97-99. -/
structure Call where
  plugin : Str
  command : Str
  typ : PType
  input : Input
  output : Output
  deriving Repr

/-- `Plugins`, crates/brack-plugin/src/plugins.rs L10-16. The field `log` is not in the code: it
records the calls that reached a plugin, in order, and nothing depends on it. -/
structure Plugins (W : Wasm) where
  nameToPlugin : HMap Str (Plugin W)
  documentHook : Option Str
  stmtHook : Option Str
  exprHook : Option Str
  textHook : Option Str
  log : List Call

/-- `if plugin.feature_flag.… { if ….is_some() { return Err(..) } … = Some(name.clone()) }`,
crates/brack-plugin/src/plugins.rs L28-33 (and L34-39, L40-45, L46-51). -/
def claimHook (enabled : Bool) (name : Str) (current : Option Str) (message : String) :
    Res (Option Str) :=
  if enabled then
    match current with
    | some _ => .err message
    | none => .ok (some name)
  else .ok current

/-- The loop of `Plugins::new`, crates/brack-plugin/src/plugins.rs L26-53. -/
def Plugins.newLoop {W : Wasm} : List (Plugin W) → Plugins W → Res (Plugins W)
  | [], ps => .ok ps
  | p :: rest, ps => do
    let d ← claimHook p.flag.documentHook p.name ps.documentHook "only one document hook is allowed"
    let s ← claimHook p.flag.stmtHook p.name ps.stmtHook "only one stmt hook is allowed"
    let e ← claimHook p.flag.exprHook p.name ps.exprHook "only one expr hook is allowed"
    let t ← claimHook p.flag.textHook p.name ps.textHook "only one text hook is allowed"
    Plugins.newLoop rest ⟨ps.nameToPlugin.insert p.name p, d, s, e, t, ps.log⟩

/-- `Plugins::new`, crates/brack-plugin/src/plugins.rs L19-62. -/
def Plugins.new {W : Wasm} (plugins : List (Plugin W)) : Res (Plugins W) :=
  Plugins.newLoop plugins ⟨[], none, none, none, none, []⟩

/-- A function taking `&mut Plugins` and returning a `Result`. E.g. crates/brack-codegen/src/generate.rs L7.
-/
abbrev PM (W : Wasm) (α : Type) := Plugins W → Res α × Plugins W

namespace PM

/-- `Ok(a)`. E.g. crates/brack-codegen/src/generate.rs L28. -/
def pure (a : α) : PM W α := fun ps => (.ok a, ps)

/-- The `?` operator. E.g. crates/brack-codegen/src/generate.rs L15. -/
def bind (x : PM W α) (f : α → PM W β) : PM W β := fun ps =>
  match x ps with
  | (.ok a, ps) => f a ps
  | (.err m, ps) => (.err m, ps)
  | (.panic, ps) => (.panic, ps)

instance : Monad (PM W) where
  pure := PM.pure
  bind := PM.bind

/-- `anyhow::bail!`. E.g. crates/brack-codegen/src/generate.rs L10. -/
def bail (m : String) : PM W α := fun ps => (.err m, ps)

/-- A result computed without the plugins. E.g. crates/brack-plugin/src/types.rs L14-34 in
crates/brack-codegen/src/square.rs L57-63. -/
def lift (r : Res α) : PM W α := fun ps => (r, ps)

end PM

/-- `Plugins::argument_types`, crates/brack-plugin/src/plugins.rs L64-79. -/
def Plugins.argumentTypes {W : Wasm} (moduleName commandName : Str) (typ : PType) :
    PM W (List (Str × PType)) := fun ps =>
  match ps.nameToPlugin.get moduleName with
  | none => (.err "plugin not found", ps)
  | some p =>
    match p.signatures.get (commandName, typ) with
    | none => (.err "command not found", ps)
    | some m => (.ok m.argumentTypes, ps)

/-- `Plugins::call` and `Plugin::call` for commands and hooks, crates/brack-plugin/src/plugins.rs
L81-94 and plugin.rs L87-101. -/
def Plugins.callText {W : Wasm} (plugin command : Str) (typ : PType) (args : List Value) :
    PM W Str := fun ps =>
  match ps.nameToPlugin.get plugin with
  | none => (.err "plugin not found", ps)
  | some p =>
    match p.signatures.get (command, typ) with
    | none => (.err "metadata not found", ps)
    | some m =>
      match W.callText p.extism m.callName args with
      | (.ok s, st) =>
        (.ok s, { ps with
          nameToPlugin := ps.nameToPlugin.insert plugin { p with extism := st },
          log := ps.log ++ [⟨plugin, command, typ, .values args, .text s⟩] })
      | (.error e, st) =>
        (.err e, { ps with
          nameToPlugin := ps.nameToPlugin.insert plugin { p with extism := st },
          log := ps.log ++ [⟨plugin, command, typ, .values args, .failed⟩] })

/-- `Plugins::call_inline_command`, crates/brack-plugin/src/plugins.rs L96-109. -/
def Plugins.callInline {W : Wasm} (plugin command : Str) (args : List Value) : PM W Str :=
  Plugins.callText plugin command .inline args

/-- `Plugins::call_block_command`, crates/brack-plugin/src/plugins.rs L111-124. -/
def Plugins.callBlock {W : Wasm} (plugin command : Str) (args : List Value) : PM W Str :=
  Plugins.callText plugin command .block args

/-- `Plugins::call_macro_command`, crates/brack-plugin/src/plugins.rs L126-141. -/
def Plugins.callMacro {W : Wasm} (plugin command : Str) (a : AST) (id : Str) : PM W AST := fun ps =>
  match ps.nameToPlugin.get plugin with
  | none => (.err "plugin not found", ps)
  | some p =>
    match p.signatures.get (command, .ast) with
    | none => (.err "metadata not found", ps)
    | some m =>
      match W.callMacro p.extism m.callName a id with
      | (.ok r, st) =>
        (.ok r, { ps with
          nameToPlugin := ps.nameToPlugin.insert plugin { p with extism := st },
          log := ps.log ++ [⟨plugin, command, .ast, .tree a id, .tree r⟩] })
      | (.error e, st) =>
        (.err e, { ps with
          nameToPlugin := ps.nameToPlugin.insert plugin { p with extism := st },
          log := ps.log ++ [⟨plugin, command, .ast, .tree a id, .failed⟩] })

/-- `Plugins::call_document_hook`, crates/brack-plugin/src/plugins.rs L143-150. -/
def Plugins.callDocumentHook {W : Wasm} (args : List Value) : PM W (Option Str) := fun ps =>
  match ps.documentHook with
  | some p => (do return some (← Plugins.callBlock p (chars! "document") args) : PM W _) ps
  | none => (.ok none, ps)

/-- `Plugins::call_stmt_hook`, crates/brack-plugin/src/plugins.rs L152-159. -/
def Plugins.callStmtHook {W : Wasm} (args : List Value) : PM W (Option Str) := fun ps =>
  match ps.stmtHook with
  | some p => (do return some (← Plugins.callBlock p (chars! "stmt") args) : PM W _) ps
  | none => (.ok none, ps)

/-- `Plugins::call_expr_hook`, crates/brack-plugin/src/plugins.rs L161-168. -/
def Plugins.callExprHook {W : Wasm} (args : List Value) : PM W (Option Str) := fun ps =>
  match ps.exprHook with
  | some p => (do return some (← Plugins.callInline p (chars! "expr") args) : PM W _) ps
  | none => (.ok none, ps)

/-- `Plugins::call_text_hook`, crates/brack-plugin/src/plugins.rs L170-177. -/
def Plugins.callTextHook {W : Wasm} (args : List Value) : PM W (Option Str) := fun ps =>
  match ps.textHook with
  | some p => (do return some (← Plugins.callInline p (chars! "text") args) : PM W _) ps
  | none => (.ok none, ps)

end Brack
