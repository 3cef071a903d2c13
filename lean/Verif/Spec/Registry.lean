import Verif.Spec.Calls

/-
Specification vocabulary for loading plugins and for the calls that reach them.
-/

namespace Brack

/-- The hooks. -/
inductive Hook where
  | document | stmt | expr | text
  deriving Repr, DecidableEq

/-- Is the hook enabled? -/
def Hook.enabled (f : FeatureFlag) : Hook → Bool
  | .document => f.documentHook
  | .stmt => f.stmtHook
  | .expr => f.exprHook
  | .text => f.textHook

/-- The command implementing the hook. -/
def Hook.command : Hook → Str
  | .document => chars! "document"
  | .stmt => chars! "stmt"
  | .expr => chars! "expr"
  | .text => chars! "text"

/-- The return type the hook must have. -/
def Hook.typ : Hook → PType
  | .document | .stmt => .block
  | .expr | .text => .inline

/-- The name of the plugin a hook is bound to. -/
def Plugins.hook {W : Wasm} (ps : Plugins W) : Hook → Option Str
  | .document => ps.documentHook
  | .stmt => ps.stmtHook
  | .expr => ps.exprHook
  | .text => ps.textHook

/-- Calling a hook. -/
def Hook.call {W : Wasm} (args : List Value) : Hook → PM W (Option Str)
  | .document => Plugins.callDocumentHook args
  | .stmt => Plugins.callStmtHook args
  | .expr => Plugins.callExprHook args
  | .text => Plugins.callTextHook args

/-- The metadata of the plugin in this file, as it reports them. -/
def Wasm.reports (W : Wasm) (file : Bytes) : Option (List Metadata) :=
  match W.load file with
  | .error _ => none
  | .ok s =>
    match (W.metadata s).1 with
    | .error _ => none
    | .ok ms => some ms

/-- May a plugin reporting these metadata be loaded with these flags? Each enabled hook must be
among the commands, with the right return type only. -/
def Loadable (ms : List Metadata) (f : FeatureFlag) : Prop :=
  ∀ k : Hook, k.enabled f = true → (∃ m ∈ ms, m.commandName = k.command) ∧
    ∀ m ∈ ms, m.commandName = k.command → m.returnType = k.typ

/-- The last metadata with this command name and return type. -/
def declared (ms : List Metadata) (command : Str) (typ : PType) : Option Metadata :=
  ms.reverse.find? (fun m => decide (m.commandName = command ∧ m.returnType = typ))

/-- Two plugin sets cannot be told apart: same plugin for each name, same hooks. (They may differ in
the order in which their hash maps are iterated.) -/
structure Alike {W : Wasm} (ps qs : Plugins W) : Prop where
  plugin : ∀ n, ps.nameToPlugin.get n = qs.nameToPlugin.get n
  hook : ∀ k : Hook, ps.hook k = qs.hook k
  log : ps.log = qs.log

/-- A plugin instance after a call. -/
def afterCall {W : Wasm} (f : Str → Option (Plugin W)) (name : Str) (p : Plugin W) (st : W.State) :
    Str → Option (Plugin W) :=
  fun n => if n = name then some { p with extism := st } else f n

/-- The output of a command. -/
def Output.ofText : Except String Str → Output
  | .ok s => .text s
  | .error _ => .failed

/-- The output of a macro. -/
def Output.ofTree : Except String AST → Output
  | .ok a => .tree a
  | .error _ => .failed

/-- `Served f calls g`: with the plugins `f`, by name, these calls are answered as recorded, each by
the function the plugin of that name declares for the command and return type, applied to the recorded
input in the state left by the calls to the same plugin before; afterwards the plugins are `g`. -/
inductive Served {W : Wasm} : (Str → Option (Plugin W)) → List Call → (Str → Option (Plugin W)) → Prop
  | nil {f} : Served f [] f
  | command {f g n p c typ m vs r st calls} :
    f n = some p → p.signatures.get (c, typ) = some m → W.callText p.extism m.callName vs = (r, st) →
    Served (afterCall f n p st) calls g →
    Served f (⟨n, c, typ, .values vs, .ofText r⟩ :: calls) g
  | tree {f g n p c m a id r st calls} :
    f n = some p → p.signatures.get (c, .ast) = some m → W.callMacro p.extism m.callName a id = (r, st) →
    Served (afterCall f n p st) calls g →
    Served f (⟨n, c, .ast, .tree a id, .ofTree r⟩ :: calls) g

end Brack
