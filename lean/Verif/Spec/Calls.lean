import Verif.Model.Plugin
import Verif.Spec.Ast

/-
Specification vocabulary for plugin calls: signatures, the macros of a document, the order of hook
calls, and what a document produces.
-/

namespace Brack

/-- The signatures a plugin set offers: parameter types of the command with this module, name and
return type. -/
def Plugins.signature {W : Wasm} (ps : Plugins W) (module command : Str) (typ : PType) :
    Option (List PType) :=
  match ps.nameToPlugin.get module with
  | none => none
  | some p => (p.signatures.get (command, typ)).map (fun m => m.argumentTypes.map (·.2))

/-! ### Macros -/

mutual

/-- The outermost macro calls of a tree, left to right. -/
def AST.macros : AST → List AST
  | .leaf _ _ _ _ => []
  | .node (.bracket .angle) i cs l => [.node (.bracket .angle) i cs l]
  | .node _ _ cs _ => AST.macrosL cs

/-- The outermost macro calls of a list of trees. -/
def AST.macrosL : List AST → List AST
  | [] => []
  | c :: cs => c.macros ++ AST.macrosL cs

end

/-- The name in a module node. -/
def AST.moduleName? : AST → Option Str
  | .leaf .module _ v _ => v
  | _ => none

/-- The name in an identifier node. -/
def AST.identName? : AST → Option Str
  | .leaf .ident _ v _ => v
  | _ => none

/-- What a call is made with: plugin, command, return type and input. -/
structure Request where
  plugin : Str
  command : Str
  typ : PType
  input : Input

/-- The request of a call. -/
def Call.request (c : Call) : Request := ⟨c.plugin, c.command, c.typ, c.input⟩

/-- Did the plugin return an error? -/
def Call.isFailed (c : Call) : Bool :=
  match c.output with
  | .failed => true
  | _ => false

/-- The request for a macro node: the macro named in it, applied to the whole document and the
identifier of the node. -/
def AST.macroRequest (whole : AST) : AST → Request
  | .node _ id cs _ =>
    ⟨((cs.filterMap AST.moduleName?).getLast?).getD [], ((cs.filterMap AST.identName?).getLast?).getD [],
      .ast, .tree whole id⟩
  | .leaf _ id _ _ => ⟨[], [], .ast, .tree whole id⟩

/-- Is there no such macro? Either one of the names is missing in the node or no plugin offers the
macro. -/
def AST.Unavailable {W : Wasm} (ps : Plugins W) (m : AST) : Prop :=
  (∃ k i cs l, m = .node k i cs l ∧ ∃ c ∈ cs, ∃ k' i' l', c = .leaf k' i' none l' ∧
    (k' = .module ∨ k' = .ident)) ∨
  ps.signature (m.macroRequest m).plugin (m.macroRequest m).command .ast = none

mutual

/-- `Replaced a rs b`: the tree `b` is `a` with its outermost macro calls, left to right, replaced by
the trees `rs`. -/
inductive Replaced : AST → List AST → AST → Prop
  | angle {i cs l r} : Replaced (.node (.bracket .angle) i cs l) [r] r
  | leaf {k i v l} : Replaced (.leaf k i v l) [] (.leaf k i v l)
  | node {k i cs l rs ds} : k ≠ .bracket .angle → ReplacedAll cs rs ds →
    Replaced (.node k i cs l) rs (.node k i ds l)

/-- The same for lists of trees. -/
inductive ReplacedAll : List AST → List AST → List AST → Prop
  | nil : ReplacedAll [] [] []
  | cons {a as rs rs' b bs} : Replaced a rs b → ReplacedAll as rs' bs →
    ReplacedAll (a :: as) (rs ++ rs') (b :: bs)

end

/-! ### Signatures -/

/-- Must an argument be given for this parameter? -/
def PType.isRequired : PType → Bool
  | .option _ | .array _ => false
  | _ => true

/-- Does this parameter take any number of arguments? -/
def PType.isArray : PType → Bool
  | .array _ => true
  | _ => false

/-- May a command with these parameters be given `n` arguments? At least one for each required
parameter, at most one for each parameter unless there is an array. -/
def Admissible (ts : List PType) (n : Nat) : Prop :=
  ts.countP PType.isRequired ≤ n ∧ (ts.any PType.isArray = true ∨ n ≤ ts.length)

/-- The arguments contained in a value. -/
def Value.arguments : Value → List Str
  | .text s => [s]
  | .textArray ss => ss
  | .textOption o => o.toList

/-- The value for the parameter of type `t` at position `i`: the argument at that position, which
may be absent for an option; all arguments from that position on for an array. -/
inductive Passed (args : List Str) (i : Nat) : PType → Value → Prop
  | option t : Passed args i (.option t) (.textOption args[i]?)
  | array t : i ≤ args.length → Passed args i (.array t) (.textArray (args.drop i))
  | required t a : t.isRequired = true → args[i]? = some a → Passed args i t (.text a)

/-- The values for all parameters. -/
def PassedAll (args : List Str) (ts : List PType) (vs : List Value) : Prop :=
  vs.length = ts.length ∧ ∀ i t v, ts[i]? = some t → vs[i]? = some v → Passed args i t v

/-- Signatures listing required parameters first, then either optional parameters or one array. -/
def Standard (ts : List PType) : Prop :=
  ∃ req opt : List PType, ts = req ++ opt ∧ (∀ t ∈ req, t.isRequired = true) ∧
    ((∀ t ∈ opt, ∃ u, t = .option u) ∨ ∃ u, opt = [.array u])

/-! ### What a document produces -/

/-- What a plugin is called for. -/
inductive Tag where
  | document | stmt | expr | text | command
  deriving Repr, DecidableEq

/-- A hook applied to `s`: with no plugin for it the result is `s`. -/
inductive HookCall (plugin : Option Str) (tag : Tag) (command : Str) (typ : PType) (s : Str) :
    List (Tag × Call) → Str → Prop
  | absent : plugin = none → HookCall plugin tag command typ s [] s
  | called p r : plugin = some p →
    HookCall plugin tag command typ s [(tag, ⟨p, command, typ, .values [.text s], .text r⟩)] r

/-- The return type of the commands written with this bracket. -/
def Bracket.commandType : Bracket → Option PType
  | .square => some .inline
  | .curly => some .block
  | .angle => none

mutual

/-- `Produces ps a calls r`: the node `a` produces the text `r`, with these calls in this order. -/
inductive Produces {W : Wasm} (ps : Plugins W) : AST → List (Tag × Call) → Str → Prop
  | text {i v l calls r} :
    HookCall ps.textHook .text (chars! "text") .inline v calls r →
    Produces ps (.leaf .text i (some v) l) calls r
  | expr {i cs l calls rs calls' r} :
    ProducesAll ps cs calls rs →
    HookCall ps.exprHook .expr (chars! "expr") .inline rs.flatten calls' r →
    Produces ps (.node .expr i cs l) (calls ++ calls') r
  | stmt {i cs l calls rs calls' r} :
    ProducesAll ps cs calls rs →
    HookCall ps.stmtHook .stmt (chars! "stmt") .block rs.flatten calls' r →
    Produces ps (.node .stmt i cs l) (calls ++ calls') r
  | document {i cs l calls rs calls' r} :
    ProducesAll ps cs calls rs →
    HookCall ps.documentHook .document (chars! "document") .block rs.flatten calls' r →
    Produces ps (.node .document i cs l) (calls ++ calls') r
  | command {b i i1 i2 l l1 l2 m c args calls rs typ ts vs r} :
    ProducesAll ps args calls rs →
    b.commandType = some typ →
    ps.signature m c typ = some ts →
    Admissible ts rs.length →
    PassedAll rs ts vs →
    Produces ps (.node (.bracket b) i (.leaf .module i1 (some m) l1 :: .leaf .ident i2 (some c) l2 :: args) l)
      (calls ++ [(.command, ⟨m, c, typ, .values vs, .text r⟩)]) r

/-- The nodes of a list produce these texts, one after the other. -/
inductive ProducesAll {W : Wasm} (ps : Plugins W) : List AST → List (Tag × Call) → List Str → Prop
  | nil : ProducesAll ps [] [] []
  | cons {a as calls r calls' rs} :
    Produces ps a calls r → ProducesAll ps as calls' rs →
    ProducesAll ps (a :: as) (calls ++ calls') (r :: rs)

end

/-- Is there a plugin for this? -/
def Plugins.handles {W : Wasm} (ps : Plugins W) : Tag → Bool
  | .document => ps.documentHook.isSome
  | .stmt => ps.stmtHook.isSome
  | .expr => ps.exprHook.isSome
  | .text => ps.textHook.isSome
  | .command => true

mutual

/-- The calls due for a tree: children before parents, left to right; the module and identifier of
a command are not called. -/
def AST.postorder : AST → List Tag
  | .leaf .text _ _ _ => [.text]
  | .leaf _ _ _ _ => []
  | .node .document _ cs _ => AST.postorderL cs ++ [.document]
  | .node .stmt _ cs _ => AST.postorderL cs ++ [.stmt]
  | .node .expr _ cs _ => AST.postorderL cs ++ [.expr]
  | .node (.bracket _) _ (_ :: _ :: args) _ => AST.postorderL args ++ [.command]
  | .node (.bracket _) _ _ _ => []

/-- The calls due for a list of trees. -/
def AST.postorderL : List AST → List Tag
  | [] => []
  | c :: cs => c.postorder ++ AST.postorderL cs

end

/-! ### Documents that can be generated -/

/-- Nodes that can stand in a statement, an expression or as an argument. -/
def AST.isPart : AST → Bool
  | .leaf .text _ (some _) _ | .node .expr _ _ _ | .node (.bracket .square) _ _ _
  | .node (.bracket .curly) _ _ _ => true
  | _ => false

/-- Is this a statement? -/
def AST.isStmt : AST → Bool
  | .node .stmt _ _ _ => true
  | _ => false

/-- Is this node in order for code generation (one level)? -/
def AST.nodeGenerable : AST → Bool
  | .node .document _ cs _ =>
    cs.all (fun c => c.isPart || c.isStmt)
  | .node .stmt _ cs _ | .node .expr _ cs _ => cs.all AST.isPart
  | .node (.bracket .angle) _ _ _ => false
  | .node (.bracket _) _ (.leaf .module _ (some _) _ :: .leaf .ident _ (some _) _ :: args) _ =>
    args.all AST.isPart
  | .node (.bracket _) _ _ _ => false
  | .leaf .text _ (some _) _ | .leaf .module _ (some _) _ | .leaf .ident _ (some _) _ => true
  | .leaf _ _ _ _ => false

/-- Is this node, if it is a command, an existing command applied to an admissible number of
arguments? (Macros are not commands.) -/
def AST.CommandOk {W : Wasm} (ps : Plugins W) (n : AST) : Prop :=
  ∀ b i cs l, n = .node (.bracket b) i cs l → ∃ typ m c args ts i1 i2 l1 l2,
    b.commandType = some typ ∧
    cs = .leaf .module i1 (some m) l1 :: .leaf .ident i2 (some c) l2 :: args ∧
    ps.signature m c typ = some ts ∧ Admissible ts args.length

/-- All hooks exist in the plugins they are bound to. -/
def Plugins.HooksExist {W : Wasm} (ps : Plugins W) : Prop :=
  (∀ p, ps.documentHook = some p → (ps.signature p (chars! "document") .block).isSome = true) ∧
  (∀ p, ps.stmtHook = some p → (ps.signature p (chars! "stmt") .block).isSome = true) ∧
  (∀ p, ps.exprHook = some p → (ps.signature p (chars! "expr") .inline).isSome = true) ∧
  (∀ p, ps.textHook = some p → (ps.signature p (chars! "text") .inline).isSome = true)

/-- All signatures list required parameters first, then either optional parameters or one array. (No
vector in memory has more than `usize::MAX` elements.) -/
def Plugins.AllStandard {W : Wasm} (ps : Plugins W) : Prop :=
  ∀ m c typ ts, ps.signature m c typ = some ts → Standard ts ∧ ts.length ≤ usizeMax

/-- No command has more than `usize::MAX` arguments, as is the case for any tree in memory. -/
def AST.Fits (a : AST) : Prop := ∀ k i cs l, AST.NodeOf (.node k i cs l) a → cs.length ≤ usizeMax

/-- What `arg_counter` should return: the number of required parameters and the number of parameters,
or `usize::MAX` (unbounded) if there is an array. -/
def countsOf (ts : List PType) : Nat × Nat :=
  (ts.countP PType.isRequired, if ts.any PType.isArray then usizeMax else ts.length)

/-- No other parameter comes after an array. -/
def ArraysLast (ts : List PType) : Prop :=
  ∃ pre post : List PType, ts = pre ++ post ∧ (∀ t ∈ pre, t.isArray = false) ∧ ∀ t ∈ post, t.isArray = true

/-! ### Documents with one command -/

/-- No plugin has a hook. -/
structure NoHooks {W : Wasm} (ps : Plugins W) : Prop where
  document : ps.documentHook = none
  stmt : ps.stmtHook = none
  expr : ps.exprHook = none
  text : ps.textHook = none

/-- A document with one text, command or the like, without identifiers and ranges. -/
def docOf (cs : List AST) : AST := .node .document [] [.node .stmt [] [.node .expr [] cs ⟨⟨0, 0⟩, ⟨0, 0⟩⟩] ⟨⟨0, 0⟩, ⟨0, 0⟩⟩] ⟨⟨0, 0⟩, ⟨0, 0⟩⟩

/-- A leaf without identifier and range. -/
def leafOf (k : ALKind) (s : Str) : AST := .leaf k [] (some s) ⟨⟨0, 0⟩, ⟨0, 0⟩⟩

/-- A command with arguments consisting of one text each. -/
def commandWith (b : Bracket) (m c : Str) (args : List Str) : AST :=
  .node (.bracket b) [] (leafOf .module m :: leafOf .ident c ::
    args.map (fun s => .node .expr [] [leafOf .text s] ⟨⟨0, 0⟩, ⟨0, 0⟩⟩)) ⟨⟨0, 0⟩, ⟨0, 0⟩⟩

end Brack
