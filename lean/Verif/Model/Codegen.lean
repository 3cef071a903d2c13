import Verif.Model.Plugin

/-
Model of crates/brack-codegen.
-/

namespace Brack

/-- `let hook_result = …; match hook_result { Some(result) => Ok(result), None => Ok(result) }`,
crates/brack-codegen/src/generate.rs L26-30, and the same in stmt.rs, expr.rs, text.rs. -/
def orElseText (result : Str) : Option Str → Str
  | some r => r
  | none => result

/-- `text::generate`, crates/brack-codegen/src/text.rs L5-15, on a Text leaf. -/
def textGenerate {W : Wasm} (value : Option Str) : PM W Str := do
  match value with
  | none => PM.bail "No value found"
  | some result => return orElseText result (← Plugins.callTextHook [.text result])

/-- `bail!("… cannot contain the following node\n{}", ast)`, for example
crates/brack-codegen/src/expr.rs L20: the node is displayed, which may panic. -/
def bailWith {W : Wasm} (a : AST) : PM W Str := do
  let _ ← PM.lift (a.display 0)
  PM.bail "cannot contain the following node"

/-- Name of a module or identifier node, crates/brack-codegen/src/square.rs L37-53, curly.rs
L37-53. -/
def nameOf {W : Wasm} (k : ALKind) : AST → PM W Str
  | .leaf k' _ v _ =>
    if k' = k then
      match v with
      | some v => pure v
      | none => PM.bail "name must be a string"
    else PM.bail "Module must be a module / Identifier must be an identifier"
  | .node _ _ _ _ => PM.bail "Module must be a module / Identifier must be an identifier"

/-- The value for the parameter of type `t` at index `i`, crates/brack-codegen/src/square.rs L76-86,
curly.rs L76-86. `arguments[i]` and `arguments[i..]` panic when out of bounds. -/
def bindArg (arguments : List Str) (i : Nat) : PType → Res Value
  | .option _ =>
    if i < arguments.length then .ok (.textOption arguments[i]?) else .ok (.textOption none)
  | .array _ => if i ≤ arguments.length then .ok (.textArray (arguments.drop i)) else .panic
  | _ =>
    match arguments[i]? with
    | some a => .ok (.text a)
    | none => .panic

/-- The loop binding arguments to parameters, crates/brack-codegen/src/square.rs L74-88, curly.rs
L74-88; `i` is the index. -/
def bindArgs (arguments : List Str) (i : Nat) : List PType → Res (List Value)
  | [] => .ok []
  | t :: ts =>
    match bindArg arguments i t with
    | .ok v =>
      match bindArgs arguments (i + 1) ts with
      | .ok vs => .ok (v :: vs)
      | .err m => .err m
      | .panic => .panic
    | .err m => .err m
    | .panic => .panic

/-- The return type looked up for a bracket, crates/brack-codegen/src/square.rs L55 and curly.rs
L55. (Angle brackets never get here.) -/
def Bracket.returnType : Bracket → PType
  | .square => .inline
  | .curly => .block
  | .angle => .ast

/-- Counting, binding and calling, crates/brack-codegen/src/square.rs L57-91, curly.rs L57-91.
`checks`: are overflow checks on? -/
def callCommand {W : Wasm} (checks : Bool) (typ : PType) (moduleName identName : Str)
    (types : List PType) (arguments : List Str) : PM W Str :=
  match argCounter checks types with
  | .ok (min, max) =>
    if arguments.length < min then PM.bail "requires at least"
    else if arguments.length > max then PM.bail "requires at most"
    else
      match bindArgs arguments 0 types with
      | .ok args => Plugins.callText moduleName identName typ args
      | .err m => PM.lift (.err m)
      | .panic => PM.lift .panic
  | .err m => PM.lift (.err m)
  | .panic => PM.lift .panic

/-- The part of `square::generate` and `curly::generate` after the arguments have been generated,
crates/brack-codegen/src/square.rs L37-91, curly.rs L37-91. -/
def commandGenerate {W : Wasm} (checks : Bool) (b : Bracket) (module ident : AST)
    (arguments : List Str) : PM W Str := do
  let moduleName ← nameOf .module module
  let identName ← nameOf .ident ident
  let argTypes ← Plugins.argumentTypes moduleName identName b.returnType
  callCommand checks b.returnType moduleName identName (argTypes.map (·.2)) arguments

mutual

/-- The `match child` of crates/brack-codegen/src/generate.rs L14-22, stmt.rs L14-21, expr.rs
L14-21, square.rs L26-33, curly.rs L26-33, with the function it dispatches to; `inDocument` tells the
first of these from the others (only there a Stmt is accepted). The functions are `stmt::generate`
(stmt.rs L7-30), `expr::generate` (expr.rs L7-30), `square::generate` and `curly::generate`
(square.rs L11-35, curly.rs L11-35), `text::generate`. -/
def genChild {W : Wasm} (checks inDocument : Bool) : AST → PM W Str
  | .node .stmt i cs l =>
    if inDocument then do
      let result := (← genChildren checks false cs).flatten
      return orElseText result (← Plugins.callStmtHook [.text result])
    else bailWith (.node .stmt i cs l)
  | .node .expr _ cs _ => do
    let result := (← genChildren checks false cs).flatten
    return orElseText result (← Plugins.callExprHook [.text result])
  | .node (.bracket .angle) _ _ _ => PM.bail "Angle must be expanded by the macro expander."
  | .node (.bracket _) _ [] _ => PM.bail "must contain module"
  | .node (.bracket _) _ [_] _ => PM.bail "must contain identifier"
  | .node (.bracket b) _ (module :: ident :: cs) _ => do
    let arguments ← genChildren checks false cs
    commandGenerate checks b module ident arguments
  | .leaf .text _ v _ => textGenerate v
  | a => bailWith a

/-- The loops over the children, in order (generate.rs L13-24, stmt.rs L13-23, expr.rs L13-23,
square.rs L25-35, curly.rs L25-35): the results of the children. -/
def genChildren {W : Wasm} (checks inDocument : Bool) : List AST → PM W (List Str)
  | [] => pure []
  | c :: cs => do
    let r ← genChild checks inDocument c
    let rs ← genChildren checks inDocument cs
    pure (r :: rs)

end

/-- `generate`, crates/brack-codegen/src/generate.rs L7-31. -/
def generate {W : Wasm} (checks : Bool) : AST → PM W Str
  | .node .document _ cs _ => do
    let result := (← genChildren checks true cs).flatten
    return orElseText result (← Plugins.callDocumentHook [.text result])
  | _ => PM.bail "Document must be a document"

end Brack
