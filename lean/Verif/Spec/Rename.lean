import Verif.Spec.Written
import Verif.Model.Plugin

/-
Specification vocabulary for plugins under other names.
-/

namespace Brack

/-- The same plugin under another name. -/
def Plugin.rename {W : Wasm} (f : Str → Str) (p : Plugin W) : Plugin W := { p with name := f p.name }

/-- The same call, of the plugin under its other name. -/
def Call.rename (f : Str → Str) (c : Call) : Call := { c with plugin := f c.plugin }

/-- The same plugins, in the same states and with the same hooks, each under its other name. -/
def Plugins.rename {W : Wasm} (f : Str → Str) (ps : Plugins W) : Plugins W where
  nameToPlugin := ps.nameToPlugin.map (fun (n, p) => (f n, p.rename f))
  documentHook := ps.documentHook.map f
  stmtHook := ps.stmtHook.map f
  exprHook := ps.exprHook.map f
  textHook := ps.textHook.map f
  log := ps.log.map (Call.rename f)

mutual

/-- The same with the other names of the plugins. -/
def Markup.rename (f : Str → Str) : Markup → Markup
  | .words s => .words s
  | .escaped c => .escaped c
  | .blank c => .blank c
  | .call b m n args => .call b (f m) n (Markup.renameArgs f args)

/-- A line or an argument with the other names. -/
def Markup.renameL (f : Str → Str) : List Markup → List Markup
  | [] => []
  | i :: is => i.rename f :: Markup.renameL f is

/-- Arguments with the other names. -/
def Markup.renameArgs (f : Str → Str) : List (List Markup) → List (List Markup)
  | [] => []
  | a :: as => Markup.renameL f a :: Markup.renameArgs f as

end

/-- A document with the other names. -/
def renameDocument (f : Str → Str) (d : List (List (List Markup))) : List (List (List Markup)) :=
  d.map (fun p => p.map (Markup.renameL f))

mutual

/-- A tree with the other names. -/
def Shape.rename (f : Str → Str) : Shape → Shape
  | .leaf .module v => .leaf .module (v.map f)
  | .leaf k v => .leaf k v
  | .node k cs => .node k (Shape.renameL f cs)

/-- Trees with the other names. -/
def Shape.renameL (f : Str → Str) : List Shape → List Shape
  | [] => []
  | c :: cs => c.rename f :: Shape.renameL f cs

end

/-- A result with another value. -/
def Res.with (g : α → β) : Res α → Res β
  | .ok a => .ok (g a)
  | .err m => .err m
  | .panic => .panic

/-- Different plugins get different names. -/
def OneName (f : Str → Str) : Prop := ∀ m n, f m = f n → m = n

end Brack
