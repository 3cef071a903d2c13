import Verif.Proof.PMLemmas
import Verif.Proof.Cases

/-
Plugins for concrete cases.
-/

namespace Brack

deriving instance DecidableEq for Res

/-- Values as text, for concrete cases. -/
def Value.show : Value → Str
  | .text s => s
  | .textArray ss => chars! "[" ++ (ss.map (· ++ chars! ";")).flatten ++ chars! "]"
  | .textOption none => chars! "-"
  | .textOption (some s) => chars! "+" ++ s

/-- A plugin written in WebAssembly, for concrete cases: functions return their name applied to their
arguments, the function `bad` fails, macros return the text `m`. Its state counts the calls. -/
def sampleWasm : Wasm where
  State := Nat
  load b := if b.isEmpty then .error "empty" else .ok 0
  metadata n := (.ok
    [⟨chars! "f", chars! "call_f", [], .inline⟩,
     ⟨chars! "g", chars! "call_g", [(chars! "x", .inline), (chars! "y", .option .inline)], .inline⟩,
     ⟨chars! "h", chars! "call_h", [(chars! "x", .inline), (chars! "y", .array .inline)], .block⟩,
     ⟨chars! "m", chars! "call_m", [], .ast⟩,
     ⟨chars! "bad", chars! "bad", [], .inline⟩,
     ⟨chars! "bad", chars! "bad", [], .ast⟩,
     ⟨chars! "text", chars! "call_text", [(chars! "x", .inline)], .inline⟩,
     ⟨chars! "expr", chars! "call_expr", [(chars! "x", .inline)], .inline⟩,
     ⟨chars! "stmt", chars! "call_stmt", [(chars! "x", .inline)], .block⟩,
     ⟨chars! "document", chars! "call_doc", [(chars! "x", .inline)], .block⟩], n)
  callText n f vs :=
    if f = chars! "bad" then (.error "bad", n + 1)
    else (.ok (f.drop 5 ++ chars! "(" ++ (vs.map (fun v => v.show ++ chars! ",")).flatten ++ chars! ")"), n + 1)
  callMacro n f _ id :=
    if f = chars! "bad" then (.error "bad", n + 1)
    else (.ok (.leaf .text id (some (chars! "m")) ⟨⟨0, 0⟩, ⟨0, 0⟩⟩), n + 1)

/-- The plugin `p` with these hooks. -/
def samplePlugin (flag : FeatureFlag) : Res (Plugin sampleWasm) := Plugin.new sampleWasm ['p'] [1] flag

/-- A plugin set with the plugin `p`. -/
def sampleSet (flag : FeatureFlag) : Plugins sampleWasm :=
  match samplePlugin flag with
  | .ok p =>
    match Plugins.new [p] with
    | .ok ps => ps
    | _ => ⟨[], none, none, none, none, []⟩
  | _ => ⟨[], none, none, none, none, []⟩

/-- No hooks. -/
def noHooks : FeatureFlag := ⟨false, false, false, false⟩

/-- All hooks. -/
def allHooks : FeatureFlag := ⟨true, true, true, true⟩

/-- A plugin set without plugins. -/
def noPlugins (W : Wasm) : Plugins W := ⟨[], none, none, none, none, []⟩

/-- A plugin set offering the inline command `p.c` with these parameters. -/
def oneCommand (ts : List PType) : Plugins sampleWasm :=
  ⟨[(['p'], ⟨['p'], (0 : Nat), [((['c'], .inline), ⟨['c'], chars! "call_c", ts.map (fun t => (['x'], t)), .inline⟩)],
    noHooks⟩)], none, none, none, none, []⟩

end Brack
