import Verif.Model.Plugin

/-
JSON values as represented by `serde_json::Value`.
-/

namespace Brack

/-- `serde_json::Value`. Simplified: numbers that are not integers are kept as their text; the fields of an
object are a list of pairs with at most one pair per key. Library code, used in
crates/brack-language-server/src/server.rs L111, L165. -/
inductive Json where
  | null
  | bool (b : Bool)
  | int (n : Int)
  | number (text : Str)
  | str (s : Str)
  | arr (vs : List Json)
  | obj (fields : List (Str × Json))
  deriving Repr

namespace Json

/-- The value of a key in a list of fields. Library code, used in crates/brack-language-server/src/server.rs
L113-114. -/
def field (key : Str) : List (Str × Json) → Option Json
  | [] => none
  | (k, v) :: fs => if k = key then some v else field key fs

/-- `Value::get` with a string: the value of a field of an object. Library code, used in
crates/brack-language-server/src/server.rs L113-114. -/
def get (v : Json) (key : Str) : Option Json :=
  match v with
  | .obj fs => field key fs
  | _ => none

/-- `value[key]`: `Null` if there is no such field. Library code, used in
crates/brack-language-server/src/request.rs L28, L107, L124. -/
def index (v : Json) (key : Str) : Json := (v.get key).getD .null

/-- `Value::as_i64`. Library code, used in crates/brack-language-server/src/server.rs L113. -/
def asI64 : Json → Option Int
  | .int n => if -2 ^ 63 ≤ n ∧ n < 2 ^ 63 then some n else none
  | _ => none

/-- `Value::as_str`. Library code, used in crates/brack-language-server/src/server.rs L114. -/
def asStr : Json → Option Str
  | .str s => some s
  | _ => none

end Json

end Brack
