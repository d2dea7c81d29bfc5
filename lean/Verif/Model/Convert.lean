import Verif.Model.Api
/-
Conversions into values and entries, the kind tests of values, and sorting of entries.
-/

namespace Kdl

namespace Value

/-- `src/value.rs:69-71` `is_string`. -/
def isString : Value → Bool
  | .string _ => true
  | _ => false

/-- `src/value.rs:74-76` `is_integer`. -/
def isInteger : Value → Bool
  | .integer _ => true
  | _ => false

/-- `src/value.rs:79-81` `is_float`. -/
def isFloat : Value → Bool
  | .float _ => true
  | _ => false

/-- `src/value.rs:84-86` `is_bool`. -/
def isBool : Value → Bool
  | .bool _ => true
  | _ => false

/-- `src/value.rs:89-91` `is_null`. -/
def isNull : Value → Bool
  | .null => true
  | _ => false

end Value

/-- The Rust values with a conversion into `KdlValue` (`src/value.rs:203-243`): the types
`i128`, `f64`, `&str` or `String`, `bool`, and `Option` of any of them, nested or not. -/
inductive Source where
  | int (i : I128)
  | float (x : F64)
  | text (s : Str)
  | bool (b : Bool)
  | none
  | some (s : Source)

/-- `src/value.rs:203-243` `From<…> for KdlValue`. -/
def Source.into : Source → Value
  | .int i => .integer i
  | .float x => .float x
  | .text s => .string s
  | .bool b => .bool b
  | .none => .null
  | .some s => s.into

/-- `src/entry.rs:450-457` `From<T> for KdlEntry`. -/
def Entry.ofSource (s : Source) : Entry := .new s.into

/-- `src/entry.rs:459-467` `From<(K, V)> for KdlEntry`. -/
def Entry.ofPair (k : Ident) (s : Source) : Entry := .newProp k s.into

/-- `src/node.rs:736-741` `sort_by`. `slice::sort_by` of the standard library is modelled by
its documentation, as a stable sort: any stable sort gives the same list
(`Kdl.C48_sort_by`). -/
def Node.sortBy (n : Node) (cmp : Entry → Entry → Ordering) : Node :=
  n.setEntries (n.entries.mergeSort fun a b => cmp a b != .gt)

/-- `src/node.rs:745-751` `sort_by_key`. -/
def Node.sortByKey {κ : Type} [Ord κ] (n : Node) (f : Entry → κ) : Node := n.sortBy fun a b => compare (f a) (f b)

end Kdl
