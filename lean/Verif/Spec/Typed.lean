import Verif.Model.De
/-
The Rust types that can be written: no two fields of a struct have the same name. And values,
reduced to their kind.
-/

namespace Kdl.Spec

mutual
/-- No struct in the type has two fields of the same name. -/
def Proper : Ty → Prop
  | .option t | .newtype t | .seq t | .map t => Proper t
  | .tuple ts | .tupleStruct ts => ProperAll ts
  | .struct fs => (fs.map Prod.fst).Nodup ∧ ProperFields fs
  | .enum vs => ProperVariants vs
  | _ => True
/-- `Proper` for each type. -/
def ProperAll : List Ty → Prop
  | [] => True
  | t :: ts => Proper t ∧ ProperAll ts
/-- `Proper` for each field. -/
def ProperFields : List (Str × Ty) → Prop
  | [] => True
  | (_, t) :: fs => Proper t ∧ ProperFields fs
/-- `Proper` for each variant. -/
def ProperVariants : List (Str × VTy) → Prop
  | [] => True
  | (_, v) :: vs => ProperVariant v ∧ ProperVariants vs
/-- `Proper` for the contents of a variant. -/
def ProperVariant : VTy → Prop
  | .unit => True
  | .newtype t => Proper t
  | .tuple ts => ProperAll ts
  | .struct fs => (fs.map Prod.fst).Nodup ∧ ProperFields fs
end

/-- A value, reduced to its kind: it is null, a string, or neither. -/
def kind : Value → Value
  | .null => .null
  | .string _ => .string []
  | _ => .bool true

/-- The value can be read as the type: one of `bool`, the integer types, `f64`, `char` and
`String`. Integers that do not fit into 64 bits can only be read as `i128` and `u128`. -/
def Suits : Ty → Value → Prop
  | .bool, .bool _ => True
  | .int lo hi wide, .integer i => lo ≤ i.1 ∧ i.1 ≤ hi ∧ (wide = true ∨ (-(2 ^ 63) ≤ i.1 ∧ i.1 < 2 ^ 64))
  | .f64, .float _ => True
  | .f64, .integer i => -(2 ^ 63) ≤ i.1 ∧ i.1 < 2 ^ 64
  | .char, .string s => s.length = 1
  | .str, .string _ => True
  | _, _ => False

/-- `bool`, an integer type, `f64`, `char` or `String`. -/
def ScalarTy : Ty → Prop
  | .bool | .int _ _ _ | .f64 | .char | .str => True
  | _ => False

end Kdl.Spec
