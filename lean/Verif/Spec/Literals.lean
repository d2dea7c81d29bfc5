import Verif.Model.Chars
import Verif.Model.Value
/-
Independent descriptions of literals.
-/

namespace Kdl.Spec

/-- Position of a character in the digit alphabet, upper case letters counting as
lower case ones. -/
def digit (c : Char) : Option Nat :=
  let low := "0123456789abcdef".toList.idxOf c
  let up := "0123456789ABCDEF".toList.idxOf c
  if low < 16 then some low else if up < 16 then some up else none

/-- Is `c` a digit in base `radix`? -/
def IsDigit (radix : Nat) (c : Char) : Prop := ∃ d, digit c = some d ∧ d < radix

/-- Number of digits of a literal, not counting underscores. -/
def numDigits (ds : Str) : Nat := (ds.filter (· ≠ '_')).length

/-- Value of a string of digits and underscores: the sum of digit times
`radix ^ position`. -/
def litVal (radix : Nat) : Str → Nat
  | [] => 0
  | c :: cs =>
    if c = '_' then litVal radix cs
    else (digit c).getD 0 * radix ^ numDigits cs + litVal radix cs

/-- The optional sign of a number, and the factor it stands for. -/
inductive Sign : Str → Int → Prop
  | none : Sign [] 1
  | plus : Sign ['+'] 1
  | minus : Sign ['-'] (-1)

/-- The prefixes of integer literals, and the base they select. -/
inductive Base : Str → Nat → Prop
  | dec : Base [] 10
  | hex : Base ['0', 'x'] 16
  | hexU : Base ['0', 'X'] 16
  | oct : Base ['0', 'o'] 8
  | octU : Base ['0', 'O'] 8
  | bin : Base ['0', 'b'] 2
  | binU : Base ['0', 'B'] 2

/-- `t` is an integer literal that denotes `v`. -/
def IntLit (t : Str) (v : Int) : Prop :=
  ∃ sign k pre radix c ds, Sign sign k ∧ Base pre radix ∧ IsDigit radix c ∧
    (∀ x ∈ ds, x = '_' ∨ IsDigit radix x) ∧
    t = sign ++ pre ++ c :: ds ∧ v = k * litVal radix (c :: ds)

end Kdl.Spec
