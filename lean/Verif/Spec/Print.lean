import Verif.Spec.Strings
/-
What is assumed of float texts, and which strings can be written and read back.
-/

namespace Kdl.Spec

/-- A non-empty run of decimal digits, of at most 38 digits (every such number is
below `2^127`). -/
def SmallDigits (ds : Str) : Prop := ds ≠ [] ∧ ds.length ≤ 38 ∧ ∀ c ∈ ds, IsDigit 10 c

/-- Shape of a printed finite float: `-?d+(.d+)?(e-?d+)?`, with a fraction or an
exponent. -/
def FloatShape (t : Str) : Prop :=
  ∃ sg ip fp ex, (sg = [] ∨ sg = ['-']) ∧ SmallDigits ip ∧
    (fp = [] ∨ ∃ ds, SmallDigits ds ∧ fp = '.' :: ds) ∧
    (ex = [] ∨ ∃ es ds, (es = [] ∨ es = ['-']) ∧ SmallDigits ds ∧ ex = 'e' :: (es ++ ds)) ∧
    (fp ≠ [] ∨ ex ≠ []) ∧ t = sg ++ ip ++ fp ++ ex

end Kdl.Spec

namespace Kdl

/-- What the theorems about printed floats assume of Rust's `format!("{:?}", x)`
and `str::parse::<f64>`: finite floats are printed in the usual shape, and
reading the printed text gives back the same float. -/
class LawfulFloatIO [FloatIO] : Prop where
  shape : ∀ x : F64, x.isFinite = true → Spec.FloatShape (FloatIO.showFinite x)
  parse_show : ∀ x : F64, x.isFinite = true → FloatIO.parse (FloatIO.showFinite x) = x

end Kdl

namespace Kdl.Spec

/-- Code points that the printer copies verbatim between quotes although they are
newlines there. -/
def rawNewlines : List Nat := [0x0B, 0x85, 0x2028, 0x2029]

/-- A character that survives printing between quotes. -/
def CleanChar (c : Char) : Prop :=
  c.toNat ∉ rawNewlines ∧ (Disallowed c → c = Char.ofNat 8)

instance (c : Char) : Decidable (CleanChar c) := inferInstanceAs (Decidable (_ ∧ _))

/-- Like `+.5`: a sign, a point, a digit, and only identifier characters. -/
def SignedPoint (s : Str) : Prop :=
  (∃ g d t, (g = '+' ∨ g = '-') ∧ IsDigit 10 d ∧ s = g :: '.' :: d :: t) ∧ ∀ c ∈ s, IdentChar c

/-- Strings that survive printing and parsing. -/
def Writable (s : Str) : Prop := (∀ c ∈ s, CleanChar c) ∧ ¬ SignedPoint s

/-- The value read back for `v`: the same, except that every NaN becomes the
standard one. -/
def canonValue : Value → Value
  | .float x => if x.isNan then .float .nan else .float x
  | v => v

/-- Values that survive printing and parsing. -/
def WritableValue : Value → Prop
  | .string s => Writable s
  | .integer i => i.val ≠ i128Min
  | _ => True

end Kdl.Spec
