import Verif.Model.Value
import Verif.Spec.Literals
/-
What it means to read and write floats correctly.
-/

namespace Kdl.Spec

/-! ### Float literals -/

/-- A digit, followed by digits and underscores. -/
def DigitGroup (ds : Str) : Prop :=
  ∃ c t, ds = c :: t ∧ IsDigit 10 c ∧ ∀ x ∈ t, x = '_' ∨ IsDigit 10 x

/-- The exponent of a float literal: `e` or `E`, a sign, and digits. -/
structure ExpPart where
  mark : Char
  sign : Str
  digits : Str

/-- The parts of a float literal. -/
structure FloatNum where
  sign : Str
  int : Str
  frac : Option Str
  exp : Option ExpPart

namespace FloatNum

/-- The text of an exponent. -/
def expText : Option ExpPart → Str
  | none => []
  | some x => x.mark :: (x.sign ++ x.digits)

/-- The text of a fraction. -/
def fracText : Option Str → Str
  | none => []
  | some f => '.' :: f

/-- The text of a float literal. -/
def text (p : FloatNum) : Str := p.sign ++ p.int ++ fracText p.frac ++ expText p.exp

/-- The grammar of floats: `sign? integer (. integer)? ((e|E) sign? integer)?`, with a
fraction or an exponent. -/
structure Ok (p : FloatNum) : Prop where
  sign : ∃ k, Sign p.sign k
  int : DigitGroup p.int
  frac : ∀ f, p.frac = some f → DigitGroup f
  exp : ∀ x, p.exp = some x → (x.mark = 'e' ∨ x.mark = 'E') ∧ (∃ k, Sign x.sign k) ∧ DigitGroup x.digits
  some : p.frac ≠ none ∨ p.exp ≠ none

/-- Each group of digits is at most `i128::MAX`. -/
structure Fits (p : FloatNum) : Prop where
  int : (litVal 10 p.int : Int) ≤ i128Max
  frac : ∀ f, p.frac = some f → (litVal 10 f : Int) ≤ i128Max
  exp : ∀ x, p.exp = some x → (litVal 10 x.digits : Int) ≤ i128Max

/-- Is the literal negative? -/
def neg (p : FloatNum) : Bool := p.sign == ['-']

/-- All digits, read as one integer. -/
def coeff (p : FloatNum) : Nat := litVal 10 (p.int ++ p.frac.getD [])

/-- The exponent as written. -/
def expVal : Option ExpPart → Int
  | none => 0
  | some x => if x.sign = ['-'] then -(litVal 10 x.digits : Int) else litVal 10 x.digits

/-- The magnitude denoted is `coeff * 10 ^ exponent`. -/
def exponent (p : FloatNum) : Int := expVal p.exp - numDigits (p.frac.getD [])

end FloatNum

/-! ### Nearest floats -/

/-- Distance of two natural numbers. -/
def dist (a b : Nat) : Nat := (a - b) + (b - a)

/-- The magnitude of a float that is not NaN, in units of `2^-1074`. Infinity counts as
`2^1024`, as in the rounding rule of IEEE 754. -/
def mag (x : F64) : Nat := if x.isInf then 2 ^ 1024 * 2 ^ 1074 else x.scaledMag

/-- The magnitude of `x` is the one nearest to `c * 10^e`: none is nearer, and if another one
is as near, the last bit of `x` is zero. In units of `2^-1074`, the number `c * 10^e` is
`c * 10^e * 2^1074`; all sides are multiplied by `10^-e` if `e` is negative. -/
def NearestFloat (c : Nat) (e : Int) (x : F64) : Prop :=
  x.isNan = false ∧ ∀ y : F64, y.isNan = false →
    let n := c * 10 ^ e.toNat * 2 ^ 1074
    let d := 10 ^ (-e).toNat
    dist (mag x * d) n ≤ dist (mag y * d) n ∧
    (dist (mag x * d) n = dist (mag y * d) n → mag y ≠ mag x → x.mant % 2 = 0)

/-- The value of a float literal: the nearest float, with the sign of the literal. -/
def Denotes (p : FloatNum) (x : F64) : Prop := x.neg = p.neg ∧ NearestFloat p.coeff p.exponent x

/-- `c * 10^e` is at least as near to the magnitude of `x` as `c' * 10^e'`. -/
def AsNear (x : F64) (c : Nat) (e : Int) (c' : Nat) (e' : Int) : Prop :=
  dist (c * 10 ^ e.toNat * 2 ^ 1074) (mag x * 10 ^ (-e).toNat) * 10 ^ (-e').toNat ≤
  dist (c' * 10 ^ e'.toNat * 2 ^ 1074) (mag x * 10 ^ (-e').toNat) * 10 ^ (-e).toNat

/-- The number `n` has at most `k` digits, not counting zeros at the end. -/
def Short (n k : Nat) : Prop := ∃ c j, c < 10 ^ k ∧ n = c * 10 ^ j

end Kdl.Spec
