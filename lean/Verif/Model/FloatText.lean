import Verif.Model.Parser.Numbers
/-
Decimal texts of `f64`, as the Rust standard library reads and writes them:
`str::parse::<f64>` is correctly rounded, and `format!("{:?}", x)` writes the shortest
digits that are read back as `x`. The standard library is not part of `/repo`; this is its
documented behaviour, not a transcription of its code. (`f64::from_str` stops counting the
exponent at about 650000, which would only show on texts with as many digits.)
-/

namespace Kdl

/-! ### Reading -/

/-- `n / d` rounded to the nearest natural number, ties to even. -/
def roundDiv (n d : Nat) : Nat :=
  if 2 * (n % d) < d then n / d
  else if d < 2 * (n % d) then n / d + 1
  else if n / d % 2 = 0 then n / d else n / d + 1

/-- The bits of infinity. -/
def infBits : Nat := 2047 * 2 ^ 52

/-- The bits of the magnitude nearest to `n / d` units of `2^-1074`: the significand has 53
bits, and its leading bit adds one to the exponent field. -/
def nearestBits (n d : Nat) : Nat :=
  let k := Nat.log2 (n / d) - 52
  min (k * 2 ^ 52 + roundDiv n (d * 2 ^ k)) infBits

theorem nearestBits_le (n d : Nat) : nearestBits n d ≤ infBits := Nat.min_le_right _ _

/-- The number `c * 10^e` is `decNum c e / decDen e` units of `2^-1074`. -/
def decNum (c : Nat) (e : Int) : Nat := c * 10 ^ e.toNat * 2 ^ 1074
/-- See `decNum`. -/
def decDen (e : Int) : Nat := 10 ^ (-e).toNat

/-- The bits of the magnitude nearest to `c * 10^e`. -/
def decBits (c : Nat) (e : Int) : Nat := nearestBits (decNum c e) (decDen e)

theorem decBits_le (c : Nat) (e : Int) : decBits c e ≤ infBits := nearestBits_le _ _

/-- The float with the given sign and magnitude. -/
def signedBits (neg : Bool) (b : Nat) (h : b ≤ infBits) : F64 :=
  ⟨⟨(if neg then 2 ^ 63 else 0) + b, by unfold infBits at h; split <;> omega⟩⟩

/-- An optional sign, and the rest. -/
def readSign : Str → Bool × Str
  | '-' :: s => (true, s)
  | '+' :: s => (false, s)
  | s => (false, s)

/-- Value of an optional exponent (the text after `e`). -/
def readExp (s : Str) : Int :=
  let (neg, ds) := readSign s
  if neg then -(digitsVal 10 ds : Int) else digitsVal 10 ds

/-- Rust's `str::parse::<f64>`, on texts of the form `[+-]?d*(.d*)?([eE][+-]?d*)?`. -/
def readFloat (s : Str) : F64 :=
  let (neg, t) := readSign s
  let body := t.takeWhile fun c => c != 'e' && c != 'E'
  let ex := (t.dropWhile fun c => c != 'e' && c != 'E').drop 1
  let ip := body.takeWhile (· != '.')
  let fp := (body.dropWhile (· != '.')).drop 1
  signedBits neg (decBits (digitsVal 10 (ip ++ fp)) (readExp ex - fp.length)) (decBits_le _ _)

/-! ### Writing -/

/-- Number of digits in front of the decimal point of a positive magnitude (negative if
there are zeros behind it), plus 400. -/
def decLen (v : Nat) : Nat := (showNat (v * 10 ^ 400 / 2 ^ 1074)).length

/-- The power of ten that leaves `n` digits in front of the decimal point. -/
def decShift (v n : Nat) : Int := (n + 400 : Int) - decLen v

/-- The number with `n` digits, next to the magnitude `v` with bits `b`, that is read back
as `b`, and its exponent. Of two such numbers the nearer one is taken. -/
def pickDigits (v b n : Nat) : Option (Nat × Int) :=
  let t := decShift v n
  let num := v * 10 ^ t.toNat
  let den := 2 ^ 1074 * 10 ^ (-t).toNat
  let lo := num / den
  let okLo := decBits lo (-t) == b
  let okHi := decBits (lo + 1) (-t) == b
  if okLo && (!okHi || decide (2 * (num % den) < den)) then some (lo, -t)
  else if okHi then some (lo + 1, -t)
  else none

/-- The first result of `pickDigits` for `n, n + 1, …`. -/
def searchDigits (v b : Nat) : Nat → Nat → Nat × Int
  | 0, _ => (0, 0)
  | fuel + 1, n => (pickDigits v b n).getD (searchDigits v b fuel (n + 1))

/-- Removes zeros at the end of the digits. -/
def stripZeros : Nat → Nat × Int → Nat × Int
  | 0, p => p
  | fuel + 1, (c, e) => if c % 10 = 0 then stripZeros fuel (c / 10, e + 1) else (c, e)

/-- The shortest digits of a magnitude, and their exponent. -/
def shortest (v b : Nat) : Nat × Int := stripZeros 17 (searchDigits v b 17 1)

/-- `1e16` in units of `2^-1074`. -/
def expLimit : Nat := 10 ^ 16 * 2 ^ 1074

/-- `x < 1e-4 || x >= 1e16`, where `{:?}` switches to an exponent. -/
def useExp (v b : Nat) : Bool := decide (b < decBits 1 (-4)) || decide (expLimit ≤ v)

/-- The digits `ds`, times `10^e`, with an exponent. -/
def expText (ds : Str) (e : Int) : Str :=
  ds.take 1 ++ (if ds.length ≤ 1 then [] else '.' :: ds.drop 1) ++ 'e' :: showInt (e + (ds.length - 1 : Int))

/-- The digits `ds`, times `10^e`, without an exponent. -/
def pointText (ds : Str) (e : Int) : Str :=
  if 0 ≤ e then ds ++ List.replicate e.toNat '0' ++ ['.', '0']
  else if (-e).toNat < ds.length then ds.take (ds.length - (-e).toNat) ++ '.' :: ds.drop (ds.length - (-e).toNat)
  else '0' :: '.' :: (List.replicate ((-e).toNat - ds.length) '0' ++ ds)

/-- The text of the magnitude `v` with bits `b`. -/
def magText (v b : Nat) : Str :=
  if v = 0 then ['0', '.', '0']
  else if useExp v b then expText (showNat (shortest v b).1) (shortest v b).2
  else pointText (showNat (shortest v b).1) (shortest v b).2

/-- `format!("{:?}", x)` for a finite float. -/
def showFloat (x : F64) : Str :=
  (if x.neg then ['-'] else []) ++ magText x.scaledMag (x.bits.val % 2 ^ 63)

/-- The decimal texts of floats that Rust's standard library reads and writes. -/
@[reducible] def rustFloatIO : FloatIO := ⟨readFloat, showFloat⟩

end Kdl
