import Verif.Model.Chars
/-
Model of `src/value.rs`.
-/

namespace Kdl

/-! ### Floats -/

/-- An `f64`, given by its bit pattern. -/
structure F64 where
  bits : Fin (2 ^ 64)
  deriving DecidableEq

namespace F64

/-- Sign bit. -/
def neg (x : F64) : Bool := decide (2 ^ 63 ≤ x.bits.val)
/-- Biased exponent. -/
def expo (x : F64) : Nat := x.bits.val / 2 ^ 52 % 2 ^ 11
/-- Mantissa field. -/
def mant (x : F64) : Nat := x.bits.val % 2 ^ 52

/-- `f64::is_nan`. -/
def isNan (x : F64) : Bool := x.expo == 2047 && x.mant != 0
/-- `x == f64::INFINITY || x == f64::NEG_INFINITY`. -/
def isInf (x : F64) : Bool := x.expo == 2047 && x.mant == 0
/-- `f64::is_finite`. -/
def isFinite (x : F64) : Bool := x.expo != 2047

/-- Magnitude of a finite float in units of `2^-1074` (exact). -/
def scaledMag (x : F64) : Nat :=
  if x.expo = 0 then x.mant else (2 ^ 52 + x.mant) * 2 ^ (x.expo - 1)

/-- Value of a finite float in units of `2^-1074` (exact). -/
def scaled (x : F64) : Int := if x.neg then -(x.scaledMag : Int) else x.scaledMag

/-- `f64::INFINITY` -/
def inf : F64 := ⟨⟨0x7FF0000000000000, by decide⟩⟩
/-- `f64::NEG_INFINITY` -/
def negInf : F64 := ⟨⟨0xFFF0000000000000, by decide⟩⟩
/-- `f64::NAN` -/
def nan : F64 := ⟨⟨0x7FF8000000000000, by decide⟩⟩
/-- `f64::MAX` -/
def max : F64 := ⟨⟨0x7FEFFFFFFFFFFFFF, by decide⟩⟩
/-- `-f64::MAX` -/
def negMax : F64 := ⟨⟨0xFFEFFFFFFFFFFFFF, by decide⟩⟩
/-- `0.0` -/
def zero : F64 := ⟨⟨0, by decide⟩⟩

/-- IEEE `==` on `f64`. -/
def feq (x y : F64) : Bool :=
  if x.isNan || y.isNan then false
  else if x.isInf || y.isInf then x.isInf && y.isInf && (x.neg == y.neg)
  else x.scaled == y.scaled

/-- IEEE `partial_cmp` on `f64`. -/
def fcmp (x y : F64) : Option Ordering :=
  if x.isNan || y.isNan then none
  else if x.isInf then
    if y.isInf && x.neg == y.neg then some .eq else some (if x.neg then .lt else .gt)
  else if y.isInf then some (if y.neg then .gt else .lt)
  else some (compare x.scaled y.scaled)

end F64

/-- `src/value.rs:26-34` `normalize_float`. -/
def normalizeFloat (f : F64) : F64 :=
  if f.feq F64.inf then F64.max
  else if f.feq F64.negInf then F64.negMax
  else if f.isNan then F64.zero
  else f

/-- Decimal text of finite floats. Parameter of the model: `parse` stands for
Rust's `str::parse::<f64>` on texts accepted by the parser's float grammar, and
`show` for `format!("{:?}", x)` on finite floats. -/
class FloatIO where
  parse : Str → F64
  showFinite : F64 → Str

/-! ### Integers -/

/-- Smallest `i128`. -/
abbrev i128Min : Int := -(2 ^ 127)
/-- Largest `i128`. -/
abbrev i128Max : Int := 2 ^ 127 - 1

/-- An `i128`. -/
abbrev I128 := { i : Int // i128Min ≤ i ∧ i ≤ i128Max }

/-- Conversion of an integer to `i128`, `none` when out of range. -/
def I128.ofInt? (i : Int) : Option I128 :=
  if h : i128Min ≤ i ∧ i ≤ i128Max then some ⟨i, h⟩ else none

/-- Decimal digits of a natural number, least significant first. -/
def natDigitsRev : Nat → Nat → List Nat
  | 0, _ => []
  | fuel + 1, n => if n < 10 then [n] else n % 10 :: natDigitsRev fuel (n / 10)

/-- The ASCII digit for `d < 10`. -/
def digitChar (d : Nat) : Char := Char.ofNat (0x30 + d)

/-- `u128` printing in base ten. -/
def showNat (n : Nat) : Str := ((natDigitsRev (n + 1) n).reverse).map digitChar

/-- `format!("{:?}", i)` for an `i128`. -/
def showInt (i : Int) : Str :=
  if i < 0 then '-' :: showNat i.natAbs else showNat i.natAbs

/-! ### KdlValue -/

/-- `src/value.rs:5-22` `KdlValue`. -/
inductive Value where
  | string (s : Str)
  | integer (i : I128)
  | float (f : F64)
  | bool (b : Bool)
  | null
  deriving DecidableEq

namespace Value

/-- `src/value.rs:36-46` `PartialEq for KdlValue`. -/
def eq : Value → Value → Bool
  | .string a, .string b => a == b
  | .integer a, .integer b => a == b
  | .float a, .float b => (normalizeFloat a).feq (normalizeFloat b)
  | .bool a, .bool b => a == b
  | .null, .null => true
  | _, _ => false

/-- What a value feeds into a `Hasher`, as an abstract token list. -/
inductive HashTok where
  | str (s : Str)
  | int (i : Int)
  | bool (b : Bool)
  | disc
  deriving DecidableEq

/-- Rust's saturating `f as i128` applied to `f.trunc()` for a finite float. -/
def truncI128 (f : F64) : Int :=
  let t := Int.tdiv f.scaled (2 ^ 1074)
  if t < i128Min then i128Min else if i128Max < t then i128Max else t

/-- `src/value.rs:50-65` `Hash for KdlValue`. `fract() as i128` truncates a
number of magnitude below one and is therefore always `0`. -/
def hash : Value → List HashTok
  | .string s => [.str s]
  | .integer i => [.int i.val]
  | .float f => [.int (truncI128 (normalizeFloat f)), .int 0]
  | .bool b => [.bool b]
  | .null => [.disc]

/-- Position of the variant in the enum, as used by `#[derive(PartialOrd)]`. -/
def discr : Value → Nat
  | .string _ => 0
  | .integer _ => 1
  | .float _ => 2
  | .bool _ => 3
  | .null => 4

/-- `str::cmp`: lexicographic on UTF-8 bytes, which is lexicographic on code
points. -/
def strCmp : Str → Str → Ordering
  | [], [] => .eq
  | [], _ :: _ => .lt
  | _ :: _, [] => .gt
  | a :: as, b :: bs =>
    match compare a.toNat b.toNat with
    | .eq => strCmp as bs
    | o => o

/-- `src/value.rs:4` `#[derive(PartialOrd)]` for `KdlValue`. -/
def partialCmp : Value → Value → Option Ordering
  | .string a, .string b => some (strCmp a b)
  | .integer a, .integer b => some (compare a.val b.val)
  | .float a, .float b => a.fcmp b
  | .bool a, .bool b => some (compare a.toNat b.toNat)
  | .null, .null => some .eq
  | a, b => some (compare a.discr b.discr)

/-- `src/value.rs:95-101` `as_string`. -/
def asString : Value → Option Str
  | .string s => some s
  | _ => none

/-- `src/value.rs:105-111` `as_integer`. -/
def asInteger : Value → Option I128
  | .integer i => some i
  | _ => none

/-- `src/value.rs:115-120` `as_float`. -/
def asFloat : Value → Option F64
  | .float f => some f
  | _ => none

/-- `src/value.rs:123-129` `as_bool`. -/
def asBool : Value → Option Bool
  | .bool b => some b
  | _ => none

end Value

/-- The words that `is_plain_ident` refuses (`src/value.rs:164-169`). -/
def reservedWords : List Str :=
  ["inf".toList, "-inf".toList, "nan".toList, "true".toList, "false".toList, "null".toList]

/-- First byte is an ASCII digit (`src/value.rs:161`). -/
def startsWithDigit : Str → Bool
  | c :: _ => isDecDigit c
  | [] => false

/-- First char is `.`, `-` or `+` and the second byte is an ASCII digit
(`src/value.rs:162-163`; the first char is one byte, so the second byte starts
the second char, and it is an ASCII digit iff that char is). -/
def looksNumeric : Str → Bool
  | c :: d :: _ => (c == '.' || c == '-' || c == '+') && isDecDigit d
  | _ => false

/-- `src/value.rs:156-170` `is_plain_ident`. -/
def isPlainIdent (s : Str) : Bool :=
  !(s.any isDisallowedIdentChar) && !startsWithDigit s && !looksNumeric s &&
  !(reservedWords.contains s)

/-- `src/value.rs:187-195`, the escaping of one character. -/
def escapeChar (c : Char) : Str :=
  if c = '\\' ∨ c = '"' then ['\\', c]
  else if c = '\n' then ['\\', 'n']
  else if c = '\r' then ['\\', 'r']
  else if c = '\t' then ['\\', 't']
  else if c = Char.ofNat 0x08 then ['\\', 'b']
  else if c = Char.ofNat 0x0C then ['\\', 'f']
  else [c]

/-- `src/value.rs:180-200` `write_string`. -/
def writeString (s : Str) : Str :=
  if !s.isEmpty && isPlainIdent s then s
  else '"' :: (s.flatMap escapeChar) ++ ['"']

/-- `src/value.rs:132-154` `Display for KdlValue`. -/
def Value.display [FloatIO] : Value → Str
  | .string s => writeString s
  | .integer i => showInt i.val
  | .float f =>
    if f.feq F64.inf then "#inf".toList
    else if f.feq F64.negInf then "#-inf".toList
    else if f.isNan then "#nan".toList
    else FloatIO.showFinite f
  | .bool b => if b then "#true".toList else "#false".toList
  | .null => "#null".toList

end Kdl
