import Verif.Model.Parser.Strings
/-
Numbers and keywords (`src/v2_parser.rs:1550-1569` and `1752-2100`).
-/

namespace Kdl

/-- `i128::from_str_radix` on a non-empty string of digits of the given radix,
`src/v2_parser.rs:2036-2046`. Rust fails as soon as an intermediate value leaves
the range; since all digits are non-negative this is the same as the final value
being out of range. -/
def fromStrRadix (radix : Nat) (s : Str) : Option I128 :=
  I128.ofInt? (digitsVal radix s)

/-- `str::replace(s, "_", "")`. -/
def dropUnderscores (s : Str) : Str := s.filter (· != '_')

/-- `(digit1, repeat(0.., alt(("_", take_while(1.., digit)))))`, returning the
digits with the underscores removed (`src/v2_parser.rs:1868-1877`). -/
def digitGroup (f : Char → Bool) : P Str := do
  let l ← takeWhile1 f
  let r ← rep0 (takeP (lit ['_']) <+> takeWhile1 f)
  return l ++ dropUnderscores r.flatten

/-- `src/v2_parser.rs:1867-1879` `udecimal::<i128>`. -/
def udecimal : P I128 := mapOpt (digitGroup isDecDigit) (fromStrRadix 10)

/-- `src/v2_parser.rs:1895-1909` `uhex::<i128>`. -/
def uhex : P I128 := do
  lit ['0', 'x'] <+> lit ['0', 'X']
  mapOpt (cutErr (digitGroup isHexDigit)) (fromStrRadix 16)

/-- `src/v2_parser.rs:1951-1965` `uoctal::<i128>`. -/
def uoctal : P I128 := do
  lit ['0', 'o'] <+> lit ['0', 'O']
  mapOpt (cutErr (digitGroup isOctDigit)) (fromStrRadix 8)

/-- `src/v2_parser.rs:1990-2001` `ubinary::<i128>`: here the conversion is inside
`cut_err`. -/
def ubinary : P I128 := do
  lit ['0', 'b'] <+> lit ['0', 'B']
  cutErr (mapOpt
    (do
      let x ← takeP (lit ['0'] <+> lit ['1'])
      let xs ← rep0 (takeP (lit ['0'] <+> lit ['1'] <+> lit ['_']))
      return x ++ dropUnderscores xs.flatten)
    (fromStrRadix 2))

/-- `src/v2_parser.rs:2052-2066` `negated` for `i128`: `self * -1`, which panics
on overflow. -/
def negatedP (x : I128) : P I128 := fun s =>
  match I128.ofInt? (-x.val) with
  | some y => .ok y s
  | none => .crash

/-- The shared body of `decimal`, `hex`, `octal`, `binary`
(`src/v2_parser.rs:1844-1855`, `1882-1893`, `1938-1949`, `1977-1988`). -/
def signedP (p : P I128) : P I128 := do
  let positive ← signum
  let x ← p
  if positive then return x else negatedP x

/-- `src/v2_parser.rs:1844-1855` `decimal::<i128>`. -/
def decimal : P I128 := signedP udecimal
/-- `src/v2_parser.rs:1882-1893` `hex::<i128>`. -/
def hex : P I128 := signedP uhex
/-- `src/v2_parser.rs:1938-1949` `octal::<i128>`. -/
def octal : P I128 := signedP uoctal
/-- `src/v2_parser.rs:1977-1988` `binary::<i128>`. -/
def binary : P I128 := signedP ubinary

/-- `src/v2_parser.rs:1767-1784`: a float with an exponent. -/
def floatExp : P Unit := do
  let _ ← decimal
  let _ ← opt (do lit ['.']; cutErr udecimal)
  let _ ← satisfy fun c => c == 'e' || c == 'E'
  let _ ← opt (satisfy fun c => c == '-' || c == '+')
  void (cutErr udecimal)

/-- `src/v2_parser.rs:1785-1793`: a float without an exponent. -/
def floatFrac : P Unit := do
  let _ ← decimal
  lit ['.']
  void (cutErr udecimal)

/-- `src/v2_parser.rs:1761-1800` `float_value`. `FloatIO.parse` stands for
`str::parse::<f64>`, which accepts every text of this shape. -/
def floatValue [FloatIO] : P Value := do
  let t ← takeP (floatExp <+> floatFrac)
  valueTerminatorCheck
  return .float (FloatIO.parse (dropUnderscores t))

/-- `src/v2_parser.rs:1832-1841` `integer_value`. -/
def integerValue : P Value := do
  let i ← (do let i ← hex; valueTerminatorCheck; return i) <+>
    (do let i ← octal; valueTerminatorCheck; return i) <+>
    (do let i ← binary; valueTerminatorCheck; return i) <+>
    (do let i ← decimal; valueTerminatorCheck; return i)
  return .integer i

/-- `src/v2_parser.rs:1753-1755` `number`. -/
def number [FloatIO] : P Value := floatValue <+> integerValue

/-- `src/v2_parser.rs:1554-1569` `keyword`. -/
def keyword : P Value := do
  lit ['#']
  notP (satisfy fun c => c == '#' || c == '"')
  cutErr (
    (do lit "true".toList; return .bool true) <+>
    (do lit "false".toList; return .bool false) <+>
    (do lit "null".toList; return .null) <+>
    (do lit "nan".toList; return .float F64.nan) <+>
    (do lit "inf".toList; return .float F64.inf) <+>
    (do lit "-inf".toList; return .float F64.negInf))

end Kdl
