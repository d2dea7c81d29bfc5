/-
Character classes used by the KDL v2 parser and printer, and the small part of
Rust's string library that the crate relies on.

Texts are modelled as lists of Unicode scalar values: a Rust `str` is exactly a
sequence of `char`s, and Lean's `Char` ranges over exactly the Unicode scalar
values.
-/

namespace Kdl

/-- A Rust string. Simplification: UTF-8 encoding is only represented through
`utf8Len`. -/
abbrev Str := List Char

/-- `src/v2_parser.rs:1576-1585` `is_disallowed_unicode`. -/
def isDisallowedUnicode (c : Char) : Bool :=
  (c.toNat ≤ 0x8) ||
  (0xE ≤ c.toNat && c.toNat ≤ 0x1F) ||
  (0x200E ≤ c.toNat && c.toNat ≤ 0x200F) ||
  (0x202A ≤ c.toNat && c.toNat ≤ 0x202E) ||
  (0x2066 ≤ c.toNat && c.toNat ≤ 0x2069) ||
  (c.toNat == 0xFEFF)

/-- `src/v2_parser.rs:1622-1631` `NEWLINES`, in the order they are tried. -/
def newlines : List Str :=
  [['\r', '\n'], ['\r'], ['\n'], [Char.ofNat 0x85], [Char.ofNat 0x0B], [Char.ofNat 0x0C],
   [Char.ofNat 0x2028], [Char.ofNat 0x2029]]

/-- A character occurring in one of the strings of `NEWLINES`
(`src/v2_parser.rs:1012`, the `contains` test on the concatenation). -/
def isNewlineChar (c : Char) : Bool :=
  c.toNat == 0x0D || c.toNat == 0x0A || c.toNat == 0x85 || c.toNat == 0x0B ||
  c.toNat == 0x0C || c.toNat == 0x2028 || c.toNat == 0x2029

/-- `src/v2_parser.rs:1654-1658` `UNICODE_SPACES`. -/
def isUnicodeSpace (c : Char) : Bool :=
  c.toNat == 0x09 || c.toNat == 0x20 || c.toNat == 0xA0 || c.toNat == 0x1680 ||
  (0x2000 ≤ c.toNat && c.toNat ≤ 0x200A) || c.toNat == 0x202F || c.toNat == 0x205F ||
  c.toNat == 0x3000

/-- `src/v2_parser.rs:1007-1008` `DISALLOWED_IDENT_CHARS`. -/
def disallowedIdentChars : List Char :=
  ['\\', '/', '(', ')', '{', '}', '[', ']', ';', '"', '#']

/-- `src/v2_parser.rs:1010-1016` `is_disallowed_ident_char`. -/
def isDisallowedIdentChar (c : Char) : Bool :=
  disallowedIdentChars.contains c || isNewlineChar c || isUnicodeSpace c ||
  isDisallowedUnicode c || c == '='

/-- Rust `char::is_ascii_digit`, and winnow's `AsChar::is_dec_digit`. -/
def isDecDigit (c : Char) : Bool := 0x30 ≤ c.toNat && c.toNat ≤ 0x39

/-- winnow's `AsChar::is_hex_digit` (ASCII hexadecimal digits). -/
def isHexDigit (c : Char) : Bool :=
  isDecDigit c || (0x41 ≤ c.toNat && c.toNat ≤ 0x46) || (0x61 ≤ c.toNat && c.toNat ≤ 0x66)

/-- winnow's `AsChar::is_oct_digit`. -/
def isOctDigit (c : Char) : Bool := 0x30 ≤ c.toNat && c.toNat ≤ 0x37

/-- Binary digits (`alt(("0", "1"))` in `src/v2_parser.rs:1993`). -/
def isBinDigit (c : Char) : Bool := c.toNat == 0x30 || c.toNat == 0x31

/-- Rust `char::is_whitespace` (the Unicode `White_Space` property). It is the
union of the KDL newline characters and the KDL unicode spaces. -/
def isWhitespace (c : Char) : Bool :=
  (0x09 ≤ c.toNat && c.toNat ≤ 0x0D) || c.toNat == 0x20 || c.toNat == 0x85 ||
  c.toNat == 0xA0 || c.toNat == 0x1680 || (0x2000 ≤ c.toNat && c.toNat ≤ 0x200A) ||
  c.toNat == 0x2028 || c.toNat == 0x2029 || c.toNat == 0x202F || c.toNat == 0x205F ||
  c.toNat == 0x3000

/-- UTF-8 length of a string, `str::len`. -/
def utf8Len (s : Str) : Nat := (s.map Char.utf8Size).sum

/-- Rust `str::trim_start`. -/
def trimStart (s : Str) : Str := s.dropWhile isWhitespace

/-- Rust `str::trim_end`. -/
def trimEnd (s : Str) : Str := (s.reverse.dropWhile isWhitespace).reverse

/-- Rust `str::trim`. -/
def trim (s : Str) : Str := trimEnd (trimStart s)

/-- Drop one trailing `\r`, as `str::lines` does for lines that ended in `\n`. -/
def stripCr (s : Str) : Str :=
  match s.reverse with
  | '\r' :: t => t.reverse
  | _ => s

/-- Worker for `lines`: `acc` is the current line, reversed. -/
def linesAux : Str → Str → List Str
  | acc, [] => if acc.isEmpty then [] else [acc.reverse]
  | acc, '\n' :: s => stripCr acc.reverse :: linesAux [] s
  | acc, c :: s => linesAux (c :: acc) s

/-- Rust `str::lines`: split on `\n` or `\r\n`; a final line ending is optional
and does not produce an extra empty line; a bare `\r` is kept. -/
def lines (s : Str) : List Str := linesAux [] s

/-- Does `t` start with `p`, and what follows (`str::strip_prefix`). -/
def stripPrefix? : Str → Str → Option Str
  | [], s => some s
  | _ :: _, [] => none
  | p :: ps, c :: s => if p = c then stripPrefix? ps s else none

/-- Rust `str::contains(&str)`. -/
def containsStr (s p : Str) : Bool :=
  match s with
  | [] => (stripPrefix? p []).isSome
  | c :: t => (stripPrefix? p (c :: t)).isSome || containsStr t p

end Kdl
