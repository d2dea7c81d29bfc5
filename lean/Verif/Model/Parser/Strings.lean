import Verif.Model.Parser.Lex
/-
Strings and identifiers (`src/v2_parser.rs:907-1388`).
-/

namespace Kdl

/-- `src/v2_parser.rs:1019-1031` `identifier_char`. -/
def identifierChar : P Char := do
  notP (unicodeSpace <+> newline <+> disallowedUnicode <+> equalsSign)
  satisfy fun c => !disallowedIdentChars.contains c

/-- The words refused at `src/v2_parser.rs:973-976`. -/
def keywordWords : List Str :=
  ["true".toList, "false".toList, "null".toList, "inf".toList, "-inf".toList, "nan".toList]

/-- winnow's `digit1`. -/
def digit1 : P Str := takeWhile1 isDecDigit

/-- `src/v2_parser.rs:965-986` `unambiguous_ident`. -/
def unambiguousIdent : P Unit := do
  notP (void digit1 <+> (lit ['-'] <+> lit ['+']) <+> lit ['.'])
  let _ ← peek identifierChar
  cutErr (void (mapOpt (rep1 identifierChar)
    fun s => if keywordWords.contains s then none else some s))

/-- `src/v2_parser.rs:989-993` `signed_ident`. -/
def signedIdent : P Unit := do
  lit ['+'] <+> lit ['-']
  notP (void digit1 <+> lit ['.'])
  void (rep0 identifierChar)

/-- `src/v2_parser.rs:2020-2028` `signum`: `true` for a positive sign. -/
def signum : P Bool := do
  let sign ← opt ((do lit ['+']; return true) <+> (do lit ['-']; return false))
  return sign.getD true

/-- `src/v2_parser.rs:996-1005` `dotted_ident`. -/
def dottedIdent : P Unit := do
  let _ ← opt signum
  lit ['.']
  notP digit1
  void (rep0 identifierChar)

/-- `src/v2_parser.rs:957-962` `identifier_string`. -/
def identifierString : P Str := takeP (unambiguousIdent <+> signedIdent <+> dottedIdent)

/-- `src/v2_parser.rs:1220-1230` `ws_escape`. -/
def wsEscape : P Unit := do
  lit ['\\']
  void (rep1 (unicodeSpace <+> newline))

/-- Value of a digit in base 16 (and below). -/
def digitVal (c : Char) : Nat :=
  if isDecDigit c then c.toNat - 0x30
  else if 0x41 ≤ c.toNat && c.toNat ≤ 0x46 then c.toNat - 0x41 + 10
  else c.toNat - 0x61 + 10

/-- Value of a digit string. -/
def digitsVal (radix : Nat) (s : Str) : Nat :=
  s.foldl (fun acc c => acc * radix + digitVal c) 0

/-- Rust `char::from_u32`. -/
def charFromU32 (n : Nat) : Option Char :=
  if n.isValidChar then some (Char.ofNat n) else none

/-- `src/v2_parser.rs:1236-1262` `escaped_char`. -/
def escapedChar : P Char := do
  lit ['\\']
  ((do lit ['\\']; return '\\') <+> (do lit ['"']; return '"') <+>
    (do lit ['b']; return Char.ofNat 0x08) <+> (do lit ['f']; return Char.ofNat 0x0C) <+>
    (do lit ['n']; return '\n') <+> (do lit ['r']; return '\r') <+>
    (do lit ['t']; return '\t') <+> (do lit ['s']; return ' ')) <+>
  mapOpt
    (do
      lit ['u', '{']
      let hx ← cutErr (takeWhile1to6 isHexDigit)
      cutErr (lit ['}'])
      return hx)
    (fun hx => charFromU32 (digitsVal 16 hx))

/-- `src/v2_parser.rs:1209-1218` `string_char`. -/
def stringChar : P Char :=
  escapedChar <+>
  (do notP disallowedUnicode; satisfy fun c => c != '\\' && c != '"')

/-- `src/v2_parser.rs:1177-1183` `empty_line`. -/
def emptyLine : P Unit := do
  let _ ← rep0 (wsEscape <+> unicodeSpace)
  newline

/-- `"\"\"\""`. -/
def tripleQuote : Str := ['"', '"', '"']

/-- `src/v2_parser.rs:1112-1122`: one item of a multi-line string body. The same
alternatives are used at `src/v2_parser.rs:1065-1079`. -/
def mlChar : P (Option Char) := do
  notP newline
  (do wsEscape; return none) <+>
    (do lit ['"']; notP (lit ['"', '"']); return some '"') <+>
    (do lit ['"']; notP (lit ['"']); return some '"') <+>
    (do let c ← stringChar; return some c)

/-- `src/v2_parser.rs:1091-1092`: indentation of the closing line. -/
def mlIndent : P Str := do
  let parts ← rep0 ((do wsEscape; return []) <+> takeP unicodeSpace)
  return parts.flatten

/-- `src/v2_parser.rs:1059-1097`: look ahead for the indentation of the closing
line of a multi-line string. -/
def mlPrefix : P Str :=
  cutErr (peek (do
    let _ ← repTill
      (do let _ ← rep0 mlChar; newline)
      (peek (do let _ ← rep0 (wsEscape <+> unicodeSpace); lit tripleQuote))
    let p ← mlIndent
    lit tripleQuote
    return p))

/-- `src/v2_parser.rs:1105-1129`: one line of a multi-line string. -/
def mlLine (pre : Str) : P Str := do
  cutErr (lit pre <+> peek emptyLine)
  (do emptyLine; return ['\n']) <+>
    (do
      let (cs, _) ← repTill mlChar newline
      return cs.filterMap id ++ ['\n'])

/-- `src/v2_parser.rs:1103-1143`: the body of a multi-line string; the last
line's `\n` is removed (`dropLast`, since the joined text is empty or ends in
`\n`). -/
def mlBody (pre : Str) : P Str :=
  cutErr (do
    let (ls, _) ← repTill (mlLine pre)
      (do lit pre; let _ ← rep0 wsEscape; peek (lit tripleQuote))
    return ls.flatten.dropLast)

/-- `src/v2_parser.rs:1145-1163`: the body of a single-line string. -/
def slBody : P Str :=
  cutErr (do
    let (cs, _) ← repTill
      (do
        cutErr (notP newline)
        (do wsEscape; return none) <+> (do let c ← stringChar; return some c))
      (peek (lit ['"']))
    return cs.filterMap id)

/-- `src/v2_parser.rs:1043-1175` `quoted_string`. -/
def quotedString : P Str := do
  let ml ← (do lit tripleQuote; cutErr newline; return true) <+> (do lit ['"']; return false)
  if ml then do
    let pre ← mlPrefix
    let body ← mlBody pre
    cutErr (lit tripleQuote)
    return body
  else do
    let body ← slBody
    cutErr (lit ['"'])
    return body

/-- `src/v2_parser.rs:1278-1304`: look ahead for the indentation of the closing
line of a multi-line raw string. -/
def rawMlPrefix (hashes : Str) : P Str :=
  peek (do
    let _ ← repTill
      (do
        let _ ← rep0 (do
          notP newline
          notP disallowedUnicode
          notP (do lit tripleQuote; lit hashes)
          anyChar)
        newline)
      (peek (do let _ ← rep0 unicodeSpace; lit tripleQuote; lit hashes))
    let p ← takeP (rep0 unicodeSpace)
    lit tripleQuote
    lit hashes
    return p)

/-- `src/v2_parser.rs:1314-1330`: one line of a multi-line raw string. -/
def rawMlLine (hashes pre : Str) : P Str := do
  cutErr (lit pre <+> peek emptyLine)
  (do emptyLine; return ['\n']) <+>
    (do
      let (cs, _) ← repTill
        (do notP newline; notP (do lit tripleQuote; lit hashes); anyChar)
        newline
      return cs ++ ['\n'])

/-- `src/v2_parser.rs:1312-1343`: the body of a multi-line raw string. -/
def rawMlBody (hashes pre : Str) : P Str := do
  let (ls, _) ← repTill (rawMlLine hashes pre)
    (do
      lit pre
      let _ ← rep0 unicodeSpace
      peek (do lit tripleQuote; lit hashes))
  return ls.flatten.dropLast

/-- `src/v2_parser.rs:1345-1358`: the body of a single-line raw string. -/
def rawSlBody (hashes : Str) : P Str := do
  let (cs, _) ← repTill
    (do
      notP disallowedUnicode
      notP newline
      notP (do lit ['"']; lit hashes)
      anyChar)
    (peek (do lit ['"']; lit hashes))
  return cs

/-- `src/v2_parser.rs:1271-1377` `raw_string`. -/
def rawString : P Str := do
  let hashes ← takeP (rep1 (lit ['#']))
  let ml ← (do lit tripleQuote; newline; return true) <+> (do lit ['"']; return false)
  if ml then do
    let pre ← rawMlPrefix hashes
    let body ← rawMlBody hashes pre
    cutErr (do lit tripleQuote; lit hashes)
    if body = ['"'] then cutP else return body
  else do
    let body ← rawSlBody hashes
    cutErr (do lit ['"']; lit hashes)
    if body = ['"'] then cutP else return body

/-- `src/v2_parser.rs:908-928` `string` (strict reading: always `Some`). -/
def stringP : P Str :=
  (do let s ← identifierString; valueTerminatorCheck; return s) <+>
  (do let s ← rawString; valueTerminatorCheck; return s) <+>
  (do let s ← quotedString; valueTerminatorCheck; return s)

/-- `src/v2_parser.rs:930-954` `identifier` (strict reading: no bad
identifiers). `total` is the byte length of the whole input. -/
def identifier (total : Nat) : P Ident := do
  let s ← here
  let v ← stringP
  let r ← here
  return ⟨v, some (taken s r), spanOf total s r⟩

end Kdl
