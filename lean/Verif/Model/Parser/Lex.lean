import Verif.Model.Parser.Basic
/-
White space, newlines and comments (`src/v2_parser.rs`).
-/

namespace Kdl

/-- `src/v2_parser.rs:1634-1639` `newline`: `alt(NEWLINES)`. -/
def newline : P Unit :=
  lit ['\r', '\n'] <+> lit ['\r'] <+> lit ['\n'] <+> lit [Char.ofNat 0x85] <+>
  lit [Char.ofNat 0x0B] <+> lit [Char.ofNat 0x0C] <+> lit [Char.ofNat 0x2028] <+>
  lit [Char.ofNat 0x2029]

/-- `src/v2_parser.rs:1661-1663` `unicode_space`. -/
def unicodeSpace : P Unit := void (satisfy isUnicodeSpace)

/-- `src/v2_parser.rs:1601-1605` `disallowed_unicode`. -/
def disallowedUnicode : P Unit := void (takeWhile1 isDisallowedUnicode)

/-- `src/v2_parser.rs:1572-1574` `bom`. -/
def bom : P Unit := lit [Char.ofNat 0xFEFF]

/-- `src/v2_parser.rs:1034-1036` `equals_sign`. -/
def equalsSign : P Unit := lit ['=']

/-- `src/v2_parser.rs:1666-1675` `single_line_comment`. -/
def singleLineComment : P Unit := do
  lit ['/', '/']
  void (repTill (do notP (newline <+> eof); anyChar) (newline <+> eof))

/-- `src/v2_parser.rs:1686-1700` `commented_block`, with a recursion budget. -/
def commentedBlockN : Nat → P Unit
  | 0 => fun _ => .crash
  | n + 1 =>
    lit ['*', '/'] <+>
    (do
      (do lit ['/', '*']; cutErr (commentedBlockN n)) <+> lit ['*'] <+> lit ['/'] <+>
        void (rep1 (satisfy fun c => c != '*' && c != '/'))
      commentedBlockN n)

/-- `src/v2_parser.rs:1678-1683` `multi_line_comment`. The budget is larger than
the input, and every level of recursion consumes input. -/
def multiLineComment : P Unit := fun s =>
  (do lit ['/', '*']; cutErr (commentedBlockN (s.length + 1)) : P Unit) s

/-- `src/v2_parser.rs:1650-1652` `ws`. -/
def ws : P Unit := unicodeSpace <+> multiLineComment

/-- `src/v2_parser.rs:1641-1643` `wss`. -/
def wss : P Unit := void (rep0 ws)

/-- `src/v2_parser.rs:1645-1647` `wsp`. -/
def wsp : P Unit := void (rep1 ws)

/-- `src/v2_parser.rs:1608-1613` `escline`. -/
def escline : P Unit := do
  lit ['\\']
  wss
  singleLineComment <+> newline <+> eof
  wss

/-- `src/v2_parser.rs:895-897` `node_space`. -/
def nodeSpace : P Unit := (do wss; escline; wss) <+> wsp

/-- `src/v2_parser.rs:899-901` `node_space0`. -/
def nodeSpace0 : P Unit := void (rep0 nodeSpace)

/-- `src/v2_parser.rs:903-905` `node_space1`. -/
def nodeSpace1 : P Unit := void (rep1 nodeSpace)

/-- `src/v2_parser.rs:890-892` `line_space`. -/
def lineSpace : P Unit := nodeSpace <+> newline <+> singleLineComment

/-- `src/v2_parser.rs:803-810` `node_terminator`. -/
def nodeTerminator : P Unit := lit [';'] <+> newline <+> singleLineComment

/-- `src/v2_parser.rs:1719-1726` `slashdash`. -/
def slashdash : P Unit := do
  lit ['/', '-']
  void (rep0 (nodeSpace <+> lineSpace))

/-- `src/v2_parser.rs:846-857` `value_terminator`. -/
def valueTerminator : P Unit :=
  eof <+> lit ['='] <+> lit [')'] <+> lit ['{'] <+> lit ['}'] <+> nodeSpace <+> nodeTerminator

/-- `src/v2_parser.rs:859-861` `value_terminator_check`. -/
def valueTerminatorCheck : P Unit := cutErr (peek valueTerminator)

end Kdl
