import Verif.Model.Parser.Grammar
/-
The lexical parsers of `src/v2_parser.rs` once more, now with what the strict model drops: the
message, label and help of an error, and the place at which a failing parser stops.

How winnow's combinators leave the input when they fail: `literal`, `one_of`, `none_of`, `any`, `eof` and
`take_while` consume nothing; `peek`, `not`, `verify_map` and `try_map` go back to where they started; `alt`
leaves the input where the last alternative stopped, and returns its error (`ParserError::or` keeps the
second error); all others leave it where the failing part stopped.
-/

namespace Kdl

/-- `src/v2_parser.rs:98-105` `KdlParseError`, and the context `64-70` `KdlParseContext`. The severity is always
`Error`; the span is kept apart, in `DRes.cut`. -/
structure PErr where
  message : Option String := none
  label : Option String := none
  help : Option String := none
  deriving DecidableEq, Repr

/-- `src/v2_parser.rs:129-142` `add_context`: the context `c` wins over the error `e`. -/
def PErr.within (c e : PErr) : PErr := ⟨c.message.or e.message, c.label.or e.label, c.help.or e.help⟩

/-- Outcome of running a lexical parser; `left` is the input that is left when it stops. -/
inductive LRes (α : Type) where
  | ok (a : α) (rest : Str)
  | back (e : PErr) (left : Str)
  | cut (e : PErr) (left : Str)
  | crash

/-- A lexical parser. -/
def L (α : Type) : Type := Str → LRes α

namespace L

/-- Succeed without consuming. -/
def pure {α : Type} (a : α) : L α := fun s => .ok a s

/-- Sequence two parsers. -/
def bind {α β : Type} (p : L α) (f : α → L β) : L β := fun s =>
  match p s with
  | .ok a r => f a r
  | .back e r => .back e r
  | .cut e r => .cut e r
  | .crash => .crash

instance : Monad L where
  pure := L.pure
  bind := L.bind

/-- `alt((p, q))`. -/
def alt {α : Type} (p q : L α) : L α := fun s =>
  match p s with
  | .back _ _ => q s
  | r => r

/-- The input that is left. -/
def here : L Str := fun s => .ok s s

/-- `opt(p)`. -/
def opt {α : Type} (p : L α) : L (Option α) := fun s =>
  match p s with
  | .ok a r => .ok (some a) r
  | .back _ _ => .ok none s
  | .cut e r => .cut e r
  | .crash => .crash

/-- `peek(p)`. -/
def peek {α : Type} (p : L α) : L α := fun s =>
  match p s with
  | .ok a _ => .ok a s
  | .back e _ => .back e s
  | .cut e _ => .cut e s
  | .crash => .crash

/-- `not(p)`. -/
def notP {α : Type} (p : L α) : L Unit := fun s =>
  match p s with
  | .ok _ _ => .back {} s
  | .back _ _ => .ok () s
  | .cut e _ => .cut e s
  | .crash => .crash

/-- `cut_err(p)`. -/
def cutErr {α : Type} (p : L α) : L α := fun s =>
  match p s with
  | .back e r => .cut e r
  | r => r

/-- `p.context(c)`. -/
def ctx {α : Type} (c : PErr) (p : L α) : L α := fun s =>
  match p s with
  | .back e r => .back (c.within e) r
  | .cut e r => .cut (c.within e) r
  | r => r

/-- `p.take()`. -/
def takeP {α : Type} (p : L α) : L Str := do
  let s ← here
  let _ ← p
  let r ← here
  return taken s r

/-- `p.verify_map(f)` and `p.try_map(f)`; `e` is the error if `f` refuses. -/
def tryMap {α β : Type} (p : L α) (f : α → Option β) (e : PErr) : L β := fun s =>
  match p s with
  | .ok a r =>
    match f a with
    | some b => .ok b r
    | none => .back e s
  | .back e r => .back e r
  | .cut e r => .cut e r
  | .crash => .crash

/-- Literal text. -/
def lit (t : Str) : L Unit := fun s =>
  match stripPrefix? t s with
  | some r => .ok () r
  | none => .back {} s

/-- `one_of`/`none_of`/`any` with a predicate. -/
def satisfy (f : Char → Bool) : L Char := fun s =>
  match s with
  | c :: r => if f c then .ok c r else .back {} s
  | [] => .back {} s

/-- `any`. -/
def anyChar : L Char := satisfy fun _ => true

/-- `eof`. -/
def eof : L Unit := fun s =>
  match s with
  | [] => .ok () []
  | _ :: _ => .back {} s

/-- `take_while(1.., f)`. -/
def takeWhile1 (f : Char → Bool) : L Str := fun s =>
  match s.takeWhile f with
  | [] => .back {} s
  | t => .ok t (s.dropWhile f)

/-- `take_while(1..=6, f)`. -/
def takeWhile1to6 (f : Char → Bool) : L Str := fun s =>
  match (s.take 6).takeWhile f with
  | [] => .back {} s
  | t => .ok t (s.drop t.length)

/-- Loop of `repeat(0.., p)`, with a recursion budget. -/
def repFuel {α : Type} (p : L α) : Nat → L (List α)
  | 0, _ => .crash
  | n + 1, s =>
    match p s with
    | .ok a r =>
      if r.length < s.length then
        match repFuel p n r with
        | .ok as r' => .ok (a :: as) r'
        | .back e r' => .back e r'
        | .cut e r' => .cut e r'
        | .crash => .crash
      else .crash
    | .back _ _ => .ok [] s
    | .cut e r => .cut e r
    | .crash => .crash

/-- `repeat(0.., p)`. -/
def rep0 {α : Type} (p : L α) : L (List α) := fun s => repFuel p (s.length + 1) s

/-- `repeat(1.., p)`. -/
def rep1 {α : Type} (p : L α) : L (List α) := do
  let a ← p
  let as ← rep0 p
  return a :: as

/-- Loop of `repeat_till(0.., p, e)`, with a recursion budget. -/
def repTillFuel {α β : Type} (p : L α) (e : L β) : Nat → L (List α × β)
  | 0, _ => .crash
  | n + 1, s =>
    match e s with
    | .ok b r => .ok ([], b) r
    | .back _ _ =>
      match p s with
      | .ok a r =>
        if r.length < s.length then
          match repTillFuel p e n r with
          | .ok (as, b) r' => .ok (a :: as, b) r'
          | .back e r' => .back e r'
          | .cut e r' => .cut e r'
          | .crash => .crash
        else .crash
      | .back e r => .back e r
      | .cut e r => .cut e r
      | .crash => .crash
    | .cut e r => .cut e r
    | .crash => .crash

/-- `repeat_till(0.., p, e)`. -/
def repTill {α β : Type} (p : L α) (e : L β) : L (List α × β) := fun s => repTillFuel p e (s.length + 1) s

/-- `p.void()`. -/
def void {α : Type} (p : L α) : L Unit := do
  let _ ← p
  return ()

end L

@[inherit_doc] infixr:20 " <|+> " => L.alt

/-! ### White space and comments -/

/-- `src/v2_parser.rs:1634-1639` `newline`. -/
def newlineL : L Unit :=
  .ctx { label := some "newline" }
    (.lit ['\r', '\n'] <|+> .lit ['\r'] <|+> .lit ['\n'] <|+> .lit [Char.ofNat 0x85] <|+>
      .lit [Char.ofNat 0x0B] <|+> .lit [Char.ofNat 0x0C] <|+> .lit [Char.ofNat 0x2028] <|+>
      .lit [Char.ofNat 0x2029])

/-- `src/v2_parser.rs:1661-1663` `unicode_space`. -/
def unicodeSpaceL : L Unit := .void (.satisfy isUnicodeSpace)

/-- `src/v2_parser.rs:1601-1605` `disallowed_unicode`. -/
def disallowedUnicodeL : L Unit := .void (.takeWhile1 isDisallowedUnicode)

/-- `src/v2_parser.rs:1572-1574` `bom`. -/
def bomL : L Unit := .lit [Char.ofNat 0xFEFF]

/-- `src/v2_parser.rs:1034-1036` `equals_sign`. -/
def equalsSignL : L Unit := .lit ['=']

/-- `src/v2_parser.rs:1666-1675` `single_line_comment`. -/
def singleLineCommentL : L Unit := do
  L.lit ['/', '/']
  .void (.repTill (do L.notP (newlineL <|+> .eof); .anyChar) (newlineL <|+> .eof))

/-- `src/v2_parser.rs:1682` the context of an unclosed comment. -/
def commentCx : PErr := { label := some "closing of multi-line comment" }

/-- `src/v2_parser.rs:1686-1700` `commented_block`, with a recursion budget. -/
def commentedBlockLN : Nat → L Unit
  | 0 => fun _ => .crash
  | n + 1 =>
    .lit ['*', '/'] <|+>
    (do
      (do L.lit ['/', '*']; .ctx commentCx (.cutErr (commentedBlockLN n))) <|+> .lit ['*'] <|+> .lit ['/'] <|+>
        .void (.rep1 (.satisfy fun c => c != '*' && c != '/'))
      commentedBlockLN n)

/-- `src/v2_parser.rs:1678-1683` `multi_line_comment`. -/
def multiLineCommentL : L Unit := fun s =>
  (do L.lit ['/', '*']; .ctx commentCx (.cutErr (commentedBlockLN (s.length + 1))) : L Unit) s

/-- `src/v2_parser.rs:1650-1652` `ws`. -/
def wsL : L Unit := unicodeSpaceL <|+> multiLineCommentL

/-- `src/v2_parser.rs:1641-1643` `wss`. -/
def wssL : L Unit := .void (.rep0 wsL)

/-- `src/v2_parser.rs:1645-1647` `wsp`. -/
def wspL : L Unit := .void (.rep1 wsL)

/-- `src/v2_parser.rs:1608-1613` `escline`. -/
def esclineL : L Unit := do
  L.lit ['\\']
  wssL
  singleLineCommentL <|+> newlineL <|+> .eof
  wssL

/-- `src/v2_parser.rs:895-897` `node_space`. -/
def nodeSpaceL : L Unit := (do wssL; esclineL; wssL) <|+> wspL

/-- `src/v2_parser.rs:899-901` `node_space0`. -/
def nodeSpace0L : L Unit := .void (.rep0 nodeSpaceL)

/-- `src/v2_parser.rs:903-905` `node_space1`. -/
def nodeSpace1L : L Unit := .void (.rep1 nodeSpaceL)

/-- `src/v2_parser.rs:890-892` `line_space`. -/
def lineSpaceL : L Unit := nodeSpaceL <|+> newlineL <|+> singleLineCommentL

/-- `src/v2_parser.rs:803-810` `node_terminator`. -/
def nodeTerminatorL : L Unit := .lit [';'] <|+> newlineL <|+> singleLineCommentL

/-- `src/v2_parser.rs:1719-1726` `slashdash`. -/
def slashdashL : L Unit := do
  L.lit ['/', '-']
  .void (.rep0 (nodeSpaceL <|+> lineSpaceL))

/-- `src/v2_parser.rs:846-857` `value_terminator`. -/
def valueTerminatorL : L Unit :=
  .eof <|+> .lit ['='] <|+> .lit [')'] <|+> .lit ['{'] <|+> .lit ['}'] <|+> nodeSpaceL <|+> nodeTerminatorL

/-- `src/v2_parser.rs:859-861` `value_terminator_check`. -/
def valueTerminatorCheckL : L Unit :=
  .cutErr (.ctx
    { help := some "A valid value was partially parsed, but was not followed by a value terminator. Did you want a space here?" }
    (.peek valueTerminatorL))

/-! ### Strings -/

/-- `src/v2_parser.rs:1019-1031` `identifier_char`. -/
def identifierCharL : L Char := do
  L.notP (unicodeSpaceL <|+> newlineL <|+> disallowedUnicodeL <|+> equalsSignL)
  .satisfy fun c => !disallowedIdentChars.contains c

/-- winnow's `digit1`. -/
def digit1L : L Str := .takeWhile1 isDecDigit

/-- `src/v2_parser.rs:965-986` `unambiguous_ident`. -/
def unambiguousIdentL : L Unit := do
  L.notP (.void digit1L <|+> (.lit ['-'] <|+> .lit ['+']) <|+> .lit ['.'])
  let _ ← L.peek identifierCharL
  .cutErr (.void (.tryMap (.rep1 identifierCharL)
    (fun s => if keywordWords.contains s then none else some s) {}))

/-- `src/v2_parser.rs:989-993` `signed_ident`. -/
def signedIdentL : L Unit := do
  .lit ['+'] <|+> .lit ['-']
  L.notP (.void digit1L <|+> .lit ['.'])
  .void (.rep0 identifierCharL)

/-- `src/v2_parser.rs:2020-2028` `signum`. -/
def signumL : L Bool := do
  let sign ← L.opt ((do L.lit ['+']; return true) <|+> (do L.lit ['-']; return false))
  return sign.getD true

/-- `src/v2_parser.rs:996-1005` `dotted_ident`. -/
def dottedIdentL : L Unit := do
  let _ ← L.opt signumL
  L.lit ['.']
  L.notP digit1L
  .void (.rep0 identifierCharL)

/-- `src/v2_parser.rs:957-962` `identifier_string`. -/
def identifierStringL : L Str := .takeP (unambiguousIdentL <|+> signedIdentL <|+> dottedIdentL)

/-- `src/v2_parser.rs:1220-1230` `ws_escape`. -/
def wsEscapeL : L Unit := do
  L.lit ['\\']
  .void (.rep1 (unicodeSpaceL <|+> newlineL))

/-- `src/v2_parser.rs:1236-1262` `escaped_char`. -/
def escapedCharL : L Char := do
  L.lit ['\\']
  ((do L.lit ['\\']; return '\\') <|+> (do L.lit ['"']; return '"') <|+>
    (do L.lit ['b']; return Char.ofNat 0x08) <|+> (do L.lit ['f']; return Char.ofNat 0x0C) <|+>
    (do L.lit ['n']; return '\n') <|+> (do L.lit ['r']; return '\r') <|+>
    (do L.lit ['t']; return '\t') <|+> (do L.lit ['s']; return ' ')) <|+>
  .tryMap
    (.ctx { label := some "unicode escape char" } (do
      L.lit ['u', '{']
      let hx ← L.cutErr (.takeWhile1to6 isHexDigit)
      L.cutErr (.lit ['}'])
      return hx))
    (fun hx => charFromU32 (digitsVal 16 hx)) {}

/-- `src/v2_parser.rs:1209-1218` `string_char`. -/
def stringCharL : L Char :=
  escapedCharL <|+>
  (do L.notP disallowedUnicodeL; .satisfy fun c => c != '\\' && c != '"')

/-- `src/v2_parser.rs:1177-1183` `empty_line`. -/
def emptyLineL : L Unit := do
  let _ ← L.rep0 (wsEscapeL <|+> unicodeSpaceL)
  newlineL

/-- `src/v2_parser.rs:1112-1122`: one item of a multi-line string body. -/
def mlCharL : L (Option Char) := do
  L.notP newlineL
  (do wsEscapeL; return none) <|+>
    (do L.lit ['"']; L.notP (.lit ['"', '"']); return some '"') <|+>
    (do L.lit ['"']; L.notP (.lit ['"']); return some '"') <|+>
    (do let c ← stringCharL; return some c)

/-- `src/v2_parser.rs:1091-1092`: indentation of the closing line. -/
def mlIndentL : L Str := do
  let parts ← L.rep0 ((do wsEscapeL; return []) <|+> .takeP unicodeSpaceL)
  return parts.flatten

/-- `src/v2_parser.rs:1059-1097`: look ahead for the indentation of the closing line of a multi-line string. -/
def mlPrefixL : L Str :=
  .ctx { label := some "multi-line string" } (.cutErr (.peek (do
    let _ ← L.repTill
      (do let _ ← L.rep0 mlCharL; newlineL)
      (.peek (do let _ ← L.rep0 (wsEscapeL <|+> unicodeSpaceL); .lit tripleQuote))
    let p ← mlIndentL
    L.lit tripleQuote
    return p)))

/-- `src/v2_parser.rs:1105-1129`: one line of a multi-line string. -/
def mlLineL (pre : Str) : L Str := do
  L.ctx { message := some "matching multiline string prefix", label := some "bad prefix",
          help := some "Multi-line string bodies must be prefixed by the exact same whitespace as the leading whitespace before the closing '\"\"\"'" }
    (.cutErr (.lit pre <|+> .peek emptyLineL))
  (do emptyLineL; return ['\n']) <|+>
    (do
      let (cs, _) ← L.repTill mlCharL newlineL
      return cs.filterMap id ++ ['\n'])

/-- `src/v2_parser.rs:1103-1143`: the body of a multi-line string. -/
def mlBodyL (pre : Str) : L Str :=
  .cutErr (.ctx { label := some "multi-line quoted string" } (do
    let (ls, _) ← L.repTill (mlLineL pre)
      (do L.lit pre; let _ ← L.rep0 wsEscapeL; .peek (.lit tripleQuote))
    return ls.flatten.dropLast))

/-- `src/v2_parser.rs:1145-1163`: the body of a single-line string. -/
def slBodyL : L Str :=
  .cutErr (.ctx { label := some "quoted string" } (do
    let (cs, _) ← L.repTill
      (do
        L.cutErr (.ctx { message := some "Unexpected newline in single-line quoted string",
                         help := some "You can make a string multi-line by wrapping it in '\"\"\"', with a newline immediately after the opening quotes." }
          (.notP newlineL))
        (do wsEscapeL; return none) <|+> (do let c ← stringCharL; return some c))
      (.peek (.lit ['"']))
    return cs.filterMap id))

/-- `src/v2_parser.rs:1043-1175` `quoted_string`. -/
def quotedStringL : L Str := do
  let ml ← (do
      L.lit tripleQuote
      L.ctx { message := some "Multi-line string opening quotes must be immediately followed by a newline",
              label := some "multi-line string newline" } (.cutErr newlineL)
      return true) <|+> (do L.lit ['"']; return false)
  if ml then do
    let pre ← mlPrefixL
    let body ← mlBodyL pre
    L.cutErr (.ctx { message := some "missing multiline string closing quotes",
                     help := some "Multiline strings must be closed by '\"\"\"' on a standalone line, only prefixed by whitespace." }
      (.lit tripleQuote))
    return body
  else do
    let body ← slBodyL
    L.cutErr (.ctx { message := some "missing string closing quote", help := some "Did you forget to escape something?" }
      (.lit ['"']))
    return body

/-- `src/v2_parser.rs:1278-1304`: look ahead for the indentation of the closing line of a multi-line raw string. -/
def rawMlPrefixL (hashes : Str) : L Str :=
  .peek (do
    let _ ← L.repTill
      (do
        let _ ← L.rep0 (do
          L.notP newlineL
          L.notP disallowedUnicodeL
          L.notP (do L.lit tripleQuote; L.lit hashes)
          L.anyChar)
        newlineL)
      (.peek (do let _ ← L.rep0 unicodeSpaceL; L.lit tripleQuote; L.lit hashes))
    let p ← L.takeP (.rep0 unicodeSpaceL)
    L.lit tripleQuote
    L.lit hashes
    return p)

/-- `src/v2_parser.rs:1314-1330`: one line of a multi-line raw string. -/
def rawMlLineL (hashes pre : Str) : L Str := do
  L.ctx { label := some "matching multiline raw string prefix" } (.cutErr (.lit pre <|+> .peek emptyLineL))
  (do emptyLineL; return ['\n']) <|+>
    (do
      let (cs, _) ← L.repTill
        (do L.notP newlineL; L.notP (do L.lit tripleQuote; L.lit hashes); L.anyChar)
        newlineL
      return cs ++ ['\n'])

/-- `src/v2_parser.rs:1312-1343`: the body of a multi-line raw string. -/
def rawMlBodyL (hashes pre : Str) : L Str := do
  let (ls, _) ← L.repTill (rawMlLineL hashes pre)
    (do
      L.lit pre
      let _ ← L.rep0 unicodeSpaceL
      .peek (do L.lit tripleQuote; L.lit hashes))
  return ls.flatten.dropLast

/-- `src/v2_parser.rs:1345-1358`: the body of a single-line raw string. -/
def rawSlBodyL (hashes : Str) : L Str :=
  .ctx { label := some "raw string" } (do
    let (cs, _) ← L.repTill
      (do
        L.notP disallowedUnicodeL
        L.notP newlineL
        L.notP (do L.lit ['"']; L.lit hashes)
        L.anyChar)
      (.peek (do L.lit ['"']; L.lit hashes))
    return cs)

/-- `src/v2_parser.rs:1271-1364` `raw_string`, without the refusal of the value `"` at the end, for which see
`rawStringD`. -/
def rawStringL : L Str := do
  let hashes ← L.takeP (.rep1 (.lit ['#']))
  let ml ← (do L.lit tripleQuote; newlineL; return true) <|+> (do L.lit ['"']; return false)
  if ml then do
    let pre ← rawMlPrefixL hashes
    let body ← rawMlBodyL hashes pre
    L.cutErr (do L.ctx { label := some "multiline raw string closing quotes" } (.lit tripleQuote); L.lit hashes)
    return body
  else do
    let body ← rawSlBodyL hashes
    L.cutErr (do L.ctx { label := some "raw string closing quotes" } (.lit ['"']); L.lit hashes)
    return body

/-! ### Numbers and keywords -/

/-- `src/v2_parser.rs:144-154`: an integer that is too large; the message is that of Rust's `ParseIntError`. -/
def intErr : PErr := { message := some "number too large to fit in target type", label := some "invalid integer" }

/-- `src/v2_parser.rs:1868-1877`: a group of digits and underscores. -/
def digitGroupL (f : Char → Bool) : L Str := do
  let l ← L.takeWhile1 f
  let r ← L.rep0 (.takeP (.lit ['_']) <|+> .takeWhile1 f)
  return l ++ dropUnderscores r.flatten

/-- `src/v2_parser.rs:1867-1879` `udecimal::<i128>`. -/
def udecimalL : L I128 := .tryMap (digitGroupL isDecDigit) (fromStrRadix 10) intErr

/-- `src/v2_parser.rs:1895-1909` `uhex::<i128>`. -/
def uhexL : L I128 := do
  .lit ['0', 'x'] <|+> .lit ['0', 'X']
  .ctx { label := some "hexadecimal" } (.tryMap (.cutErr (digitGroupL isHexDigit)) (fromStrRadix 16) intErr)

/-- `src/v2_parser.rs:1951-1965` `uoctal::<i128>`. -/
def uoctalL : L I128 := do
  .lit ['0', 'o'] <|+> .lit ['0', 'O']
  .ctx { label := some "octal" } (.tryMap (.cutErr (digitGroupL isOctDigit)) (fromStrRadix 8) intErr)

/-- `src/v2_parser.rs:1990-2001` `ubinary::<i128>`. -/
def ubinaryL : L I128 := do
  .lit ['0', 'b'] <|+> .lit ['0', 'B']
  .ctx { label := some "binary" } (.cutErr (.tryMap
    (do
      let x ← L.takeP (.lit ['0'] <|+> .lit ['1'])
      let xs ← L.rep0 (.takeP (.lit ['0'] <|+> .lit ['1'] <|+> .lit ['_']))
      return x ++ dropUnderscores xs.flatten)
    (fromStrRadix 2) intErr))

/-- `src/v2_parser.rs:2052-2066` `negated` for `i128`. -/
def negatedL (x : I128) : L I128 := fun s =>
  match I128.ofInt? (-x.val) with
  | some y => .ok y s
  | none => .crash

/-- The shared body of `decimal`, `hex`, `octal`, `binary`
(`src/v2_parser.rs:1844-1855`, `1882-1893`, `1938-1949`, `1977-1988`). -/
def signedL (p : L I128) : L I128 := do
  let positive ← signumL
  let x ← p
  if positive then return x else negatedL x

/-- `src/v2_parser.rs:1844-1855` `decimal::<i128>`. -/
def decimalL : L I128 := signedL udecimalL
/-- `src/v2_parser.rs:1882-1893` `hex::<i128>`. -/
def hexL : L I128 := signedL uhexL
/-- `src/v2_parser.rs:1938-1949` `octal::<i128>`. -/
def octalL : L I128 := signedL uoctalL
/-- `src/v2_parser.rs:1977-1988` `binary::<i128>`. -/
def binaryL : L I128 := signedL ubinaryL

/-- `src/v2_parser.rs:1773,1790`: the digits behind the dot of a float. -/
def fractionL : L I128 :=
  .cutErr (.ctx { message := some "Non-digit character found after the '.' of a float" } udecimalL)

/-- `src/v2_parser.rs:1767-1784`: a float with an exponent. -/
def floatExpL : L Unit := do
  let _ ← decimalL
  let _ ← L.opt (do L.lit ['.']; fractionL)
  let _ ← L.satisfy fun c => c == 'e' || c == 'E'
  let _ ← L.opt (.satisfy fun c => c == '-' || c == '+')
  .void (.cutErr (.ctx { message := some "Non-digit character found in the exponent part of a float",
                         help := some "Floats with exponent parts should look like '2.0e123', or '43.3E-4'." } udecimalL))

/-- `src/v2_parser.rs:1785-1793`: a float without an exponent. -/
def floatFracL : L Unit := do
  let _ ← decimalL
  L.lit ['.']
  .void fractionL

/-- `src/v2_parser.rs:1761-1800` `float_value`. -/
def floatValueL [FloatIO] : L Value :=
  .ctx { label := some "float" } (do
    let t ← L.takeP (floatExpL <|+> floatFracL)
    valueTerminatorCheckL
    return .float (FloatIO.parse (dropUnderscores t)))

/-- `src/v2_parser.rs:1832-1841` `integer_value`. -/
def integerValueL : L Value := do
  let i ← .ctx { label := some "hexadecimal number" } (do let i ← hexL; valueTerminatorCheckL; return i) <|+>
    .ctx { label := some "octal number" } (do let i ← octalL; valueTerminatorCheckL; return i) <|+>
    .ctx { label := some "binary number" } (do let i ← binaryL; valueTerminatorCheckL; return i) <|+>
    .ctx { label := some "integer" } (do let i ← decimalL; valueTerminatorCheckL; return i)
  return .integer i

/-- `src/v2_parser.rs:1753-1755` `number`. -/
def numberL [FloatIO] : L Value := floatValueL <|+> integerValueL

/-- `src/v2_parser.rs:1554-1569` `keyword`. -/
def keywordL : L Value := do
  L.lit ['#']
  L.notP (.satisfy fun c => c == '#' || c == '"')
  .ctx { label := some "keyword",
         help := some "Available keywords in KDL are '#true', '#false', '#null', '#nan', '#inf', and '#-inf'; they are case-sensitive." }
    (.cutErr (
      (do L.lit "true".toList; return .bool true) <|+>
      (do L.lit "false".toList; return .bool false) <|+>
      (do L.lit "null".toList; return .null) <|+>
      (do L.lit "nan".toList; return .float F64.nan) <|+>
      (do L.lit "inf".toList; return .float F64.inf) <|+>
      (do L.lit "-inf".toList; return .float F64.negInf)))

/-! ### Where to go on after an error -/

/-- `src/v2_parser.rs:840-844` `badval`. -/
def badval : P Unit := do
  let _ ← anyChar
  void (repTill anyChar (peek valueTerminator))

/-- `src/v2_parser.rs:885-887` `badval_ty_char`. -/
def badvalTyChar : P Unit := lit [')'] <+> lit ['{'] <+> nodeSpace <+> nodeTerminator

/-- `src/v2_parser.rs:874`: the end of a bad type annotation. -/
def badvalTy : P Unit := do
  let _ ← (do notP badvalTyChar; anyChar : P Char)
  void (repTill (do notP badvalTyChar; anyChar) (peek badvalTyChar))

/-- `src/v2_parser.rs:1202-1204` `quoted_string_terminator`. -/
def quotedStringTerminator : P Unit := lit tripleQuote <+> lit ['"'] <+> peek valueTerminator

/-- `src/v2_parser.rs:1186-1200` `quoted_string_badval`. -/
def quotedStringBadval : P Unit := do
  let _ ← repTill (do notP quotedStringTerminator; anyChar) quotedStringTerminator
  quotedStringTerminator

/-- `src/v2_parser.rs:1380-1388` `raw_string_badval`. -/
def rawStringBadval : P Unit :=
  void (repTill (do notP (lit ['#'] <+> lit ['"']); anyChar)
    (do lit ['#'] <+> lit ['"']; peek (ws <+> newline <+> eof)))

end Kdl
