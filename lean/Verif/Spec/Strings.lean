import Verif.Spec.Literals
/-
Independent descriptions of strings and identifiers.
-/

namespace Kdl.Spec

/-- Code points of the KDL white space characters. -/
def spaceCodes : List Nat :=
  [0x09, 0x20, 0xA0, 0x1680, 0x2000, 0x2001, 0x2002, 0x2003, 0x2004, 0x2005, 0x2006, 0x2007,
   0x2008, 0x2009, 0x200A, 0x202F, 0x205F, 0x3000]

/-- Code points of the KDL newline characters. -/
def newlineCodes : List Nat := [0x0A, 0x0B, 0x0C, 0x0D, 0x85, 0x2028, 0x2029]

/-- Code points that may not occur literally in a document, apart from control
characters. -/
def disallowedCodes : List Nat :=
  [0x200E, 0x200F, 0x202A, 0x202B, 0x202C, 0x202D, 0x202E, 0x2066, 0x2067, 0x2068, 0x2069, 0xFEFF]

/-- White space inside a line. -/
def Space (c : Char) : Prop := c.toNat ∈ spaceCodes
/-- A newline character. -/
def Newline (c : Char) : Prop := c.toNat ∈ newlineCodes
/-- May not occur literally: most control characters, direction controls, byte
order mark. -/
def Disallowed (c : Char) : Prop :=
  c.toNat < 9 ∨ (13 < c.toNat ∧ c.toNat < 32) ∨ c.toNat ∈ disallowedCodes

instance (c : Char) : Decidable (Space c) := inferInstanceAs (Decidable (_ ∈ _))
instance (c : Char) : Decidable (Newline c) := inferInstanceAs (Decidable (_ ∈ _))
instance (c : Char) : Decidable (Disallowed c) := inferInstanceAs (Decidable (_ ∨ _))

/-- Characters with a syntactic role. -/
def punctuation : List Char := ['\\', '/', '(', ')', '{', '}', '[', ']', ';', '"', '#', '=']

/-- A character that may occur in an unquoted string. -/
def IdentChar (c : Char) : Prop :=
  ¬ Space c ∧ ¬ Newline c ∧ ¬ Disallowed c ∧ c ∉ punctuation

instance (c : Char) : Decidable (IdentChar c) := inferInstanceAs (Decidable (_ ∧ _))

/-- Starts like a number: optional sign, optional point, digit. -/
def NumberLike (w : Str) : Prop :=
  ∃ sg k pt d t, Sign sg k ∧ (pt = [] ∨ pt = ['.']) ∧ IsDigit 10 d ∧ w = sg ++ pt ++ d :: t

/-- The reserved words. -/
def reserved : List Str :=
  ["true".toList, "false".toList, "null".toList, "inf".toList, "-inf".toList, "nan".toList]

/-- A whole text that is a valid unquoted string, except that `-inf` counts as
valid. -/
def Bare (w : Str) : Prop :=
  w ≠ [] ∧ (∀ c ∈ w, IdentChar c) ∧ ¬ NumberLike w ∧ (w ∈ reserved → w = "-inf".toList)

/-- Value of a string of hexadecimal digits. -/
def hexVal (hx : Str) : Nat := litVal 16 hx

/-- The single-character escapes and what they stand for. -/
def escapes : List (Char × Char) :=
  [('\\', '\\'), ('"', '"'), ('b', Char.ofNat 0x08), ('f', Char.ofNat 0x0C), ('n', '\n'), ('r', '\r'),
   ('t', '\t'), ('s', ' ')]

/-- White space or newline. -/
def Blank (c : Char) : Prop := Space c ∨ Newline c

instance (c : Char) : Decidable (Blank c) := inferInstanceAs (Decidable (_ ∨ _))

/-- `t` does not start with white space or a newline. -/
def NoBlank (t : Str) : Prop := ∀ c q, t = c :: q → ¬ Blank c

/-- `Quoted t v`: between double quotes, on a single line, the text `t` stands for
`v`. -/
inductive Quoted : Str → Str → Prop
  | nil : Quoted [] []
  | plain {c : Char} {t v : Str} (h1 : c ≠ '\\') (h2 : c ≠ '"') (h3 : ¬ Newline c) (h4 : ¬ Disallowed c)
      (h : Quoted t v) : Quoted (c :: t) (c :: v)
  | escape {e c : Char} {t v : Str} (h1 : (e, c) ∈ escapes) (h : Quoted t v) :
      Quoted ('\\' :: e :: t) (c :: v)
  | unicode {hx t v : Str} {c : Char} (h1 : hx ≠ []) (h2 : hx.length ≤ 6) (h3 : ∀ x ∈ hx, IsDigit 16 x)
      (h4 : hexVal hx = c.toNat) (h : Quoted t v) :
      Quoted ('\\' :: 'u' :: '{' :: (hx ++ '}' :: t)) (c :: v)
  | space {w t v : Str} (h1 : w ≠ []) (h2 : ∀ c ∈ w, Blank c) (h3 : NoBlank t) (h : Quoted t v) :
      Quoted ('\\' :: (w ++ t)) v

/-- An escape that stands for `c`. -/
def EscapeFor (c : Char) (p : Str) : Prop :=
  (∃ e, (e, c) ∈ escapes ∧ p = ['\\', e]) ∨ ∃ hx, hexVal hx = c.toNat ∧ p = '\\' :: 'u' :: '{' :: (hx ++ ['}'])

/-- `body` contains `pat`. -/
def Contains (body pat : Str) : Prop := ∃ a b, body = a ++ pat ++ b

/-- A newline sequence in front of `t`: a carriage return and a line feed count as
one. -/
def NewlineSeq (nl t : Str) : Prop :=
  nl = ['\r', '\n'] ∨ ∃ c, nl = [c] ∧ Newline c ∧ (c = '\r' → ∀ q, t ≠ '\n' :: q)

/-- `MLine t v`: as a line of a multi-line string, the text `t` stands for `v`.
Quotes are allowed, but not three in a row. -/
inductive MLine : Str → Str → Prop
  | nil : MLine [] []
  | plain {c : Char} {t v : Str} (h1 : c ≠ '\\') (h2 : c ≠ '"') (h3 : ¬ Newline c) (h4 : ¬ Disallowed c)
      (h : MLine t v) : MLine (c :: t) (c :: v)
  | quote {t v : Str} (h1 : ∀ q, t ≠ '"' :: '"' :: q) (h : MLine t v) : MLine ('"' :: t) ('"' :: v)
  | escape {e c : Char} {t v : Str} (h1 : (e, c) ∈ escapes) (h : MLine t v) :
      MLine ('\\' :: e :: t) (c :: v)
  | unicode {hx t v : Str} {c : Char} (h1 : hx ≠ []) (h2 : hx.length ≤ 6) (h3 : ∀ x ∈ hx, IsDigit 16 x)
      (h4 : hexVal hx = c.toNat) (h : MLine t v) :
      MLine ('\\' :: 'u' :: '{' :: (hx ++ '}' :: t)) (c :: v)
  | space {w t v : Str} (h0 : t ≠ []) (h1 : w ≠ []) (h2 : ∀ c ∈ w, Blank c) (h3 : NoBlank t) (h : MLine t v) :
      MLine ('\\' :: (w ++ t)) v

/-- Escaped white space only. -/
inductive Escapes : Str → Prop
  | nil : Escapes []
  | cons {w t : Str} (h1 : w ≠ []) (h2 : ∀ c ∈ w, Blank c) (h3 : NoBlank t) (h : Escapes t) :
      Escapes ('\\' :: (w ++ t))

/-- `Multi pre t ls`: the text `t`, between the newline after the opening quotes and
the closing quotes, consists of the lines `ls`, each with `pre` in front, except that
a line of white space is an empty line. -/
inductive Multi (pre : Str) : Str → List Str → Prop
  | close {w : Str} (h : Escapes w) : Multi pre (pre ++ w) []
  | empty {sp nl t : Str} {ls : List Str} (h1 : ∀ c ∈ sp, Space c) (h2 : NewlineSeq nl t) (h : Multi pre t ls) :
      Multi pre (sp ++ (nl ++ t)) ([] :: ls)
  | line {c x nl t : Str} {ls : List Str} (h1 : MLine c x) (h2 : ∃ a ∈ c, ¬ Space a) (h3 : NewlineSeq nl t)
      (h : Multi pre t ls) : Multi pre (pre ++ (c ++ (nl ++ t))) (x :: ls)

/-- `n` hashes. -/
def hashes (n : Nat) : Str := List.replicate n '#'

/-- Like `Multi`, for a raw string with `n` hashes. -/
inductive RawMulti (n : Nat) (pre : Str) : Str → List Str → Prop
  | close : RawMulti n pre pre []
  | empty {sp nl t : Str} {ls : List Str} (h1 : ∀ c ∈ sp, Space c) (h2 : NewlineSeq nl t) (h : RawMulti n pre t ls) :
      RawMulti n pre (sp ++ (nl ++ t)) ([] :: ls)
  | line {c nl t : Str} {ls : List Str} (h0 : ∀ a ∈ c, ¬ Newline a ∧ ¬ Disallowed a)
      (h1 : ¬ Contains c ('"' :: '"' :: '"' :: hashes n)) (h2 : ∃ a ∈ c, ¬ Space a) (h3 : NewlineSeq nl t)
      (h : RawMulti n pre t ls) : RawMulti n pre (pre ++ (c ++ (nl ++ t))) (c :: ls)

/-- The lines with single line feeds between them. -/
def joinLines (ls : List Str) : Str := List.intercalate ['\n'] ls

/-- A text that may stand between the quotes of a single-line raw string with `n`
hashes. -/
def RawBody (n : Nat) (body : Str) : Prop :=
  (∀ a ∈ body, ¬ Newline a ∧ ¬ Disallowed a) ∧ ¬ Contains body ('"' :: hashes n) ∧ body ≠ ['"']

/-- `StrText t v`: the text `t` is a string with value `v`. -/
inductive StrText : Str → Str → Prop
  | bare {t : Str} (h : Bare t) : StrText t t
  | quoted {t v : Str} (h : Quoted t v) : StrText ('"' :: (t ++ ['"'])) v
  | multi {nl pre t : Str} {ls : List Str} (h0 : NewlineSeq nl t) (h1 : ∀ c ∈ pre, Space c) (h : Multi pre t ls) :
      StrText ('"' :: '"' :: '"' :: (nl ++ (t ++ ['"', '"', '"']))) (joinLines ls)
  | raw {n : Nat} {t : Str} (h : RawBody (n + 1) t) :
      StrText (hashes (n + 1) ++ '"' :: (t ++ '"' :: hashes (n + 1))) t
  | rawMulti {n : Nat} {nl pre t : Str} {ls : List Str} (h0 : NewlineSeq nl t) (h1 : ∀ c ∈ pre, Space c)
      (h : RawMulti (n + 1) pre t ls) (h2 : joinLines ls ≠ ['"']) :
      StrText (hashes (n + 1) ++ '"' :: '"' :: '"' :: (nl ++ (t ++ '"' :: '"' :: '"' :: hashes (n + 1))))
        (joinLines ls)

end Kdl.Spec
