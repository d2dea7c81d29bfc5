import Verif.Spec.Grammar
/-
Texts of documents in which some names, keys and values are mistaken, with the places of the mistakes.
-/

namespace Kdl.Spec

/-- A mistaken word, with the text in front of it, what was expected instead, advice, and a message if there is a
special one. -/
structure Fault where
  before : Str
  word : Str
  what : String
  help : Option String
  message : Option String

/-- The same word, with more text in front of it. -/
def Fault.shift (p : Str) (f : Fault) : Fault := { f with before := p ++ f.before }

/-- The advice about a value that goes on too long. -/
def longHelp : String :=
  "A valid value was partially parsed, but was not followed by a value terminator. Did you want a space here?"

/-- The advice about a keyword that does not exist. -/
def keywordHelp : String :=
  "Available keywords in KDL are '#true', '#false', '#null', '#nan', '#inf', and '#-inf'; they are case-sensitive."

/-- The advice about the name of a node. -/
def nameHelp : String :=
  "This can be any string type, including a quoted, raw, or multiline string, as well as a plain identifier string."

/-- A reserved word where a string is expected. -/
def reservedFault (x : Str) : Fault := ⟨[], x, "identifier string", none, none⟩

/-- A word that is no name of a node. -/
def nameFault (x : Str) : Fault := ⟨[], x, "node name", some nameHelp, some "Found invalid node name"⟩

/-- A word that is no name of a type. -/
def typeFault (x : Str) : Fault := ⟨[], x, "type name", none, some "invalid contents inside type annotation"⟩

/-- The reserved words that are rejected without `#`. -/
def Refused (x : Str) : Prop := x ∈ reserved ∧ x ≠ "-inf".toList

/-- What a number with another base than ten is called. -/
def baseName : Nat → String
  | 16 => "hexadecimal number"
  | 8 => "octal number"
  | _ => "binary number"

/-- The message about a float without digits behind its point. -/
def fractionMessage : String := "Non-digit character found after the '.' of a float"

/-- The message about a float without digits in its exponent. -/
def exponentMessage : String := "Non-digit character found in the exponent part of a float"

/-- The advice about a float without digits in its exponent. -/
def exponentHelp : String := "Floats with exponent parts should look like '2.0e123', or '43.3E-4'."

/-- Words that are not values: a number with a letter behind it, the beginning of a number with another base than ten and no
digit behind it, a float without digits behind its point or in its exponent, and a `#` in front of a word that is not a
keyword; with what was expected, the advice, and the message, if it is a special one. Where a digit or a keyword is lacking altogether,
one more character is taken into the word, whatever it is (a space, a line break, a closing brace), and the letters behind
it (`C81_violated_lacking`). -/
inductive BadWord : Str → String → Option String → Option String → Prop
  | number {sg ds y : Str} {k : Int} {c l : Char} (hs : Sign sg k) (hc : IsDigit 10 c) (hd : ∀ x ∈ ds, x = '_' ∨ IsDigit 10 x)
      (hv : litVal 10 (c :: ds) < 2 ^ 127) (hl : IdentChar l) (hl' : ¬ IsDigit 10 l) (hp : l ∉ ['_', '.', 'e', 'E'])
      (hb : c = '0' → ds = [] → l ∉ "xXoObB".toList) (hy : ∀ x ∈ y, IdentChar x) :
      BadWord (sg ++ c :: (ds ++ l :: y)) "integer" (some longHelp) none
  | base {sg pre ds y : Str} {k : Int} {radix : Nat} {c l : Char} (hs : Sign sg k) (hb : Base pre radix) (hne : pre ≠ [])
      (hc : IsDigit radix c) (hd : ∀ x ∈ ds, x = '_' ∨ IsDigit radix x) (hv : litVal radix (c :: ds) < 2 ^ 127) (hl : IdentChar l)
      (hl' : ¬ IsDigit radix l) (hp : l ≠ '_') (hy : ∀ x ∈ y, IdentChar x) :
      BadWord (sg ++ (pre ++ c :: (ds ++ l :: y))) (baseName radix) (some longHelp) none
  | noDigit {sg pre y : Str} {k : Int} {radix : Nat} {l : Char} (hs : Sign sg k) (hb : Base pre radix) (hne : pre ≠ [])
      (hl' : ¬ IsDigit radix l) (hy : ∀ x ∈ y, IdentChar x) : BadWord (sg ++ (pre ++ l :: y)) (baseName radix) none none
  | float {t y : Str} {l : Char} (ht : FloatLit t) (hl : IdentChar l) (hl' : ¬ IsDigit 10 l) (hp : l ∉ ['_', 'e', 'E'])
      (hy : ∀ x ∈ y, IdentChar x) : BadWord (t ++ l :: y) "float" (some longHelp) none
  | fraction {sg ip y : Str} {k : Int} {l : Char} (hs : Sign sg k) (hip : Group ip) (hl' : ¬ IsDigit 10 l)
      (hy : ∀ x ∈ y, IdentChar x) : BadWord (sg ++ (ip ++ '.' :: l :: y)) "float" none (some fractionMessage)
  | exponent {sg ip fp es y : Str} {k k' : Int} {e l : Char} (hs : Sign sg k) (hip : Group ip) (hfp : fp = [] ∨ ∃ ds, Group ds ∧ fp = '.' :: ds)
      (he : e = 'e' ∨ e = 'E') (hes : Sign es k') (hl' : ¬ IsDigit 10 l) (hsg : es = [] → l ∉ ['+', '-'])
      (hy : ∀ x ∈ y, IdentChar x) : BadWord (sg ++ (ip ++ (fp ++ e :: (es ++ l :: y)))) "float" (some exponentHelp) (some exponentMessage)
  | keyword {y : Str} (hne : y ≠ []) (hy : ∀ x ∈ y, IdentChar x) (hk : ∀ w ∈ Spec.reserved, ¬ w <+: y) :
      BadWord ('#' :: y) "keyword" (some keywordHelp) none
  | hash {y : Str} {c : Char} (h1 : c ≠ '#') (h2 : c ≠ '"') (h3 : ¬ IdentChar c) (hy : ∀ x ∈ y, IdentChar x) :
      BadWord ('#' :: c :: y) "keyword" (some keywordHelp) none

/-- Mistaken words with all the text behind them, in two parts: `p` is what has been read when the mistake shows, and it
shows in `r`. -/
inductive Halts : Str → Str → String → Prop
  | number {sg ds y : Str} {k : Int} {c l : Char} (hs : Sign sg k) (hc : IsDigit 10 c) (hd : ∀ x ∈ ds, x = '_' ∨ IsDigit 10 x)
      (hv : litVal 10 (c :: ds) < 2 ^ 127) (hl : IdentChar l) (hl' : ¬ IsDigit 10 l) (hp : l ∉ ['_', '.', 'e', 'E'])
      (hb : c = '0' → ds = [] → l ∉ "xXoObB".toList) : Halts (sg ++ c :: ds) (l :: y) longHelp
  | base {sg pre ds y : Str} {k : Int} {radix : Nat} {c l : Char} (hs : Sign sg k) (hb : Base pre radix) (hne : pre ≠ [])
      (hc : IsDigit radix c) (hd : ∀ x ∈ ds, x = '_' ∨ IsDigit radix x) (hv : litVal radix (c :: ds) < 2 ^ 127) (hl : IdentChar l)
      (hl' : ¬ IsDigit radix l) (hp : l ≠ '_') : Halts (sg ++ (pre ++ c :: ds)) (l :: y) longHelp
  | float {t y : Str} {l : Char} (ht : FloatLit t) (hl : IdentChar l) (hl' : ¬ IsDigit 10 l) (hp : l ∉ ['_', 'e', 'E']) :
      Halts t (l :: y) longHelp
  | keyword {y q : Str} (hne : y ≠ []) (hy : ∀ x ∈ y, IdentChar x) (hk : ∀ w ∈ Spec.reserved, ¬ w <+: y)
      (hq : ∀ c z, q = c :: z → ¬ IdentChar c) : Halts ['#'] (y ++ q) keywordHelp

/-- The text `r` ends or begins with a character with which a line or a node ends, or a block of children begins. -/
def NoMore (r : Str) : Prop := ∀ c q, r = c :: q → Newline c ∨ c ∈ [';', '{', '}']

/-- Text in which no value ends: identifier characters, with or without a backslash in front of them. -/
inductive Unbroken : Str → Prop
  | nil : Unbroken []
  | char {c : Char} {t : Str} (h : IdentChar c) (ht : Unbroken t) : Unbroken (c :: t)
  | escape {c : Char} {t : Str} (h : IdentChar c) (ht : Unbroken t) : Unbroken ('\\' :: c :: t)

/-- The message about a string that is not closed in its line. -/
def openMessage : String := "Unexpected newline in single-line quoted string"

/-- The advice about a string that is not closed in its line. -/
def openHelp : String :=
  "You can make a string multi-line by wrapping it in '\"\"\"', with a newline immediately after the opening quotes."

/-- The message about three quotation marks that are not followed by a line break. -/
def tripleMessage : String := "Multi-line string opening quotes must be immediately followed by a newline"

/-- The first quotation mark or `#` in `r`, if there is one, is followed by text other than space and comments. -/
def NoClose (r : Str) : Prop :=
  ∀ a d b, r = a ++ d :: b → (∀ x ∈ a, x ≠ '#' ∧ x ≠ '"') → (d = '#' ∨ d = '"') → ∃ x z, b = x :: z ∧ ¬ Blank x ∧ x ≠ '/'

/-- Mistaken strings in front of `r`: a reserved word, a quoted string with an escape that does not exist, a quoted
string with more text right behind it, a quoted string that is not closed when the document or the line ends, three
quotation marks without a line break behind them, a raw string with more text right behind it, and strings over several
lines with more text right behind them. -/
inductive BadString (r : Str) : Fault → Str → Prop
  | reserved {x : Str} (h : Refused x) : BadString r (reservedFault x) x
  | escape {t v y : Str} {c : Char} (ht : Quoted t v) (hc : IdentChar c) (he : c ∉ "bfnrts".toList) (hy : Unbroken y) :
      BadString r ⟨[], '"' :: (t ++ '\\' :: c :: (y ++ ['"'])), "quoted string", none, none⟩ ('"' :: (t ++ '\\' :: c :: (y ++ ['"'])))
  | long {t v y : Str} {c : Char} (ht : Quoted t v) (hc : IdentChar c) (hy : Unbroken y) :
      BadString r ⟨[], '"' :: (t ++ '"' :: c :: y), "quoted string", some longHelp, none⟩ ('"' :: (t ++ '"' :: c :: y))
  | openEnd {t v : Str} (ht : Quoted t v) (hr : r = []) : BadString r ⟨[], '"' :: t, "quoted string", none, none⟩ ('"' :: t)
  | openLine {t v q : Str} {c : Char} (ht : Quoted t v) (hs : ∀ a w, t = a ++ '\\' :: w → w ≠ [] → ∃ x ∈ w, ¬ Blank x)
      (hc : Newline c) (hr : r = c :: q) : BadString r ⟨[], '"' :: t, "quoted string", some openHelp, some openMessage⟩ ('"' :: t)
  | triple {y z : Str} (hy : Unbroken y) (hz : z = [] ∨ z = ['"', '"', '"']) (hn : ∀ c q, y ++ (z ++ r) = c :: q → ¬ Newline c) :
      BadString r ⟨[], '"' :: '"' :: '"' :: (y ++ z), "quoted string", none, some tripleMessage⟩ ('"' :: '"' :: '"' :: (y ++ z))
  | rawLong {n : Nat} {t y : Str} {c : Char} (ht : RawBody (n + 1) t) (hc : IdentChar c) (hy : ∀ x ∈ y, IdentChar x) (hr : NoClose r) :
      BadString r ⟨[], hashes (n + 1) ++ '"' :: (t ++ '"' :: (hashes (n + 1) ++ c :: y)), "raw string", some longHelp, none⟩
        (hashes (n + 1) ++ '"' :: (t ++ '"' :: (hashes (n + 1) ++ c :: y)))
  | multiLong {nl pre t y : Str} {ls : List Str} {c : Char} (h0 : NewlineSeq nl t) (h1 : ∀ c ∈ pre, Space c) (h : Multi pre t ls)
      (hc : IdentChar c) (hy : Unbroken y) :
      BadString r ⟨[], '"' :: '"' :: '"' :: (nl ++ (t ++ '"' :: '"' :: '"' :: c :: y)), "quoted string", some longHelp, none⟩
        ('"' :: '"' :: '"' :: (nl ++ (t ++ '"' :: '"' :: '"' :: c :: y)))
  | rawMultiLong {n : Nat} {nl pre t y : Str} {ls : List Str} {c : Char} (h0 : NewlineSeq nl t) (h1 : ∀ c ∈ pre, Space c)
      (h : RawMulti (n + 1) pre t ls) (h2 : joinLines ls ≠ ['"']) (hc : IdentChar c) (hy : ∀ x ∈ y, IdentChar x) (hr : NoClose r) :
      BadString r ⟨[], hashes (n + 1) ++ '"' :: '"' :: '"' :: (nl ++ (t ++ '"' :: '"' :: '"' :: (hashes (n + 1) ++ c :: y))),
          "raw string", some longHelp, none⟩
        (hashes (n + 1) ++ '"' :: '"' :: '"' :: (nl ++ (t ++ '"' :: '"' :: '"' :: (hashes (n + 1) ++ c :: y))))

/-- The text of a name of a node, in front of `r`. A mistaken string is reported twice. -/
inductive FaultyName (r : Str) : List Fault → Str → Prop
  | ok {t nm : Str} (h : StrText t nm) : FaultyName r [] t
  | string {x : Str} {f : Fault} (h : BadString r f x) : FaultyName r [f, nameFault x] x
  | number {x : Str} (hx : ∀ c ∈ x, IdentChar c) (h : NumberLike x) : FaultyName r [nameFault x] x
  | keyword {y : Str} (hne : y ≠ []) (hy : ∀ c ∈ y, IdentChar c) : FaultyName r [nameFault ('#' :: y)] ('#' :: y)

/-- The text of a name of a type, in front of `r`. -/
inductive FaultyType (r : Str) : List Fault → Str → Prop
  | ok {t i : Str} (h : StrText t i) : FaultyType r [] t
  | string {x : Str} {f : Fault} (h : BadString r f x) : FaultyType r [f] x
  | number {x : Str} (hx : ∀ c ∈ x, IdentChar c) (h : NumberLike x) : FaultyType r [typeFault x] x
  | keyword {y : Str} (hne : y ≠ []) (hy : ∀ c ∈ y, IdentChar c) : FaultyType r [typeFault ('#' :: y)] ('#' :: y)

/-- The text of a type annotation, if there is one, in front of `r`, with the space behind it. -/
inductive FaultyTy (r : Str) : List Fault → Str → Prop
  | none : FaultyTy r [] []
  | some {it b a f : Str} {fs : List Fault} (hi : FaultyType (a ++ ')' :: (f ++ r)) fs it) (hb : NSpace it b) (ha : NSpace [')'] a)
      (hf : NSpace r f) : FaultyTy r (fs.map (Fault.shift ('(' :: b))) ('(' :: (b ++ (it ++ (a ++ ')' :: f))))

/-- The text of a key, in front of `r`. -/
inductive FaultyKey (r : Str) : List Fault → Str → Prop
  | ok {t k : Str} (h : StrText t k) : FaultyKey r [] t
  | string {x : Str} {f : Fault} (h : BadString r f x) : FaultyKey r [f] x

section
variable [FloatIO]

/-- The text of a value, in front of `r`. -/
inductive FaultyValue (r : Str) : List Fault → Str → Prop
  | ok {t : Str} {v : Value} (h : ValText t v) : FaultyValue r [] t
  | string {x : Str} {f : Fault} (h : BadString r f x) : FaultyValue r [f] x

/-- The text of an entry, in front of `r`. The value of a property may not be one of `BadWord`. What is reported about
one of these as an argument spans its annotation too. -/
inductive FaultyEntry (r : Str) : List Fault → Str → Prop
  | word {tt x : Str} {what : String} {help msg : Option String} {ts : List Fault} (ht : FaultyTy (x ++ r) ts tt)
      (hx : BadWord x what help msg) : FaultyEntry r (ts ++ [⟨[], tt ++ x, what, help, msg⟩]) (tt ++ x)
  | arg {tt vt : Str} {ts fs : List Fault} (ht : FaultyTy (vt ++ r) ts tt) (hv : FaultyValue r fs vt) :
      FaultyEntry r (ts ++ fs.map (Fault.shift tt)) (tt ++ vt)
  | prop {kt ak ae tt vt : Str} {ks ts fs : List Fault} (hk : FaultyKey (ak ++ '=' :: (ae ++ (tt ++ (vt ++ r)))) ks kt) (h1 : NSpace ['='] ak)
      (h2 : NSpace (tt ++ vt) ae) (ht : FaultyTy (vt ++ r) ts tt) (hv : FaultyValue r fs vt) :
      FaultyEntry r (ks ++ (ts.map (Fault.shift (kt ++ (ak ++ '=' :: ae))) ++ fs.map (Fault.shift (kt ++ (ak ++ '=' :: (ae ++ tt))))))
        (kt ++ (ak ++ '=' :: (ae ++ (tt ++ vt))))

/-- The entries of a node, in front of `r`, some of them mistaken. -/
inductive FaultyEntries (r : Str) : List Fault → Str → Prop
  | nil : FaultyEntries r [] []
  | cons {w x T : Str} {es fs : List Fault} (hw : EntryLead x w) (hx : FaultyEntry (T ++ r) es x) (hT : FaultyEntries r fs T) :
      FaultyEntries r (es.map (Fault.shift w) ++ fs.map (Fault.shift (w ++ x))) (w ++ (x ++ T))

/-- The kinds of texts of `Faulty`. -/
inductive FCat where
  | node
  | items
  | nodes

/-- `Faulty c r fs t`: the text `t`, in front of `r`, is a node, several nodes, or a whole document, with the
mistakes `fs`, at any depth. Apart from them it is as in `Text`. -/
inductive Faulty : FCat → Str → List Fault → Str → Prop
  | ok {k : Bool} {r B : Str} {d : SNode Value} (h : Text (.node k d) r B) : Faulty .node r [] B
  | leaf {k : Bool} {tt nt T w r : Str} {ts ns fs : List Fault} (h1 : FaultyTy (nt ++ (T ++ (w ++ r))) ts tt)
      (h2 : FaultyName (T ++ (w ++ r)) ns nt) (h3 : FaultyEntries (w ++ r) fs T) (h4 : Text (.mid k) r w) :
      Faulty .node r (ts ++ (ns.map (Fault.shift tt) ++ fs.map (Fault.shift (tt ++ nt)))) (tt ++ (nt ++ (T ++ w)))
  | block {tt nt T w D v r : Str} {ts ns fs gs : List Fault}
      (h1 : FaultyTy (nt ++ (T ++ (w ++ '{' :: (D ++ '}' :: (v ++ r))))) ts tt)
      (h2 : FaultyName (T ++ (w ++ '{' :: (D ++ '}' :: (v ++ r)))) ns nt)
      (h3 : FaultyEntries (w ++ '{' :: (D ++ '}' :: (v ++ r))) fs T) (h4 : ∀ x, Text (.mid false) ('{' :: x) w)
      (h5 : ∀ x, Faulty .nodes ('}' :: x) gs D) (h6 : Text .tail r v) :
      Faulty .node r (ts ++ (ns.map (Fault.shift tt) ++ (fs.map (Fault.shift (tt ++ nt)) ++
          gs.map (Fault.shift (tt ++ (nt ++ (T ++ (w ++ ['{']))))))))
        (tt ++ (nt ++ (T ++ (w ++ '{' :: (D ++ '}' :: v)))))
  | last {r B : Str} {fs : List Fault} (hB : Faulty .node r fs B) : Faulty .items r fs B
  | lastTerm {r B m L : Str} {fs : List Fault} (hB : Faulty .node (m ++ (L ++ r)) fs B)
      (hm : TermText m (L ++ r)) (hL : Text .lead r L) : Faulty .items r fs (B ++ (m ++ L))
  | cons {r B m L T : Str} {fs gs : List Fault} (hB : Faulty .node (m ++ (L ++ (T ++ r))) fs B)
      (hm : TermText m (L ++ (T ++ r))) (hL : Text .lead (T ++ r) L) (hT : Faulty .items r gs T) :
      Faulty .items r (fs ++ gs.map (Fault.shift (B ++ (m ++ L)))) (B ++ (m ++ (L ++ T)))
  | empty {r L : Str} (hL : Text .lead r L) : Faulty .nodes r [] L
  | items {r L T : Str} {fs : List Fault} (hL : Text .lead (T ++ r) L) (hT : Faulty .items r fs T) :
      Faulty .nodes r (fs.map (Fault.shift L)) (L ++ T)

/-- Nodes, each with its end and the leading text of the next one, in front of `r`, with the mistakes `fs`. -/
inductive FrontNodes (r : Str) : List Fault → Str → Prop
  | nil : FrontNodes r [] []
  | cons {B m L T : Str} {fs gs : List Fault} (hB : Faulty .node (m ++ (L ++ (T ++ r))) fs B) (hm : TermText m (L ++ (T ++ r)))
      (hL : Text .lead (T ++ r) L) (hT : FrontNodes r gs T) : FrontNodes r (fs ++ gs.map (Fault.shift (B ++ (m ++ L)))) (B ++ (m ++ (L ++ T)))

end

end Kdl.Spec
