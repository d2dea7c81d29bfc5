import Verif.Spec.Grammar
import Verif.Model.V1
/-
KDL v1: the texts of its strings, the data of its documents, and the documents that keep
their data when they are converted to v2. The strings follow the grammar in the comments
of `src/v1_parser.rs:600-687`.
-/

namespace Kdl.Spec

/-! ### Strings of KDL v1 -/

/-- The single-character escapes of v1. -/
def v1Escapes : List (Char × Char) :=
  [('"', '"'), ('\\', '\\'), ('/', '/'), ('b', Char.ofNat 0x08), ('f', Char.ofNat 0x0C), ('n', '\n'), ('r', '\r'), ('t', '\t')]

/-- `V1Quoted t v`: between double quotes, in v1, the text `t` stands for `v`. Line breaks
and all other characters stand for themselves. -/
inductive V1Quoted : Str → Str → Prop
  | nil : V1Quoted [] []
  | plain {c : Char} {t v : Str} (h1 : c ≠ '\\') (h2 : c ≠ '"') (h : V1Quoted t v) : V1Quoted (c :: t) (c :: v)
  | escape {e c : Char} {t v : Str} (h1 : (e, c) ∈ v1Escapes) (h : V1Quoted t v) : V1Quoted ('\\' :: e :: t) (c :: v)
  | unicode {hx t v : Str} {c : Char} (h1 : hx ≠ []) (h2 : hx.length ≤ 6) (h3 : ∀ x ∈ hx, IsDigit 16 x)
      (h4 : hexVal hx = c.toNat) (h : V1Quoted t v) : V1Quoted ('\\' :: 'u' :: '{' :: (hx ++ '}' :: t)) (c :: v)

/-- `V1Str t v`: the text `t` is a v1 string with value `v`, quoted or raw. -/
inductive V1Str : Str → Str → Prop
  | quoted {t v : Str} (h : V1Quoted t v) : V1Str ('"' :: (t ++ ['"'])) v
  | raw {n : Nat} {t : Str} (h : ¬ Contains t ('"' :: hashes n)) :
      V1Str ('r' :: (hashes n ++ '"' :: (t ++ '"' :: hashes n))) t

/-! ### Texts that look like v1 -/

/-- The first line mentions version 1. -/
def FirstLineV1 (s : Str) : Prop := ∃ a b, s = a ++ ("kdl-version 1".toList ++ b) ∧ '\n' ∉ a

/-- The text looks like v1: its first line says so, or it contains an unmarked keyword, the
start of a v1 raw string, or a quotation mark that is followed by a line break. -/
def LooksV1 (s : Str) : Prop :=
  FirstLineV1 s ∨ Contains s " true".toList ∨ Contains s " false".toList ∨ Contains s " null".toList ∨
  Contains s "r#\"".toList ∨ Contains s " \"\n".toList ∨ Contains s " \"\r\n".toList

/-! ### Strings that survive the conversion to v2 -/

/-- As `V1Quoted`, on one line, without characters that v2 does not allow and without an
escaped backslash in front of a slash. -/
inductive V1Safe : Str → Str → Prop
  | nil : V1Safe [] []
  | plain {c : Char} {t v : Str} (h1 : c ≠ '\\') (h2 : c ≠ '"') (h3 : ¬ Newline c) (h4 : ¬ Disallowed c)
      (h : V1Safe t v) : V1Safe (c :: t) (c :: v)
  | escape {e c : Char} {t v : Str} (h1 : (e, c) ∈ v1Escapes) (h2 : e = '\\' → ∀ q, t ≠ '/' :: q) (h : V1Safe t v) :
      V1Safe ('\\' :: e :: t) (c :: v)
  | unicode {hx t v : Str} {c : Char} (h1 : hx ≠ []) (h2 : hx.length ≤ 6) (h3 : ∀ x ∈ hx, IsDigit 16 x)
      (h4 : hexVal hx = c.toNat) (h : V1Safe t v) : V1Safe ('\\' :: 'u' :: '{' :: (hx ++ '}' :: t)) (c :: v)

/-- As `V1Quoted`, for one line of several, without characters that v2 does not allow and
without an escaped slash. -/
inductive V1Line : Str → Str → Prop
  | nil : V1Line [] []
  | plain {c : Char} {t v : Str} (h1 : c ≠ '\\') (h2 : c ≠ '"') (h3 : ¬ Newline c) (h4 : ¬ Disallowed c)
      (h : V1Line t v) : V1Line (c :: t) (c :: v)
  | escape {e c : Char} {t v : Str} (h1 : (e, c) ∈ v1Escapes) (h2 : e ≠ '/') (h : V1Line t v) :
      V1Line ('\\' :: e :: t) (c :: v)
  | unicode {hx t v : Str} {c : Char} (h1 : hx ≠ []) (h2 : hx.length ≤ 6) (h3 : ∀ x ∈ hx, IsDigit 16 x)
      (h4 : hexVal hx = c.toNat) (h : V1Line t v) : V1Line ('\\' :: 'u' :: '{' :: (hx ++ '}' :: t)) (c :: v)

/-- The lines `cs` stand for the lines `vs`. -/
inductive V1Lines : List Str → List Str → Prop
  | nil : V1Lines [] []
  | cons {c v : Str} {cs vs : List Str} (h : V1Line c v) (ht : V1Lines cs vs) : V1Lines (c :: cs) (v :: vs)

/-- A line that is empty or has a character other than white space. -/
def Visible (c : Str) : Prop := c = [] ∨ ∃ a ∈ c, ¬ Space a

/-- `V1Good t w`: the text `t` of the v1 string `w` survives the conversion. -/
inductive V1Good : Str → Str → Prop
  /-- a string that needs no quotation marks in v2 -/
  | bare {t w : Str} (h : V1Str t w) (hb : Bare w) (hr : w ∉ reserved) : V1Good t w
  /-- a quoted string on one line -/
  | quoted {t w : Str} (h : V1Safe t w) (hne : w ≠ []) (hs : ¬ SignedPoint w) : V1Good ('"' :: (t ++ ['"'])) w
  /-- a quoted string over several lines -/
  | lines {cs vs : List Str} (h : V1Lines cs vs) (h2 : 2 ≤ cs.length) (hv : ∀ c ∈ cs, Visible c) :
      V1Good ('"' :: (joinLines cs ++ ['"'])) (joinLines vs)
  /-- a raw string without hashes and without backslashes, on one line -/
  | raw0 {w : Str} (h : ∀ c ∈ w, c ≠ '\\' ∧ c ≠ '"' ∧ ¬ Newline c ∧ ¬ Disallowed c) (hne : w ≠ []) (hs : ¬ SignedPoint w) :
      V1Good ('r' :: '"' :: (w ++ ['"'])) w
  /-- a raw string without hashes and without backslashes, over several lines -/
  | raw0Lines {cs : List Str} (h : ∀ l ∈ cs, ∀ c ∈ l, c ≠ '\\' ∧ c ≠ '"' ∧ ¬ Newline c ∧ ¬ Disallowed c) (h2 : 2 ≤ cs.length)
      (hv : ∀ c ∈ cs, Visible c) : V1Good ('r' :: '"' :: (joinLines cs ++ ['"'])) (joinLines cs)
  /-- a raw string with hashes on one line -/
  | raw {n : Nat} {w : Str} (h : RawBody (n + 1) w) (hne : w ≠ []) (hs : ¬ SignedPoint w) :
      V1Good ('r' :: (hashes (n + 1) ++ '"' :: (w ++ '"' :: hashes (n + 1)))) w
  /-- a raw string with hashes over several lines, without three quotation marks in a row -/
  | rawLines {n : Nat} {cs : List Str} (h : ∀ l ∈ cs, ∀ c ∈ l, ¬ Newline c ∧ ¬ Disallowed c)
      (hc : ¬ Contains (joinLines cs) ('"' :: hashes (n + 1))) (hq : ¬ Contains ('"' :: (joinLines cs ++ ['"'])) ['"', '"', '"'])
      (h2 : 2 ≤ cs.length) (hv : ∀ c ∈ cs, Visible c) :
      V1Good ('r' :: (hashes (n + 1) ++ '"' :: (joinLines cs ++ '"' :: hashes (n + 1)))) (joinLines cs)

/-! ### Strings that survive the conversion to v1 -/

/-- As `Quoted`, without `\s` and without escaped white space. -/
inductive V2Plain : Str → Str → Prop
  | nil : V2Plain [] []
  | plain {c : Char} {t v : Str} (h1 : c ≠ '\\') (h2 : c ≠ '"') (h3 : ¬ Newline c) (h4 : ¬ Disallowed c)
      (h : V2Plain t v) : V2Plain (c :: t) (c :: v)
  | escape {e c : Char} {t v : Str} (h1 : (e, c) ∈ escapes) (h2 : e ≠ 's') (h : V2Plain t v) : V2Plain ('\\' :: e :: t) (c :: v)
  | unicode {hx t v : Str} {c : Char} (h1 : hx ≠ []) (h2 : hx.length ≤ 6) (h3 : ∀ x ∈ hx, IsDigit 16 x)
      (h4 : hexVal hx = c.toNat) (h : V2Plain t v) : V2Plain ('\\' :: 'u' :: '{' :: (hx ++ '}' :: t)) (c :: v)

/-- `V2Ready t w`: the text `t` of the v2 string `w` survives the conversion to v1: it is on
one line, does not use `\s` or escaped white space, and is not an unquoted `-inf`. -/
inductive V2Ready : Str → Str → Prop
  | bare {w : Str} (h : Bare w) (hr : w ≠ "-inf".toList) : V2Ready w w
  | quoted {t w : Str} (h : V2Plain t w) : V2Ready ('"' :: (t ++ ['"'])) w
  | raw {n : Nat} {w : Str} (h : RawBody (n + 1) w) : V2Ready (hashes (n + 1) ++ '"' :: (w ++ '"' :: hashes (n + 1))) w

/-! ### The data of a v1 document -/

/-- The value, in the terms of v2: integers of all notations are integers, raw strings are
strings. -/
inductive V1Value : V1.Value → Value → Prop
  | raw (s : Str) : V1Value (.rawString s) (.string s)
  | string (s : Str) : V1Value (.string s) (.string s)
  | base2 (i : V1.I64) (j : I128) (h : j.val = i.val) : V1Value (.base2 i) (.integer j)
  | base8 (i : V1.I64) (j : I128) (h : j.val = i.val) : V1Value (.base8 i) (.integer j)
  | base10 (i : V1.I64) (j : I128) (h : j.val = i.val) : V1Value (.base10 i) (.integer j)
  | base16 (i : V1.I64) (j : I128) (h : j.val = i.val) : V1Value (.base16 i) (.integer j)
  | float (x : F64) : V1Value (.base10Float x) (.float x)
  | bool (b : Bool) : V1Value (.bool b) (.bool b)
  | null : V1Value .null .null

/-- The data of an entry. -/
def V1DataEntry (e : V1.Entry) (d : SEntry Value) : Prop :=
  d.ty = e.ty.map V1.Ident.value ∧ d.name = e.name.map V1.Ident.value ∧ V1Value e.value d.value

/-- The data of the entries. -/
inductive V1DataEntries : List V1.Entry → List (SEntry Value) → Prop
  | nil : V1DataEntries [] []
  | cons {e : V1.Entry} {d : SEntry Value} {es : List V1.Entry} {ds : List (SEntry Value)} (h : V1DataEntry e d)
      (ht : V1DataEntries es ds) : V1DataEntries (e :: es) (d :: ds)

mutual
/-- The data of a node. -/
inductive V1DataNode : V1.Node → SNode Value → Prop
  | leaf {ty : Option V1.Ident} {name : V1.Ident} {es : List V1.Entry} {l b t : Option Str} {sp : Span} {ds : List (SEntry Value)}
      (h : V1DataEntries es ds) :
      V1DataNode (.mk ty name es none l b t sp) (.mk (ty.map V1.Ident.value) name.value ds none)
  | block {ty : Option V1.Ident} {name : V1.Ident} {es : List V1.Entry} {d : V1.Document} {l b t : Option Str} {sp : Span}
      {ds : List (SEntry Value)} {cs : List (SNode Value)} (h : V1DataEntries es ds) (hc : V1Data d cs) :
      V1DataNode (.mk ty name es (some d) l b t sp) (.mk (ty.map V1.Ident.value) name.value ds (some cs))
/-- The data of a document. -/
inductive V1Data : V1.Document → List (SNode Value) → Prop
  | mk {ns : List V1.Node} {l t : Option Str} {sp : Span} {ds : List (SNode Value)} (h : V1DataNodes ns ds) :
      V1Data (.mk ns l t sp) ds
/-- The data of a list of nodes. -/
inductive V1DataNodes : List V1.Node → List (SNode Value) → Prop
  | nil : V1DataNodes [] []
  | cons {n : V1.Node} {ns : List V1.Node} {d : SNode Value} {ds : List (SNode Value)} (h : V1DataNode n d) (ht : V1DataNodes ns ds) :
      V1DataNodes (n :: ns) (d :: ds)
end

/-! ### Documents that survive the conversion to v2 -/

section
variable [FloatIO]

/-- The text of an identifier that is not converted is also a v2 text of it. -/
def V1Name (i : V1.Ident) : Prop := ∃ t, i.repr = some t ∧ StrText t i.value

/-- The entry survives: white space in front of it and none after it, its names can be read
by v2, and so can its value, after the conversion if it is a string. -/
def V1Entry (e : V1.Entry) : Prop :=
  (∃ w, e.leading = some w ∧ NSpace ['x'] w ∧ w ≠ []) ∧ e.trailing.getD [] = [] ∧ (∀ i ∈ e.ty, V1Name i) ∧
  (∀ i ∈ e.name, V1Name i) ∧
  ((∃ t w, e.valueRepr = some t ∧ V1Value e.value (.string w) ∧ V1Good t w) ∨
    (∃ t v, e.valueRepr = some t ∧ V1Value e.value v ∧ NumText t v) ∨ (∃ b, e.value = .bool b) ∨ e.value = .null)

/-- White space and block comments without a semicolon and without a line break. -/
def V1Blank (w : Str) : Prop := WSeq w ∧ ∀ c ∈ w, c ≠ ';' ∧ ¬ Newline c

/-- `V1End t u`: the text `t` after the last part of a node ends the node, and `u` is left
of it if the terminator is taken away. Of a single-line comment, the line break is taken
away. -/
inductive V1End : Str → Str → Prop
  | line {w nl : Str} (hw : V1Blank w) (hn : NewlineSeq nl []) : V1End (w ++ nl) w
  | semi {w x : Str} (hw : ∀ c ∈ w, c ≠ ';') (hx : ∀ c ∈ x, c ≠ ';') : V1End (w ++ ';' :: x) (w ++ x)
  | comment {w b nl : Str} (hw : V1Blank w) (hb : ∀ c ∈ b, c ≠ ';' ∧ ¬ Newline c) (hn : NewlineSeq nl [] ∨ nl = []) :
      V1End (w ++ '/' :: '/' :: (b ++ nl)) (w ++ '/' :: '/' :: b)
  | eof {w : Str} (hw : V1Blank w) : V1End w w

mutual
/-- The node survives. -/
inductive V1Node : V1.Node → Prop
  | leaf {ty : Option V1.Ident} {name : V1.Ident} {es : List V1.Entry} {l b t : Option Str} {sp : Span}
      (ht : ∀ i ∈ ty, Writable i.value) (hn : Writable name.value) (he : ∀ e ∈ es, V1Entry e) :
      V1Node (.mk ty name es none l b t sp)
  | block {ty : Option V1.Ident} {name : V1.Ident} {es : List V1.Entry} {d : V1.Document} {l t : Option Str} {b : Str} {sp : Span}
      (ht : ∀ i ∈ ty, Writable i.value) (hn : Writable name.value) (he : ∀ e ∈ es, V1Entry e)
      (hb : NSpace ['{'] b) (hd : V1Doc ['}'] d) : V1Node (.mk ty name es (some d) l (some b) t sp)
/-- The document survives, in front of `r`. -/
inductive V1Doc : Str → V1.Document → Prop
  | mk {r : Str} {ns : List V1.Node} {l t : Option Str} {sp : Span} (h : V1Nodes r (t.getD []) (l.getD []) ns) : V1Doc r (.mk ns l t sp)
/-- The nodes survive: what is left over between two nodes is line space of v2, and so is
what is left over in front of `r`, where `last` is the text after the nodes. -/
inductive V1Nodes : Str → Str → Str → List V1.Node → Prop
  | nil {r last p : Str} (h : LSpace r (p ++ last)) : V1Nodes r last p []
  | cons {r last p t u : Str} {ty : Option V1.Ident} {name : V1.Ident} {es : List V1.Entry} {ch : Option V1.Document} {l b : Option Str}
      {sp : Span} {ns : List V1.Node} (hp : LSpace ['x'] (p ++ l.getD [])) (hn : V1Node (.mk ty name es ch l b (some t) sp))
      (ht : V1End t u) (h : V1Nodes r last u ns) : V1Nodes r last p (.mk ty name es ch l b (some t) sp :: ns)
end

end

end Kdl.Spec
