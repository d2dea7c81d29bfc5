import Verif.Spec.Values
import Verif.Spec.Space
import Verif.Spec.Data
/-
Texts of entries, nodes and documents, with the data they stand for.
-/

namespace Kdl.Spec

/-- `TyText ty nx t`: the text `t`, in front of `nx`, is the type annotation `ty`,
with the space after it. -/
inductive TyText (nx : Str) : Option Str → Str → Prop
  | none : TyText nx none []
  | some {i it b a f : Str} (hi : StrText it i) (hb : NSpace it b) (ha : NSpace [')'] a) (hf : NSpace nx f) :
      TyText nx (some i) ('(' :: (b ++ (it ++ (a ++ ')' :: f))))

section
variable [FloatIO]

/-- `ValEnd k t v`: the text `t` is a value `v`; if `k` is set, it is a keyword. -/
def ValEnd (k : Bool) (t : Str) (v : Value) : Prop := if k then (t, v) ∈ keywords else ValText t v

/-- `EntryEnd k d t`: the text `t` is an entry with data `d`; if `k` is set, its value
is a keyword. -/
inductive EntryEnd (k : Bool) : SEntry Value → Str → Prop
  | arg {ty : Option Str} {tt vt : Str} {v : Value} (ht : TyText vt ty tt) (hv : ValEnd k vt v) :
      EntryEnd k ⟨ty, none, v⟩ (tt ++ vt)
  | prop {ty : Option Str} {kn kt ak ae tt vt : Str} {v : Value} (hk : StrText kt kn) (h1 : NSpace ['='] ak)
      (h2 : NSpace (tt ++ vt) ae) (ht : TyText vt ty tt) (hv : ValEnd k vt v) :
      EntryEnd k ⟨ty, some kn, v⟩ (kt ++ (ak ++ '=' :: (ae ++ (tt ++ vt))))

/-- `EntryText d t`: the text `t` is an entry with data `d`. -/
abbrev EntryText : SEntry Value → Str → Prop := EntryEnd false

/-- One or more slashdashed entries; if the flag is set, the last one ends with a
keyword. A slashdashed entry may itself be preceded by slashdashed entries. -/
inductive SdEnd : Bool → Str → Prop
  | one {k : Bool} {b E : Str} {d : SEntry Value} (hb : LSpace E b) (hE : EntryEnd k d E) :
      SdEnd k ('/' :: '-' :: (b ++ E))
  | nest {k : Bool} {b S w E : Str} {d : SEntry Value} (hb : LSpace S b) (hS : SdEnd false S) (hw : NSpace E w)
      (hne : w ≠ []) (hE : EntryEnd k d E) : SdEnd k ('/' :: '-' :: (b ++ (S ++ (w ++ E))))
  | cons {k : Bool} {b E w T : Str} {d : SEntry Value} (hb : LSpace E b) (hE : EntryText d E) (hw : NSpace T w)
      (hne : w ≠ []) (hT : SdEnd k T) : SdEnd k ('/' :: '-' :: (b ++ (E ++ (w ++ T))))
  | nestCons {k : Bool} {b S v E w T : Str} {d : SEntry Value} (hb : LSpace S b) (hS : SdEnd false S) (hv : NSpace E v)
      (hne' : v ≠ []) (hE : EntryText d E) (hw : NSpace T w) (hne : w ≠ []) (hT : SdEnd k T) :
      SdEnd k ('/' :: '-' :: (b ++ (S ++ (v ++ (E ++ (w ++ T))))))

/-- One or more slashdashed entries. -/
abbrev SdEntries : Str → Prop := SdEnd false

/-- What may stand in front of an entry with text `t`. -/
inductive EntryLead (t : Str) : Str → Prop
  | space {w : Str} (h : NSpace t w) (hne : w ≠ []) : EntryLead t w
  | slash {w S v : Str} (hw : NSpace S w) (hne : w ≠ []) (hS : SdEntries S) (hv : NSpace t v) (hne' : v ≠ []) :
      EntryLead t (w ++ (S ++ v))

/-- The entries of a node. -/
inductive EntriesText : List (SEntry Value) → Str → Prop
  | nil : EntriesText [] []
  | cons {w t T : Str} {d : SEntry Value} {ds : List (SEntry Value)} (hw : EntryLead t w) (ht : EntryText d t)
      (hT : EntriesText ds T) : EntriesText (d :: ds) (w ++ (t ++ T))

/-- The terminator of a node, in front of `x`. -/
def TermText (m x : Str) : Prop := m = [';'] ∨ NewlineSeq m x ∨ LineComment m x

/-- What follows a node: the end of the document or of the block, or a terminator. -/
def NodeStop (x : Str) : Prop :=
  x = [] ∨ ∃ c q, x = c :: q ∧ (c = '}' ∨ c = ';' ∨ Newline c ∨ (c = '/' ∧ ∃ q', q = '/' :: q'))

/-- The first character of a node. -/
def NodeStart (x : Str) : Prop := ∃ c q, x = c :: q ∧ (IdentChar c ∨ c = '#' ∨ c = '"' ∨ c = '(')

/-- A further node, slashdashed or not. The parser accepts one without a terminator
in front of it in some places (after a children block and after a keyword, if at
least one of the two nodes is slashdashed). -/
def NodeNext (x : Str) : Prop := NodeStart x ∨ ∃ q, x = '/' :: '-' :: q

/-- The categories of the grammar. -/
inductive Cat where
  /-- a node; if the flag is set, one after which a further node may follow directly -/
  | node (k : Bool) (d : SNode Value)
  /-- what may stand in front of a node: line space and slashdashed nodes -/
  | lead
  /-- slashdashed children blocks -/
  | blocks
  /-- what follows the entries of a node; the flag is as for nodes -/
  | mid (k : Bool)
  /-- what follows the children block of a node -/
  | tail
  /-- nodes, each but the last followed by a terminator, starting with a node -/
  | items (ds : List (SNode Value))
  /-- the nodes of a document or block -/
  | nodes (ds : List (SNode Value))

/-- `Text c r t`: the text `t`, in front of `r`, belongs to the category `c`. -/
inductive Text : Cat → Str → Str → Prop
  | leaf {k : Bool} {ty : Option Str} {nm tt nt T w r : Str} {ds : List (SEntry Value)} (h1 : TyText nt ty tt)
      (h2 : StrText nt nm) (h3 : EntriesText ds T) (h4 : Text (.mid k) r w) :
      Text (.node k (.mk ty nm ds none)) r (tt ++ (nt ++ (T ++ w)))
  | leafKeyword {ty : Option Str} {nm tt nt T w t r : Str} {ds : List (SEntry Value)} {d : SEntry Value}
      (h1 : TyText nt ty tt) (h2 : StrText nt nm) (h3 : EntriesText ds T) (h4 : EntryLead t w) (h5 : EntryEnd true d t) :
      Text (.node true (.mk ty nm (ds ++ [d]) none)) r (tt ++ (nt ++ (T ++ (w ++ t))))
  | block {k : Bool} {ty : Option Str} {nm tt nt T w D v r : Str} {ds : List (SEntry Value)} {cs : List (SNode Value)}
      (h1 : TyText nt ty tt) (h2 : StrText nt nm) (h3 : EntriesText ds T) (h4 : ∀ x, Text (.mid false) ('{' :: x) w)
      (h5 : ∀ x, Text (.nodes cs) ('}' :: x) D) (h6 : Text .tail r v) :
      Text (.node k (.mk ty nm ds (some cs))) r (tt ++ (nt ++ (T ++ (w ++ '{' :: (D ++ '}' :: v)))))
  | midSpace {r w : Str} (h : NSpace r w) : Text (.mid false) r w
  | midEntries {r w S v : Str} (h1 : NSpace S w) (hne : w ≠ []) (h2 : SdEntries S) (h3 : NSpace r v) :
      Text (.mid false) r (w ++ (S ++ v))
  | midKeyword {r w S : Str} (h1 : NSpace S w) (hne : w ≠ []) (h2 : SdEnd true S) : Text (.mid true) r (w ++ S)
  | midBlocks {k : Bool} {r w C v : Str} (h1 : NSpace C w) (hne : w ≠ []) (h2 : Text .blocks [] C) (h3 : NSpace r v) :
      Text (.mid k) r (w ++ (C ++ v))
  | midBoth {k : Bool} {r w S u C v : Str} (h1 : NSpace S w) (hne : w ≠ []) (h2 : SdEntries S) (h3 : NSpace C u)
      (hne' : u ≠ []) (h4 : Text .blocks [] C) (h5 : NSpace r v) : Text (.mid k) r (w ++ (S ++ (u ++ (C ++ v))))
  | tailSpace {r w : Str} (h : NSpace r w) : Text .tail r w
  | tailBlocks {r w C v : Str} (h1 : NSpace C w) (h2 : Text .blocks [] C) (h3 : NSpace r v) :
      Text .tail r (w ++ (C ++ v))
  | blocksOne {b D : Str} {cs : List (SNode Value)} (hb : LSpace ['{'] b) (hD : ∀ x, Text (.nodes cs) ('}' :: x) D) :
      Text .blocks [] ('/' :: '-' :: (b ++ '{' :: (D ++ ['}'])))
  | blocksCons {b D w T : Str} {cs : List (SNode Value)} (hb : LSpace ['{'] b) (hD : ∀ x, Text (.nodes cs) ('}' :: x) D)
      (hw : NSpace T w) (hne : w ≠ []) (hT : Text .blocks [] T) :
      Text .blocks [] ('/' :: '-' :: (b ++ '{' :: (D ++ '}' :: (w ++ T))))
  | leadNil {r : Str} : Text .lead r []
  | leadSpace {r w L : Str} (hw : LSpace (L ++ r) w) (hL : Text .lead r L) : Text .lead r (w ++ L)
  | leadNode {k : Bool} {r b B L : Str} {d : SNode Value} (hb : LSpace B b) (hB : Text (.node k d) (L ++ r) B)
      (hs : NodeStop (L ++ r) ∨ (k = true ∧ NodeNext (L ++ r))) (hL : Text .lead r L) :
      Text .lead r ('/' :: '-' :: (b ++ (B ++ L)))
  | last {k : Bool} {r B : Str} {d : SNode Value} (hB : Text (.node k d) r B) : Text (.items [d]) r B
  | lastTerm {k : Bool} {r B m L : Str} {d : SNode Value} (hB : Text (.node k d) (m ++ (L ++ r)) B)
      (hm : TermText m (L ++ r)) (hL : Text .lead r L) : Text (.items [d]) r (B ++ (m ++ L))
  | lastSlash {r q B : Str} {d : SNode Value} (hB : Text (.node true d) ('/' :: '-' :: q ++ r) B)
      (hL : Text .lead r ('/' :: '-' :: q)) : Text (.items [d]) r (B ++ '/' :: '-' :: q)
  | cons {k : Bool} {r B m L T : Str} {d : SNode Value} {ds : List (SNode Value)}
      (hB : Text (.node k d) (m ++ (L ++ (T ++ r))) B) (hm : TermText m (L ++ (T ++ r))) (hL : Text .lead (T ++ r) L)
      (hT : Text (.items ds) r T) : Text (.items (d :: ds)) r (B ++ (m ++ (L ++ T)))
  | empty {r L : Str} (hL : Text .lead r L) : Text (.nodes []) r L
  | items {r L T : Str} {ds : List (SNode Value)} (hL : Text .lead (T ++ r) L) (hT : Text (.items ds) r T) :
      Text (.nodes ds) r (L ++ T)

/-- `DocumentText ds t`: the text `t` is a document with data `ds`. -/
abbrev DocumentText (ds : List (SNode Value)) (t : Str) : Prop := Text (.nodes ds) [] t

/-- `DocumentInput ds s`: the text `s` is a document with data `ds`, possibly after a
byte order mark. -/
def DocumentInput (ds : List (SNode Value)) (s : Str) : Prop :=
  ∃ t, (s = t ∨ s = Char.ofNat 0xFEFF :: t) ∧ DocumentText ds t

/-- `NodeInput d s`: the text `s` is a single node with data `d`, with line space and
slashdashed nodes in front of it, and a terminator and line space behind it. -/
def NodeInput (d : SNode Value) (s : Str) : Prop :=
  ∃ k L B M, s = L ++ (B ++ M) ∧ Text .lead (B ++ M) L ∧ Text (.node k d) M B ∧
    (M = [] ∨ ∃ m v, M = m ++ v ∧ TermText m v ∧ LSpace [] v)

/-- `EntryInput d s`: the text `s` is a single entry with data `d`, with line space and
slashdashed entries in front of it, and line space behind it. -/
def EntryInput (d : SEntry Value) (s : Str) : Prop :=
  ∃ l t v, EntryText d t ∧ LSpace [] v ∧
    ((s = l ++ (t ++ v) ∧ LSpace t l) ∨
      ∃ S w, s = l ++ (S ++ (w ++ (t ++ v))) ∧ LSpace S l ∧ SdEntries S ∧ NSpace t w ∧ w ≠ [])

end

end Kdl.Spec
