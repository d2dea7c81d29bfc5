import Verif.Spec.Grammar
/-
Texts of documents in which every character belongs to something that is kept when
the document is printed.
-/

namespace Kdl.Spec

/-- `SnugTy ty t`: the text `t` is the type annotation `ty` of a node, with no space or
comment in it or after it. -/
inductive SnugTy : Option Str → Str → Prop
  | none : SnugTy none []
  | some {i it : Str} (hi : StrText it i) : SnugTy (some i) ('(' :: (it ++ [')']))

section
variable [FloatIO]

/-- What follows the children block of a node: nothing, or slashdashed children blocks.
No space or comment stands at the end. -/
inductive SnugTail : Str → Prop
  | none : SnugTail []
  | blocks {w C : Str} (hw : NSpace C w) (hC : Text .blocks [] C) : SnugTail (w ++ C)

/-- `Snug c r t`: the text `t`, in front of `r`, belongs to the category `c` (a node,
nodes, or the nodes of a document or block); no node in it that is not slashdashed has
space or comments in or after its type annotation, or between the end of its children
block (or the slashdashed blocks after it) and what follows the node. -/
inductive Snug : Cat → Str → Str → Prop
  | leaf {k : Bool} {ty : Option Str} {nm tt nt T w r : Str} {ds : List (SEntry Value)} (h1 : SnugTy ty tt)
      (h2 : StrText nt nm) (h3 : EntriesText ds T) (h4 : Text (.mid k) r w) :
      Snug (.node k (.mk ty nm ds none)) r (tt ++ (nt ++ (T ++ w)))
  | leafKeyword {ty : Option Str} {nm tt nt T w t r : Str} {ds : List (SEntry Value)} {d : SEntry Value}
      (h1 : SnugTy ty tt) (h2 : StrText nt nm) (h3 : EntriesText ds T) (h4 : EntryLead t w) (h5 : EntryEnd true d t) :
      Snug (.node true (.mk ty nm (ds ++ [d]) none)) r (tt ++ (nt ++ (T ++ (w ++ t))))
  | block {k : Bool} {ty : Option Str} {nm tt nt T w D v r : Str} {ds : List (SEntry Value)} {cs : List (SNode Value)}
      (h1 : SnugTy ty tt) (h2 : StrText nt nm) (h3 : EntriesText ds T) (h4 : ∀ x, Text (.mid false) ('{' :: x) w)
      (h5 : Snug (.nodes cs) ('}' :: (v ++ r)) D) (h6 : SnugTail v) :
      Snug (.node k (.mk ty nm ds (some cs))) r (tt ++ (nt ++ (T ++ (w ++ '{' :: (D ++ '}' :: v)))))
  | last {k : Bool} {r B : Str} {d : SNode Value} (hB : Snug (.node k d) r B) : Snug (.items [d]) r B
  | lastTerm {k : Bool} {r B m L : Str} {d : SNode Value} (hB : Snug (.node k d) (m ++ (L ++ r)) B)
      (hm : TermText m (L ++ r)) (hL : Text .lead r L) : Snug (.items [d]) r (B ++ (m ++ L))
  | lastSlash {r q B : Str} {d : SNode Value} (hB : Snug (.node true d) ('/' :: '-' :: q ++ r) B)
      (hL : Text .lead r ('/' :: '-' :: q)) : Snug (.items [d]) r (B ++ '/' :: '-' :: q)
  | cons {k : Bool} {r B m L T : Str} {d : SNode Value} {ds : List (SNode Value)}
      (hB : Snug (.node k d) (m ++ (L ++ (T ++ r))) B) (hm : TermText m (L ++ (T ++ r))) (hL : Text .lead (T ++ r) L)
      (hT : Snug (.items ds) r T) : Snug (.items (d :: ds)) r (B ++ (m ++ (L ++ T)))
  | empty {r L : Str} (hL : Text .lead r L) : Snug (.nodes []) r L
  | items {r L T : Str} {ds : List (SNode Value)} (hL : Text .lead (T ++ r) L) (hT : Snug (.items ds) r T) :
      Snug (.nodes ds) r (L ++ T)

/-- `SnugDocument ds s`: as `DocumentInput`, with every node as in `Snug`. -/
def SnugDocument (ds : List (SNode Value)) (s : Str) : Prop :=
  ∃ t, (s = t ∨ s = Char.ofNat 0xFEFF :: t) ∧ Snug (.nodes ds) [] t

/-- `SnugNode d s`: as `NodeInput`, with every node as in `Snug`. -/
def SnugNode (d : SNode Value) (s : Str) : Prop :=
  ∃ k L B M, s = L ++ (B ++ M) ∧ Text .lead (B ++ M) L ∧ Snug (.node k d) M B ∧
    (M = [] ∨ ∃ m v, M = m ++ v ∧ TermText m v ∧ LSpace [] v)

end

end Kdl.Spec
