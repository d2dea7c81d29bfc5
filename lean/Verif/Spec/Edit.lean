import Verif.Spec.Grammar
import Verif.Model.Display
/-
Changes of a parsed document that leave its formatting alone: other names, other
annotations, other entries.
-/

namespace Kdl.Spec

section
variable [FloatIO]

omit [FloatIO] in
/-- The printed identifier is a text of its value. -/
def ReadableIdent (i : Ident) : Prop := StrText i.display i.value

/-- The printed entry is a text of its data. An entry with formatting must also begin
with the space that separates it from what precedes it. -/
def ReadableEntry (e : Entry) : Prop :=
  match e.format with
  | none => EntryText (semEntry id e) e.display
  | some _ => ∃ w t, e.display = w ++ t ∧ EntryLead t w ∧ EntryText (semEntry id e) t

omit [FloatIO] in
/-- The terminator recorded for a node. -/
def terminatorOf (n : Node) : Str := match n.format with | some f => f.terminator | none => []

omit [FloatIO] in
/-- The text recorded in front of a node. -/
def leadingOf (n : Node) : Str := match n.format with | some f => f.leading | none => []

omit [FloatIO] in
/-- The text has a terminator (a line break, or a comment up to the end of the line), with
nothing but space in front of it. -/
def Parts (L : Str) : Prop := ∃ w m x, L = w ++ (m ++ x) ∧ NSpace (m ++ x) w ∧ TermText m x

omit [FloatIO] in
/-- The node `n` in front of the nodes `ns` has a recorded terminator, or the text in front
of the next node has one. -/
def Parted (n : Node) (ns : List Node) : Prop := terminatorOf n ≠ [] ∨ ∃ n2 ns2, ns = n2 :: ns2 ∧ Parts (leadingOf n2)

mutual
/-- `Edited n n'`: the node `n'` is like `n`, with another name, annotation or list of
entries, or with edited children. -/
inductive Edited : Node → Node → Prop
  | mk {ty ty' : Option Ident} {name name' : Ident} {es es' : List Entry} {ch ch' : Option Document} {f : Option NodeFmt}
      {sp sp' : Span} (ht : ty' = ty ∨ ∀ i ∈ ty', ReadableIdent i) (hn : name' = name ∨ ReadableIdent name')
      (he : es' = es ∨ ∀ e ∈ es', ReadableEntry e) (hc : EditedOpt ch ch') :
      Edited (.mk ty name es ch f sp) (.mk ty' name' es' ch' f sp')
/-- `Edited` for a children block. -/
inductive EditedOpt : Option Document → Option Document → Prop
  | none : EditedOpt none none
  | some {d d' : Document} (h : EditedDoc d d') : EditedOpt (some d) (some d')
/-- `Edited` for a document. -/
inductive EditedDoc : Document → Document → Prop
  | mk {ns ns' : List Node} {f : Option DocFmt} {sp sp' : Span}
      (h : EditedNodes (match f with | .some f => f.trailing | .none => []) ns ns') :
      EditedDoc (.mk ns f sp) (.mk ns' f sp')
/-- `Edited` for the nodes of a document, in front of the text `tr`. Every node but the
last must have a terminator, recorded with it or with the next node. The entries of the last one must be left alone if the node
has no terminator and no children and is directly followed by a slashdash. -/
inductive EditedNodes : Str → List Node → List Node → Prop
  | nil {tr : Str} : EditedNodes tr [] []
  | last {tr : Str} {n n' : Node} (h : Edited n n') (hg : n'.entries = n.entries ∨ n.children.isSome = true ∨
      terminatorOf n ≠ [] ∨ ∀ q, tr ≠ '/' :: '-' :: q) : EditedNodes tr [n] [n']
  | cons {tr : Str} {n n' : Node} {ns ns' : List Node} (h : Edited n n') (ht : Parted n ns)
      (hr : EditedNodes tr ns ns') : EditedNodes tr (n :: ns) (n' :: ns')
end

mutual
/-- `Changed n n'`: like `Edited`, whether or not the nodes of a block are parted. -/
inductive Changed : Node → Node → Prop
  | mk {ty ty' : Option Ident} {name name' : Ident} {es es' : List Entry} {ch ch' : Option Document} {f : Option NodeFmt}
      {sp sp' : Span} (ht : ty' = ty ∨ ∀ i ∈ ty', ReadableIdent i) (hn : name' = name ∨ ReadableIdent name')
      (he : es' = es ∨ ∀ e ∈ es', ReadableEntry e) (hc : ChangedOpt ch ch') :
      Changed (.mk ty name es ch f sp) (.mk ty' name' es' ch' f sp')
/-- `Changed` for a children block. -/
inductive ChangedOpt : Option Document → Option Document → Prop
  | none : ChangedOpt none none
  | some {d d' : Document} (h : ChangedDoc d d') : ChangedOpt (some d) (some d')
/-- `Changed` for a document. -/
inductive ChangedDoc : Document → Document → Prop
  | mk {ns ns' : List Node} {f : Option DocFmt} {sp sp' : Span}
      (h : ChangedNodes (match f with | .some f => f.trailing | .none => []) ns ns') :
      ChangedDoc (.mk ns f sp) (.mk ns' f sp')
/-- `Changed` for the nodes of a document, in front of the text `tr`. -/
inductive ChangedNodes : Str → List Node → List Node → Prop
  | nil {tr : Str} : ChangedNodes tr [] []
  | last {tr : Str} {n n' : Node} (h : Changed n n') (hg : n'.entries = n.entries ∨ n.children.isSome = true ∨
      terminatorOf n ≠ [] ∨ ∀ q, tr ≠ '/' :: '-' :: q) : ChangedNodes tr [n] [n']
  | cons {tr : Str} {n n' m m' : Node} {ns ns' : List Node} (h : Changed n n')
      (hr : ChangedNodes tr (m :: ns) (m' :: ns')) : ChangedNodes tr (n :: m :: ns) (n' :: m' :: ns')
end

omit [FloatIO] in
/-- Every node but the last has a recorded terminator, or the text in front of the next
one has. -/
def PartedAll : List Node → Prop
  | [] => True
  | [_] => True
  | n :: n2 :: ns => Parted n (n2 :: ns) ∧ PartedAll (n2 :: ns)

mutual
/-- In the children of the node, at every level, every node but the last of its block
has a recorded terminator, or the text in front of the next one has. -/
inductive TerminatedNode : Node → Prop
  | mk {ty : Option Ident} {name : Ident} {es : List Entry} {ch : Option Document} {f : Option NodeFmt} {sp : Span}
      (h : ∀ d, ch = some d → Terminated d) : TerminatedNode (.mk ty name es ch f sp)
/-- At every level of the document, every node but the last of its block has a recorded
terminator, or the text in front of the next one has. -/
inductive Terminated : Document → Prop
  | mk {ns : List Node} {f : Option DocFmt} {sp : Span} (h : ∀ n ∈ ns, TerminatedNode n)
      (ht : PartedAll ns) : Terminated (.mk ns f sp)
end

end

end Kdl.Spec
