import Verif.Model.Api
import Verif.Spec.Print
/-
Documents built through the API, and the strings and values they contain.
-/

namespace Kdl.Spec

/-- Entries built with `KdlEntry::new`, `new_prop`, `set_ty` and `set_value`. -/
inductive BuiltEntry : Entry → Prop
  | new (v : Value) : BuiltEntry (.new v)
  | newProp (k : Str) (v : Value) : BuiltEntry (.newProp (.ofStr k) v)
  | setTy {e : Entry} (t : Str) (h : BuiltEntry e) : BuiltEntry (e.setTy (.ofStr t))
  | setValue {e : Entry} (v : Value) (h : BuiltEntry e) : BuiltEntry (e.setValue v)

mutual
/-- Nodes built with `KdlNode::new`, `set_ty`, `set_name`, `push`, `clear`,
`ensure_children`, `set_children` and `clear_children`. -/
inductive BuiltNode : Node → Prop
  | new (name : Str) : BuiltNode (.new (.ofStr name))
  | setTy {n : Node} (t : Str) (h : BuiltNode n) : BuiltNode (n.setTy (.ofStr t))
  | setName {n : Node} (t : Str) (h : BuiltNode n) : BuiltNode (n.setName (.ofStr t))
  | push {n : Node} {e : Entry} (h : BuiltNode n) (he : BuiltEntry e) : BuiltNode (n.push e)
  | clear {n : Node} (h : BuiltNode n) : BuiltNode (n.setEntries [])
  | ensureChildren {n : Node} (h : BuiltNode n) : BuiltNode n.ensureChildren
  | setChildren {n : Node} {d : Document} (h : BuiltNode n) (hd : BuiltDoc d) : BuiltNode (n.setChildren d)
  | clearChildren {n : Node} (h : BuiltNode n) : BuiltNode n.clearChildren
/-- Documents built with `KdlDocument::new` and by pushing built nodes to
`nodes_mut()`. -/
inductive BuiltDoc : Document → Prop
  | new : BuiltDoc .new
  | push {d : Document} {n : Node} (hd : BuiltDoc d) (hn : BuiltNode n) :
      BuiltDoc (.mk (d.nodes ++ [n]) d.format d.span)
end

/-- All strings and values of the entry can be written. -/
structure EntryWritable (e : Entry) : Prop where
  name : ∀ n, e.name = some n → Writable n.value
  ty : ∀ n, e.ty = some n → Writable n.value
  value : WritableValue e.value

mutual
/-- All strings and values of the node and its children can be written. -/
inductive NodeWritable : Node → Prop
  | mk {ty : Option Ident} {name : Ident} {es : List Entry} {ch : Option Document} {format : Option NodeFmt}
      {span : Span} (h1 : ∀ t, ty = some t → Writable t.value) (h2 : Writable name.value)
      (h3 : ∀ e ∈ es, EntryWritable e) (h4 : ∀ d, ch = some d → DocWritable d) :
      NodeWritable (.mk ty name es ch format span)
/-- All strings and values of the document can be written. -/
inductive DocWritable : Document → Prop
  | mk {ns : List Node} {format : Option DocFmt} {span : Span} (h : ∀ n ∈ ns, NodeWritable n) :
      DocWritable (.mk ns format span)
end

/-- If the identifier is printed from its value, then the value can be written. -/
def Fresh (i : Ident) : Prop := i.repr = none → Writable i.value

mutual
/-- The names and values of the node and its children can be written, annotations of
nodes satisfy `P` and annotations of entries satisfy `Q`. -/
inductive NodeNeeds (P Q : Ident → Prop) : Node → Prop
  | mk {ty : Option Ident} {name : Ident} {es : List Entry} {ch : Option Document} {format : Option NodeFmt}
      {span : Span} (h1 : ∀ t, ty = some t → P t) (h2 : Writable name.value)
      (h3 : ∀ e ∈ es, (∀ n, e.name = some n → Writable n.value) ∧ (∀ t, e.ty = some t → Q t) ∧ WritableValue e.value)
      (h4 : ∀ d, ch = some d → DocNeeds P Q d) : NodeNeeds P Q (.mk ty name es ch format span)
/-- The same for a document. -/
inductive DocNeeds (P Q : Ident → Prop) : Document → Prop
  | mk {ns : List Node} {format : Option DocFmt} {span : Span} (h : ∀ n ∈ ns, NodeNeeds P Q n) :
      DocNeeds P Q (.mk ns format span)
end

end Kdl.Spec
