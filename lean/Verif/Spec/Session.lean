import Verif.Spec.Edit
import Verif.Spec.Build
/-
Sequences of changes made to a parsed document through the API.
-/

namespace Kdl.Spec

section
variable [FloatIO]

omit [FloatIO] in
/-- What is printed after the part of a node that carries its data, and after the text
recorded in front of the terminator. -/
def endOf (n : Node) : Str := match n.format with | some f => f.terminator ++ f.trailing | none => []

omit [FloatIO] in
/-- The node ends with a terminator, whatever follows it: a semicolon, a newline or a
single-line comment with its newline (but not a lone carriage return, which could be
followed by a line feed). -/
def Sealed (n : Node) : Prop := ∀ x, TermText (endOf n) x

/-- An entry made with the constructors of the API, whose strings and value can be
written. -/
structure FreshEntry (e : Entry) : Prop where
  built : BuiltEntry e
  writable : EntryWritable e
  value : canonValue e.value = e.value

/-- A node made with the constructors of the API, whose strings and values can be
written. -/
structure FreshNode (n : Node) : Prop where
  built : BuiltNode n
  writable : NodeWritable n
  value : semNode canonValue n = semNode id n

mutual
/-- `NodeStep n n'`: one call of a mutating function of the API on the node `n`, or on
one of the nodes below it, gives `n'`. -/
inductive NodeStep : Node → Node → Prop
  | setName {n : Node} {s : Str} (h : Writable s) : NodeStep n (n.setName (.ofStr s))
  | setTy {n : Node} {s : Str} (h : Writable s) : NodeStep n (n.setTy (.ofStr s))
  | push {n : Node} {e : Entry} (h : FreshEntry e) : NodeStep n (n.push e)
  | insert {n n' : Node} {k : NodeKey} {e : Entry} {o : Option Entry} (h : FreshEntry e)
      (hk : ∀ i, k = .key i → i.repr = none ∧ Writable i.value) (hi : n.insert k e = .ret (n', o)) : NodeStep n n'
  | remove {n n' : Node} {k : NodeKey} {o : Option Entry} (h : n.remove k = .ret (n', o)) : NodeStep n n'
  | retain {n : Node} (p : Entry → Bool) : NodeStep n (n.retain p)
  | clear {n : Node} : NodeStep n n.clear
  | children {n : Node} {d d' : Document} (hc : n.children = some d) (h : DocStep d d') : NodeStep n (n.setChildren d')
/-- `DocStep d d'`: one call of a mutating function of the API on the document `d`, on its
vector of nodes, or on one of the nodes below it, gives `d'`. A node may be inserted
after a node that is `Sealed`, and a node may be moved only if all nodes are. -/
inductive DocStep : Document → Document → Prop
  | node {a b : List Node} {n n' : Node} {f : Option DocFmt} {sp : Span} (h : NodeStep n n') :
      DocStep (.mk (a ++ n :: b) f sp) (.mk (a ++ n' :: b) f sp)
  | insert {a b : List Node} {n : Node} {f : Option DocFmt} {sp : Span} (h : FreshNode n)
      (ha : ∀ m, a.getLast? = some m → Sealed m)
      (hf : a ++ b ≠ [] ∨ ∀ f', f = some f' → LSpace ['a'] f'.leading) :
      DocStep (.mk (a ++ b) f sp) (.mk (a ++ n :: b) f sp)
  | remove {a b : List Node} {n : Node} {f : Option DocFmt} {sp : Span} :
      DocStep (.mk (a ++ n :: b) f sp) (.mk (a ++ b) f sp)
  | retain {ns : List Node} {f : Option DocFmt} {sp : Span} (p : Node → Bool) :
      DocStep (.mk ns f sp) (.mk (ns.filter p) f sp)
  | reorder {ns ns' : List Node} {f : Option DocFmt} {sp : Span} (hp : ns'.Perm ns) (h : ∀ n ∈ ns, Sealed n) :
      DocStep (.mk ns f sp) (.mk ns' f sp)
end

/-- Any number of changes. -/
inductive DocSteps : Document → Document → Prop
  | refl {d : Document} : DocSteps d d
  | step {d d' d'' : Document} (h : DocSteps d d') (hs : DocStep d' d'') : DocSteps d d''

mutual
/-- `SealedDoc` for the children of a node. -/
inductive SealedBelow : Node → Prop
  | mk {ty : Option Ident} {name : Ident} {es : List Entry} {ch : Option Document} {f : Option NodeFmt} {sp : Span}
      (h : ∀ d, ch = some d → SealedDoc d) : SealedBelow (.mk ty name es ch f sp)
/-- At every level of the document, every node but the last of its block is `Sealed`, and
no document or block ends with a node directly followed by a slashdash. -/
inductive SealedDoc : Document → Prop
  | mk {ns : List Node} {f : Option DocFmt} {sp : Span} (h : ∀ n ∈ ns, SealedBelow n)
      (ht : ∀ n ∈ ns.dropLast, Sealed n)
      (hl : ∀ n, ns.getLast? = some n → terminatorOf n ≠ [] ∨ n.children.isSome = true ∨
        ∀ f', f = some f' → ∀ q, f'.trailing ≠ '/' :: '-' :: q) : SealedDoc (.mk ns f sp)
end

end

end Kdl.Spec
