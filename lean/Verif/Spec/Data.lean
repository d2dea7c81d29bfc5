import Verif.Model.Types
/-
The data carried by a document: names, type annotations, values, order and
nesting, without text representations, formatting or spans. `g` says what is
observed of a value.
-/

namespace Kdl.Spec

/-- Data of an entry. -/
structure SEntry (α : Type) where
  ty : Option Str
  name : Option Str
  value : α

/-- Data of a node: type annotation, name, entries in order and, if there is a
children block, the data of its nodes in order. -/
inductive SNode (α : Type) where
  | mk (ty : Option Str) (name : Str) (entries : List (SEntry α)) (children : Option (List (SNode α)))

variable {α : Type} (g : Value → α)

/-- Data of an entry. -/
def semEntry (e : Entry) : SEntry α := ⟨e.ty.map Ident.value, e.name.map Ident.value, g e.value⟩

mutual
/-- Data of a node. -/
def semNode : Node → SNode α
  | .mk ty name entries children _ _ =>
    .mk (ty.map Ident.value) name.value (entries.map (semEntry g)) (semOptDoc children)
/-- Data of an optional children block. -/
def semOptDoc : Option Document → Option (List (SNode α))
  | none => none
  | some d => some (semDoc d)
/-- Data of a document. -/
def semDoc : Document → List (SNode α)
  | .mk nodes _ _ => semNodes nodes
/-- Data of a list of nodes. -/
def semNodes : List Node → List (SNode α)
  | [] => []
  | n :: ns => semNode n :: semNodes ns
end

end Kdl.Spec
