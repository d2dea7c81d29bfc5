import Verif.Model.Types
/-
All the parts of a document, at any depth.
-/

namespace Kdl.Spec

/-- A part of a document: an entry, an identifier (node name, property name or
type annotation), or the span of a node or of a document. -/
inductive Part where
  | entry (e : Entry)
  | ident (i : Ident)
  | node (sp : Span)
  | doc (sp : Span)

/-- The identifiers of an entry. -/
def entryIdents (e : Entry) : List Ident := e.ty.toList ++ e.name.toList

/-- The parts that make up an entry. -/
def entryParts (e : Entry) : List Part := .entry e :: (entryIdents e).map .ident

mutual
/-- The parts of a node. -/
def nodeParts : Node → List Part
  | .mk ty name entries children _ span =>
    .node span :: .ident name :: (ty.toList.map .ident ++ entries.flatMap entryParts ++ childrenParts children)
/-- The parts of the children of a node. -/
def childrenParts : Option Document → List Part
  | none => []
  | some d => docParts d
/-- The parts of a document. -/
def docParts : Document → List Part
  | .mk nodes _ span => .doc span :: nodesParts nodes
/-- The parts of a list of nodes. -/
def nodesParts : List Node → List Part
  | [] => []
  | n :: ns => nodeParts n ++ nodesParts ns
end

end Kdl.Spec
