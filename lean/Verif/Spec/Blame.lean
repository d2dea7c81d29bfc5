import Verif.Spec.Parts
/-
What an error of deserialisation may say about an element of the document.
-/

namespace Kdl.Spec

/-- The span and the label are those for this element. -/
def Blames (sp : Span) (label : String) : Part → Prop
  | .ident i => sp = i.span ∧ label = "while deserializing this KDL identifier"
  | .entry e => sp = e.span ∧ (label = "while deserializing this KDL value" ∨
      label = "while deserializing this enum variant" ∨
      (label = "while deserializing this KDL property" ∧ e.name ≠ none))
  | .node nsp => sp = nsp ∧ (label = "while deserializing this KDL node" ∨ label = "while deserializing this enum variant")
  | .doc _ => False

end Kdl.Spec
