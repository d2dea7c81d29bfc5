import Verif.Model.Types
import Verif.Model.Chars
/-
What a document must look like for `Display` to give its source back.
-/

namespace Kdl

/-- No closing brace of the text is directly followed by something a node parser
would skip silently: a space, the start of a comment, or a line continuation. -/
def Spec.NoGap (s : Str) : Prop :=
  ∀ a c b, s = a ++ '}' :: c :: b → isUnicodeSpace c = false ∧ c ≠ '/' ∧ c ≠ '\\'

mutual
/-- The formatting of the node (and of the nodes below it) is of the kind that
`Display` for `KdlNode` prints: no space or comment inside or after a node's type
annotation, and a node with children either has a terminator recorded or `g`
holds. -/
def Spec.Printable (g : Prop) : Node → Prop
  | .mk _ _ _ children format _ =>
    (match format with
      | none => True
      | some f => f.beforeTyName = [] ∧ f.afterTyName = [] ∧ f.afterTy = [] ∧
          (children.isSome = true → f.terminator ≠ [] ∨ g)) ∧
    Spec.PrintableOpt g children
/-- `Printable` for a children block. -/
def Spec.PrintableOpt (g : Prop) : Option Document → Prop
  | none => True
  | some d => Spec.PrintableDoc g d
/-- `Printable` for every node of a document. -/
def Spec.PrintableDoc (g : Prop) : Document → Prop
  | .mk nodes _ _ => Spec.PrintableNodes g nodes
/-- `Printable` for every node of a list. -/
def Spec.PrintableNodes (g : Prop) : List Node → Prop
  | [] => True
  | n :: ns => Spec.Printable g n ∧ Spec.PrintableNodes g ns
end

end Kdl
