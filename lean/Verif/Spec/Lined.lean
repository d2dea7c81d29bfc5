import Verif.Spec.Grammar
import Verif.Spec.Keep
/-
Texts between nodes that may be cut into lines and indented anew.
-/

namespace Kdl.Spec

section
variable [FloatIO]

/-- The text is white space, for Rust. -/
def AllBlank (s : Str) : Prop := ∀ c ∈ s, isWhitespace c = true

/-- Each line of the text, whatever white space is taken from its ends, is by itself a text that
may stand in front of a node: white space, comments and slashdashed nodes. -/
def Lined (s : Str) : Prop :=
  ∀ l ∈ pieces s, ∀ a m b, l = a ++ (m ++ b) → AllBlank a → AllBlank b → ∀ x, Text .lead x (m ++ ['\n'])

/-- The text is white space and comments, or may be cut into lines. -/
def Orderly (s : Str) : Prop := (∃ r, LSpace r s) ∨ Lined s

/-- The text contains a slashdash. -/
def HasSlash (s : Str) : Prop := ['/', '-'] <:+: s

mutual
/-- The text before the node, if it has a slashdash, may be cut into lines. The text between
the last entry or block and the terminator has no slashdash or no carriage return. -/
inductive LinedNode : Node → Prop
  | mk {ty : Option Ident} {name : Ident} {es : List Entry} {ch : Option Document} {format : Option NodeFmt} {span : Span}
      (h1 : ∀ f, format = some f → (HasSlash f.leading → Lined f.leading) ∧ (HasSlash f.beforeTerminator → '\r' ∉ f.beforeTerminator))
      (h2 : ∀ d, ch = some d → LinedDoc d) : LinedNode (.mk ty name es ch format span)
/-- The texts at the ends of the document, if they have a slashdash, may be cut into lines,
and so on for its nodes. -/
inductive LinedDoc : Document → Prop
  | mk {ns : List Node} {format : Option DocFmt} {span : Span}
      (h1 : ∀ f, format = some f → (HasSlash f.leading → Lined f.leading) ∧ (HasSlash f.trailing → Lined f.trailing))
      (h2 : ∀ n ∈ ns, LinedNode n) : LinedDoc (.mk ns format span)
end

end

end Kdl.Spec
