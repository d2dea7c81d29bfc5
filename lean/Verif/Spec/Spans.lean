import Verif.Spec.Parts
/-
The text selected by a span.
-/

namespace Kdl.Spec

/-- The span selects the text `t` of `s`: it gives the byte offset and the byte
length of an occurrence of `t`. -/
def Selects (s : Str) (sp : Span) (t : Str) : Prop :=
  ∃ a b, s = a ++ t ++ b ∧ sp.offset = utf8Len a ∧ sp.len = utf8Len t

end Kdl.Spec
