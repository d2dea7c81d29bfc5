import Verif.Spec.Values
import Verif.Spec.Edit
/-
Which texts of strings survive the conversion to KDL v2.
-/

namespace Kdl.Spec

/-- The text `t` of the string `w` survives `ensure_v2`. The string is not empty and does
not look like `+.5`. If it is written between single quotation marks and needs them, then
it has no `\\/` and, if it spans several lines, it does not end with escaped white space:
it stands for the same as a line of a multi-line string. -/
def V2Keeps (t w : Str) : Prop :=
  w ≠ [] ∧ ¬ SignedPoint w ∧
  ∀ q, t = '"' :: (q ++ ['"']) → (∀ q', q ≠ '"' :: q') → (Bare w ∧ w ∉ reserved) ∨
    (((∃ c ∈ q, Newline c) → MLine q w) ∧
      ((∀ c ∈ q, ¬ Newline c) → ¬ Contains q ['\\', '/']))

/-- The text of the entry survives `ensure_v2`. -/
def V2Entry (e : Entry) : Prop :=
  ∀ f w, e.format = some f → e.value = .string w → V2Keeps f.valueRepr w

mutual
/-- The node survives `ensure_v2`: names and annotations can be printed, the texts of the
entries survive, and so do the children. -/
inductive V2Node : Node → Prop
  | mk {ty : Option Ident} {name : Ident} {es : List Entry} {ch : Option Document} {f : Option NodeFmt} {sp : Span}
      (ht : ∀ i ∈ ty, Writable i.value) (hn : Writable name.value) (he : ∀ e ∈ es, V2Entry e)
      (hc : ∀ d, ch = some d → V2Doc d) : V2Node (.mk ty name es ch f sp)
/-- The document survives `ensure_v2`: its nodes do, every node but the last of its block
has a recorded terminator, or the text in front of the next one has, and the last one has a terminator, a children block or no
entries, unless it is not directly followed by a slashdash. -/
inductive V2Doc : Document → Prop
  | mk {ns : List Node} {f : Option DocFmt} {sp : Span} (h : ∀ n ∈ ns, V2Node n)
      (ht : PartedAll ns)
      (hl : ∀ n ∈ ns.getLast?, n.entries = [] ∨ n.children.isSome = true ∨ terminatorOf n ≠ [] ∨
        ∀ g q, f = some g → g.trailing ≠ '/' :: '-' :: q) : V2Doc (.mk ns f sp)
end

mutual
/-- Like `V2Node`, whether or not nodes are parted. -/
inductive V2LooseNode : Node → Prop
  | mk {ty : Option Ident} {name : Ident} {es : List Entry} {ch : Option Document} {f : Option NodeFmt} {sp : Span}
      (ht : ∀ i ∈ ty, Writable i.value) (hn : Writable name.value) (he : ∀ e ∈ es, V2Entry e)
      (hc : ∀ d, ch = some d → V2LooseDoc d) : V2LooseNode (.mk ty name es ch f sp)
/-- Like `V2Doc`, whether or not nodes are parted. -/
inductive V2LooseDoc : Document → Prop
  | mk {ns : List Node} {f : Option DocFmt} {sp : Span} (h : ∀ n ∈ ns, V2LooseNode n)
      (hl : ∀ n ∈ ns.getLast?, n.entries = [] ∨ n.children.isSome = true ∨ terminatorOf n ≠ [] ∨
        ∀ g q, f = some g → g.trailing ≠ '/' :: '-' :: q) : V2LooseDoc (.mk ns f sp)
end

end Kdl.Spec
