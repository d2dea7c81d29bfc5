import Verif.Spec.Grammar
/-
Places in a document: the index of a node among its siblings, for each level from the top.
-/

namespace Kdl.Spec

variable {α : Type}

/-- The node at a place. -/
def nodeAt : List Nat → List (SNode α) → Option (SNode α)
  | [], _ => none
  | [i], ds => ds[i]?
  | i :: j :: js, ds => match ds[i]? with
    | some (.mk _ _ _ (some cs)) => nodeAt (j :: js) cs
    | _ => none

/-- The nodes that are left without the node at a place. -/
def dropAt : List Nat → List (SNode α) → List (SNode α)
  | [], ds => ds
  | [_], [] => []
  | [0], _ :: ds => ds
  | [i + 1], d :: ds => d :: dropAt [i] ds
  | _ :: _ :: _, [] => []
  | 0 :: j :: js, .mk ty nm es (some cs) :: ds => .mk ty nm es (some (dropAt (j :: js) cs)) :: ds
  | 0 :: _ :: _, d :: ds => d :: ds
  | (i + 1) :: j :: js, d :: ds => d :: dropAt (i :: j :: js) ds
termination_by p ds => (p.length, ds.length)

/-- The nodes with another node at a place. -/
def setAt : List Nat → SNode α → List (SNode α) → List (SNode α)
  | [], _, ds => ds
  | [_], _, [] => []
  | [0], d', _ :: ds => d' :: ds
  | [i + 1], d', d :: ds => d :: setAt [i] d' ds
  | _ :: _ :: _, _, [] => []
  | 0 :: j :: js, d', .mk ty nm es (some cs) :: ds => .mk ty nm es (some (setAt (j :: js) d' cs)) :: ds
  | 0 :: _ :: _, _, d :: ds => d :: ds
  | (i + 1) :: j :: js, d', d :: ds => d :: setAt (i :: j :: js) d' ds
termination_by p _ ds => (p.length, ds.length)

/-- The text, beginning at a node, of nodes of which the last is directly followed by a slashdash:
no terminator stands between the two, and nothing else is left in the text. -/
inductive SlashItems [FloatIO] : List (SNode Value) → Str → Prop
  | last {q B : Str} {d : SNode Value} : Text (.node true d) ('/' :: '-' :: q) B → Text .lead [] ('/' :: '-' :: q) →
      SlashItems [d] (B ++ '/' :: '-' :: q)
  | cons {k : Bool} {B m L T : Str} {d : SNode Value} {ds : List (SNode Value)} : Text (.node k d) (m ++ (L ++ T)) B →
      TermText m (L ++ T) → Text .lead T L → SlashItems ds T → SlashItems (d :: ds) (B ++ (m ++ (L ++ T)))

/-- The last node of the document text `t`, of the nodes `ds`, is directly followed by a slashdash. -/
def SlashTail [FloatIO] (ds : List (SNode Value)) (t : Str) : Prop :=
  ∃ L T, (t = L ++ T ∨ t = Char.ofNat 0xFEFF :: (L ++ T)) ∧ Text .lead T L ∧ SlashItems ds T

end Kdl.Spec
