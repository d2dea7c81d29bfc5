import Verif.Model.Types
import Verif.Model.Chars
/-
Where comments can stand in a document, and what it means to keep them.
-/

namespace Kdl.Spec

/-- The pieces of a text between line feeds. -/
def pieces : Str → List Str
  | [] => [[]]
  | c :: s => if c = '\n' then [] :: pieces s else match pieces s with
    | [] => [[c]]
    | l :: ls => (c :: l) :: ls

/-- The lines of a text that are not blank, without the white space around them. -/
def visible (s : Str) : List Str := ((pieces s).map trim).filter (· ≠ [])

/-- The texts occur in `s` one after the other, without overlap. -/
inductive Threaded : List Str → Str → Prop
  | nil (s : Str) : Threaded [] s
  | cons (p t : Str) {ts : List Str} {s : Str} : Threaded ts s → Threaded (t :: ts) (p ++ t ++ s)

mutual
/-- The texts before a node, between its last entry or block and its terminator, and after
its terminator, and those inside its block, in the order in which they are printed. -/
def nodeNotes : Node → List Str
  | .mk _ _ _ c f _ =>
    (f.toList.map (·.leading)) ++ optNotes c ++ (f.toList.flatMap fun f => [f.beforeTerminator, f.trailing])
/-- As above, for a block. -/
def optNotes : Option Document → List Str
  | none => []
  | some d => docNotes d
/-- As above, for a document, with the texts before the first and after the last node. -/
def docNotes : Document → List Str
  | .mk ns f _ => (f.toList.map (·.leading)) ++ nodesNotes ns ++ f.toList.map (·.trailing)
/-- As above, for a list of nodes. -/
def nodesNotes : List Node → List Str
  | [] => []
  | n :: ns => nodeNotes n ++ nodesNotes ns
end

end Kdl.Spec
