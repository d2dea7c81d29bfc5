import Verif.Model.Types
import Verif.Spec.Data
/-
What formatted text looks like, as a list of lines: every node has a line of its
own, indented by its depth; the children of a node stand between a line that ends
with an opening brace and a line with a closing brace.
-/

namespace Kdl.Spec
variable [FloatIO]

/-- A name as it is written if nothing is known of its spelling. -/
def plainName (s : Str) : Str := Value.display (.string s)

/-- An annotation, written with `q`. -/
def layTy (q : Str → Str) : Option Str → Str
  | none => []
  | some t => '(' :: q t ++ [')']

/-- An entry with a space in front; `q` writes its annotation. -/
def layEntry (q : Str → Str) (e : SEntry Value) : Str :=
  ' ' :: (match e.name with
    | none => []
    | some n => plainName n ++ ['=']) ++ layTy q e.ty ++ e.value.display

/-- `ind`, `k` times. -/
def deep (ind : Str) (k : Nat) : Str := (List.replicate k ind).flatten

/-- The first line of a node, without a brace. -/
def layHead (q : Str → Str) (ind : Str) (k : Nat) (ty : Option Str) (name : Str) (es : List (SEntry Value)) : Str :=
  deep ind k ++ layTy plainName ty ++ plainName name ++ es.flatMap (layEntry q)

mutual
/-- The lines of a node at depth `k`. -/
def nodeLines (q : Str → Str) (ind : Str) (k : Nat) : SNode Value → List Str
  | .mk ty name es none => [layHead q ind k ty name es]
  | .mk ty name es (some ns) =>
    (layHead q ind k ty name es ++ [' ', '{']) :: bodyLines q ind (k + 1) ns ++ [deep ind k ++ ['}']]
/-- The lines of the nodes of a document or block at depth `k`; without nodes there
is an empty line. -/
def bodyLines (q : Str → Str) (ind : Str) (k : Nat) : List (SNode Value) → List Str
  | [] => [[]]
  | n :: ns => nodeLines q ind k n ++ moreLines q ind k ns
/-- The lines of further nodes. -/
def moreLines (q : Str → Str) (ind : Str) (k : Nat) : List (SNode Value) → List Str
  | [] => []
  | n :: ns => nodeLines q ind k n ++ moreLines q ind k ns
end

/-- Lines as a text. -/
def unlines (ls : List Str) : Str := ls.flatMap (· ++ ['\n'])

end Kdl.Spec
