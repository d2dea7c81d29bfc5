import Verif.Spec.Data
/-
What lookups by name and by index find in the data of a document.
-/

namespace Kdl.Spec

variable {α : Type}

/-- Name of a node. -/
def SNode.name : SNode α → Str
  | .mk _ nm _ _ => nm

/-- Entries of a node. -/
def SNode.entries : SNode α → List (SEntry α)
  | .mk _ _ es _ => es

/-- Children of a node; none if it has no block. -/
def SNode.kids : SNode α → List (SNode α)
  | .mk _ _ _ (some cs) => cs
  | .mk _ _ _ none => []

/-- The values of the arguments, in order. -/
def argValues (es : List (SEntry α)) : List α := (es.filter fun e => e.name = none).map SEntry.value

/-- The values of the properties called `k`, in order. -/
def propValues (k : Str) (es : List (SEntry α)) : List α := (es.filter fun e => e.name = some k).map SEntry.value

/-- The first node called `nm`. -/
def firstNode (nm : Str) (ds : List (SNode α)) : Option (SNode α) := ds.find? fun d => d.name = nm

/-- The arguments of the first node called `nm`. -/
def nodeArgs (nm : Str) (ds : List (SNode α)) : List α :=
  match firstNode nm ds with
  | some d => argValues d.entries
  | none => []

/-- The first arguments of the children called `-` of the first node called `nm`. -/
def dashValues (nm : Str) (ds : List (SNode α)) : List α :=
  match firstNode nm ds with
  | some d => (d.kids.filter fun c => c.name = ['-']).filterMap fun c => (argValues c.entries).head?
  | none => []

end Kdl.Spec
