import Verif.Model.De
/-
The field names with a special meaning for `kdl::de`, and what a field is read from.
-/

namespace Kdl.Spec

/-- A number in base ten. -/
def numeral (n : Nat) : Str :=
  if n < 10 then [Char.ofNat (48 + n)] else numeral (n / 10) ++ [Char.ofNat (48 + n % 10)]

/-- The kinds of struct fields. -/
inductive Field where
  /-- `#name`: the name of the node -/
  | name
  /-- `#type`: its type annotation -/
  | type
  /-- `#args`: all its arguments -/
  | args
  /-- `#rest`: the arguments without a field of their own -/
  | rest
  /-- `#0`, `#1`, …: an argument -/
  | arg (i : Nat)
  /-- `#0#type`, …: its type annotation -/
  | argType (i : Nat)
  /-- `#@p`: a property -/
  | prop (p : Str)
  /-- `#@p#type`: its type annotation -/
  | propType (p : Str)
  /-- every other name: a property or the children of that name -/
  | plain (p : Str)
deriving DecidableEq

/-- The name of a field in Rust. -/
def Field.text : Field → Str
  | .name => ['#', 'n', 'a', 'm', 'e']
  | .type => ['#', 't', 'y', 'p', 'e']
  | .args => ['#', 'a', 'r', 'g', 's']
  | .rest => ['#', 'r', 'e', 's', 't']
  | .arg i => '#' :: numeral i
  | .argType i => '#' :: (numeral i ++ ['#', 't', 'y', 'p', 'e'])
  | .prop p => '#' :: '@' :: p
  | .propType p => '#' :: '@' :: (p ++ ['#', 't', 'y', 'p', 'e'])
  | .plain p => p

/-- Names that are not taken for another kind of field. -/
def Field.Clear : Field → Prop
  | .prop p => ∀ q, p ≠ q ++ ['#', 't', 'y', 'p', 'e']
  | .plain p => ∀ q, p ≠ '#' :: q
  | _ => True

/-- No property or child of the node has a name that begins with `#`, no property has a
name that ends with `#type`. -/
structure ClearNode (n : DNode) : Prop where
  prop : ∀ e ∈ n.entries, ∀ p, e.name = some p → (∀ q, p ≠ '#' :: q) ∧ ∀ q, p ≠ q ++ ['#', 't', 'y', 'p', 'e']
  child : ∀ ns, n.children = some ns → ∀ c ∈ ns, ∀ q, c.name ≠ '#' :: q

/-- The arguments of a node. -/
def argEntries (n : DNode) : List DEntry := n.entries.filter fun e => e.name = none
/-- The properties of a node with a given name. -/
def propEntries (n : DNode) (p : Str) : List DEntry := n.entries.filter fun e => e.name = some p
/-- The children of a node with a given name. -/
def childrenOf (n : DNode) (p : Str) : List DNode := (n.children.getD []).filter fun c => c.name = p
/-- The arguments without a field of their own. -/
def restOf (n : DNode) (fs : List Field) : List DEntry :=
  ((argEntries n).zipIdx.filter fun a => Field.arg a.2 ∉ fs).map Prod.fst

/-- At most one source: none of them is a missing field, two are a duplicate. -/
def fromOne [FloatCast] (t : Ty) : List Src → Option SVal
  | [] => t.missing
  | [s] => de t s
  | _ => none

/-- The value of a field of type `t` in a struct with the fields `fs`, read from the node
`n`. -/
def fieldValue [FloatCast] (n : DNode) (fs : List Field) (t : Ty) : Field → Option SVal
  | .name => de t (.ident n.name)
  | .type => fromOne t (n.ty.toList.map .ident)
  | .args => de t (.args (argEntries n))
  | .rest => de t (.args (restOf n fs))
  | .arg i => fromOne t ((argEntries n)[i]?.toList.map fun a => .value a.value)
  | .argType i => fromOne t (((argEntries n)[i]?.bind fun a => a.ty).toList.map .ident)
  | .prop p => fromOne t ((propEntries n p).map fun a => .value a.value)
  | .propType p => fromOne t ((propEntries n p).filterMap fun a => a.ty.map .ident)
  | .plain p => match propEntries n p, childrenOf n p with
    | [], [] => de t .omitted
    | [a], [] => de t (.value a.value)
    | [], [c] => de t (.node c)
    | [], cs => de t (.group cs)
    | _, _ => none

/-- The value of a field of a struct variant. Only properties and children are read, and
there are no flags that are `false` by being left out. -/
def variantField [FloatCast] (n : DNode) (t : Ty) (p : Str) : Option SVal :=
  match propEntries n p, childrenOf n p with
  | [], [] => t.missing
  | [a], [] => de t (.value a.value)
  | [], [c] => de t (.node c)
  | [], cs => de t (.group cs)
  | _, _ => none

/-- The variant read from a node whose name is the name of the variant. -/
def variantValue [FloatCast] (c : DNode) : VTy → Option SVal
  | .unit => some (.unitVariant c.name)
  | .newtype t => (de t (.node c)).map (.newtypeVariant c.name)
  | .tuple ts => (de (.tuple ts) (.node c)).bind fun v => match v with
    | .tuple xs => some (.tupleVariant c.name xs)
    | _ => none
  | .struct fs => (fs.mapM fun f => (variantField c f.2 f.1).map fun v => (f.1, v)).map (.structVariant c.name)

end Kdl.Spec
