import Verif.Spec.Serde
/-
Specification vocabulary for C45: the scalars of a value, each with the place where it belongs, and
the scalars of a document with the place where they stand.
-/

namespace Kdl.Spec

/-- A scalar and its place: the names of the nodes from the outermost to the one it belongs to, and
the name of the property, or `none` for an argument. -/
structure Fact where
  path : List Str
  prop : Option Str
  value : Value

/-- The same facts under a node named `k`. -/
def below (k : Str) (l : List Fact) : List Fact := l.map fun f => ⟨k :: f.path, f.prop, f.value⟩

mutual
/-- The facts stated by a node and the nodes under it. -/
def nodeFacts : SNode Value → List Fact
  | .mk _ name es ch => below name (es.map (fun e => ⟨[], e.name, e.value⟩) ++ blockFacts ch)
/-- The facts stated by an optional children block. -/
def blockFacts : Option (List (SNode Value)) → List Fact
  | none => []
  | some ns => listFacts ns
/-- The facts stated by a list of nodes. -/
def listFacts : List (SNode Value) → List Fact
  | [] => []
  | n :: ns => nodeFacts n ++ listFacts ns
end

/-- A plain `false` or null: what a missing node stands for. -/
def isFlag : SVal → Bool
  | .bool b => !b
  | .none | .unit | .unitStruct _ => true
  | .some v | .newtypeStruct v => isFlag v
  | _ => false

/-- Where the value of a struct field belongs. -/
def fieldPlace : Str → List Fact → List Fact
  | '#' :: '@' :: name, l => l.map fun f => ⟨f.path, some name, f.value⟩
  | '#' :: _, l => l
  | k, l => below k l

section
variable [FloatKey]

mutual
/-- The facts a value states about the node it is the value of. -/
def leaves : SVal → List Fact
  | .bool b => [⟨[], none, .bool b⟩]
  | .int i => [⟨[], none, .integer i.toI128⟩]
  | .int128 _ => []
  | .f64 x => [⟨[], none, .float x⟩]
  | .char c => [⟨[], none, .string [c]⟩]
  | .str s => [⟨[], none, .string s⟩]
  | .bytes bs => bs.map fun b => ⟨[], none, .integer ⟨b.1, by have := b.2; unfold i128Min i128Max; omega⟩⟩
  | .none | .unit | .unitStruct _ => [⟨[], none, .null⟩]
  | .some v => leaves v
  | .newtypeStruct v => leaves v
  | .unitVariant s => [⟨[], none, .string s⟩]
  | .newtypeVariant k v => below k (leaves v)
  | .seq vs => listLeaves vs
  | .tuple vs => listLeaves vs
  | .tupleStruct vs => listLeaves vs
  | .tupleVariant k vs => below k (listLeaves vs)
  | .map kvs => mapLeaves kvs
  | .struct fs => fieldLeaves fs
  | .structVariant k fs => below k (fieldLeaves fs)
/-- Elements in turn. -/
def listLeaves : List SVal → List Fact
  | [] => []
  | v :: vs => leaves v ++ listLeaves vs
/-- Values under their keys; plain flags are excepted. -/
def mapLeaves : List (SVal × SVal) → List Fact
  | [] => []
  | (k, v) :: kvs => (if isFlag v then [] else below ((keyToString k).getD []) (leaves v)) ++ mapLeaves kvs
/-- Fields at their places; plain flags in children are excepted. -/
def fieldLeaves : List (Str × SVal) → List Fact
  | [] => []
  | (k, v) :: fs => (if k.head? ≠ Option.some '#' ∧ isFlag v then [] else fieldPlace k (leaves v)) ++ fieldLeaves fs
end

/-- The facts a document written for a value has to state: elements of a sequence are nodes
named `-`, keys and fields are names of nodes. Plain flags in struct fields are excepted, as is a
value that is null altogether. -/
def docLeaves : SVal → List Fact
  | .none | .unit | .unitStruct _ => []
  | .bytes bs => below ['-'] (leaves (.bytes bs))
  | .some v | .newtypeStruct v => docLeaves v
  | .newtypeVariant k v => below k (leaves v)
  | .seq vs | .tuple vs | .tupleStruct vs => below ['-'] (listLeaves vs)
  | .tupleVariant k vs => below k (listLeaves vs)
  | .map kvs => kvs.flatMap fun kv => below ((keyToString kv.1).getD []) (leaves kv.2)
  | .struct fs => fs.flatMap fun f => if isFlag f.2 then [] else below f.1 (leaves f.2)
  | .structVariant k fs => below k (fieldLeaves fs)
  | v => below ['-'] (leaves v)

/-- The arguments among the facts about a node. -/
def ownArgs (l : List Fact) : List Value :=
  l.filterMap fun f => if f.path = [] ∧ f.prop = none then some f.value else none

/-- A value whose first argument is `false` or null, like the sequence `[false, true]`, is a plain
flag. -/
def FlagSafe (v : SVal) : Prop :=
  (ownArgs (leaves v)).head? = some (.bool false) ∨ (ownArgs (leaves v)).head? = some .null → isFlag v = true

mutual
/-- The values the serializer represents in full inside a node: the values of maps and of child
fields are `FlagSafe`, and struct variants have nothing in their fields for arguments and
properties. -/
def Faithful : SVal → Prop
  | .some v => Faithful v
  | .newtypeStruct v => Faithful v
  | .map kvs => FaithfulMap kvs
  | .struct fs => FaithfulFields fs
  | .structVariant _ fs => (∀ f ∈ fs, f.1.head? = Option.some '#' → leaves f.2 = []) ∧ FaithfulFields fs
  | _ => True
/-- Values of a map. -/
def FaithfulMap : List (SVal × SVal) → Prop
  | [] => True
  | (_, v) :: kvs => (FlagSafe v ∧ Faithful v) ∧ FaithfulMap kvs
/-- Values of fields. -/
def FaithfulFields : List (Str × SVal) → Prop
  | [] => True
  | (k, v) :: fs => (k.head? ≠ Option.some '#' → FlagSafe v ∧ Faithful v) ∧ FaithfulFields fs
end

/-- The values the serializer represents in full as a document: a struct variant must have
nothing to be written. -/
def FaithfulDoc : SVal → Prop
  | .some v | .newtypeStruct v => FaithfulDoc v
  | .seq vs | .tuple vs | .tupleStruct vs | .tupleVariant _ vs => ∀ v ∈ vs, Faithful v
  | .map kvs => ∀ kv ∈ kvs, Faithful kv.2
  | .struct fs => ∀ f ∈ fs, FlagSafe f.2 ∧ Faithful f.2
  | .structVariant _ fs => fieldLeaves fs = []
  | _ => True

end

end Kdl.Spec
