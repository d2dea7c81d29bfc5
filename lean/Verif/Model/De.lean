import Verif.Model.Ser
import Verif.Model.Parser.Grammar
import Verif.Spec.Data
/-
Model of `src/de.rs`: reading a Rust value from a document.

`src/de.rs` consists of implementations of serde's `Deserializer`. Each method
receives a visitor and either fails or calls one method of the visitor. Here a
deserializer is a term of `Src`, the method called on it is a term of `Req`, and
`Src.request` says which visitor method is called, as a term of `Event`, or `none`
for an error. Spans of errors are modelled in `Model/DeErr.lean`. The deserializers
read only names, type annotations, values and the presence of children, so they are
given the data `SNode Value` of a document.

The second half, `de`, is serde's side: what the `Deserialize` implementations of the
Rust types described by `Ty` do, those of the standard library and the ones written by
`#[derive(Deserialize)]` without attributes other than `rename`.
-/

namespace Kdl

open Spec

/-- The data of a node as the deserializers see it. -/
abbrev DNode := SNode Value
/-- The data of an entry as the deserializers see it. -/
abbrev DEntry := SEntry Value

namespace DNode
/-- `node.name().value()` -/
def name : DNode → Str | .mk _ n _ _ => n
/-- `node.ty()` -/
def ty : DNode → Option Str | .mk t _ _ _ => t
/-- `node.entries()` -/
def entries : DNode → List DEntry | .mk _ _ e _ => e
/-- `node.children()` -/
def children : DNode → Option (List DNode) | .mk _ _ _ c => c

/-- `src/de.rs:735-741` `NodeDeserializer::args`. -/
def args (n : DNode) : List DEntry := n.entries.filter (·.name.isNone)
/-- `src/de.rs:743-749` `NodeDeserializer::props`. -/
def props (n : DNode) : List DEntry := n.entries.filter (·.name.isSome)
/-- `src/de.rs:751-756` `NodeDeserializer::is_scalar`, giving the argument. -/
def scalar (n : DNode) : Option DEntry :=
  match n.args, n.props, n.children with
  | [e], [], none => some e
  | _, _, _ => none
/-- `src/de.rs:758-761` `NodeDeserializer::is_empty`. -/
def isEmpty (n : DNode) : Bool := n.entries.isEmpty && n.children.isNone
end DNode

/-- The deserializers of `src/de.rs`. -/
inductive Src where
  /-- `DocumentDeserializer` (564-654) -/
  | doc (nodes : List DNode)
  /-- `NodeDeserializer` (729-1020) -/
  | node (n : DNode)
  /-- `NodeGroupDeserializer` (1065-1113) -/
  | group (ns : List DNode)
  /-- `ValueDeserializer` (473-562) -/
  | value (v : Value)
  /-- `IdentDeserializer` (408-471) -/
  | ident (s : Str)
  /-- `ArgsSeqDeserializer` (1288-1331) -/
  | args (es : List DEntry)
  /-- `OmittedChildDeserializer` (1333-1361) -/
  | omitted

/-- The methods of `Deserializer`, up to those treated alike by every deserializer of
`src/de.rs`. -/
inductive Req where
  /-- `deserialize_bool` -/
  | bool
  /-- `deserialize_i8`, …, `deserialize_u128`, `deserialize_f32`, `deserialize_f64`,
  `deserialize_char`, `deserialize_str`, `deserialize_string` -/
  | scalar
  /-- `deserialize_option` -/
  | option
  /-- `deserialize_unit`, `deserialize_unit_struct` -/
  | unit
  /-- `deserialize_newtype_struct` -/
  | newtype
  /-- `deserialize_seq` -/
  | seq
  /-- `deserialize_tuple`, `deserialize_tuple_struct` -/
  | tuple
  /-- `deserialize_map` -/
  | map
  /-- `deserialize_struct` -/
  | struct (fields : List Str)
  /-- `deserialize_enum` -/
  | enum
  /-- `deserialize_any` -/
  | any

/-- The `EnumAccess` handed to `visit_enum`. -/
inductive EnumSrc where
  /-- serde's `StrDeserializer`: only unit variants -/
  | str (s : Str)
  /-- `src/de.rs:1363-1445` `NodeEnumAccess`, `NodeVariantAccess` -/
  | node (n : DNode)
  /-- `src/de.rs:1447-1532` `PropertyEnumAccess`, `PropertyVariantAccess` -/
  | prop (key : Str) (v : Value)

/-- The methods of `Visitor`, with what is passed to them. -/
inductive Event where
  | bool (b : Bool)
  | i64 (i : Int)
  | u64 (i : Int)
  | i128 (i : Int)
  | f64 (x : F64)
  | str (s : Str)
  | unit
  | none
  | some (s : Src)
  | newtype (s : Src)
  | seq (l : List Src)
  | map (l : List (Str × Src))
  | enum (e : EnumSrc)

/-- `src/de.rs:498-514` `ValueDeserializer::deserialize_any`. -/
def Value.event : Value → Event
  | .string s => .str s
  | .integer n =>
    if -(2 ^ 63) ≤ n.1 ∧ n.1 < 2 ^ 63 then .i64 n.1
    else if 0 ≤ n.1 ∧ n.1 < 2 ^ 64 then .u64 n.1
    else .i128 n.1
  | .float x => .f64 x
  | .bool b => .bool b
  | .null => .unit

/-! ### Grouping nodes by name -/

/-- The `HashMap<&str, Vec<&KdlNode>>` of groups: looking a name up. -/
def groupOf (k : Str) : List (Str × List DNode) → Option (List DNode)
  | [] => none
  | (k', ns) :: g => if k = k' then some ns else groupOf k g

/-- `groups.entry(k).or_default().push(n)`. -/
def groupPush (k : Str) (n : DNode) : List (Str × List DNode) → List (Str × List DNode)
  | [] => [(k, [n])]
  | (k', ns) :: g => if k = k' then (k', ns ++ [n]) :: g else (k', ns) :: groupPush k n g

/-- The loop of `src/de.rs:677-683` and `1207-1216`: names in order of first appearance, and
groups. -/
def groupLoop : List DNode → List Str → List (Str × List DNode) → List Str × List (Str × List DNode)
  | [], keys, groups => (keys, groups)
  | n :: ns, keys, groups =>
    groupLoop ns (if (groupOf n.name groups).isNone then keys ++ [n.name] else keys)
      (groupPush n.name n groups)

/-- `src/de.rs:707-726`, `1217-1224`: a group of one node is that node. (The lookup of a
name from the list of names always succeeds; a missing one would panic in the code
and is given the empty group here, see `grouped_eq`.) -/
def groupSrc (groups : List (Str × List DNode)) (k : Str) : Src :=
  match groupOf k groups with
  | some [n] => .node n
  | some ns => .group ns
  | none => .group []

/-- `src/de.rs:656-727` `DocumentMapAccess`: the keys and values it yields, in order. -/
def grouped (ns : List DNode) : List (Str × Src) :=
  let r := groupLoop ns [] []
  r.1.map fun k => (k, groupSrc r.2 k)

/-! ### Fields of a node -/

/-- `src/de.rs:1141-1150`: the `#name` and `#type` entries. -/
def nodeMapHead (n : DNode) (fields : List Str) : List (Str × Src) :=
  (if ['#', 'n', 'a', 'm', 'e'] ∈ fields then [(['#', 'n', 'a', 'm', 'e'], Src.ident n.name)] else []) ++
  (match n.ty with
   | some t => if ['#', 't', 'y', 'p', 'e'] ∈ fields then [(['#', 't', 'y', 'p', 'e'], .ident t)] else []
   | none => [])

/-- `src/de.rs:1155-1176`: the loop over the arguments, `rest` being those collected for
`#rest`. -/
def nodeMapArgs (fields : List Str) : List DEntry → Nat → List (Str × Src) × List DEntry
  | [], _ => ([], [])
  | a :: as, i =>
    let idx := '#' :: showNat i
    let tyE := match a.ty with
      | some t => [(idx ++ ['#', 't', 'y', 'p', 'e'], Src.ident t)]
      | none => []
    let r := nodeMapArgs fields as (i + 1)
    if idx ∈ fields then (tyE ++ (idx, .value a.value) :: r.1, r.2)
    else (tyE ++ r.1, a :: r.2)

/-- `src/de.rs:1151-1183`: the entries for arguments. -/
def nodeMapAllArgs (n : DNode) (fields : List Str) : List (Str × Src) :=
  let r := nodeMapArgs fields n.args 0
  r.1 ++ (if ['#', 'a', 'r', 'g', 's'] ∈ fields then [(['#', 'a', 'r', 'g', 's'], Src.args n.args)] else []) ++
    (if ['#', 'r', 'e', 's', 't'] ∈ fields then [(['#', 'r', 'e', 's', 't'], .args r.2)] else [])

/-- `src/de.rs:1186-1203`: the entries for one property. -/
def nodeMapProp (fields : Option (List Str)) (p : DEntry) : List (Str × Src) :=
  match p.name with
  | none => []
  | some name =>
    let hash := '#' :: '@' :: name
    (match fields with
     | none => []
     | some fields =>
       (if hash ∈ fields then [(hash, Src.value p.value)] else []) ++
       (match p.ty with
        | some t => if hash ++ ['#', 't', 'y', 'p', 'e'] ∈ fields then
            [(hash ++ ['#', 't', 'y', 'p', 'e'], .ident t)] else []
        | none => [])) ++
    [(name, .value p.value)]

/-- `src/de.rs:1185-1212` `used_names`. -/
def usedNames (n : DNode) : List Str :=
  n.props.filterMap (·.name) ++ (match n.children with | some ns => ns.map DNode.name | none => [])

/-- `src/de.rs:1227-1233`: struct fields without a property or child. -/
def omittedFields (n : DNode) (fields : List Str) : List (Str × Src) :=
  (fields.filter fun f => !(f.head? == some '#') && !(usedNames n).contains f).map fun f => (f, .omitted)

/-- `src/de.rs:1133-1286` `NodeMapAccess::new` and its `MapAccess`: the keys and values it
yields, in order. -/
def nodeMap (n : DNode) (fields : Option (List Str)) : List (Str × Src) :=
  (match fields with
   | some fs => nodeMapHead n fs ++ nodeMapAllArgs n fs
   | none => []) ++
  n.props.flatMap (nodeMapProp fields) ++
  (match n.children with
   | some ns => grouped ns
   | none => []) ++
  (match fields with
   | some fs => omittedFields n fs
   | none => [])

/-! ### Requests -/

/-- The elements of an `ArgSeqAccess` (1022-1039). -/
def argSrcs (es : List DEntry) : List Src := es.map fun e => .value e.value
/-- The elements of a `NodeListSeqAccess` or `NodeGroupSeqAccess` (1041-1063, 1091-1113). -/
def nodeSrcs (ns : List DNode) : List Src := ns.map .node

/-- `src/de.rs:473-562`. -/
def Value.request (v : Value) : Req → Option Event
  | .option => match v with
    | .null => some .none
    | v => some (.some (.value v))
  | .newtype => some (.newtype (.value v))
  | .enum => match v with
    | .string s => some (.enum (.str s))
    | _ => none
  | _ => some v.event

/-- `src/de.rs:767-794` `NodeDeserializer::deserialize_any`. -/
def DNode.any (n : DNode) : Event :=
  if n.isEmpty then .bool true
  else match n.scalar with
    | some e => e.value.event
    | none =>
      if !n.args.isEmpty && n.props.isEmpty && n.children.isNone then .seq (argSrcs n.args)
      else .map (nodeMap n none)

/-- `src/de.rs:897-920` `NodeDeserializer::deserialize_seq`. -/
def DNode.seq (n : DNode) : Event :=
  match n.children with
  | none => .seq (argSrcs n.args)
  | some ns => .seq (nodeSrcs ns)

/-- `src/de.rs:951-1001` `NodeDeserializer::deserialize_enum`. -/
def DNode.enum (n : DNode) : EnumSrc :=
  let fallback : EnumSrc :=
    match n.children with
    | some [c] => .node c
    | some _ => .node n
    | none => match n.props, n.args with
      | [p], [] => .prop (p.name.getD []) p.value
      | _, _ => .node n
  match n.scalar with
  | some e => match e.value with
    | .string s => .str s
    | _ => fallback
  | none => fallback

/-- `src/de.rs:764-1020` `Deserializer for NodeDeserializer`. -/
def DNode.request (n : DNode) : Req → Option Event
  | .any => some n.any
  | .bool => match n.scalar with
    | some e => some e.value.event
    | none => if n.isEmpty then some (.bool true) else none
  | .scalar => match n.scalar with
    | some e => some e.value.event
    | none => some n.any
  | .option =>
    if n.isEmpty then some .none
    else match n.scalar with
      | some e => match e.value with
        | .null => some .none
        | _ => some (.some (.node n))
      | none => some (.some (.node n))
  | .unit => some .unit
  | .newtype => some (.newtype (.node n))
  | .seq | .tuple => some n.seq
  | .map => some (.map (nodeMap n none))
  | .struct fields => some (.map (nodeMap n (some fields)))
  | .enum => some (.enum n.enum)

/-- The visitor method called when a method of a deserializer is called. -/
def Src.request : Src → Req → Option Event
  | .doc ns, r => match r with
    | .any | .map | .struct _ | .bool | .scalar | .tuple => some (.map (grouped ns))
    | .seq => some (.seq (nodeSrcs ns))
    | .option => if ns.isEmpty then some .none else some (.some (.doc ns))
    | .newtype => some (.newtype (.doc ns))
    | .unit => some .unit
    | .enum => match ns with
      | [n] => some (.enum (.node n))
      | _ => none
  | .node n, r => n.request r
  | .group ns, _ => some (.seq (nodeSrcs ns))
  | .value v, r => v.request r
  | .ident s, r => match r with
    | .newtype => some (.newtype (.ident s))
    | .enum => some (.enum (.str s))
    | _ => some (.str s)
  | .args es, r => match r with
    | .option => if es.isEmpty then some .none else some (.some (.args es))
    | .newtype => some (.newtype (.args es))
    | _ => some (.seq (argSrcs es))
  | .omitted, r => match r with
    | .option => some .none
    | _ => some (.bool false)

/-! ### The Rust types and their `Deserialize` implementations -/

mutual
/-- A Rust type. -/
inductive Ty where
  | bool
  /-- an integer type with the given bounds; `wide` for `i128` and `u128` -/
  | int (lo hi : Int) (wide : Bool)
  | f64
  | char
  /-- `String` -/
  | str
  /-- `()` -/
  | unit
  /-- `struct S;` -/
  | unitStruct (name : Str)
  /-- `Option<T>` -/
  | option (t : Ty)
  /-- `struct S(T);` -/
  | newtype (t : Ty)
  /-- `Vec<T>` -/
  | seq (t : Ty)
  /-- `(T, …)` -/
  | tuple (ts : List Ty)
  /-- `struct S(T, …);` -/
  | tupleStruct (ts : List Ty)
  /-- a map with keys of type `String`, see `insertAll` -/
  | map (t : Ty)
  /-- `struct S { … }` -/
  | struct (fs : List (Str × Ty))
  /-- `enum E { … }` -/
  | enum (vs : List (Str × VTy))
/-- An enum variant. -/
inductive VTy where
  | unit
  | newtype (t : Ty)
  | tuple (ts : List Ty)
  | struct (fs : List (Str × Ty))
end

/-- `i as f64`, for an integer passed to the visitor of `f64`; see `Model/FloatCast.lean`. -/
class FloatCast where
  ofInt : Int → F64

/-- serde's visitor for `bool`. -/
def visitBool : Event → Option SVal
  | .bool b => some (.bool b)
  | _ => none

/-- serde's visitors for integers: a range check. `visit_i128` is implemented for `i128` and
`u128` only. -/
def visitInt (lo hi : Int) (wide : Bool) : Event → Option SVal
  | .i64 i | .u64 i =>
    if lo ≤ i ∧ i ≤ hi then
      if h : -(2 ^ 63) ≤ i ∧ i < 2 ^ 64 then some (if wide then .int128 i else .int ⟨i, h⟩) else none
    else none
  | .i128 i => if wide = true ∧ lo ≤ i ∧ i ≤ hi then some (.int128 i) else none
  | _ => none

/-- serde's visitor for `f64`. -/
def visitF64 [FloatCast] : Event → Option SVal
  | .f64 x => some (.f64 x)
  | .i64 i | .u64 i => some (.f64 (FloatCast.ofInt i))
  | _ => none

/-- serde's visitor for `char`. -/
def visitChar : Event → Option SVal
  | .str [c] => some (.char c)
  | _ => none

/-- serde's visitor for `String`. -/
def visitStr : Event → Option SVal
  | .str s => some (.str s)
  | _ => none

/-- serde's visitor for `()`. -/
def visitUnit : Event → Option SVal
  | .unit => some .unit
  | _ => none

/-- serde's visitor for a unit struct. -/
def visitUnitStruct (name : Str) : Event → Option SVal
  | .unit => some (.unitStruct name)
  | _ => none

/-- serde's `missing_field`: what a field takes when its name does not occur. -/
def Ty.missing : Ty → Option SVal
  | .option _ => some .none
  | _ => none

/-- The values given for the field `k`. -/
def valuesOf (k : Str) (l : List (Str × Src)) : List Src :=
  (l.filter fun p => p.1 == k).map Prod.snd

/-- `map.insert(k, v)`. -/
def insertEntry (k : Str) (v : SVal) : List (Str × SVal) → List (Str × SVal)
  | [] => [(k, v)]
  | (k', v') :: m => if k = k' then (k, v) :: m else (k', v') :: insertEntry k v m

/-- serde's visitor for a map: each entry is inserted, so that the last value given for a key
stands. Entries are kept in the order of insertion, as by `IndexMap`; `HashMap` and `BTreeMap`
hold the same entries in an order of their own. -/
def insertAll (l : List (Str × SVal)) : List (Str × SVal) := l.foldl (fun m p => insertEntry p.1 p.2 m) []

/-- A map with keys of type `String`. -/
def mapOf (l : List (Str × SVal)) : SVal := .map (l.map fun p => (.str p.1, p.2))

/-- `VariantAccess::tuple_variant` (1418-1430 and 1499-1514; serde's for a string). -/
def EnumSrc.tuple : EnumSrc → Option Event
  | .node n => some n.seq
  | _ => none

/-- `VariantAccess::struct_variant` (1432-1444 and 1516-1531; serde's for a string). -/
def EnumSrc.struct : EnumSrc → Option Event
  | .node n => some (.map (nodeMap n none))
  | _ => none

/-- `VariantAccess::newtype_variant_seed` (1408-1416 and 1492-1497; serde's for a string). -/
def EnumSrc.newtype : EnumSrc → Option Src
  | .node n => some (.node n)
  | .prop _ v => some (.value v)
  | .str _ => none

/-- `EnumAccess::variant_seed`: the name of the variant. -/
def EnumSrc.variant : EnumSrc → Str
  | .str s => s
  | .node n => n.name
  | .prop k _ => k

section
variable [FloatCast]

mutual
/-- `T::deserialize(src)`. -/
def de : Ty → Src → Option SVal
  | .bool, s => (s.request .bool).bind visitBool
  | .int lo hi wide, s => (s.request .scalar).bind (visitInt lo hi wide)
  | .f64, s => (s.request .scalar).bind visitF64
  | .char, s => (s.request .scalar).bind visitChar
  | .str, s => (s.request .scalar).bind visitStr
  | .unit, s => (s.request .unit).bind visitUnit
  | .unitStruct name, s => (s.request .unit).bind (visitUnitStruct name)
  | .option t, s => match s.request .option with
    | some .none | some .unit => some .none
    | some (.some s') => (de t s').map .some
    | _ => none
  | .newtype t, s => match s.request .newtype with
    | some (.newtype s') => (de t s').map .newtypeStruct
    | some (.seq (s' :: _)) => (de t s').map .newtypeStruct
    | _ => none
  | .seq t, s => match s.request .seq with
    | some (.seq l) => (l.mapM (de t)).map .seq
    | _ => none
  | .tuple ts, s => match s.request .tuple with
    | some (.seq l) => (deTuple ts l).map .tuple
    | _ => none
  | .tupleStruct ts, s => match s.request .tuple with
    | some (.seq l) => (deTuple ts l).map .tupleStruct
    | _ => none
  | .map t, s => match s.request .map with
    | some (.map l) => (l.mapM fun p => (de t p.2).map fun v => (p.1, v)).map fun m => mapOf (insertAll m)
    | _ => none
  | .struct fs, s => match s.request (.struct (fs.map Prod.fst)) with
    | some (.map l) => (deMap fs l).map .struct
    | some (.seq l) => (deSeq fs l).map .struct
    | _ => none
  | .enum vs, s => match s.request .enum with
    | some (.enum e) => deVariant vs e
    | _ => none
/-- Visitor for a tuple: one element per component; further elements are not read. -/
def deTuple : List Ty → List Src → Option (List SVal)
  | [], _ => some []
  | _ :: _, [] => none
  | t :: ts, s :: l => (de t s).bind fun v => (deTuple ts l).map (v :: ·)
/-- `visit_seq` of a derived struct. -/
def deSeq : List (Str × Ty) → List Src → Option (List (Str × SVal))
  | [], _ => some []
  | _ :: _, [] => none
  | (k, t) :: fs, s :: l => (de t s).bind fun v => (deSeq fs l).map ((k, v) :: ·)
/-- `visit_map` of a derived struct. Unknown keys are ignored, which always succeeds; a
field given twice is an error; a field not given is `missing`. The code handles keys in
the order in which they come; here each field is handled in turn, which differs only
in the error that is reported, see `Model/DeErr.lean` and C82. -/
def deMap : List (Str × Ty) → List (Str × Src) → Option (List (Str × SVal))
  | [], _ => some []
  | (k, t) :: fs, l =>
    (match valuesOf k l with
     | [] => t.missing
     | [s] => de t s
     | _ => none).bind fun v => (deMap fs l).map ((k, v) :: ·)
/-- `visit_enum` of a derived enum. -/
def deVariant : List (Str × VTy) → EnumSrc → Option SVal
  | [], _ => none
  | (k, vt) :: vs, e => if e.variant = k then deBody k vt e else deVariant vs e
/-- The contents of a variant. -/
def deBody (k : Str) : VTy → EnumSrc → Option SVal
  | .unit, _ => some (.unitVariant k)
  | .newtype t, e => e.newtype.bind fun s => (de t s).map (.newtypeVariant k)
  | .tuple ts, e => match e.tuple with
    | some (.seq l) => (deTuple ts l).map (.tupleVariant k)
    | _ => none
  | .struct fs, e => match e.struct with
    | some (.map l) => (deMap fs l).map (.structVariant k)
    | some (.seq l) => (deSeq fs l).map (.structVariant k)
    | _ => none
end

/-- `src/de.rs:395-406` `from_str`. -/
def fromStr [FloatIO] (t : Ty) (s : Str) : Option SVal :=
  match Document.parse s with
  | .ok d => de t (.doc (semDoc id d))
  | _ => none

end

end Kdl
