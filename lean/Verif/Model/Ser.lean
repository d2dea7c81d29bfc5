import Verif.Model.Api
import Verif.Model.Display
/-
Model of `src/se.rs`: serialising a Rust value to a document.

A Rust value is given by the calls its `Serialize` implementation makes, as a
term of `SVal` (the serde data model). Errors are the value `none`; their
messages are not modelled. Narrow integers and `f32` are widened by the caller
before being stored (`src/se.rs:119-158`, `510-551`, `1111-1143`), so one
constructor stands for each family of methods; the conversions involved are exact.
-/

namespace Kdl

/-- The integers of `i8`, …, `i64`, `u8`, …, `u64`. -/
abbrev SInt := { i : Int // -(2 ^ 63) ≤ i ∧ i < 2 ^ 64 }

/-- `v as i128`. -/
def SInt.toI128 (i : SInt) : I128 := ⟨i.1, by
  have := i.2; unfold i128Min i128Max; omega⟩

/-- A call made on a serde `Serializer`, with the values handed to it. -/
inductive SVal where
  /-- `serialize_bool` -/
  | bool (b : Bool)
  /-- `serialize_i8`, …, `serialize_i64`, `serialize_u8`, …, `serialize_u64` -/
  | int (i : SInt)
  /-- `serialize_i128`, `serialize_u128` -/
  | int128 (i : Int)
  /-- `serialize_f32`, `serialize_f64` -/
  | f64 (x : F64)
  /-- `serialize_char` -/
  | char (c : Char)
  /-- `serialize_str` -/
  | str (s : Str)
  /-- `serialize_bytes` -/
  | bytes (b : List (Fin 256))
  /-- `serialize_none` -/
  | none
  /-- `serialize_some` -/
  | some (v : SVal)
  /-- `serialize_unit` -/
  | unit
  /-- `serialize_unit_struct` -/
  | unitStruct (name : Str)
  /-- `serialize_unit_variant` -/
  | unitVariant (variant : Str)
  /-- `serialize_newtype_struct` -/
  | newtypeStruct (v : SVal)
  /-- `serialize_newtype_variant` -/
  | newtypeVariant (variant : Str) (v : SVal)
  /-- `serialize_seq` and its elements -/
  | seq (vs : List SVal)
  /-- `serialize_tuple` and its elements -/
  | tuple (vs : List SVal)
  /-- `serialize_tuple_struct` and its fields -/
  | tupleStruct (vs : List SVal)
  /-- `serialize_tuple_variant` and its fields -/
  | tupleVariant (variant : Str) (vs : List SVal)
  /-- `serialize_map` and its keys and values -/
  | map (kvs : List (SVal × SVal))
  /-- `serialize_struct` and its fields -/
  | struct (fs : List (Str × SVal))
  /-- `serialize_struct_variant` and its fields -/
  | structVariant (variant : Str) (fs : List (Str × SVal))

/-- The text of a float used as a map key (`f64::to_string`, `f32::to_string`),
an unspecified function. -/
class FloatKey where
  text : F64 → Str

section
variable [FloatKey]

/-- `src/se.rs:1088-1264` `to_kdl_value` and `KdlValueSerializer`. -/
def toKdlValue : SVal → Option Value
  | .bool b => some (.bool b)
  | .int i => some (.integer i.toI128)
  | .f64 x => some (.float x)
  | .char c => some (.string [c])
  | .str s => some (.string s)
  | .none | .unit | .unitStruct _ => some .null
  | .some v | .newtypeStruct v => toKdlValue v
  | .unitVariant s => some (.string s)
  | .int128 _ | .bytes _ | .newtypeVariant _ _ | .seq _ | .tuple _ | .tupleStruct _ | .tupleVariant _ _
  | .map _ | .struct _ | .structVariant _ _ => none

/-- `src/se.rs:909-1084` `key_to_string` and `KeySerializer`. -/
def keyToString : SVal → Option Str
  | .bool b => some (if b then ['t', 'r', 'u', 'e'] else ['f', 'a', 'l', 's', 'e'])
  | .int i => some (showInt i.1)
  | .f64 x => some (FloatKey.text x)
  | .char c => some [c]
  | .str s => some s
  | .some v | .newtypeStruct v => keyToString v
  | .unitStruct name => some name
  | .unitVariant s => some s
  | .int128 _ | .bytes _ | .none | .unit | .newtypeVariant _ _ | .seq _ | .tuple _ | .tupleStruct _
  | .tupleVariant _ _ | .map _ | .struct _ | .structVariant _ _ => none

end

/-- `node.entries_mut().push(KdlEntry::new(v))`. -/
def Node.pushArg (n : Node) (v : Value) : Node := n.push (.new v)

/-- `src/se.rs:901-906` `value_node`. -/
def valueNode (name : Str) (v : Value) : Node := (Node.new (.ofStr name)).pushArg v

/-- `node.ensure_children().nodes_mut().push(child)`. -/
def Node.pushChild (n c : Node) : Node :=
  match n.ensureChildren.children with
  | some d => n.ensureChildren.setChildren (.mk (d.nodes ++ [c]) d.format d.span)
  | none => n.ensureChildren

/-- `matches!(node.get(0), Some(KdlValue::Bool(false)) | Some(KdlValue::Null))`, the
test under which a node is left out (`src/se.rs:399-406`, `458-465`, `780-788`,
`828-835`, `880-887`). -/
def Node.skipped (n : Node) : Bool :=
  match n.get (.index 0) with
  | some (.bool false) | some .null => true
  | _ => false

/-- `src/se.rs:1693-1706` `ArgsSeqSerializer` and `688-701` `NodeSeqSerializer`: each
element is pushed as an argument. -/
def serArgs (n : Node) : List SVal → Option Node
  | [] => some n
  | v :: vs => (toKdlValue v).bind fun x => serArgs (n.pushArg x) vs

/-- `src/se.rs:1455-1477` `RestSeqSerializer`: elements whose position is in `used`
are passed over. -/
def serRest (n : Node) (used : List Nat) : List SVal → Nat → Option Node
  | [], _ => some n
  | v :: vs, i =>
    if i ∈ used then serRest n used vs (i + 1)
    else (toKdlValue v).bind fun x => serRest (n.pushArg x) used vs (i + 1)

/-- `src/se.rs:1505-1687` `ArgsSerializer`: scalars push one argument, sequences push
each element, everything else is an error. -/
def serArgsField (n : Node) : SVal → Option Node
  | .seq vs | .tuple vs | .tupleStruct vs => serArgs n vs
  | .some v | .newtypeStruct v => serArgsField n v
  | v => (toKdlValue v).map n.pushArg

/-- `src/se.rs:1266-1453` `RestSerializer`. -/
def serRestField (n : Node) (used : List Nat) : SVal → Option Node
  | .seq vs | .tuple vs | .tupleStruct vs => serRest n used vs 0
  | .some v | .newtypeStruct v => serRestField n used v
  | v => (toKdlValue v).map n.pushArg

/-- How a struct field name is read (`src/se.rs:800-836`, `854-888`, `427-466`). -/
inductive FieldKind where
  /-- `#@name`: a property -/
  | prop (name : Str)
  /-- `#args` -/
  | args
  /-- `#rest` -/
  | rest
  /-- any other name beginning with `#`: an argument -/
  | arg (s : Str)
  /-- a child node -/
  | child

/-- The tests made on a field name, in order. -/
def fieldKind : Str → FieldKind
  | '#' :: '@' :: name => .prop name
  | s =>
    if s = ['#', 'a', 'r', 'g', 's'] then .args
    else if s = ['#', 'r', 'e', 's', 't'] then .rest
    else match s with
      | '#' :: t => .arg t
      | _ => .child

/-- `str::parse::<usize>`. -/
def parseUsize (s : Str) : Option Nat :=
  let ds := match s with
    | '+' :: t => t
    | t => t
  if ds ≠ [] ∧ ds.all (fun c => decide ('0' ≤ c ∧ c ≤ '9')) = true then
    let n := ds.foldl (fun n c => 10 * n + (c.toNat - '0'.toNat)) 0
    if n < 2 ^ 64 then some n else none
  else none

section
variable [FloatKey]

mutual
/-- `src/se.rs:478-682` `serialize_value_into_node` and `NodeValueSerializer`: `serNode v n` is
the node `n` with `v` written into it. -/
def serNode : SVal → Node → Option Node
  | .bool b, n => some (n.pushArg (.bool b))
  | .int i, n => some (n.pushArg (.integer i.toI128))
  | .int128 _, _ => none
  | .f64 x, n => some (n.pushArg (.float x))
  | .char c, n => some (n.pushArg (.string [c]))
  | .str s, n => some (n.pushArg (.string s))
  | .bytes bs, n => some (bs.foldl (fun n b => n.pushArg (.integer ⟨b.1, by
      have := b.2; unfold i128Min i128Max; omega⟩)) n)
  | .none, n => some (n.pushArg .null)
  | .some v, n => serNode v n
  | .unit, n => some (n.pushArg .null)
  | .unitStruct _, n => some (n.pushArg .null)
  | .unitVariant s, n => some (n.pushArg (.string s))
  | .newtypeStruct v, n => serNode v n
  | .newtypeVariant variant v, n => (toKdlValue v).map fun x => n.pushChild (valueNode variant x)
  | .seq vs, n => serArgs n vs
  | .tuple vs, n => serArgs n vs
  | .tupleStruct vs, n => serArgs n vs
  | .tupleVariant variant vs, n => (serArgs (.new (.ofStr variant)) vs).map n.pushChild
  | .map kvs, n => serMap kvs n
  | .struct fs, n => serFields fs n
  | .structVariant variant fs, n =>
    (serVariantFields fs n .new).map fun r => r.1.pushChild ((Node.new (.ofStr variant)).setChildren r.2)
/-- `src/se.rs:762-794` `SerializeMap for NodeChildMapSerializer`. -/
def serMap : List (SVal × SVal) → Node → Option Node
  | [], n => some n
  | (k, v) :: kvs, n =>
    (keyToString k).bind fun key => (serNode v (.new (.ofStr key))).bind fun c =>
      serMap kvs (if c.skipped then n else n.pushChild c)
/-- `src/se.rs:796-842` `SerializeStruct for NodeChildMapSerializer`. -/
def serFields : List (Str × SVal) → Node → Option Node
  | [], n => some n
  | (key, v) :: fs, n =>
    match fieldKind key with
    | .prop name => (toKdlValue v).bind fun x => serFields fs (n.push (.newProp (.ofStr name) x))
    | .args | .rest => (serArgsField n v).bind fun n => serFields fs n
    | .arg _ => (toKdlValue v).bind fun x => serFields fs (n.pushArg x)
    | .child => (serNode v (.new (.ofStr key))).bind fun c =>
        serFields fs (if c.skipped then n.ensureChildren else n.pushChild c)
/-- `src/se.rs:844-899` `SerializeStructVariant for NodeChildStructVariantSerializer`: the
parent node and the local `children` document. The arguments of a `#args` or
`#rest` field are written to a node that is dropped. -/
def serVariantFields : List (Str × SVal) → Node → Document → Option (Node × Document)
  | [], n, d => some (n, d)
  | (key, v) :: fs, n, d =>
    match fieldKind key with
    | .prop name => (toKdlValue v).bind fun x => serVariantFields fs (n.push (.newProp (.ofStr name) x)) d
    | .args | .rest => (serArgsField (.new (.ofStr key)) v).bind fun _ => serVariantFields fs n d
    | .arg _ => (toKdlValue v).bind fun x => serVariantFields fs (n.pushArg x) d
    | .child => (serNode v (.new (.ofStr key))).bind fun c =>
        serVariantFields fs n (if c.skipped then d else .mk (d.nodes ++ [c]) d.format d.span)
end

/-- `d.nodes_mut().push(n)`. -/
def Document.pushNode (d : Document) (n : Node) : Document := .mk (d.nodes ++ [n]) d.format d.span

/-- `src/se.rs:299-357` `SeqNodeSerializer`: one node per element. -/
def serSeqNodes (name : Str) : List SVal → Document → Option Document
  | [], d => some d
  | v :: vs, d => (serNode v (.new (.ofStr name))).bind fun n => serSeqNodes name vs (d.pushNode n)

/-- `src/se.rs:364-387` `SerializeMap for MapNodeSerializer`. -/
def serMapNodes : List (SVal × SVal) → Document → Option Document
  | [], d => some d
  | (k, v) :: kvs, d =>
    (keyToString k).bind fun key => (serNode v (.new (.ofStr key))).bind fun n =>
      serMapNodes kvs (d.pushNode n)

/-- `src/se.rs:389-414` `SerializeStruct for MapNodeSerializer`. -/
def serFieldNodes : List (Str × SVal) → Document → Option Document
  | [], d => some d
  | (key, v) :: fs, d =>
    (serNode v (.new (.ofStr key))).bind fun n =>
      serFieldNodes fs (if n.skipped then d else d.pushNode n)

/-- `src/se.rs:423-475` `SerializeStructVariant::serialize_field for
StructVariantSerializer`, for each field: what is written goes to a node that is
dropped, so only failure and the set `used` of indices are observable. -/
def serTopVariantFields : List (Str × SVal) → List Nat → Option Unit
  | [], _ => some ()
  | (key, v) :: fs, used =>
    match fieldKind key with
    | .prop _ => (toKdlValue v).bind fun _ => serTopVariantFields fs used
    | .args => (serArgsField (.new (.ofStr key)) v).bind fun _ => serTopVariantFields fs used
    | .rest => (serRestField (.new (.ofStr key)) used v).bind fun _ => serTopVariantFields fs used
    | .arg s => (parseUsize s).bind fun i => (toKdlValue v).bind fun _ => serTopVariantFields fs (i :: used)
    | .child => (serNode v (.new (.ofStr key))).bind fun _ => serTopVariantFields fs used

/-- `src/se.rs:98-297` `DocumentSerializer`: `serDoc v d` is the document `d` with `v`
written into it. -/
def serDoc : SVal → Document → Option Document
  | .bool b, d => some (d.pushNode (valueNode ['-'] (.bool b)))
  | .int i, d => some (d.pushNode (valueNode ['-'] (.integer i.toI128)))
  | .int128 _, _ => none
  | .f64 x, d => some (d.pushNode (valueNode ['-'] (.float x)))
  | .char c, d => some (d.pushNode (valueNode ['-'] (.string [c])))
  | .str s, d => some (d.pushNode (valueNode ['-'] (.string s)))
  | .bytes bs, d => some (bs.foldl (fun d b => d.pushNode (valueNode ['-'] (.integer ⟨b.1, by
      have := b.2; unfold i128Min i128Max; omega⟩))) d)
  | .none, d | .unit, d | .unitStruct _, d => some d
  | .some v, d | .newtypeStruct v, d => serDoc v d
  | .unitVariant s, d => some (d.pushNode (valueNode ['-'] (.string s)))
  | .newtypeVariant variant v, d => (toKdlValue v).map fun x => d.pushNode (valueNode variant x)
  | .seq vs, d | .tuple vs, d | .tupleStruct vs, d => serSeqNodes ['-'] vs d
  | .tupleVariant variant vs, d => serSeqNodes variant vs d
  | .map kvs, d => serMapNodes kvs d
  | .struct fs, d => serFieldNodes fs d
  | .structVariant variant fs, d =>
    (serTopVariantFields fs []).map fun _ => d.pushNode ((Node.new (.ofStr variant)).setChildren .new)

/-- `src/se.rs:90-96` `to_document`. -/
def toDocument (v : SVal) : Option Document := serDoc v .new

/-- `src/se.rs:81-84` `to_string`. -/
def seToString [FloatIO] (v : SVal) : Option Str := (toDocument v).map Document.display

end

end Kdl
