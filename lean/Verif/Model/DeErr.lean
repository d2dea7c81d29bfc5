import Verif.Model.De
import Verif.Model.Diag
/-
Model of the errors of `src/de.rs`: what `from_str` says about a text that it cannot read.

This is `Model/De.lean` again, with two differences. The deserializers hold the elements of the
document with their spans, and errors are values: the span and the label that `with_span` puts on
them. `DeError` has no message: for errors about data the messages are mostly those of serde. The
text itself, which every error carries (`with_input`), is not part of it either.
-/

namespace Kdl
open Spec

/-- `src/de.rs:212-219` `Error`: the fields `span` and `label`. -/
structure DeError where
  span : Option Span := none
  label : Option String := none
  deriving DecidableEq

/-- `src/de.rs:262-276` `Error::with_span`: only the first span counts. -/
def DeError.withSpan (e : DeError) (sp : Span) (label : String) : DeError :=
  match e.span with
  | some _ => e
  | none => ⟨some sp, some label⟩

/-- `map_err(|err| err.with_span(…))`, if there is something to add. -/
def annotated {α : Type} (note : Option (Span × String)) (r : Except DeError α) : Except DeError α :=
  match r with
  | .ok a => .ok a
  | .error e => match note with
    | some (sp, l) => .error (e.withSpan sp l)
    | none => .error e

/-- The deserializers of `src/de.rs`, see `Src`. -/
inductive LSrc where
  | doc (nodes : List Node)
  | node (n : Node)
  | group (ns : List Node)
  | value (e : Entry)
  | ident (i : Ident)
  | args (es : List Entry)
  | omitted

/-- The `EnumAccess` handed to `visit_enum`, see `EnumSrc`. -/
inductive LEnum where
  | str (s : Str)
  | node (n : Node)
  | prop (key : Str) (e : Entry)

/-- The methods of `Visitor`, with what is passed to them, see `Event`. Those for scalars are
`plain`. -/
inductive LEvent where
  | plain (e : Event)
  | none
  | some (s : LSrc)
  | newtype (s : LSrc)
  | seq (l : List LSrc)
  | map (l : List (Str × LSrc))
  | enum (e : LEnum)

/-- What a deserializer does: it fails, or calls a method of the visitor, with what it adds to the
error of the visitor. -/
abbrev Call := Except DeError (LEvent × Option (Span × String))

/-! ### Nodes -/

namespace Node
/-- `src/de.rs:735-741` `NodeDeserializer::args`. -/
def argEntries (n : Node) : List Entry := n.entries.filter (·.name.isNone)
/-- `src/de.rs:743-749` `NodeDeserializer::props`. -/
def propEntries (n : Node) : List Entry := n.entries.filter (·.name.isSome)
/-- `node.children()`, as a list of nodes. -/
def childNodes (n : Node) : Option (List Node) := n.children.map Document.nodes
/-- `src/de.rs:751-756` `NodeDeserializer::is_scalar`, giving the argument. -/
def scalarEntry (n : Node) : Option Entry :=
  match n.argEntries, n.propEntries, n.childNodes with
  | [e], [], none => some e
  | _, _, _ => none
/-- `src/de.rs:758-761` `NodeDeserializer::is_empty`. -/
def isBare (n : Node) : Bool := n.entries.isEmpty && n.childNodes.isNone
end Node

/-- `groups.get(k)`. -/
def lgroupOf (k : Str) : List (Str × List Node) → Option (List Node)
  | [] => none
  | (k', ns) :: g => if k = k' then some ns else lgroupOf k g

/-- `groups.entry(k).or_default().push(n)`. -/
def lgroupPush (k : Str) (n : Node) : List (Str × List Node) → List (Str × List Node)
  | [] => [(k, [n])]
  | (k', ns) :: g => if k = k' then (k', ns ++ [n]) :: g else (k', ns) :: lgroupPush k n g

/-- The loop of `src/de.rs:677-683` and `1207-1216`. -/
def lgroupLoop : List Node → List Str → List (Str × List Node) → List Str × List (Str × List Node)
  | [], keys, groups => (keys, groups)
  | n :: ns, keys, groups =>
    lgroupLoop ns (if (lgroupOf n.name.value groups).isNone then keys ++ [n.name.value] else keys)
      (lgroupPush n.name.value n groups)

/-- `src/de.rs:707-726`, `1217-1224`. -/
def lgroupSrc (groups : List (Str × List Node)) (k : Str) : LSrc :=
  match lgroupOf k groups with
  | some [n] => .node n
  | some ns => .group ns
  | none => .group []

/-- `src/de.rs:656-727` `DocumentMapAccess`. -/
def lgrouped (ns : List Node) : List (Str × LSrc) :=
  let r := lgroupLoop ns [] []
  r.1.map fun k => (k, lgroupSrc r.2 k)

/-- `src/de.rs:1141-1150`: the `#name` and `#type` entries. -/
def lnodeMapHead (n : Node) (fields : List Str) : List (Str × LSrc) :=
  (if ['#', 'n', 'a', 'm', 'e'] ∈ fields then [(['#', 'n', 'a', 'm', 'e'], LSrc.ident n.name)] else []) ++
  (match n.ty with
   | some t => if ['#', 't', 'y', 'p', 'e'] ∈ fields then [(['#', 't', 'y', 'p', 'e'], .ident t)] else []
   | none => [])

/-- `src/de.rs:1155-1176`: the loop over the arguments. -/
def lnodeMapArgs (fields : List Str) : List Entry → Nat → List (Str × LSrc) × List Entry
  | [], _ => ([], [])
  | a :: as, i =>
    let idx := '#' :: showNat i
    let tyE := match a.ty with
      | some t => [(idx ++ ['#', 't', 'y', 'p', 'e'], LSrc.ident t)]
      | none => []
    let r := lnodeMapArgs fields as (i + 1)
    if idx ∈ fields then (tyE ++ (idx, .value a) :: r.1, r.2)
    else (tyE ++ r.1, a :: r.2)

/-- `src/de.rs:1151-1183`: the entries for arguments. -/
def lnodeMapAllArgs (n : Node) (fields : List Str) : List (Str × LSrc) :=
  let r := lnodeMapArgs fields n.argEntries 0
  r.1 ++ (if ['#', 'a', 'r', 'g', 's'] ∈ fields then [(['#', 'a', 'r', 'g', 's'], LSrc.args n.argEntries)] else []) ++
    (if ['#', 'r', 'e', 's', 't'] ∈ fields then [(['#', 'r', 'e', 's', 't'], .args r.2)] else [])

/-- `src/de.rs:1186-1203`: the entries for one property. -/
def lnodeMapProp (fields : Option (List Str)) (p : Entry) : List (Str × LSrc) :=
  match p.name with
  | none => []
  | some name =>
    let hash := '#' :: '@' :: name.value
    (match fields with
     | none => []
     | some fields =>
       (if hash ∈ fields then [(hash, LSrc.value p)] else []) ++
       (match p.ty with
        | some t => if hash ++ ['#', 't', 'y', 'p', 'e'] ∈ fields then
            [(hash ++ ['#', 't', 'y', 'p', 'e'], .ident t)] else []
        | none => [])) ++
    [(name.value, .value p)]

/-- `src/de.rs:1185-1212` `used_names`. -/
def lusedNames (n : Node) : List Str :=
  n.propEntries.filterMap (·.name.map Ident.value) ++
    (match n.childNodes with | some ns => ns.map (·.name.value) | none => [])

/-- `src/de.rs:1227-1233`: struct fields without a property or child. -/
def lomittedFields (n : Node) (fields : List Str) : List (Str × LSrc) :=
  (fields.filter fun f => !(f.head? == some '#') && !(lusedNames n).contains f).map fun f => (f, .omitted)

/-- `src/de.rs:1133-1286` `NodeMapAccess`. -/
def lnodeMap (n : Node) (fields : Option (List Str)) : List (Str × LSrc) :=
  (match fields with
   | some fs => lnodeMapHead n fs ++ lnodeMapAllArgs n fs
   | none => []) ++
  n.propEntries.flatMap (lnodeMapProp fields) ++
  (match n.childNodes with
   | some ns => lgrouped ns
   | none => []) ++
  (match fields with
   | some fs => lomittedFields n fs
   | none => [])

/-! ### Requests -/

/-- The label of `src/de.rs:493`. -/
def valueLabel : String := "while deserializing this KDL value"
/-- The label of `src/de.rs:467`. -/
def identLabel : String := "while deserializing this KDL identifier"
/-- The label of `src/de.rs:806`. -/
def nodeLabel : String := "while deserializing this KDL node"
/-- The label of `src/de.rs:967,1385,1472`. -/
def variantLabel : String := "while deserializing this enum variant"
/-- The label of `src/de.rs:1510,1527`. -/
def propLabel : String := "while deserializing this KDL property"

/-- `src/de.rs:498-514` `ValueDeserializer::deserialize_any`. -/
def Entry.anyCall (e : Entry) : Call := .ok (.plain e.value.event, some (e.span, valueLabel))

/-- `src/de.rs:473-562`. -/
def Entry.call (e : Entry) : Req → Call
  | .option => match e.value with
    | .null => .ok (.none, some (e.span, valueLabel))
    | _ => .ok (.some (.value e), none)
  | .newtype => .ok (.newtype (.value e), none)
  | .enum => match e.value with
    | .string s => .ok (.enum (.str s), some (e.span, valueLabel))
    | _ => .error ⟨some e.span, some valueLabel⟩
  | _ => e.anyCall

/-- `src/de.rs:408-471`. -/
def Ident.call (i : Ident) : Req → Call
  | .newtype => .ok (.newtype (.ident i), none)
  | .enum => .ok (.enum (.str i.value), some (i.span, identLabel))
  | _ => .ok (.plain (.str i.value), some (i.span, identLabel))

/-- `src/de.rs:767-794` `NodeDeserializer::deserialize_any`. -/
def Node.anyCall (n : Node) : Call :=
  if n.isBare then .ok (.plain (.bool true), none)
  else match n.scalarEntry with
    | some e => e.anyCall
    | none =>
      if !n.argEntries.isEmpty && n.propEntries.isEmpty && n.childNodes.isNone then .ok (.seq (n.argEntries.map .value), none)
      else .ok (.map (lnodeMap n none), none)

/-- `src/de.rs:897-920` `NodeDeserializer::deserialize_seq`. -/
def Node.lseq (n : Node) : LEvent :=
  match n.childNodes with
  | none => .seq (n.argEntries.map .value)
  | some ns => .seq (ns.map .node)

/-- `src/de.rs:951-1001` `NodeDeserializer::deserialize_enum`. -/
def Node.enumCall (n : Node) : LEvent × Option (Span × String) :=
  let fallback : LEvent × Option (Span × String) :=
    match n.childNodes with
    | some [c] => (.enum (.node c), none)
    | some _ => (.enum (.node n), none)
    | none => match n.propEntries, n.argEntries with
      | [p], [] => (.enum (.prop ((p.name.map Ident.value).getD []) p), none)
      | _, _ => (.enum (.node n), none)
  match n.scalarEntry with
  | some e => match e.value with
    | .string s => (.enum (.str s), some (e.span, variantLabel))
    | _ => fallback
  | none => fallback

/-- `src/de.rs:764-1020` `Deserializer for NodeDeserializer`. -/
def Node.call (n : Node) : Req → Call
  | .any => n.anyCall
  | .bool => match n.scalarEntry with
    | some e => e.anyCall
    | none => if n.isBare then .ok (.plain (.bool true), none) else .error ⟨some n.span, some nodeLabel⟩
  | .scalar => match n.scalarEntry with
    | some e => e.anyCall
    | none => n.anyCall
  | .option =>
    if n.isBare then .ok (.none, none)
    else match n.scalarEntry with
      | some e => match e.value with
        | .null => .ok (.none, none)
        | _ => .ok (.some (.node n), none)
      | none => .ok (.some (.node n), none)
  | .unit => .ok (.plain .unit, none)
  | .newtype => .ok (.newtype (.node n), none)
  | .seq | .tuple => .ok (n.lseq, none)
  | .map => .ok (.map (lnodeMap n none), none)
  | .struct fields => .ok (.map (lnodeMap n (some fields)), none)
  | .enum => .ok n.enumCall

/-- The visitor method called when a method of a deserializer is called, and what is added to its
error. -/
def LSrc.call : LSrc → Req → Call
  | .doc ns, r => match r with
    | .any | .map | .struct _ | .bool | .scalar | .tuple => .ok (.map (lgrouped ns), none)
    | .seq => .ok (.seq (ns.map .node), none)
    | .option => if ns.isEmpty then .ok (.none, none) else .ok (.some (.doc ns), none)
    | .newtype => .ok (.newtype (.doc ns), none)
    | .unit => .ok (.plain .unit, none)
    | .enum => match ns with
      | [n] => .ok (.enum (.node n), none)
      | _ => .error {}
  | .node n, r => n.call r
  | .group ns, _ => .ok (.seq (ns.map .node), none)
  | .value e, r => e.call r
  | .ident i, r => i.call r
  | .args es, r => match r with
    | .option => if es.isEmpty then .ok (.none, none) else .ok (.some (.args es), none)
    | .newtype => .ok (.newtype (.args es), none)
    | _ => .ok (.seq (es.map .value), none)
  | .omitted, r => match r with
    | .option => .ok (.none, none)
    | _ => .ok (.plain (.bool false), none)

/-! ### serde's side -/

/-- A visitor of scalars. -/
def LEvent.visit (f : Event → Option SVal) : LEvent → Except DeError SVal
  | .plain e => match f e with
    | Option.some v => .ok v
    | Option.none => .error {}
  | _ => .error {}

/-- `T::deserialize`: call a method of the deserializer with a visitor. -/
def LSrc.ask {α : Type} (s : LSrc) (r : Req) (visitor : LEvent → Except DeError α) : Except DeError α :=
  match s.call r with
  | .ok (e, note) => annotated note (visitor e)
  | .error e => .error e

/-- `EnumAccess::variant_seed`: the name of the variant, and what is added to the error if it is
unknown (`src/de.rs:1375-1389,1462-1477`). -/
def LEnum.variant : LEnum → Str × Option (Span × String)
  | .str s => (s, none)
  | .node n => (n.name.value, some (n.span, variantLabel))
  | .prop k e => (k, some (e.span, variantLabel))

/-- `VariantAccess::tuple_variant` (1418-1430 and 1499-1514; serde's for a string). -/
def LEnum.tuple : LEnum → Except DeError LEvent
  | .node n => .ok n.lseq
  | .prop _ e => .error ⟨some e.span, some propLabel⟩
  | .str _ => .error {}

/-- `VariantAccess::struct_variant` (1432-1444 and 1516-1531; serde's for a string). -/
def LEnum.struct : LEnum → Except DeError LEvent
  | .node n => .ok (.map (lnodeMap n none))
  | .prop _ e => .error ⟨some e.span, some propLabel⟩
  | .str _ => .error {}

/-- `VariantAccess::newtype_variant_seed` (1408-1416 and 1492-1497; serde's for a string). -/
def LEnum.newtype : LEnum → Except DeError LSrc
  | .node n => .ok (.node n)
  | .prop _ e => .ok (.value e)
  | .str _ => .error {}

/-- The elements of a sequence or the values of a map, one after the other. -/
def readAll {α β : Type} (f : α → Except DeError β) : List α → Except DeError (List β)
  | [] => .ok []
  | a :: l => match f a with
    | .error e => .error e
    | .ok b => match readAll f l with
      | .error e => .error e
      | .ok bs => .ok (b :: bs)

/-- The value for a name, the first one. -/
def lookupKey {α : Type} (k : Str) : List (Str × α) → Option α
  | [] => none
  | (k', a) :: l => if k = k' then some a else lookupKey k l

/-- The loop of `visit_map` of a derived struct: `field k` reads the field `k`, and is `none` if
there is no such field (its value is ignored); `acc` are the fields read so far. -/
def fieldLoop (field : Str → Option (LSrc → Except DeError SVal)) :
    List (Str × LSrc) → List (Str × SVal) → Except DeError (List (Str × SVal))
  | [], acc => .ok acc
  | (k, s) :: l, acc => match field k with
    | none => fieldLoop field l acc
    | some f => match lookupKey k acc with
      | some _ => .error {}
      | none => match f s with
        | .error e => .error e
        | .ok v => fieldLoop field l ((k, v) :: acc)

/-- The end of `visit_map` of a derived struct: fields that were not given are `missing`. -/
def fieldsOf (acc : List (Str × SVal)) : List (Str × Ty) → Except DeError (List (Str × SVal))
  | [] => .ok []
  | (k, t) :: fs =>
    match (lookupKey k acc).orElse (fun _ => t.missing) with
    | none => .error {}
    | some v => match fieldsOf acc fs with
      | .error e => .error e
      | .ok vs => .ok ((k, v) :: vs)

section
variable [FloatCast]

mutual
/-- `T::deserialize(src)`. -/
def deE : Ty → LSrc → Except DeError SVal
  | .bool, s => s.ask .bool (LEvent.visit visitBool)
  | .int lo hi wide, s => s.ask .scalar (LEvent.visit (visitInt lo hi wide))
  | .f64, s => s.ask .scalar (LEvent.visit visitF64)
  | .char, s => s.ask .scalar (LEvent.visit visitChar)
  | .str, s => s.ask .scalar (LEvent.visit visitStr)
  | .unit, s => s.ask .unit (LEvent.visit visitUnit)
  | .unitStruct name, s => s.ask .unit (LEvent.visit (visitUnitStruct name))
  | .option t, s => s.ask .option fun
    | .none | .plain .unit => .ok .none
    | .some s' => (deE t s').map .some
    | _ => .error {}
  | .newtype t, s => s.ask .newtype fun
    | .newtype s' => (deE t s').map .newtypeStruct
    | .seq (s' :: _) => (deE t s').map .newtypeStruct
    | _ => .error {}
  | .seq t, s => s.ask .seq fun
    | .seq l => (readAll (deE t) l).map .seq
    | _ => .error {}
  | .tuple ts, s => s.ask .tuple fun
    | .seq l => (deTupleE ts l).map .tuple
    | _ => .error {}
  | .tupleStruct ts, s => s.ask .tuple fun
    | .seq l => (deTupleE ts l).map .tupleStruct
    | _ => .error {}
  | .map t, s => s.ask .map fun
    | .map l => (readAll (fun p => (deE t p.2).map fun v => (p.1, v)) l).map fun m => mapOf (insertAll m)
    | _ => .error {}
  | .struct fs, s => s.ask (.struct (fs.map Prod.fst)) fun
    | .map l => match fieldLoop (deFieldE fs) l [] with
      | .error e => .error e
      | .ok acc => (fieldsOf acc fs).map .struct
    | .seq l => (deSeqE fs l).map .struct
    | _ => .error {}
  | .enum vs, s => s.ask .enum fun
    | .enum e => deVariantE vs e
    | _ => .error {}
/-- Visitor for a tuple. -/
def deTupleE : List Ty → List LSrc → Except DeError (List SVal)
  | [], _ => .ok []
  | _ :: _, [] => .error {}
  | t :: ts, s :: l => match deE t s with
    | .error e => .error e
    | .ok v => (deTupleE ts l).map (v :: ·)
/-- `visit_seq` of a derived struct. -/
def deSeqE : List (Str × Ty) → List LSrc → Except DeError (List (Str × SVal))
  | [], _ => .ok []
  | _ :: _, [] => .error {}
  | (k, t) :: fs, s :: l => match deE t s with
    | .error e => .error e
    | .ok v => (deSeqE fs l).map ((k, v) :: ·)
/-- The field with a given name, of a derived struct. -/
def deFieldE : List (Str × Ty) → Str → Option (LSrc → Except DeError SVal)
  | [], _ => none
  | (k', t) :: fs, k => if k = k' then some (deE t) else deFieldE fs k
/-- `visit_enum` of a derived enum. -/
def deVariantE : List (Str × VTy) → LEnum → Except DeError SVal
  | [], e => annotated e.variant.2 (.error {})
  | (k, vt) :: vs, e => if e.variant.1 = k then deBodyE k vt e else deVariantE vs e
/-- The contents of a variant. -/
def deBodyE (k : Str) : VTy → LEnum → Except DeError SVal
  | .unit, _ => .ok (.unitVariant k)
  | .newtype t, e => match e.newtype with
    | .error e => .error e
    | .ok s => (deE t s).map (.newtypeVariant k)
  | .tuple ts, e => match e.tuple with
    | .error e => .error e
    | .ok (.seq l) => (deTupleE ts l).map (.tupleVariant k)
    | .ok _ => .error {}
  | .struct fs, e => match e.struct with
    | .error e => .error e
    | .ok (.map l) => match fieldLoop (deFieldE fs) l [] with
      | .error e => .error e
      | .ok acc => (fieldsOf acc fs).map (.structVariant k)
    | .ok (.seq l) => (deSeqE fs l).map (.structVariant k)
    | .ok _ => .error {}
end

/-- `src/de.rs:320-333` `From<KdlError> for Error`: the place of the first diagnostic. -/
def DeError.ofDiagnostics (es : List Diagnostic) : DeError := ⟨es.head?.map (·.span), es.head?.bind (·.label)⟩

/-- `src/de.rs:395-406` `from_str`, with its errors. (A panic of the parser would be one here; there is none, C39.) -/
def fromStrE [FloatIO] (t : Ty) (s : Str) : Except DeError SVal :=
  match Document.parseD s with
  | .ok d => deE t (.doc d.nodes)
  | .err es => .error (.ofDiagnostics es)
  | .panic => .error {}

end

end Kdl
