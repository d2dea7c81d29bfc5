import Verif.Model.De
import Verif.Spec.Print
import Verif.Spec.Fields
/-
Specification vocabulary for `kdl::de` and `kdl::se`.
-/

namespace Kdl.Spec

/-- The members of a list in order of first appearance, each once. -/
def firsts : List Str → List Str
  | [] => []
  | a :: l => a :: (firsts l).filter (· ≠ a)

/-- The nodes carried by the deserializer handed over for a name. -/
def carried : Src → List DNode
  | .node n => [n]
  | .group ns => ns
  | _ => []

/-- The integer held by a deserializer: an integer value, or a node with that value as its
only argument and nothing else. -/
inductive HoldsInt : Src → Int → Prop
  | value (i : I128) : HoldsInt (.value (.integer i)) i.1
  | node (ty : Option Str) (name : Str) (ety : Option Str) (i : I128) :
      HoldsInt (.node (.mk ty name [⟨ety, none, .integer i⟩] none)) i.1

/-- The integer types `i8`, …, `i64`, `u8`, …, `u64` of `w` bits. -/
inductive IntTy : Ty → Int → Int → Prop
  | signed (w : Nat) (hw : w ∈ [8, 16, 32, 64]) : IntTy (.int (-(2 ^ (w - 1))) (2 ^ (w - 1) - 1) false) (-(2 ^ (w - 1))) (2 ^ (w - 1) - 1)
  | unsigned (w : Nat) (hw : w ∈ [8, 16, 32, 64]) : IntTy (.int 0 (2 ^ w - 1) false) 0 (2 ^ w - 1)

end Kdl.Spec

namespace Kdl.Spec

section
variable [FloatKey]

/-- The name of a property written for a field name beginning with `#@`. -/
def propNames : Str → List Str
  | '#' :: '@' :: name => [name]
  | _ => []

mutual
/-- The texts occurring in a value: strings, characters, names of variants and fields, map
keys. -/
def texts : SVal → List Str
  | .bool _ | .int _ | .int128 _ | .f64 _ | .bytes _ | .none | .unit | .unitStruct _ => []
  | .char c => [[c]]
  | .str s => [s]
  | .unitVariant s => [s]
  | .some v => texts v
  | .newtypeStruct v => texts v
  | .newtypeVariant k v => k :: texts v
  | .seq vs => textsList vs
  | .tuple vs => textsList vs
  | .tupleStruct vs => textsList vs
  | .tupleVariant k vs => k :: textsList vs
  | .map kvs => textsMap kvs
  | .struct fs => textsFields fs
  | .structVariant k fs => k :: textsFields fs
/-- Texts of a list of values. -/
def textsList : List SVal → List Str
  | [] => []
  | v :: vs => texts v ++ textsList vs
/-- Texts of the keys and values of a map. -/
def textsMap : List (SVal × SVal) → List Str
  | [] => []
  | (k, v) :: kvs => (keyToString k).toList ++ texts v ++ textsMap kvs
/-- Texts of the names and values of fields. -/
def textsFields : List (Str × SVal) → List Str
  | [] => []
  | (k, v) :: fs => k :: propNames k ++ texts v ++ textsFields fs
end

/-- Every text in the value can be written (see `Writable`). -/
def SWritable (v : SVal) : Prop := ∀ s ∈ texts v, Writable s

end

end Kdl.Spec

namespace Kdl.Spec

/-! ### The values of C44 -/

/-- Neither a property nor a child. -/
def Field.isArg : Field → Bool
  | .prop _ | .plain _ => false
  | _ => true

/-- The fields of a struct, in the order of declaration, such that each is read from where it is
written: the argument fields are `#0`, `#1`, … in this order, maybe with `#rest` behind them, or
`#args` alone; no field has the name of a property. -/
structure Layout (fs : List Field) : Prop where
  nodup : fs.Nodup
  clear : ∀ f ∈ fs, f.Clear
  args : (∃ n, fs.filter Field.isArg = (List.range n).map .arg ∨ fs.filter Field.isArg = (List.range n).map .arg ++ [.rest]) ∨
    fs.filter Field.isArg = [.args]
  props : ∀ p, .prop p ∈ fs → (∀ q, p ≠ '#' :: q) ∧ .plain p ∉ fs

mutual
/-- `v` is a value of the Rust type `t`. NaN, which does not equal itself, is left out; so are the
128-bit integers, which are not written. The fields of structs have a `Layout`; those of struct
variants have no names beginning with `#`. -/
inductive HasTy : Ty → SVal → Prop
  | bool (b : Bool) : HasTy .bool (.bool b)
  | int {t : Ty} {lo hi : Int} (ht : IntTy t lo hi) (i : SInt) (h1 : lo ≤ i.1) (h2 : i.1 ≤ hi) : HasTy t (.int i)
  | f64 (x : F64) (h : x.isNan = false) : HasTy .f64 (.f64 x)
  | char (c : Char) : HasTy .char (.char c)
  | str (s : Str) : HasTy .str (.str s)
  | unit : HasTy .unit .unit
  | unitStruct (name : Str) : HasTy (.unitStruct name) (.unitStruct name)
  | none (t : Ty) : HasTy (.option t) .none
  | some {t : Ty} {v : SVal} (h : HasTy t v) : HasTy (.option t) (.some v)
  | newtype {t : Ty} {v : SVal} (h : HasTy t v) : HasTy (.newtype t) (.newtypeStruct v)
  | seq {t : Ty} {vs : List SVal} (h : ListTy t vs) : HasTy (.seq t) (.seq vs)
  | tuple {ts : List Ty} {vs : List SVal} (h : TupleTy ts vs) : HasTy (.tuple ts) (.tuple vs)
  | tupleStruct {ts : List Ty} {vs : List SVal} (h : TupleTy ts vs) : HasTy (.tupleStruct ts) (.tupleStruct vs)
  | map {t : Ty} {kvs : List (SVal × SVal)} (h : MapTy t kvs) (hd : (kvs.map Prod.fst).Nodup) : HasTy (.map t) (.map kvs)
  | struct {tfs : List (Str × Ty)} {fs : List (Str × SVal)} (h : FieldsTy tfs fs) (fl : List Field)
      (hn : fs.map Prod.fst = fl.map Field.text) (hl : Layout fl) : HasTy (.struct tfs) (.struct fs)
  | unitVariant {vts : List (Str × VTy)} {k : Str} (hv : (k, .unit) ∈ vts) (hd : (vts.map Prod.fst).Nodup) :
      HasTy (.enum vts) (.unitVariant k)
  | newtypeVariant {vts : List (Str × VTy)} {k : Str} {t : Ty} {v : SVal} (hv : (k, .newtype t) ∈ vts)
      (hd : (vts.map Prod.fst).Nodup) (h : HasTy t v) : HasTy (.enum vts) (.newtypeVariant k v)
  | tupleVariant {vts : List (Str × VTy)} {k : Str} {ts : List Ty} {vs : List SVal} (hv : (k, .tuple ts) ∈ vts)
      (hd : (vts.map Prod.fst).Nodup) (h : TupleTy ts vs) (hl : ts.length ≠ 1) : HasTy (.enum vts) (.tupleVariant k vs)
  | structVariant {vts : List (Str × VTy)} {k : Str} {tfs : List (Str × Ty)} {fs : List (Str × SVal)}
      (hv : (k, .struct tfs) ∈ vts) (hd : (vts.map Prod.fst).Nodup) (h : FieldsTy tfs fs) (hf : (fs.map Prod.fst).Nodup)
      (hp : ∀ k ∈ fs.map Prod.fst, k.head? ≠ Option.some '#') : HasTy (.enum vts) (.structVariant k fs)
/-- Values of one type. -/
inductive ListTy : Ty → List SVal → Prop
  | nil (t : Ty) : ListTy t []
  | cons {t : Ty} {v : SVal} {vs : List SVal} (h : HasTy t v) (hs : ListTy t vs) : ListTy t (v :: vs)
/-- Values of the given types. -/
inductive TupleTy : List Ty → List SVal → Prop
  | nil : TupleTy [] []
  | cons {t : Ty} {v : SVal} {ts : List Ty} {vs : List SVal} (h : HasTy t v) (hs : TupleTy ts vs) : TupleTy (t :: ts) (v :: vs)
/-- Entries of a map with keys of type `String`. -/
inductive MapTy : Ty → List (SVal × SVal) → Prop
  | nil (t : Ty) : MapTy t []
  | cons {t : Ty} (k : Str) {v : SVal} {kvs : List (SVal × SVal)} (h : HasTy t v) (hs : MapTy t kvs) : MapTy t ((.str k, v) :: kvs)
/-- Field values of the given types. -/
inductive FieldsTy : List (Str × Ty) → List (Str × SVal) → Prop
  | nil : FieldsTy [] []
  | cons {k : Str} {t : Ty} {v : SVal} {tfs : List (Str × Ty)} {fs : List (Str × SVal)}
      (h : HasTy t v) (hs : FieldsTy tfs fs) : FieldsTy ((k, t) :: tfs) ((k, v) :: fs)
end

/-- Stands for nothing: an absent option, a unit, or one of these wrapped. -/
def asNull : SVal → Bool
  | .none | .unit | .unitStruct _ => true
  | .some v | .newtypeStruct v => asNull v
  | _ => false

/-- Stands for nothing or for `false`. -/
def off : SVal → Bool
  | .bool b => !b
  | .none | .unit | .unitStruct _ => true
  | .some v | .newtypeStruct v => off v
  | _ => false

/-- A field written as a property. -/
def propField : Str → Bool
  | '#' :: '@' :: _ => true
  | _ => false

/-- A field written as one argument or, if `argsField`, as several. -/
def argField : Str → Bool
  | '#' :: '@' :: _ => false
  | '#' :: _ => true
  | _ => false

/-- `#args` or `#rest`. -/
def argsField (k : Str) : Bool := k = Field.args.text ∨ k = Field.rest.text

/-- The values written as arguments for a field `#args` or `#rest`. -/
def spread : SVal → List SVal
  | .some v | .newtypeStruct v => spread v
  | .seq vs | .tuple vs | .tupleStruct vs => vs
  | v => [v]

/-- The values written as the arguments of the node for a struct. -/
def structArgs : List (Str × SVal) → List SVal
  | [] => []
  | (k, v) :: fs => (if argsField k then spread v else if argField k then [v] else []) ++ structArgs fs

/-- The value of a field or of an entry of a map for which no node is written: one that is off, a
sequence or tuple whose first element is off, or a struct whose first argument is off. -/
def leftOut : SVal → Bool
  | .some v | .newtypeStruct v => leftOut v
  | .seq (v :: _) | .tuple (v :: _) | .tupleStruct (v :: _) => off v
  | .struct fs => match structArgs fs with
    | v :: _ => off v
    | [] => false
  | v => off v

/-- A value for which a node is written that is read as an absent option: one with no contents, or
with nothing but one argument that stands for nothing. -/
def blank : SVal → Bool
  | .none | .unit | .unitStruct _ => true
  | .some v | .newtypeStruct v => blank v
  | .seq [] | .tuple [] | .tupleStruct [] => true
  | .seq [v] | .tuple [v] | .tupleStruct [v] => asNull v
  | .map kvs => kvs.all fun e => leftOut e.2
  | .struct fs => (fs.all fun f => argField f.1) && match structArgs fs with
    | [] => true
    | [v] => asNull v
    | _ => false
  | _ => false

/-- An element of a sequence or tuple that is read back: an optional one must not stand for
nothing. -/
def argKept : SVal → Bool
  | .some v => !asNull v && argKept v
  | .newtypeStruct v => argKept v
  | _ => true

/-- The value of a field `#args` or `#rest` that is read back. -/
def spreadKept : SVal → Bool
  | .some v => !(spread v).isEmpty && spreadKept v
  | .newtypeStruct v => spreadKept v
  | .seq vs | .tuple vs | .tupleStruct vs => vs.all argKept
  | _ => false

mutual
/-- A value that is read back from the node written for it. -/
def nodeKept : SVal → Bool
  | .some v => !blank v && nodeKept v
  | .newtypeStruct v => nodeKept v
  | .newtypeVariant _ v => nodeKept v
  | .seq vs | .tuple vs | .tupleStruct vs | .tupleVariant _ vs => vs.all argKept
  | .map kvs => mapKept kvs
  | .struct fs => fieldsKept fs
  | .structVariant _ fs => docFieldsKept fs
  | _ => true
/-- Entries of a map that are read back from the children of a node: a node must be written for
each. -/
def mapKept : List (SVal × SVal) → Bool
  | [] => true
  | (_, v) :: kvs => !leftOut v && nodeKept v && mapKept kvs
/-- Fields of a struct that are read back from a node: those of its children for which no node is
written are `false` or absent options. -/
def fieldsKept : List (Str × SVal) → Bool
  | [] => true
  | (k, v) :: fs =>
    (if argsField k then spreadKept v
     else if argField k || propField k then argKept v
     else match v with
       | .bool false | .none => true
       | v => !leftOut v && nodeKept v) && fieldsKept fs
/-- Fields that are read back from the nodes of a document, or from the children of the node for
an enum variant: those for which no node is written are absent options. -/
def docFieldsKept : List (Str × SVal) → Bool
  | [] => true
  | (_, v) :: fs =>
    (match v with
     | .none => true
     | v => !leftOut v && nodeKept v) && docFieldsKept fs
end

/-- A value for which an empty document is written. -/
def emptyDoc : SVal → Bool
  | .none | .unit | .unitStruct _ => true
  | .some v | .newtypeStruct v => emptyDoc v
  | .seq vs | .tuple vs | .tupleStruct vs | .tupleVariant _ vs => vs.isEmpty
  | .map kvs => kvs.isEmpty
  | .struct fs => fs.all fun f => leftOut f.2
  | _ => false

/-- A value that is read back from the document written for it. Scalars, tuples and tuple variants
are not; unit variants only if named `-`, and struct variants only if all their fields are absent
options. -/
def Kept : SVal → Bool
  | .none | .unit | .unitStruct _ => true
  | .some v => !emptyDoc v && Kept v
  | .newtypeStruct v => Kept v
  | .seq vs => vs.all nodeKept
  | .map kvs => kvs.all fun e => nodeKept e.2
  | .struct fs => docFieldsKept fs
  | .unitVariant k => k == ['-']
  | .newtypeVariant _ v => nodeKept v
  | .structVariant _ fs => fs.all fun f => match f.2 with
    | .none => true
    | _ => false
  | _ => false

/-- A value that can be written as one argument. -/
def oneArg : SVal → Bool
  | .bool _ | .int _ | .f64 _ | .char _ | .str _ | .none | .unit | .unitStruct _ | .unitVariant _ => true
  | .some v | .newtypeStruct v => oneArg v
  | _ => false

mutual
/-- A value that can be written into a node: the elements of sequences and tuples and what an enum
variant holds must be single arguments. -/
def canNode : SVal → Bool
  | .some v | .newtypeStruct v => canNode v
  | .seq vs | .tuple vs | .tupleStruct vs | .tupleVariant _ vs => vs.all oneArg
  | .newtypeVariant _ v => oneArg v
  | .map kvs => canMap kvs
  | .struct fs => canStruct fs
  | .structVariant _ fs => canFields fs
  | .int128 _ => false
  | _ => true
/-- The same for the entries of a map. -/
def canMap : List (SVal × SVal) → Bool
  | [] => true
  | (_, v) :: kvs => canNode v && canMap kvs
/-- The same for the fields of a struct. -/
def canStruct : List (Str × SVal) → Bool
  | [] => true
  | (k, v) :: fs =>
    (if argsField k then (spread v).all oneArg
     else if argField k || propField k then oneArg v
     else canNode v) && canStruct fs
/-- The same for fields that are all written as nodes. -/
def canFields : List (Str × SVal) → Bool
  | [] => true
  | (_, v) :: fs => canNode v && canFields fs
end

/-- A value that can be written to a document. -/
def canWrite : SVal → Bool
  | .some v | .newtypeStruct v => canWrite v
  | .seq vs | .tuple vs | .tupleStruct vs | .tupleVariant _ vs => vs.all canNode
  | .newtypeVariant _ v => oneArg v
  | .map kvs => canMap kvs
  | .struct fs | .structVariant _ fs => canFields fs
  | .int128 _ => false
  | _ => true

end Kdl.Spec
