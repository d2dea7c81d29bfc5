import Verif.Model.Value
/-
The document data types of `src/identifier.rs`, `src/entry.rs`, `src/node.rs`
and `src/document.rs`, with their equality and hashing.
-/

namespace Kdl

/-- `miette::SourceSpan`: byte offset and byte length. -/
structure Span where
  offset : Nat
  len : Nat
  deriving DecidableEq

/-- `SourceSpan::from(0..0)`. -/
def Span.zero : Span := ⟨0, 0⟩

/-- `src/identifier.rs:10-15` `KdlIdentifier`. -/
structure Ident where
  value : Str
  repr : Option Str
  span : Span
  deriving DecidableEq

/-- `src/identifier.rs:139-159` `From<&str>` / `From<String>`. -/
def Ident.ofStr (s : Str) : Ident := ⟨s, none, .zero⟩

/-- `src/identifier.rs:17-22` `PartialEq for KdlIdentifier`. -/
def Ident.eq (a b : Ident) : Bool := a.value == b.value && a.repr == b.repr

/-- `src/entry.rs:479-501` `KdlEntryFormat`. -/
structure EntryFmt where
  valueRepr : Str := []
  leading : Str := []
  trailing : Str := []
  afterTy : Str := []
  beforeTyName : Str := []
  afterTyName : Str := []
  afterKey : Str := []
  afterEq : Str := []
  autoformatKeep : Bool := false
  deriving DecidableEq

/-- `src/entry.rs:12-19` `KdlEntry`. -/
structure Entry where
  ty : Option Ident
  value : Value
  name : Option Ident
  format : Option EntryFmt
  span : Span
  deriving DecidableEq

/-- `Option::eq` for identifiers. -/
def optIdentEq : Option Ident → Option Ident → Bool
  | none, none => true
  | some a, some b => a.eq b
  | _, _ => false

/-- `src/entry.rs:21-29` `PartialEq for KdlEntry`. -/
def Entry.eq (a b : Entry) : Bool :=
  optIdentEq a.ty b.ty && a.value.eq b.value && optIdentEq a.name b.name && a.format == b.format

/-- `src/node.rs:883-900` `KdlNodeFormat`. -/
structure NodeFmt where
  leading : Str := []
  beforeTyName : Str := []
  afterTyName : Str := []
  afterTy : Str := []
  beforeChildren : Str := []
  beforeTerminator : Str := []
  terminator : Str := []
  trailing : Str := []
  deriving DecidableEq

/-- `src/document.rs:583-588` `KdlDocumentFormat`. -/
structure DocFmt where
  leading : Str := []
  trailing : Str := []
  deriving DecidableEq

mutual
/-- `src/node.rs:21-30` `KdlNode`. -/
inductive Node where
  | mk (ty : Option Ident) (name : Ident) (entries : List Entry) (children : Option Document)
      (format : Option NodeFmt) (span : Span)
/-- `src/document.rs:24-29` `KdlDocument`. -/
inductive Document where
  | mk (nodes : List Node) (format : Option DocFmt) (span : Span)
end

namespace Node
/-- field `ty` -/
def ty : Node → Option Ident | .mk t _ _ _ _ _ => t
/-- field `name` -/
def name : Node → Ident | .mk _ n _ _ _ _ => n
/-- field `entries` -/
def entries : Node → List Entry | .mk _ _ e _ _ _ => e
/-- field `children` -/
def children : Node → Option Document | .mk _ _ _ c _ _ => c
/-- field `format` -/
def format : Node → Option NodeFmt | .mk _ _ _ _ f _ => f
/-- field `span` -/
def span : Node → Span | .mk _ _ _ _ _ s => s
/-- Assignment to field `entries`. -/
def setEntries (n : Node) (e : List Entry) : Node := .mk n.ty n.name e n.children n.format n.span
/-- Assignment to field `format`. -/
def setFormat (n : Node) (f : Option NodeFmt) : Node := .mk n.ty n.name n.entries n.children f n.span
/-- Assignment to field `span`. -/
def setSpan (n : Node) (s : Span) : Node := .mk n.ty n.name n.entries n.children n.format s
end Node

namespace Document
/-- field `nodes` -/
def nodes : Document → List Node | .mk n _ _ => n
/-- field `format` -/
def format : Document → Option DocFmt | .mk _ f _ => f
/-- field `span` -/
def span : Document → Span | .mk _ _ s => s
end Document

mutual
/-- `src/node.rs:32-41` `PartialEq for KdlNode`. -/
def Node.eq : Node → Node → Bool
  | .mk t n e c f _, .mk t' n' e' c' f' _ =>
    optIdentEq t t' && n.eq n' && entriesEq e e' && optDocEq c c' && f == f'
/-- `Option::eq` for documents. -/
def optDocEq : Option Document → Option Document → Bool
  | none, none => true
  | some a, some b => a.eq b
  | _, _ => false
/-- `src/document.rs:31-36` `PartialEq for KdlDocument`. -/
def Document.eq : Document → Document → Bool
  | .mk n f _, .mk n' f' _ => nodesEq n n' && f == f'
/-- `Vec::eq` for nodes. -/
def nodesEq : List Node → List Node → Bool
  | [], [] => true
  | a :: as, b :: bs => a.eq b && nodesEq as bs
  | _, _ => false
/-- `Vec::eq` for entries. -/
def entriesEq : List Entry → List Entry → Bool
  | [], [] => true
  | a :: as, b :: bs => a.eq b && entriesEq as bs
  | _, _ => false
end

/-! ### Hashing: the sequence of tokens fed to the hasher -/

/-- Tokens fed to a `Hasher`. -/
inductive Tok where
  | str (s : Str)
  | val (t : Value.HashTok)
  | len (n : Nat)
  | tag (n : Nat)
  | flag (b : Bool)
  deriving DecidableEq

/-- `Option::hash`: discriminant, then the payload. -/
def optHash {α : Type} (h : α → List Tok) : Option α → List Tok
  | none => [.tag 0]
  | some a => .tag 1 :: h a

/-- `src/identifier.rs:24-30` `Hash for KdlIdentifier`. -/
def Ident.hash (i : Ident) : List Tok := .str i.value :: optHash (fun s => [.str s]) i.repr

/-- `#[derive(Hash)]` on `KdlEntryFormat`. -/
def EntryFmt.hash (f : EntryFmt) : List Tok :=
  [.str f.valueRepr, .str f.leading, .str f.trailing, .str f.afterTy, .str f.beforeTyName,
   .str f.afterTyName, .str f.afterKey, .str f.afterEq, .flag f.autoformatKeep]

/-- `src/entry.rs:31-39` `Hash for KdlEntry`. -/
def Entry.hash (e : Entry) : List Tok :=
  optHash Ident.hash e.ty ++ e.value.hash.map .val ++ optHash Ident.hash e.name ++
  optHash EntryFmt.hash e.format

/-- `#[derive(Hash)]` on `KdlNodeFormat`. -/
def NodeFmt.hash (f : NodeFmt) : List Tok :=
  [.str f.leading, .str f.beforeTyName, .str f.afterTyName, .str f.afterTy, .str f.beforeChildren,
   .str f.beforeTerminator, .str f.terminator, .str f.trailing]

/-- `#[derive(Hash)]` on `KdlDocumentFormat`. -/
def DocFmt.hash (f : DocFmt) : List Tok := [.str f.leading, .str f.trailing]

mutual
/-- `src/node.rs:43-52` `Hash for KdlNode`. -/
def Node.hash : Node → List Tok
  | .mk t n e c f _ =>
    optHash Ident.hash t ++ n.hash ++ (.len e.length :: entriesHash e) ++ optDocHash c ++
    optHash NodeFmt.hash f
/-- `Option::hash` for documents. -/
def optDocHash : Option Document → List Tok
  | none => [.tag 0]
  | some d => .tag 1 :: d.hash
/-- `src/document.rs:38-44` `Hash for KdlDocument`. -/
def Document.hash : Document → List Tok
  | .mk n f _ => (.len n.length :: nodesHash n) ++ optHash DocFmt.hash f
/-- Hash of the elements of a `Vec<KdlNode>`. -/
def nodesHash : List Node → List Tok
  | [] => []
  | n :: ns => n.hash ++ nodesHash ns
/-- Hash of the elements of a `Vec<KdlEntry>`. -/
def entriesHash : List Entry → List Tok
  | [] => []
  | e :: es => e.hash ++ entriesHash es
end

/-! ### Constructors of the public API -/

/-- `src/entry.rs:43-52` `KdlEntry::new`. -/
def Entry.new (v : Value) : Entry := ⟨none, v, none, none, .zero⟩

/-- `src/entry.rs:131-140` `KdlEntry::new_prop`. -/
def Entry.newProp (key : Ident) (v : Value) : Entry := ⟨none, v, some key, none, .zero⟩

/-- `src/node.rs:56-69` `KdlNode::new`. -/
def Node.new (name : Ident) : Node :=
  .mk none name [] none (some { trailing := ['\n'] }) .zero

/-- `src/document.rs:46-61` `KdlDocument::new` / `Default`. -/
def Document.new : Document := .mk [] none .zero

end Kdl
