import Verif.Model.Parser.Numbers
/-
Entries, nodes and documents (`src/v2_parser.rs:256-883`), and the public
`parse` functions. `total` is always the byte length of the whole input.
-/

namespace Kdl

variable [FloatIO]

/-- `src/v2_parser.rs:864-883` `ty`. -/
def tyP (total : Nat) : P (Str × Ident × Str) := do
  lit ['(']
  let before ← takeP nodeSpace0
  let i ← cutErr (do
    let i ← identifier total
    peek (nodeSpace <+> lit [')'])
    return i)
  let after ← takeP nodeSpace0
  lit [')']
  return (before, i, after)

/-- `src/v2_parser.rs:818` the alternatives of `value`. -/
def valueBody : P Value :=
  keyword <+> number <+> (do let s ← stringP; return .string s)

/-- `src/v2_parser.rs:813-838` `value` (strict reading: always `Some`). -/
def value (total : Nat) : P Entry := do
  let s ← here
  let ty ← opt (do let t ← tyP total; let a ← takeP nodeSpace0; return (t, a))
  let s1 ← here
  let v ← valueBody
  let r ← here
  match ty with
  | some ((b, i, a), after) =>
    return { ty := some i, value := v, name := none,
             format := some { valueRepr := taken s1 r, afterTy := after, beforeTyName := b,
                              afterTyName := a },
             span := spanOf total s r }
  | none =>
    return { ty := none, value := v, name := none,
             format := some { valueRepr := taken s1 r }, span := spanOf total s r }

/-- `src/v2_parser.rs:606-613` `slashdashed_entries`; `entry` is `node_entry`. -/
def slashdashedEntriesF (entry : P Entry) : P Unit :=
  void (sep1 (do slashdash; entry) nodeSpace1)

/-- `src/v2_parser.rs:544-546`: what comes before an entry. -/
def entryLeadingF (entry : P Entry) : P Str :=
  takeP (do
    nodeSpace0
    opt (do slashdashedEntriesF entry; nodeSpace1))

/-- `src/v2_parser.rs:548-593`: an entry without what precedes it (its `leading`
is empty, its span is set by the caller). -/
def entryBody (total : Nat) : P Entry := do
  let ident ← opt (identifier total)
  match ident with
  | some i => do
    let afterKey ← opt (do let k ← takeP nodeSpace0; equalsSign; return k)
    match afterKey with
    | some ak => do
      let ae ← takeP nodeSpace0
      let v ← cutErr (value total)
      return { v with
        name := some i
        format := v.format.map fun f => { f with afterKey := ak, afterEq := ae } }
    | none =>
      return { ty := none, value := .string i.value, name := none,
               format := some { valueRepr := i.repr.getD i.value }, span := .zero }
  | none => value total

/-- `src/v2_parser.rs:543-604` `node_entry` (strict reading: always `Some`), with
the recursive call abstracted. -/
def nodeEntryF (total : Nat) (entry : P Entry) : P Entry := do
  let leading ← entryLeadingF entry
  let s ← here
  let e ← entryBody total
  let r ← here
  return { e with
    format := e.format.map fun f => { f with leading := leading }
    span := spanOf total s r }

/-- `node_entry` with a recursion budget. -/
def nodeEntryN (total : Nat) : Nat → P Entry
  | 0 => fun _ => .crash
  | n + 1 => nodeEntryF total (nodeEntryN total n)

/-- `src/v2_parser.rs:543-604` `node_entry`. Each level of recursion (a
slashdashed entry) consumes input. -/
def nodeEntry (total : Nat) : P Entry := fun s => nodeEntryN total (s.length + 1) s

/-- `src/v2_parser.rs:606-613` `slashdashed_entries`. -/
def slashdashedEntries (total : Nat) : P Unit := slashdashedEntriesF (nodeEntry total)

/-- `src/v2_parser.rs:284,296,330`: what may precede a node. -/
def leadingItems (base : P Node) : P Str :=
  takeP (rep0 (lineSpace <+> (do slashdash; void base)))

/-- `src/v2_parser.rs:329-339` `node`; `base` is `base_node`. -/
def nodeF (base : P Node) : P Node := do
  let leading ← leadingItems base
  let nd ← base
  return nd.setFormat (nd.format.map fun f => { f with leading := leading })

/-- `src/v2_parser.rs:303-308`: the first node takes the leading text. -/
def giveLeading (leading : Str) (ns : List Node) : Str × List Node :=
  match ns with
  | [] => (leading, [])
  | n :: rest =>
    match n.format with
    | none => (leading, n :: rest)
    | some f => ([], n.setFormat (some { f with leading := leading }) :: rest)

/-- `src/v2_parser.rs:282-319` `nodes`. The second alternative of the separator,
`(eof, any)`, can never succeed and is left out. -/
def nodesF (total : Nat) (base : P Node) : P Document := do
  let leading ← leadingItems base
  let s ← here
  let ns ← sep0 (nodeF base) nodeTerminator
  let r ← here
  let _ ← opt nodeTerminator
  let trailing ← leadingItems base
  let (leading, ns) := giveLeading leading ns
  return .mk ns (some { leading := leading, trailing := trailing }) (spanOf total s r)

/-- `src/v2_parser.rs:760-800` `node_children` (strict reading: a missing `}` is
fatal). -/
def nodeChildrenF (total : Nat) (base : P Node) : P Document := do
  lit ['{']
  let d ← nodesF total base
  cutErr (lit ['}'])
  return d

/-- `src/v2_parser.rs:738-750` `slashdashed_children`. -/
def slashdashedChildrenF (total : Nat) (base : P Node) : P Unit := do
  nodeSpace0
  void (sep1 (do slashdash; void (nodeChildrenF total base)) nodeSpace1)

/-- `src/v2_parser.rs:711-729` `before_node_children`. -/
def beforeNodeChildrenF (total : Nat) (base : P Node) : P Unit := do
  (do nodeSpace1; slashdashedEntries total; nodeSpace1; slashdashedChildrenF total base) <+>
    (do nodeSpace1; slashdashedEntries total) <+>
    (do nodeSpace1; slashdashedChildrenF total base) <+>
    nodeSpace0
  nodeSpace0

/-- `src/v2_parser.rs:393-398`: the entries of a node. -/
def entriesP (total : Nat) : P (List Entry) :=
  rep0 (do peek nodeSpace1; nodeEntry total)

/-- `src/v2_parser.rs:399-403`: the children block of a node. -/
def childrenP (total : Nat) (base : P Node) : P (Option (Str × Document)) :=
  opt (do
    let b ← takeP (beforeNodeChildrenF total base)
    let d ← nodeChildrenF total base
    return (b, d))

/-- `src/v2_parser.rs:404-412`: the text before the terminator. -/
def tailText (total : Nat) (base : P Node) (hasChildren : Bool) : P Str :=
  if hasChildren then takeP (opt (slashdashedChildrenF total base))
  else takeP (beforeNodeChildrenF total base)

/-- `src/v2_parser.rs:404-416`: the text before the terminator, and the
terminator itself, which is only looked at. -/
def tailP (total : Nat) (base : P Node) (hasChildren : Bool) : P (Str × Str) := do
  let bt ← tailText total base hasChildren
  let t ← peek (takeP (opt nodeTerminator))
  return (bt, t)

/-- `src/v2_parser.rs:341-439` `base_node`, with the recursive call
abstracted. -/
def baseNodeF (total : Nat) (base : P Node) : P Node := do
  notP (lit ['}'] <+> eof)
  let s ← here
  cutErr (notP (lit ['{']))
  let ty ← opt (tyP total)
  let afterTy ← takeP nodeSpace0
  let name ← cutErr (identifier total)
  if name.repr = some [] then cutP else do
  let entries ← entriesP total
  let children ← childrenP total base
  let (bt, t) ← tailP total base children.isSome
  nodeSpace0
  let r ← here
  let (tyB, tyI, tyA) : Str × Option Ident × Str :=
    match ty with
    | some (b, i, a) => (b, some i, a)
    | none => ([], none, [])
  let (bc, ch) : Str × Option Document :=
    match children with
    | some (b, d) => (b, some d)
    | none => ([], none)
  return .mk tyI name entries ch
    (some { beforeTyName := tyB, afterTyName := tyA, afterTy := afterTy, beforeChildren := bc,
            beforeTerminator := bt, terminator := t })
    (spanOf total s r)

/-- `base_node` with a recursion budget. -/
def baseNodeN (total : Nat) : Nat → P Node
  | 0 => fun _ => .crash
  | n + 1 => baseNodeF total (baseNodeN total n)

/-- `src/v2_parser.rs:341-439` `base_node`. Each level of recursion (a children
block or a slashdashed node) consumes input. -/
def baseNode (total : Nat) : P Node := fun s => baseNodeN total (s.length + 1) s

/-- `src/v2_parser.rs:494-512` `padded_node`. -/
def paddedNode (total : Nat) : P Node := do
  let s ← here
  let n ← nodeF (baseNode total)
  let _ ← opt nodeTerminator
  let trailing ← takeP (rep0 (lineSpace <+> nodeSpace))
  let r ← here
  return (n.setFormat (n.format.map fun f => { f with trailing := trailing })).setSpan
    (spanOf total s r)

/-- `src/v2_parser.rs:514-539` `padded_node_entry`. -/
def paddedNodeEntry (total : Nat) : P Entry := do
  let s ← here
  let leading ← takeP (rep0 lineSpace)
  let e ← nodeEntry total
  let trailing ← takeP (rep0 (lineSpace <+> nodeSpace))
  let r ← here
  return { e with
    format := e.format.map fun f =>
      { f with leading := leading ++ f.leading, trailing := f.trailing ++ trailing }
    span := spanOf total s r }

/-- `src/v2_parser.rs:273-277`: put the byte order mark back. -/
def Document.prependLeading (d : Document) (t : Str) : Document :=
  .mk d.nodes (d.format.map fun f => { f with leading := t ++ f.leading }) d.span

/-- `src/v2_parser.rs:261-279` `document`. -/
def documentP (total : Nat) : P Document := do
  let b ← opt (takeP bom)
  let d ← nodesF total (baseNode total)
  cutErr eof
  match b with
  | some b => return d.prependLeading b
  | none => return d

/-- Result of a public `parse` function: `err` is `Err(KdlError)`, `panic` an
abort of the process. -/
inductive ParseResult (α : Type) where
  | ok (a : α)
  | err
  | panic
  deriving DecidableEq

/-- `src/v2_parser.rs:30-40` `try_parse`: winnow's `recoverable_parse` requires
the parser to reach the end of the input. -/
def tryParse {α : Type} (p : Nat → P α) (s : Str) : ParseResult α :=
  match (do let a ← p (utf8Len s); eof; return a : P α) s with
  | .ok a _ => .ok a
  | .back => .err
  | .cut => .err
  | .crash => .panic

/-- `src/document.rs:347-374` `KdlDocument::parse`, `parse_v2`, `FromStr`. -/
def Document.parse (s : Str) : ParseResult Document := tryParse documentP s
/-- `src/node.rs:338-348` `KdlNode::parse`, `FromStr`. -/
def Node.parse (s : Str) : ParseResult Node := tryParse paddedNode s
/-- `src/entry.rs:204-214` `KdlEntry::parse`, `FromStr`. -/
def Entry.parse (s : Str) : ParseResult Entry := tryParse paddedNodeEntry s
/-- `src/identifier.rs:97-107` `KdlIdentifier::parse`, `FromStr`. -/
def Ident.parse (s : Str) : ParseResult Ident := tryParse identifier s

end Kdl
