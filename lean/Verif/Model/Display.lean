import Verif.Model.Types
/-
The `Display` implementations.
-/

namespace Kdl

variable [FloatIO]

/-- `src/identifier.rs:129-137` `Display for KdlIdentifier`. -/
def Ident.display (i : Ident) : Str :=
  match i.repr with
  | some r => r
  | none => Value.display (.string i.value)

/-- The type annotation part of `src/entry.rs:422-432`. -/
def Entry.displayTy (e : Entry) : Str :=
  match e.ty with
  | none => []
  | some t =>
    '(' :: (match e.format with | some f => f.beforeTyName | none => []) ++ t.display ++
      (match e.format with | some f => f.afterTyName | none => []) ++ [')']

/-- The key part of `src/entry.rs:409-421`. -/
def Entry.displayKey (e : Entry) : Str :=
  match e.name with
  | none => []
  | some n =>
    n.display ++ (match e.format with
      | some f => f.afterKey ++ ['='] ++ f.afterEq
      | none => ['='])

/-- `src/entry.rs:404-448` `Display for KdlEntry`. -/
def Entry.display (e : Entry) : Str :=
  (match e.format with | some f => f.leading | none => []) ++
  e.displayKey ++ e.displayTy ++
  (match e.format with | some f => f.afterTy ++ f.valueRepr | none => e.value.display) ++
  (match e.format with | some f => f.trailing | none => [])

/-- `write!(f, "{:indent$}", "", indent = indent)`. -/
def spaces (n : Nat) : Str := List.replicate n ' '

/-- The loop over entries of `src/node.rs:842-848` (text part). -/
def displayEntries : List Entry → Str
  | [] => []
  | e :: es => (if e.format.isNone then [' '] else []) ++ e.display ++ displayEntries es

/-- The loop over entries of `src/node.rs:841-848`
(`space_before_children` part). -/
def spaceBeforeChildren (es : List Entry) : Bool :=
  match es.getLast? with
  | none => true
  | some e => e.format.isNone

mutual
/-- `src/node.rs:827-878` `KdlNode::stringify`. -/
def Node.stringify : Node → Nat → Str
  | .mk ty name entries children format _, indent =>
    (match format with | some f => f.leading | none => spaces indent) ++
    (match ty with | some t => ['('] ++ t.display ++ [')'] | none => []) ++
    name.display ++
    displayEntries entries ++
    childrenStringify children
      (match format with
        | some f => f.beforeChildren
        | none => if spaceBeforeChildren entries then [' '] else []) indent ++
    (match format with
      | some f => f.beforeTerminator ++ f.terminator ++ f.trailing
      | none => [])
/-- `src/node.rs:849-867`: the children block; `before` is the text written
before the opening brace. -/
def childrenStringify : Option Document → Str → Nat → Str
  | none, _, _ => []
  | some d, before, indent =>
    before ++ ['{'] ++ (if d.format.isNone then ['\n'] else []) ++ d.stringify (indent + 4) ++
    (if d.format.isNone then spaces indent else []) ++ ['}']
/-- `src/document.rs:535-552` `KdlDocument::stringify`. -/
def Document.stringify : Document → Nat → Str
  | .mk nodes format _, indent =>
    (match format with | some f => f.leading | none => []) ++
    nodesStringify nodes indent ++
    (match format with | some f => f.trailing | none => [])
/-- `src/document.rs:544-546`. -/
def nodesStringify : List Node → Nat → Str
  | [], _ => []
  | n :: ns, indent => n.stringify indent ++ nodesStringify ns indent
end

/-- `src/node.rs:820-824` `Display for KdlNode`. -/
def Node.display (n : Node) : Str := n.stringify 0

/-- `src/document.rs:529-533` `Display for KdlDocument`. -/
def Document.display (d : Document) : Str := d.stringify 0

/-- `src/identifier.rs:70-77` `len`, `is_empty`. -/
def Ident.len (i : Ident) : Nat := utf8Len i.display
/-- `src/identifier.rs:75-77`. -/
def Ident.isEmpty (i : Ident) : Bool := i.len == 0
/-- `src/entry.rs:155-157`. -/
def Entry.len (e : Entry) : Nat := utf8Len e.display
/-- `src/entry.rs:160-162`. -/
def Entry.isEmpty (e : Entry) : Bool := e.len == 0
/-- `src/document.rs:212-214`. -/
def Document.len (d : Document) : Nat := utf8Len d.display
/-- `src/document.rs:217-219`. -/
def Document.isEmpty (d : Document) : Bool := d.len == 0

end Kdl
