import Verif.Model.Types
/-
The editing and lookup API of `KdlNode` and `KdlDocument`
(`src/node.rs`, `src/document.rs`), and setters of entries and identifiers.
-/

namespace Kdl

/-- Result of a call that may panic. -/
inductive Outcome (α : Type) where
  | ret (a : α)
  | panic
  deriving DecidableEq

/-- `src/node.rs:756-761` `NodeKey`. -/
inductive NodeKey where
  | key (k : Ident)
  | index (i : Nat)
  deriving DecidableEq

/-- `src/node.rs:763-767` `From<&str> for NodeKey`. -/
def NodeKey.ofStr (s : Str) : NodeKey := .key (.ofStr s)

/-- Is the entry a property whose key has the given value
(`src/node.rs:163-164`, `197-198`)? -/
def Entry.hasKey (e : Entry) (k : Str) : Bool :=
  match e.name with
  | some n => n.value == k
  | none => false

/-- `src/node.rs:161-169`: the loop of `entry_impl` for a string key. -/
def entryByKeyLoop (k : Str) : List Entry → Option Entry → Option Entry
  | [], current => current
  | e :: es, current => entryByKeyLoop k es (if e.hasKey k then some e else current)

/-- `src/node.rs:172-181`: the loop of `entry_impl` for a number key. -/
def entryByIndexLoop (idx : Nat) : List Entry → Nat → Option Entry
  | [], _ => none
  | e :: es, current =>
    if e.name.isNone then
      if current = idx then some e else entryByIndexLoop idx es (current + 1)
    else entryByIndexLoop idx es current

/-- `src/node.rs:154-184` `entry`. -/
def Node.entry (n : Node) : NodeKey → Option Entry
  | .key k => entryByKeyLoop k.value n.entries none
  | .index i => entryByIndexLoop i n.entries 0

/-- `src/node.rs:552-554` `get`. -/
def Node.get (n : Node) (k : NodeKey) : Option Value := (n.entry k).map Entry.value

/-- `src/node.rs:195-203`: position of the entry that `entry_mut` points to, for
a string key; `pos` is the position of the head of the list. -/
def posByKeyLoop (k : Str) : List Entry → Nat → Option Nat → Option Nat
  | [], _, current => current
  | e :: es, pos, current => posByKeyLoop k es (pos + 1) (if e.hasKey k then some pos else current)

/-- `src/node.rs:206-215`: position of the entry that `entry_mut` points to, for
a number key. Also the loops at `src/node.rs:617-626` and `710-718`. -/
def posByIndexLoop (idx : Nat) : List Entry → Nat → Nat → Option Nat
  | [], _, _ => none
  | e :: es, pos, current =>
    if e.name.isNone then
      if current = idx then some pos else posByIndexLoop idx es (pos + 1) (current + 1)
    else posByIndexLoop idx es (pos + 1) current

/-- `src/node.rs:188-218` `entry_mut`: position of the entry pointed to. -/
def Node.entryMutPos (n : Node) : NodeKey → Option Nat
  | .key k => posByKeyLoop k.value n.entries 0 none
  | .index i => posByIndexLoop i n.entries 0 0

/-- Using the reference returned by `entry_mut` (`src/node.rs:188-218`) to
replace the entry; `none` if `entry_mut` returns `None`. -/
def Node.entryMut (n : Node) (k : NodeKey) (f : Entry → Entry) : Option Node :=
  (n.entryMutPos k).map fun p => n.setEntries (n.entries.modify p f)

/-- Assigning through the reference returned by `get_mut`
(`src/node.rs:558-560`). -/
def Node.getMutSet (n : Node) (k : NodeKey) (v : Value) : Option Node :=
  n.entryMut k fun e => { e with value := v }

/-- `src/node.rs:578-580` `push`. -/
def Node.push (n : Node) (e : Entry) : Node := n.setEntries (n.entries ++ [e])

/-- `src/node.rs:563-565` `len`. -/
def Node.len (n : Node) : Nat := n.entries.length

/-- `src/node.rs:568-570` `is_empty`. -/
def Node.isEmpty (n : Node) : Bool := n.entries.isEmpty

/-- `src/node.rs:573-575` `clear`. -/
def Node.clear (n : Node) : Node := n.setEntries []

/-- Number of arguments seen by the loop at `src/node.rs:617-626`. -/
def countArgs : List Entry → Nat
  | [] => 0
  | e :: es => (if e.name.isNone then 1 else 0) + countArgs es

/-- `src/node.rs:588-635` `insert`: the new node and the returned entry. -/
def Node.insert (n : Node) (k : NodeKey) (e : Entry) : Outcome (Node × Option Entry) :=
  match k with
  | .key key =>
    let e := if e.name.isNone then { e with name := some key } else e
    if e.name.map Ident.value ≠ some key.value then .panic
    else
      match n.entryMutPos (.key key) with
      | some p => .ret (n.setEntries (n.entries.set p e), n.entries[p]?)
      | none => .ret (n.push e, none)
  | .index idx =>
    if e.name.isSome then .panic
    else
      match posByIndexLoop idx n.entries 0 0 with
      | some p => .ret (n.setEntries (n.entries.insertIdx p e), none)
      | none => if countArgs n.entries < idx then .panic else .ret (n.push e, none)

/-- `src/node.rs:702-707`: the loop of `remove_impl` for a string key; keys are
compared with `KdlIdentifier`'s `PartialEq`, which includes the representation. -/
def posByIdentLoop (k : Ident) : List Entry → Nat → Option Nat
  | [], _ => none
  | e :: es, pos =>
    match e.name with
    | some nm => if nm.eq k then some pos else posByIdentLoop k es (pos + 1)
    | none => posByIdentLoop k es (pos + 1)

/-- `src/node.rs:695-724` `remove`: the new node and the returned entry. -/
def Node.remove (n : Node) (k : NodeKey) : Outcome (Node × Option Entry) :=
  match k with
  | .key key =>
    match posByIdentLoop key n.entries 0 with
    | some p => .ret (n.setEntries (n.entries.eraseIdx p), n.entries[p]?)
    | none => .ret (n, none)
  | .index idx =>
    match posByIndexLoop idx n.entries 0 0 with
    | some p => .ret (n.setEntries (n.entries.eraseIdx p), n.entries[p]?)
    | none => .panic

/-- `src/node.rs:727-732` `retain`. -/
def Node.retain (n : Node) (keep : Entry → Bool) : Node := n.setEntries (n.entries.filter keep)

/-- `src/node.rs:781-787`, `795-801` `Index<usize>` / `Index<&str>`. -/
def Node.indexed (n : Node) (k : NodeKey) : Outcome Value :=
  match n.get k with
  | some v => .ret v
  | none => .panic

/-- `src/node.rs:789-793` `node[i] = v`. -/
def Node.indexMutUsize (n : Node) (i : Nat) (v : Value) : Outcome Node :=
  match n.getMutSet (.index i) v with
  | some n' => .ret n'
  | none => .panic

/-- `src/node.rs:803-810` `node["key"] = v`. -/
def Node.indexMutStr (n : Node) (k : Str) (v : Value) : Outcome Node :=
  let n := if (n.get (.ofStr k)).isNone then n.push (.newProp (.ofStr k) .null) else n
  match n.getMutSet (.ofStr k) v with
  | some n' => .ret n'
  | none => .panic

/-- `src/node.rs:231-233` `set_children`. -/
def Node.setChildren (n : Node) (d : Document) : Node :=
  .mk n.ty n.name n.entries (some d) n.format n.span
/-- `src/node.rs:236-238` `clear_children`. -/
def Node.clearChildren (n : Node) : Node := .mk n.ty n.name n.entries none n.format n.span
/-- `src/node.rs:242-247` `ensure_children`: the node afterwards. -/
def Node.ensureChildren (n : Node) : Node :=
  match n.children with
  | none => n.setChildren .new
  | some _ => n
/-- `src/node.rs:540-542` `iter_children`. -/
def Node.iterChildren (n : Node) : List Node :=
  match n.children with
  | some d => d.nodes
  | none => []
/-- `src/node.rs:82-84` `set_name`. -/
def Node.setName (n : Node) (i : Ident) : Node := .mk n.ty i n.entries n.children n.format n.span
/-- `src/node.rs:113-115` `set_ty`. -/
def Node.setTy (n : Node) (i : Ident) : Node := .mk (some i) n.name n.entries n.children n.format n.span

/-! ### Documents -/

/-- `src/document.rs:80-82` `get`. -/
def Document.get (d : Document) (name : Str) : Option Node :=
  d.nodes.find? fun n => n.name.value == name

/-- `src/document.rs:109-111` `get_arg`. -/
def Document.getArg (d : Document) (name : Str) : Option Value :=
  match d.get name with
  | some n => n.get (.index 0)
  | none => none

/-- `src/document.rs:137-144` `iter_args`, collected. -/
def Document.iterArgs (d : Document) (name : Str) : List Value :=
  ((match d.get name with
    | some n => n.entries
    | none => []).filter fun (e : Entry) => e.name.isNone).map Entry.value

/-- `src/document.rs:176-184` `iter_dash_args`, collected. -/
def Document.iterDashArgs (d : Document) (name : Str) : List Value :=
  ((match d.get name with
    | some n => n.iterChildren
    | none => []).filter fun (n : Node) => n.name.value == ['-']).filterMap
    fun (n : Node) => n.get (.index 0)

/-- Replacing the node that `get_mut` (`src/document.rs:85-89`) points to. -/
def Document.getMut (d : Document) (name : Str) (f : Node → Node) : Option Document :=
  (d.nodes.findIdx? fun n => n.name.value == name).map fun p =>
    .mk (d.nodes.modify p f) d.format d.span

/-- Assigning through `get_arg_mut` (`src/document.rs:149-151`). -/
def Document.getArgMutSet (d : Document) (name : Str) (v : Value) : Option Document :=
  match d.get name with
  | none => none
  | some n =>
    match n.getMutSet (.index 0) v with
    | none => none
    | some n' => d.getMut name fun _ => n'

/-! ### Setters -/

/-- `src/entry.rs:80-82` `set_value`. -/
def Entry.setValue (e : Entry) (v : Value) : Entry := { e with value := v }
/-- `src/entry.rs:111-113` `set_ty`. -/
def Entry.setTy (e : Entry) (i : Ident) : Entry := { e with ty := some i }
/-- `src/entry.rs:65-67` `set_name`. -/
def Entry.setName (e : Entry) (i : Option Ident) : Entry := { e with name := i }
/-- `src/identifier.rs:39-41` `set_value`. -/
def Ident.setValue (i : Ident) (v : Str) : Ident := { i with value := v }
/-- `src/identifier.rs:65-67` `set_repr`. -/
def Ident.setRepr (i : Ident) (v : Str) : Ident := { i with repr := some v }

end Kdl
