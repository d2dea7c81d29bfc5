import Verif.Props.NodeApi
/-
C48: the remaining mutators of nodes (`retain`, `clear`, `push`, `set_children`,
`ensure_children`, `clear_children`, `set_name`, `set_ty`): what changes and what
does not.
-/

namespace Kdl
open Spec

/-- Everything of a node apart from its entries is the same. -/
def Spec.SameBut (n n' : Node) : Prop :=
  n'.ty = n.ty ∧ n'.name = n.name ∧ n'.children = n.children ∧ n'.format = n.format ∧ n'.span = n.span

/-- C48: `retain(keep)` keeps exactly the entries that satisfy the predicate, in
order (the kept entries form a subsequence, all of them satisfy it, and there are as
many as satisfy it), and changes nothing else. -/
theorem C48_retain (n : Node) (keep : Entry → Bool) :
    List.Sublist (n.retain keep).entries n.entries ∧ (∀ e ∈ (n.retain keep).entries, keep e = true) ∧
    (n.retain keep).len = n.entries.countP keep ∧ SameBut n (n.retain keep) := by
  refine ⟨?_, ?_, ?_, ?_⟩
  · simp [Node.retain, Node.setEntries]
  · intro e he
    simp [Node.retain, Node.setEntries] at he
    exact he.2
  · simp [Node.retain, Node.setEntries, Node.len, List.countP_eq_length_filter]
  · exact ⟨rfl, rfl, rfl, rfl, rfl⟩

/-- C48: what can be looked up after `retain`: the arguments that were kept, renumbered,
and the last kept property of a name. -/
theorem C48_retain_observed (n : Node) (keep : Entry → Bool) :
    (∀ i, (n.retain keep).get (.index i) = (((args n.entries).filter keep)[i]?).map Entry.value) ∧
    ∀ k, (n.retain keep).get (.ofStr k) = (((propsOf k n.entries).filter keep).getLast?).map Entry.value := by
  constructor
  · intro i
    rw [Node.get_index]
    simp only [lookupArg, Node.retain, Node.setEntries, Node.entries_mk, args, List.filter_filter, Bool.and_comm]
  · intro k
    rw [NodeKey.ofStr, Node.get_key]
    simp only [lookupProp, Node.retain, Node.setEntries, Node.entries_mk, propsOf, List.filter_filter, Bool.and_comm,
      Ident.ofStr]
    rfl

/-- C48: keeping everything keeps the node, and retaining twice is retaining with both
predicates. -/
theorem C48_retain_laws (n : Node) (p q : Entry → Bool) :
    n.retain (fun _ => true) = n ∧ (n.retain p).retain q = n.retain (fun e => p e && q e) := by
  constructor
  · cases n
    have : ∀ l : List Entry, l.filter (fun _ => true) = l := by
      intro l
      induction l with
      | nil => rfl
      | cons a l ih => simp
    simp only [Node.retain, Node.setEntries, Node.entries_mk, this]
    rfl
  · cases n
    simp only [Node.retain, Node.setEntries, Node.entries_mk, List.filter_filter, Bool.and_comm]
    rfl

/-- C48: `clear` removes all entries and nothing else. -/
theorem C48_clear (n : Node) : n.clear.len = 0 ∧ n.clear.isEmpty = true ∧ (∀ k, n.clear.get k = none) ∧ SameBut n n.clear := by
  refine ⟨rfl, rfl, ?_, ⟨rfl, rfl, rfl, rfl, rfl⟩⟩
  intro k
  cases k <;> rfl

/-- C48: `push` adds one entry at the end: the entry count grows by one, a new argument
gets the next index, a new property becomes the value of its name, and everything
else is looked up as before. -/
theorem C48_push (n : Node) (e : Entry) :
    (n.push e).len = n.len + 1 ∧ SameBut n (n.push e) ∧
    (IsArg e → (n.push e).get (.index (args n.entries).length) = some e.value) ∧
    (∀ k, IsProp k e → (n.push e).get (.ofStr k) = some e.value) ∧
    (∀ i, i < (args n.entries).length → (n.push e).get (.index i) = n.get (.index i)) ∧
    ∀ k, ¬ IsProp k e → (n.push e).get (.ofStr k) = n.get (.ofStr k) := by
  refine ⟨by simp [Node.push, Node.setEntries, Node.len], ⟨rfl, rfl, rfl, rfl, rfl⟩, ?_, ?_, ?_, ?_⟩
  · intro h
    have e0 : args [] = [] := rfl
    rw [Node.get_index]
    simp [lookupArg, Node.push, Node.setEntries, args_append, args_cons_pos h, e0]
  · intro k h
    have e0 : propsOf k [] = [] := rfl
    rw [NodeKey.ofStr, Node.get_key]
    simp [lookupProp, Node.push, Node.setEntries, propsOf_append, Ident.ofStr, propsOf_cons_pos h, e0]
  · intro i hi
    rw [Node.get_index, Node.get_index]
    simp [lookupArg, Node.push, Node.setEntries, args_append, List.getElem?_append_left hi]
  · intro k h
    have e0 : propsOf k [] = [] := rfl
    rw [NodeKey.ofStr, Node.get_key, Node.get_key]
    simp [lookupProp, Node.push, Node.setEntries, propsOf_append, Ident.ofStr, propsOf_cons_neg h, e0]

/-- C48: children. `set_children` makes exactly the given nodes the children;
`ensure_children` makes sure there is a block, keeps the nodes of an existing one and
otherwise adds an empty one; `clear_children` leaves no block. Nothing else changes. -/
theorem C48_children (n : Node) (d : Document) :
    (n.setChildren d).iterChildren = d.nodes ∧ (n.setChildren d).entries = n.entries ∧
    (n.ensureChildren).iterChildren = n.iterChildren ∧ n.ensureChildren.children.isSome = true ∧
    (n.children ≠ none → n.ensureChildren = n) ∧ n.ensureChildren.entries = n.entries ∧
    n.clearChildren.iterChildren = [] ∧ n.clearChildren.children = none ∧ n.clearChildren.entries = n.entries ∧
    n.ensureChildren.ensureChildren = n.ensureChildren := by
  obtain ⟨ty, name, es, ch, f, sp⟩ := n
  cases ch with
  | none => exact ⟨rfl, rfl, rfl, rfl, fun h => absurd rfl h, rfl, rfl, rfl, rfl, rfl⟩
  | some c => exact ⟨rfl, rfl, rfl, rfl, fun _ => rfl, rfl, rfl, rfl, rfl, rfl⟩

/-- C48: `set_name` and `set_ty` change the name and the annotation only. -/
theorem C48_set_name_ty (n : Node) (i : Ident) :
    (n.setName i).name = i ∧ (n.setName i).ty = n.ty ∧ (n.setName i).entries = n.entries ∧
    (n.setName i).children = n.children ∧ (n.setName i).format = n.format ∧
    (n.setTy i).ty = some i ∧ (n.setTy i).name = n.name ∧ (n.setTy i).entries = n.entries ∧
    (n.setTy i).children = n.children ∧ (n.setTy i).format = n.format :=
  ⟨rfl, rfl, rfl, rfl, rfl, rfl, rfl, rfl, rfl, rfl⟩

/-- Of the five entries of the sample node, those that are arguments are kept. -/
example : (sampleNode.retain fun e => decide (IsArg e)).len = 2 ∧ sampleNode.len = 5 := by decide
example : IsArg (.new .null) ∧ IsProp ['k'] (.newProp (.ofStr ['k']) .null) := by decide

end Kdl
