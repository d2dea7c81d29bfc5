import Verif.Lemmas.Entries
/-
Properties of the entry API of nodes: C19 to C23.
-/

namespace Kdl
open Spec

/-! ### Helper: where a key points -/

/-- `x` is the entry that the key designates in `pre ++ x :: post`. -/
def Spec.Designates (k : NodeKey) (pre : List Entry) (x : Entry) (post : List Entry) : Prop :=
  match k with
  | .key i => IsProp i.value x ∧ ∀ e ∈ post, ¬ IsProp i.value e
  | .index i => IsArg x ∧ (args pre).length = i

/-- No entry is designated by the key. -/
def Spec.Absent (k : NodeKey) (es : List Entry) : Prop :=
  match k with
  | .key i => ∀ e ∈ es, ¬ IsProp i.value e
  | .index i => (args es).length ≤ i

theorem Node.locate (n : Node) (k : NodeKey) :
    (Absent k n.entries ∧ n.entry k = none ∧ n.entryMutPos k = none) ∨
    ∃ pre x post, n.entries = pre ++ x :: post ∧ Designates k pre x post ∧ n.entry k = some x ∧
      n.entryMutPos k = some pre.length := by
  cases k with
  | key i =>
    rcases last_split i.value n.entries with h | ⟨pre, x, post, he, hx, hp⟩
    · left; exact ⟨h, by simp [Node.entry, entryByKey_none h],
        by simp [Node.entryMutPos, posByKey_none h]⟩
    · right; refine ⟨pre, x, post, he, ⟨hx, hp⟩, ?_, ?_⟩
      · simp [Node.entry, he, entryByKey_split hx hp]
      · simp [Node.entryMutPos, he, posByKey_split hx hp]
  | index i =>
    rcases arg_split n.entries i with ⟨hl, hp⟩ | ⟨pre, x, post, he, hx, hl, hp⟩
    · left; refine ⟨hl, ?_, ?_⟩
      · simp only [Node.entry]; rw [entryByIndex_eq _ _ _ (by omega)]; simpa using hl
      · simpa [Node.entryMutPos] using hp 0 0
    · right; refine ⟨pre, x, post, he, ⟨hx, hl⟩, ?_, ?_⟩
      · simp only [Node.entry]
        rw [entryByIndex_eq _ _ _ (by omega), he, args_append, args_cons_pos hx, ← hl]; simp
      · simpa [Node.entryMutPos] using hp 0 0

/-! ### C19 -/

/-- C19: a property lookup returns the value of the last entry with that name. -/
theorem C19_get_last_property (n : Node) (k : Ident) :
    n.get (.key k) = lookupProp k.value n.entries := n.get_key k

/-- C19: an argument lookup returns the value of the `i`-th unnamed entry. -/
theorem C19_get_nth_argument (n : Node) (i : Nat) :
    n.get (.index i) = lookupArg i n.entries := n.get_index i

/-- C19: `entry` finds the entry whose value `get` returns. -/
theorem C19_entry_key (n : Node) (k : Ident) :
    n.entry (.key k) = (propsOf k.value n.entries).getLast? := entryByKey_eq _ _

/-- C19: `entry` finds the entry whose value `get` returns. -/
theorem C19_entry_index (n : Node) (i : Nat) : n.entry (.index i) = (args n.entries)[i]? := by
  simp [Node.entry, entryByIndex_eq]

/-- C19: `entry_mut` is `None` exactly when `entry` is, and otherwise points to
that very entry: writing through it changes this entry and nothing else. -/
theorem C19_entry_mut (n : Node) (k : NodeKey) (f : Entry → Entry) :
    (n.entry k = none ∧ n.entryMut k f = none) ∨
    ∃ pre x post, n.entries = pre ++ x :: post ∧ n.entry k = some x ∧
      n.entryMut k f = some (.mk n.ty n.name (pre ++ f x :: post) n.children n.format n.span) := by
  rcases n.locate k with ⟨_, h1, h2⟩ | ⟨pre, x, post, he, _, h1, h2⟩
  · left; exact ⟨h1, by simp [Node.entryMut, h2]⟩
  · right; refine ⟨pre, x, post, he, h1, ?_⟩
    simp [Node.entryMut, h2, he, modify_split, Node.setEntries]

/-- C19: indexing returns what `get` finds and panics when there is nothing. -/
theorem C19_index (n : Node) (k : NodeKey) :
    (∀ v, n.indexed k = .ret v ↔ n.get k = some v) ∧ (n.indexed k = .panic ↔ n.get k = none) := by
  unfold Node.indexed
  cases n.get k <;> simp

/-- A node with an argument, two properties `x`, and another property. -/
def Spec.sampleNode : Node :=
  .mk none (.ofStr ['n'])
    [.newProp (.ofStr ['x']) (.bool true), .new .null, .newProp (.ofStr ['x']) (.bool false),
     .newProp (.ofStr ['y']) (.string ['v']), .new (.string ['z'])] none none .zero

example : sampleNode.get (.ofStr ['x']) = some (.bool false) := by decide
example : sampleNode.get (.index 1) = some (.string ['z']) := by decide

/-! ### C20 -/

/-- The entry that `insert` stores: an unnamed entry gets the key as name. -/
def Spec.named (key : Ident) (e : Entry) : Entry :=
  match e.name with
  | some _ => e
  | none => { e with name := some key }

theorem insert_key_eq (n : Node) (key : Ident) (e : Entry) :
    n.insert (.key key) e =
      if ∃ i, e.name = some i ∧ i.value ≠ key.value then .panic
      else match n.entryMutPos (.key key) with
        | some p => .ret (n.setEntries (n.entries.set p (named key e)), n.entries[p]?)
        | none => .ret (n.push (named key e), none) := by
  unfold Node.insert named
  cases h : e.name with
  | none => simp; rfl
  | some i => simp [h]; rfl

theorem named_isProp {key : Ident} {e : Entry} (h : ∀ i, e.name = some i → i.value = key.value) :
    IsProp key.value (named key e) := by
  unfold IsProp named
  cases hn : e.name with
  | none => simp
  | some i => simp [hn, h i hn]

@[simp] theorem named_value (key : Ident) (e : Entry) : (named key e).value = e.value := by
  unfold named; cases e.name <;> rfl

/-- C20: `insert` panics exactly when the entry carries a different name. -/
theorem C20_insert_panics_iff (n : Node) (key : Ident) (e : Entry) :
    n.insert (.key key) e = .panic ↔ ∃ i, e.name = some i ∧ i.value ≠ key.value := by
  rw [insert_key_eq]
  split
  · simp_all
  · rename_i h
    simp only [h, iff_false]
    split <;> simp

/-- C20: otherwise, the entry that `get` saw is replaced in place and returned,
or the new entry is appended and nothing is returned; nothing else changes. -/
theorem C20_insert_shape (n : Node) (key : Ident) (e : Entry)
    (h : ∀ i, e.name = some i → i.value = key.value) :
    (n.entry (.key key) = none ∧
      n.insert (.key key) e = .ret
        (.mk n.ty n.name (n.entries ++ [named key e]) n.children n.format n.span, none)) ∨
    ∃ pre x post, n.entries = pre ++ x :: post ∧ n.entry (.key key) = some x ∧
      IsProp key.value x ∧ (∀ y ∈ post, ¬ IsProp key.value y) ∧
      n.insert (.key key) e = .ret
        (.mk n.ty n.name (pre ++ named key e :: post) n.children n.format n.span, some x) := by
  rw [insert_key_eq]
  have hneg : ¬ ∃ i, e.name = some i ∧ i.value ≠ key.value := by
    rintro ⟨i, hi, hne⟩; exact hne (h i hi)
  simp only [hneg, if_false]
  rcases n.locate (.key key) with ⟨_, h1, h2⟩ | ⟨pre, x, post, he, hd, h1, h2⟩
  · left; exact ⟨h1, by simp [h2, Node.push, Node.setEntries]⟩
  · right; refine ⟨pre, x, post, he, h1, hd.1, hd.2, ?_⟩
    simp only [h2, he, set_split, getElem_split, Node.setEntries]

/-- C20: after `insert`, `get` of the key is the new value; every other key and
every argument keep theirs; the returned entry is what `entry` saw. -/
theorem C20_insert_map_update (n : Node) (key : Ident) (e : Entry) (n' : Node) (old : Option Entry)
    (hi : n.insert (.key key) e = .ret (n', old)) :
    n'.get (.key key) = some e.value ∧ old = n.entry (.key key) ∧
    (∀ k : Ident, k.value ≠ key.value → n'.get (.key k) = n.get (.key k)) ∧
    (∀ i : Nat, n'.get (.index i) = n.get (.index i)) ∧
    n'.entries.length = n.entries.length + (if old.isSome then 0 else 1) := by
  have h : ∀ i, e.name = some i → i.value = key.value := by
    intro i hi'
    refine Classical.byContradiction fun hne => ?_
    have := (C20_insert_panics_iff n key e).mpr ⟨i, hi', hne⟩
    rw [this] at hi; cases hi
  have hP := named_isProp h
  have hA : ¬ IsArg (named key e) := hP.not_arg
  have hO : ∀ k : Ident, k.value ≠ key.value → ¬ IsProp k.value (named key e) := by
    intro k hk hp; unfold IsProp at hp hP; rw [hP] at hp; exact hk (Option.some.inj hp).symm
  rcases C20_insert_shape n key e h with ⟨h0, h1⟩ | ⟨pre, x, post, he, h0, hxP, hp, h1⟩
  · rw [h1] at hi; cases hi
    refine ⟨?_, h0.symm, ?_, ?_, by simp⟩
    · rw [Node.get_key]
      simp [lookupProp, propsOf_append, propsOf_cons_pos hP, show propsOf key.value [] = [] from rfl]
    · intro k hk; rw [Node.get_key, Node.get_key]
      simp [lookupProp, propsOf_append, propsOf_cons_neg (hO k hk)]
      simp [propsOf]
    · intro i; rw [Node.get_index, Node.get_index]
      simp [lookupArg, args_append, args_cons_neg hA]; simp [args]
  · rw [h1] at hi; cases hi
    refine ⟨?_, h0.symm, ?_, ?_, by simp [he]⟩
    · rw [Node.get_key]
      simp [lookupProp, propsOf_getLast_split hP hp]
    · intro k hk; rw [Node.get_key, Node.get_key]
      have hxk : ¬ IsProp k.value x := by
        intro hp; unfold IsProp at hp hxP; rw [hxP] at hp; exact hk (Option.some.inj hp).symm
      simp [he, lookupProp, propsOf_append, propsOf_cons_neg (hO k hk),
        propsOf_cons_neg hxk]
    · intro i; rw [Node.get_index, Node.get_index, he]
      simp [lookupArg, args_append, args_cons_neg hA, args_cons_neg hxP.not_arg]

example : ∃ n' old, sampleNode.insert (.ofStr ['x']) (.new (.bool true)) = .ret (n', old) ∧
    old.isSome = true ∧ n'.get (.ofStr ['x']) = some (.bool true) :=
  ⟨_, _, rfl, by decide, by decide⟩
example : ∃ n' old, sampleNode.insert (.ofStr ['w']) (.new (.bool true)) = .ret (n', old) ∧
    old = none ∧ n'.get (.ofStr ['w']) = some (.bool true) :=
  ⟨_, _, rfl, by decide, by decide⟩

/-! ### C21 -/

/-- Position found by the `remove` loop. -/
theorem posByIdent_spec (k : Ident) (es : List Entry) :
    ((∀ e ∈ es, ∀ i, e.name = some i → ¬ (i.value = k.value ∧ i.repr = k.repr)) ∧
      ∀ pos, posByIdentLoop k es pos = none) ∨
    ∃ pre x post i, es = pre ++ x :: post ∧ x.name = some i ∧ i.value = k.value ∧ i.repr = k.repr ∧
      (∀ e ∈ pre, ∀ j, e.name = some j → ¬ (j.value = k.value ∧ j.repr = k.repr)) ∧
      ∀ pos, posByIdentLoop k es pos = some (pos + pre.length) := by
  induction es with
  | nil => left; simp [posByIdentLoop]
  | cons a es ih =>
    cases hn : a.name with
    | none =>
      rcases ih with ⟨h, hp⟩ | ⟨pre, x, post, i, rfl, hx, h1, h2, h3, hp⟩
      · left; refine ⟨?_, fun pos => by simp [posByIdentLoop, hn, hp]⟩
        intro e he i hi
        rcases List.mem_cons.mp he with rfl | he
        · rw [hn] at hi; cases hi
        · exact h e he i hi
      · right; refine ⟨a :: pre, x, post, i, rfl, hx, h1, h2, ?_, fun pos => ?_⟩
        · intro e he j hj
          rcases List.mem_cons.mp he with rfl | he
          · rw [hn] at hj; cases hj
          · exact h3 e he j hj
        · simp [posByIdentLoop, hn, hp]; omega
    | some nm =>
      by_cases hm : nm.value = k.value ∧ nm.repr = k.repr
      · right; refine ⟨[], a, es, nm, rfl, hn, hm.1, hm.2, by simp, fun pos => ?_⟩
        simp [posByIdentLoop, hn, Ident.eq, hm.1, hm.2]
      · have he : nm.eq k = false := by
          simp only [Ident.eq]; simpa using hm
        rcases ih with ⟨h, hp⟩ | ⟨pre, x, post, i, rfl, hx, h1, h2, h3, hp⟩
        · left; refine ⟨?_, fun pos => by simp [posByIdentLoop, hn, hp, he]⟩
          intro e he i hi
          rcases List.mem_cons.mp he with rfl | he
          · rw [hn] at hi; cases hi; exact hm
          · exact h e he i hi
        · right; refine ⟨a :: pre, x, post, i, rfl, hx, h1, h2, ?_, fun pos => ?_⟩
          · intro e he j hj
            rcases List.mem_cons.mp he with rfl | he
            · rw [hn] at hj; cases hj; exact hm
            · exact h3 e he j hj
          · simp [posByIdentLoop, hn, hp, he]; omega

/-- C21, the half that holds without conditions: when `get` finds nothing,
`remove` returns `None` and changes nothing. -/
theorem C21_remove_absent (n : Node) (k : Ident) (h : n.get (.key k) = none) :
    n.remove (.key k) = .ret (n, none) := by
  have habs : ∀ e ∈ n.entries, ¬ IsProp k.value e := by
    rcases n.locate (.key k) with ⟨h', _⟩ | ⟨pre, x, post, he, _, h1, _⟩
    · exact h'
    · simp [Node.get, h1] at h
  rcases posByIdent_spec k n.entries with ⟨_, hp⟩ | ⟨pre, x, post, i, he, hx, h1, _⟩
  · simp [Node.remove, hp]
  · exfalso; exact habs x (by simp [he]) (by simp [IsProp, hx, h1])

/-- C21, partial. Full statement: whenever `get` finds a value, `remove` returns
an entry with that key and that value which is then gone, and other keys and all
arguments are unchanged. Missing: the code compares the key together with its
textual representation and looks from the front, so this needs that the
properties with this key were given the same representation as the key used for
the lookup, and that there is only one of them (see the two counterexamples
below). -/
theorem C21_remove_partial (n : Node) (k : Ident) (v : Value) (h : n.get (.key k) = some v)
    (hrepr : ∀ e ∈ n.entries, ∀ i, e.name = some i → i.value = k.value → i.repr = k.repr)
    (huniq : (propsOf k.value n.entries).length ≤ 1) :
    ∃ pre x post, n.entries = pre ++ x :: post ∧ IsProp k.value x ∧ x.value = v ∧
      n.remove (.key k) =
        .ret (.mk n.ty n.name (pre ++ post) n.children n.format n.span, some x) ∧
      (∀ e ∈ pre ++ post, ¬ IsProp k.value e) ∧
      (∀ k' : Ident, k'.value ≠ k.value →
        lookupProp k'.value (pre ++ post) = n.get (.key k')) ∧
      (∀ i, lookupArg i (pre ++ post) = n.get (.index i)) := by
  rcases posByIdent_spec k n.entries with ⟨hno, hp⟩ | ⟨pre, x, post, i, he, hx, h1, h2, h3, hp⟩
  · exfalso
    rcases n.locate (.key k) with ⟨_, h2, _⟩ | ⟨pre, x, post, he, hd, _, _⟩
    · simp [Node.get, h2] at h
    · have hd1 := hd.1
      unfold IsProp at hd1
      cases hx : x.name with
      | none => simp [hx] at hd1
      | some j =>
        have hj : j.value = k.value := by simpa [hx] using hd1
        have hmem : x ∈ n.entries := by simp [he]
        exact hno x hmem j hx ⟨hj, hrepr x hmem j hx hj⟩
  · have hxP : IsProp k.value x := by simp [IsProp, hx, h1]
    have hlen : propsOf k.value pre = [] ∧ propsOf k.value post = [] := by
      rw [he, propsOf_append, propsOf_cons_pos hxP] at huniq
      simp only [List.length_append, List.length_cons] at huniq
      exact ⟨List.eq_nil_of_length_eq_zero (by omega), List.eq_nil_of_length_eq_zero (by omega)⟩
    refine ⟨pre, x, post, he, hxP, ?_, ?_, ?_, ?_, ?_⟩
    · rw [Node.get_key, he, lookupProp, propsOf_append, propsOf_cons_pos hxP, hlen.1, hlen.2] at h
      simpa using h
    · rw [he] at hp
      simp only [Node.remove, hp, he, Nat.zero_add, eraseIdx_split, getElem_split, Node.setEntries]
    · intro e he' hP
      have : e ∈ propsOf k.value (pre ++ post) := by
        simp only [propsOf, List.mem_filter]; exact ⟨he', by simpa using hP⟩
      rw [propsOf_append, hlen.1, hlen.2] at this; simp at this
    · intro k' hk'
      have hxk : ¬ IsProp k'.value x := by
        intro hp'; unfold IsProp at hp' hxP; rw [hxP] at hp'; exact hk' (Option.some.inj hp').symm
      rw [Node.get_key, he]; simp [lookupProp, propsOf_append, propsOf_cons_neg hxk]
    · intro i
      rw [Node.get_index, he]; simp [lookupArg, args_append, args_cons_neg hxP.not_arg]

example : sampleNode.get (.ofStr ['y']) = some (.string ['v']) ∧
    (∀ e ∈ sampleNode.entries, ∀ i, e.name = some i → i.value = ['y'] → i.repr = none) ∧
    (propsOf ['y'] sampleNode.entries).length ≤ 1 := by
  refine ⟨by decide, ?_, by decide⟩
  simp [sampleNode, Node.entries, Entry.newProp, Entry.new, Ident.ofStr]

/-- C21 is violated for parsed properties: their identifier carries the source
text, so the key of a `&str` lookup is never equal to it, and `remove` leaves
the property in place although `get` finds it. -/
theorem C21_violated_representation :
    ∃ (n : Node) (k : Str), (n.get (.ofStr k)).isSome = true ∧
      n.remove (.ofStr k) = .ret (n, none) :=
  ⟨.mk none (.ofStr ['n']) [.newProp ⟨['x'], some ['x'], ⟨2, 1⟩⟩ .null] none none .zero, ['x'],
    by decide, rfl⟩

/-- C21 is violated for duplicates: `remove` takes the first property with the
name, `get` reads the last one. -/
theorem C21_violated_duplicate :
    ∃ (n : Node) (k : Str) (n' : Node) (e : Entry), n.remove (.ofStr k) = .ret (n', some e) ∧
      n.get (.ofStr k) ≠ some e.value ∧ n'.get (.ofStr k) = n.get (.ofStr k) :=
  ⟨sampleNode, ['x'], _, _, rfl, by decide, by decide⟩

/-- The entry is a property whose name is the string of `k`, stored with the same spelling. -/
def Spec.Spelled (k : Ident) (e : Entry) : Prop :=
  ∃ i, e.name = some i ∧ i.value = k.value ∧ i.repr = k.repr

/-- C21, exactly: `remove` takes out the first property whose name is spelled like the key, and
leaves all other keys and all arguments alone; if there is none it returns `None` and changes
nothing. -/
theorem C21_exact (n : Node) (k : Ident) :
    ((∀ e ∈ n.entries, ¬ Spelled k e) ∧ n.remove (.key k) = .ret (n, none)) ∨
    ∃ pre x post, n.entries = pre ++ x :: post ∧ Spelled k x ∧ (∀ e ∈ pre, ¬ Spelled k e) ∧
      n.remove (.key k) =
        .ret (.mk n.ty n.name (pre ++ post) n.children n.format n.span, some x) ∧
      (∀ k' : Ident, k'.value ≠ k.value →
        lookupProp k'.value (pre ++ post) = n.get (.key k')) ∧
      (∀ i, lookupArg i (pre ++ post) = n.get (.index i)) := by
  rcases posByIdent_spec k n.entries with ⟨hno, hp⟩ | ⟨pre, x, post, i, he, hx, h1, h2, h3, hp⟩
  · exact .inl ⟨fun e he ⟨i, hi, h1, h2⟩ => hno e he i hi ⟨h1, h2⟩, by simp [Node.remove, hp]⟩
  · have hxP : IsProp k.value x := by simp [IsProp, hx, h1]
    refine .inr ⟨pre, x, post, he, ⟨i, hx, h1, h2⟩, fun e he ⟨j, hj, g1, g2⟩ => h3 e he j hj ⟨g1, g2⟩, ?_, ?_, ?_⟩
    · rw [he] at hp
      simp only [Node.remove, hp, he, Nat.zero_add, eraseIdx_split, getElem_split, Node.setEntries]
    · intro k' hk'
      have hxk : ¬ IsProp k'.value x := by
        intro hp'; unfold IsProp at hp' hxP; rw [hxP] at hp'; exact hk' (Option.some.inj hp').symm
      rw [Node.get_key, he]; simp [lookupProp, propsOf_append, propsOf_cons_neg hxk]
    · intro i
      rw [Node.get_index, he]; simp [lookupArg, args_append, args_cons_neg hxP.not_arg]

/-- C21, when it holds: the value that `get` finds is the value of the removed entry exactly if it
is the value of the first property spelled like the key, and the key is gone afterwards exactly if
that property is the only one of its name. -/
theorem C21_holds_iff (n : Node) (k : Ident) (v : Value) :
    ((∃ n' x, n.remove (.key k) = .ret (n', some x) ∧ x.value = v) ↔
      ∃ pre x post, n.entries = pre ++ x :: post ∧ Spelled k x ∧ (∀ e ∈ pre, ¬ Spelled k e) ∧ x.value = v) ∧
    ((∃ n' x, n.remove (.key k) = .ret (n', some x) ∧ n'.get (.key k) = none) ↔
      ∃ pre x post, n.entries = pre ++ x :: post ∧ Spelled k x ∧ ∀ e ∈ pre ++ post, ¬ IsProp k.value e) := by
  have hs {e} (h : Spelled k e) : IsProp k.value e := by
    obtain ⟨i, hi, h1, _⟩ := h; simp [IsProp, hi, h1]
  have hget (es : List Entry) (m : Node) (hm : m.entries = es) :
      m.get (.key k) = none ↔ ∀ e ∈ es, ¬ IsProp k.value e := by
    rw [Node.get_key, hm, lookupProp]
    simp [propsOf, List.filter_eq_nil_iff]
  rcases C21_exact n k with ⟨h1, h2⟩ | ⟨pre, x, post, he, hx, hpre, hr, -⟩
  · rw [h2]
    constructor
    · constructor
      · rintro ⟨_, _, ⟨⟩, _⟩
      · rintro ⟨pre, x, post, he, hx, _⟩; exact absurd hx (h1 x (by simp [he]))
    · constructor
      · rintro ⟨_, _, ⟨⟩, _⟩
      · rintro ⟨pre, x, post, he, hx, _⟩; exact absurd hx (h1 x (by simp [he]))
  · have huniq {pre' x' post'} (he' : n.entries = pre' ++ x' :: post') (hx' : Spelled k x')
        (hp' : ∀ e ∈ pre', ¬ Spelled k e) : pre' = pre ∧ x' = x ∧ post' = post := by
      rw [he] at he'
      have hl : pre.length = pre'.length := by
        rcases Nat.lt_trichotomy pre.length pre'.length with h | h | h
        · have h1 : (pre' ++ x' :: post')[pre.length]? = some x := by rw [← he']; simp
          rw [List.getElem?_append_left h] at h1
          exact absurd hx (hp' x (List.mem_of_getElem? h1))
        · exact h
        · have h1 : (pre ++ x :: post)[pre'.length]? = some x' := by rw [he']; simp
          rw [List.getElem?_append_left h] at h1
          exact absurd hx' (hpre x' (List.mem_of_getElem? h1))
      have := List.append_inj he' hl
      simp only [List.cons.injEq] at this
      exact ⟨this.1.symm, this.2.1.symm, this.2.2.symm⟩
    rw [hr]
    constructor
    · constructor
      · rintro ⟨_, _, ⟨⟩, hv⟩; exact ⟨pre, x, post, he, hx, hpre, hv⟩
      · rintro ⟨_, _, _, he', hx', hp', hv⟩
        obtain ⟨rfl, rfl, rfl⟩ := huniq he' hx' hp'
        exact ⟨_, _, rfl, hv⟩
    · constructor
      · rintro ⟨_, _, ⟨⟩, hv⟩
        exact ⟨pre, x, post, he, hx, (hget _ _ rfl).mp hv⟩
      · rintro ⟨_, _, _, he', hx', hp'⟩
        obtain ⟨rfl, rfl, rfl⟩ := huniq he' hx' (fun e hm h => hp' e (by simp [hm]) (hs h))
        exact ⟨_, _, rfl, (hget _ _ rfl).mpr hp'⟩

/-- Both sides of each equivalence occur: `y` is removed for good, one of the two `x` is not. -/
example : (∃ n' x, sampleNode.remove (.ofStr ['y']) = .ret (n', some x) ∧ n'.get (.ofStr ['y']) = none) ∧
    ¬ ∃ n' x, sampleNode.remove (.ofStr ['x']) = .ret (n', some x) ∧ n'.get (.ofStr ['x']) = none := by
  refine ⟨⟨_, _, rfl, by decide⟩, ?_⟩
  rintro ⟨_, _, ⟨⟩, h⟩
  revert h; decide

/-! ### C22 -/

/-- C22: inserting at an index panics exactly when the entry is named or the
index is larger than the number of arguments. -/
theorem C22_insert_panics_iff (n : Node) (i : Nat) (e : Entry) :
    n.insert (.index i) e = .panic ↔ e.name ≠ none ∨ (args n.entries).length < i := by
  unfold Node.insert
  cases hn : e.name with
  | some x => simp
  | none =>
    rcases arg_split n.entries i with ⟨hl, hp⟩ | ⟨pre, x, post, he, hx, hl, hp⟩
    · have hp := hp 0 0
      simp only [Nat.add_zero] at hp
      simp only [hp, countArgs_eq, Option.isSome_none, Bool.false_eq_true, if_false]
      split <;> simp_all
    · have hp := hp 0 0
      simp only [Nat.add_zero] at hp
      simp only [hp, Option.isSome_none, Bool.false_eq_true, if_false]
      simp [he, args_append, args_cons_pos hx, hl]

/-- C22: otherwise the entry becomes the `i`-th argument, later arguments are
shifted by one, and the properties keep their order. -/
theorem C22_insert_shape (n : Node) (i : Nat) (e : Entry) (h : IsArg e)
    (hi : i ≤ (args n.entries).length) :
    ∃ pre post, n.entries = pre ++ post ∧ (args pre).length = i ∧
      n.insert (.index i) e =
        .ret (.mk n.ty n.name (pre ++ e :: post) n.children n.format n.span, none) ∧
      args (pre ++ e :: post) = (args n.entries).insertIdx i e ∧
      props (pre ++ e :: post) = props n.entries := by
  have key : ∃ pre post, n.entries = pre ++ post ∧ (args pre).length = i ∧
      n.insert (.index i) e =
        .ret (.mk n.ty n.name (pre ++ e :: post) n.children n.format n.span, none) := by
    have hn : e.name = none := h
    unfold Node.insert
    rcases arg_split n.entries i with ⟨hl, hp⟩ | ⟨pre, x, post, he, hx, hl, hp⟩
    · have hp := hp 0 0
      simp only [Nat.add_zero] at hp
      have hle : ¬ countArgs n.entries < i := by rw [countArgs_eq]; omega
      refine ⟨n.entries, [], by simp, by omega, ?_⟩
      simp [hn, hp, hle, Node.push, Node.setEntries]
    · have hp := hp 0 0
      simp only [Nat.add_zero, he] at hp
      refine ⟨pre, x :: post, he, hl, ?_⟩
      simp only [hn, hp, he, Nat.zero_add, insertIdx_split, Option.isSome_none, Bool.false_eq_true,
        if_false, Node.setEntries]
  obtain ⟨pre, post, he, hl, hins⟩ := key
  refine ⟨pre, post, he, hl, hins, ?_, ?_⟩
  · rw [he, args_append, args_cons_pos h, args_append, ← hl, insertIdx_split]
  · rw [he, props_append, props_cons_arg h, props_append]

/-- C22: removing an index panics exactly when it is out of range. -/
theorem C22_remove_panics_iff (n : Node) (i : Nat) :
    n.remove (.index i) = .panic ↔ (args n.entries).length ≤ i := by
  unfold Node.remove
  rcases arg_split n.entries i with ⟨hl, hp⟩ | ⟨pre, x, post, he, hx, hl, hp⟩
  · have hp := hp 0 0
    simp only [Nat.add_zero] at hp
    simp [hp, hl]
  · have hp := hp 0 0
    simp only [Nat.add_zero, he] at hp
    simp [hp, he, args_append, args_cons_pos hx, hl]

/-- C22: otherwise exactly the `i`-th argument is removed and returned. -/
theorem C22_remove_shape (n : Node) (i : Nat) (hi : i < (args n.entries).length) :
    ∃ pre x post, n.entries = pre ++ x :: post ∧ (args n.entries)[i]? = some x ∧
      n.remove (.index i) =
        .ret (.mk n.ty n.name (pre ++ post) n.children n.format n.span, some x) ∧
      args (pre ++ post) = (args n.entries).eraseIdx i ∧
      props (pre ++ post) = props n.entries := by
  rcases arg_split n.entries i with ⟨hl, hp⟩ | ⟨pre, x, post, he, hx, hl, hp⟩
  · omega
  · have hp := hp 0 0
    simp only [Nat.add_zero, Nat.zero_add] at hp
    refine ⟨pre, x, post, he, ?_, ?_, ?_, ?_⟩
    · rw [he, args_append, args_cons_pos hx, ← hl, getElem_split]
    · unfold Node.remove
      rw [he] at hp
      simp only [hp, he, eraseIdx_split, getElem_split, Node.setEntries]
    · rw [he, args_append, args_append, args_cons_pos hx, ← hl, eraseIdx_split]
    · rw [he, props_append, props_append, props_cons_arg hx]

theorem split_at_arg_unique {pre pre' post post' : List Entry} {x x' : Entry}
    (h : pre ++ x :: post = pre' ++ x' :: post') (hx : IsArg x) (hx' : IsArg x')
    (hl : (args pre).length = (args pre').length) : pre = pre' ∧ x = x' ∧ post = post' := by
  induction pre generalizing pre' with
  | nil =>
    cases pre' with
    | nil => simpa using h
    | cons a pre' =>
      simp only [List.nil_append, List.cons_append, List.cons.injEq] at h
      obtain ⟨rfl, _⟩ := h
      rw [args_cons_pos hx] at hl; simp [args] at hl
  | cons a pre ih =>
    cases pre' with
    | nil =>
      simp only [List.nil_append, List.cons_append, List.cons.injEq] at h
      obtain ⟨rfl, _⟩ := h
      rw [args_cons_pos hx'] at hl; simp [args] at hl
    | cons a' pre' =>
      simp only [List.cons_append, List.cons.injEq] at h
      obtain ⟨rfl, h⟩ := h
      have hl' : (args pre).length = (args pre').length := by
        by_cases ha : IsArg a
        · rw [args_cons_pos ha, args_cons_pos ha] at hl; simpa using hl
        · rw [args_cons_neg ha, args_cons_neg ha] at hl; exact hl
      obtain ⟨rfl, rfl, rfl⟩ := ih h hl'
      exact ⟨rfl, rfl, rfl⟩

/-- C22: removing what was just inserted gives back the entry and the node. -/
theorem C22_remove_after_insert (n n' : Node) (i : Nat) (e : Entry) (r : Option Entry)
    (h : n.insert (.index i) e = .ret (n', r)) :
    n'.remove (.index i) = .ret (n, some e) := by
  have hnp : ¬ (e.name ≠ none ∨ (args n.entries).length < i) := by
    rw [← C22_insert_panics_iff, h]; simp
  have he : IsArg e := Classical.byContradiction fun hne => hnp (Or.inl hne)
  have hi : i ≤ (args n.entries).length := Nat.le_of_not_lt fun hlt => hnp (Or.inr hlt)
  obtain ⟨pre, post, hes, hl, hins, ha, hp⟩ := C22_insert_shape n i e he hi
  rw [h] at hins; cases hins
  have hlt : i < (args (pre ++ e :: post)).length := by
    rw [args_append, args_cons_pos he]; simp; omega
  obtain ⟨pre', x', post', hes', hget, hrem, _, _⟩ :=
    C22_remove_shape (.mk n.ty n.name (pre ++ e :: post) n.children n.format n.span) i
      (by simpa using hlt)
  simp only [Node.entries_mk] at hes' hget
  -- both splits are at the `i`-th argument
  rcases arg_split (pre ++ e :: post) i with ⟨hl', _⟩ | ⟨p, x, q, hpq, hx, hlp, hpos⟩
  · omega
  · obtain ⟨rfl, rfl, rfl⟩ := split_at_arg_unique hpq he hx (by omega)
    have hpos := hpos 0 0
    simp only [Nat.add_zero, Nat.zero_add] at hpos
    unfold Node.remove
    simp only [hpos, Node.entries_mk, eraseIdx_split, getElem_split, Node.setEntries, Node.ty_mk,
      Node.name_mk, Node.children_mk, Node.format_mk, Node.span_mk]
    rw [← hes]; cases n; rfl

example : ∃ n', sampleNode.insert (.index 1) (.new (.bool true)) = .ret (n', none) ∧
    n'.get (.index 1) = some (.bool true) ∧ n'.get (.index 2) = some (.string ['z']) :=
  ⟨_, rfl, by decide, by decide⟩
example : (args sampleNode.entries).length = 2 := by decide

/-! ### C23 -/

theorem getMutSet_shape (n : Node) (k : NodeKey) (v : Value) :
    (Absent k n.entries ∧ n.getMutSet k v = none) ∨
    ∃ pre x post, n.entries = pre ++ x :: post ∧ Designates k pre x post ∧
      n.getMutSet k v =
        some (.mk n.ty n.name (pre ++ { x with value := v } :: post) n.children n.format n.span) := by
  rcases n.locate k with ⟨h0, _, h2⟩ | ⟨pre, x, post, he, hd, _, h2⟩
  · left; exact ⟨h0, by simp [Node.getMutSet, Node.entryMut, h2]⟩
  · right; refine ⟨pre, x, post, he, hd, ?_⟩
    simp [Node.getMutSet, Node.entryMut, h2, he, modify_split, Node.setEntries]

/-- C23: `node[i] = v` panics exactly when there is no `i`-th argument; otherwise
it replaces the value of exactly that argument and nothing else. -/
theorem C23_index_assign (n : Node) (i : Nat) (v : Value) :
    ((args n.entries).length ≤ i ∧ n.indexMutUsize i v = .panic) ∨
    ∃ pre x post, n.entries = pre ++ x :: post ∧ IsArg x ∧ (args pre).length = i ∧
      n.indexMutUsize i v = .ret
        (.mk n.ty n.name (pre ++ { x with value := v } :: post) n.children n.format n.span) := by
  unfold Node.indexMutUsize
  rcases getMutSet_shape n (.index i) v with ⟨h0, h1⟩ | ⟨pre, x, post, he, hd, h1⟩
  · left; exact ⟨h0, by simp [h1]⟩
  · right; exact ⟨pre, x, post, he, hd.1, hd.2, by simp [h1]⟩

/-- C23: `node[key] = v` never panics. If the key is present the last entry with
the key gets the value and nothing else changes; otherwise exactly one property
with that name and value is appended. -/
theorem C23_key_assign (n : Node) (k : Str) (v : Value) :
    ((∀ e ∈ n.entries, ¬ IsProp k e) ∧ n.indexMutStr k v = .ret
        (.mk n.ty n.name (n.entries ++ [.newProp (.ofStr k) v]) n.children n.format n.span)) ∨
    ∃ pre x post, n.entries = pre ++ x :: post ∧ IsProp k x ∧ (∀ e ∈ post, ¬ IsProp k e) ∧
      n.indexMutStr k v = .ret
        (.mk n.ty n.name (pre ++ { x with value := v } :: post) n.children n.format n.span) := by
  unfold Node.indexMutStr
  rcases n.locate (.ofStr k) with ⟨h0, h1, _⟩ | ⟨pre, x, post, he, hd, h1, _⟩
  · left; refine ⟨h0, ?_⟩
    have hg : n.get (.ofStr k) = none := by simp [Node.get, h1]
    simp only [hg, Option.isNone_none, if_true]
    rcases getMutSet_shape (n.push (.newProp (.ofStr k) .null)) (.ofStr k) v with
      ⟨h2, _⟩ | ⟨pre, x, post, he, hd, h2⟩
    · exfalso
      exact h2 (.newProp (.ofStr k) .null) (by simp [Node.push])
        (by simp [IsProp, Entry.newProp, Ident.ofStr])
    · simp only [h2]
      rw [show (n.push (Entry.newProp (.ofStr k) .null)).entries =
        n.entries ++ [Entry.newProp (.ofStr k) .null] by simp [Node.push]] at he
      have hx : IsProp k x := hd.1
      -- the designated entry is the appended one
      rcases List.append_eq_append_iff.mp he with ⟨as, h3, h4⟩ | ⟨bs, h3, h4⟩
      · cases as with
        | nil =>
          simp only [List.nil_append, List.cons.injEq] at h4
          obtain ⟨rfl, rfl⟩ := h4
          simp only [List.append_nil] at h3
          subst h3
          simp [Node.push, Node.setEntries, Entry.newProp]
        | cons a as => simp at h4
      · cases bs with
        | nil =>
          simp only [List.nil_append, List.cons.injEq] at h4
          obtain ⟨rfl, rfl⟩ := h4
          simp only [List.append_nil] at h3
          subst h3
          simp [Node.push, Node.setEntries, Entry.newProp]
        | cons b bs =>
          simp only [List.cons_append, List.cons.injEq] at h4
          exact absurd hx (h0 x (by rw [h3, ← h4.1]; simp))
  · right
    have hg : n.get (.ofStr k) = some x.value := by simp [Node.get, h1]
    simp only [hg, Option.isNone_some, Bool.false_eq_true, if_false]
    rcases getMutSet_shape n (.ofStr k) v with ⟨h2, _⟩ | ⟨pre', x', post', he', hd', h2⟩
    · exact absurd hd.1 (h2 x (by simp [he]))
    · exact ⟨pre', x', post', he', hd'.1, hd'.2, by simp [h2]⟩

/-- C23: what can be observed after `node[key] = v`. -/
theorem C23_key_assign_observed (n n' : Node) (k : Str) (v : Value)
    (h : n.indexMutStr k v = .ret n') :
    n'.get (.ofStr k) = some v ∧ (∀ k', k' ≠ k → n'.get (.ofStr k') = n.get (.ofStr k')) ∧
    (∀ i, n'.get (.index i) = n.get (.index i)) := by
  rcases C23_key_assign n k v with ⟨_, h1⟩ | ⟨pre, x, post, he, hx, hp, h1⟩
  · rw [h] at h1; cases h1
    have hN : IsProp k (.newProp (.ofStr k) v) := by simp [IsProp, Entry.newProp, Ident.ofStr]
    refine ⟨?_, ?_, ?_⟩
    · rw [NodeKey.ofStr, Node.get_key]
      have : propsOf k [] = [] := rfl
      simp [lookupProp, propsOf_append, propsOf_cons_pos hN, this]; rfl
    · intro k' hk'
      have hN' : ¬ IsProp k' (.newProp (.ofStr k) v) := by
        simp [IsProp, Entry.newProp, Ident.ofStr]; exact fun h => hk' h.symm
      have : propsOf k' [] = [] := rfl
      rw [NodeKey.ofStr, Node.get_key, Node.get_key]
      simp [lookupProp, propsOf_append, propsOf_cons_neg hN', this]
    · intro i
      have : args [] = [] := rfl
      rw [Node.get_index, Node.get_index]
      simp [lookupArg, args_append, args_cons_neg hN.not_arg, this]
  · rw [h] at h1; cases h1
    have hN : IsProp k { x with value := v } := hx
    refine ⟨?_, ?_, ?_⟩
    · rw [NodeKey.ofStr, Node.get_key]
      simp [lookupProp, Ident.ofStr, propsOf_getLast_split hN hp]
    · intro k' hk'
      have hne : ∀ y : Entry, IsProp k y → ¬ IsProp k' y := by
        intro y hy hy'; unfold IsProp at hy hy'; rw [hy] at hy'; exact hk' (Option.some.inj hy').symm
      rw [NodeKey.ofStr, Node.get_key, Node.get_key]
      simp [lookupProp, he, propsOf_append, Ident.ofStr, propsOf_cons_neg (hne _ hN),
        propsOf_cons_neg (hne _ hx)]
    · intro i
      rw [Node.get_index, Node.get_index]
      simp [lookupArg, he, args_append, args_cons_neg hN.not_arg, args_cons_neg hx.not_arg]

/-- C23: what can be observed after `node[i] = v`. -/
theorem C23_index_assign_observed (n n' : Node) (i : Nat) (v : Value)
    (h : n.indexMutUsize i v = .ret n') :
    n'.get (.index i) = some v ∧ (∀ j, j ≠ i → n'.get (.index j) = n.get (.index j)) ∧
    (∀ k, n'.get (.key k) = n.get (.key k)) ∧ n'.entries.length = n.entries.length := by
  rcases C23_index_assign n i v with ⟨_, h1⟩ | ⟨pre, x, post, he, hx, hl, h1⟩
  · rw [h] at h1; cases h1
  · rw [h] at h1; cases h1
    have hN : IsArg { x with value := v } := hx
    refine ⟨?_, ?_, ?_, by simp [he]⟩
    · rw [Node.get_index]
      simp [lookupArg, args_append, args_cons_pos hN, ← hl]
    · intro j hj
      rw [Node.get_index, Node.get_index]
      simp only [lookupArg, he, Node.entries_mk, args_append, args_cons_pos hN, args_cons_pos hx]
      rcases Nat.lt_or_ge j (args pre).length with hlt | hge
      · rw [List.getElem?_append_left hlt, List.getElem?_append_left hlt]
      · rw [List.getElem?_append_right hge, List.getElem?_append_right hge]
        obtain ⟨m, hm⟩ : ∃ m, j - (args pre).length = m + 1 := ⟨j - (args pre).length - 1, by omega⟩
        rw [hm]; simp
    · intro k
      rw [Node.get_key, Node.get_key]
      simp [lookupProp, he, propsOf_append, propsOf_cons_neg (hx.not_prop _),
        propsOf_cons_neg (hN.not_prop _)]

example : ∃ n', sampleNode.indexMutStr ['x'] (.string ['q']) = .ret n' ∧
    n'.get (.ofStr ['x']) = some (.string ['q']) ∧ n'.entries.length = 5 :=
  ⟨_, rfl, by decide, by decide⟩
example : ∃ n', sampleNode.indexMutStr ['w'] (.string ['q']) = .ret n' ∧
    n'.get (.ofStr ['w']) = some (.string ['q']) ∧ n'.entries.length = 6 :=
  ⟨_, rfl, by decide, by decide⟩
example : ∃ n', sampleNode.indexMutUsize 1 (.string ['q']) = .ret n' ∧
    n'.get (.index 1) = some (.string ['q']) :=
  ⟨_, rfl, by decide⟩

end Kdl
