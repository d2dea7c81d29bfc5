import Verif.Props.Build
import Verif.Lemmas.Parser.Shown
import Verif.Props.NodeApi
/-
C34: a changed value or name, printed and read back.
-/

namespace Kdl
open Spec

section
variable [FloatIO]

/-! ### Entries -/

theorem EntTok.parseEntry {α : Type} {g : Value → α} {d : SEntry α} {t : Str} (h : EntTok g d t) :
    ∃ e, Entry.parse t = .ok e ∧ semEntry g e = d := by
  have hr : AfterEntry [] := ⟨Ends.nil, [], void_eq (rep0_nil Solid.nil.nodeSpace), by simp⟩
  obtain ⟨e, h1, h2⟩ := h.2 (utf8Len t) [] hr
  rw [List.append_nil] at h1
  obtain ⟨e', h3, h4, h5, h6⟩ := entryParse_ok h.1.solid h1
  refine ⟨e', h3, ?_⟩
  rw [← h2]
  simp only [semEntry, h4, h5, h6]

theorem value_eq_of_canon {a b : Value} (h : canonValue a = canonValue b) : Value.eq a b = true :=
  Value.eq_trans (Value.eq_symm (canonValue_eq a)) (h ▸ canonValue_eq b)

/-- **C34**, partial: `set_value(v)` on an entry without formatting of its own (built
through the API, or cleared, or autoformatted), whose name and annotation can be
read back: the printed entry is accepted, and read as the new value, with the same
name and annotation. Missing from C34: entries with formatting, for which it fails
(`C34_stale`), and values that cannot be written. -/
theorem C34_set_value_partial [LawfulFloatIO] {e : Entry} (hf : e.format = none)
    (hn : ∀ i ∈ e.name, Shown i) (ht : ∀ i ∈ e.ty, Shown i) {v : Value} (hv : WritableValue v) :
    ∃ e', Entry.parse (e.setValue v).display = .ok e' ∧ Value.eq e'.value v = true ∧
      e'.name.map Ident.value = e.name.map Ident.value ∧ e'.ty.map Ident.value = e.ty.map Ident.value := by
  have h : EntPlain (e.setValue v) := ⟨hf, fun n e => (hn n e).tok, fun n e => (ht n e).tok, ValTok.write hv⟩
  obtain ⟨e', h1, h2⟩ := (h.tok (g := canonValue) canon_idem).parseEntry
  exact ⟨e', h1, value_eq_of_canon (congrArg SEntry.value h2), congrArg SEntry.name h2, congrArg SEntry.ty h2⟩

/-- C34 is violated by every entry with formatting, in particular by every parsed
entry: whatever value is set, the printed text stays the same. -/
theorem C34_stale {e : Entry} (h : e.format ≠ none) (v : Value) : (e.setValue v).display = e.display := by
  obtain ⟨ty, v', name, f, sp⟩ := e
  cases f with
  | none => exact absurd rfl h
  | some f => rfl

/-- C34 is violated: the entry `1`, parsed, set to `2` and printed, is `1`, and read
back as `1`. -/
theorem C34_violated : ∃ e e', Entry.parse ['1'] = .ok e ∧
    Entry.parse (e.setValue (.integer ⟨2, by decide⟩)).display = .ok e' ∧
    Value.eq e'.value (.integer ⟨2, by decide⟩) = false := by
  obtain ⟨e, h1, h2⟩ := ParseResult.holds_ok (r := Entry.parse ['1'])
    (f := fun e : Entry => decide ((e.setValue (.integer ⟨2, by decide⟩)).display = ['1'] ∧
      e.value = .integer ⟨1, by decide⟩)) (by krfl)
  obtain ⟨h2, h3⟩ := of_decide_eq_true h2
  refine ⟨e, e, h1, by rw [h2]; exact h1, ?_⟩
  rw [h3]
  decide

theorem EntBad.parse {t : Str} (h : EntBad t) : Entry.parse t = .err := by
  rcases (C06_ok_or_err t).2.2.1 with ⟨e, he⟩ | he
  · exfalso
    have h1 := tryParse_ok.mp he
    unfold paddedNodeEntry at h1
    rw [bind_here, bind_eq (takeP_nil (rep0_nil h.1.solid.lineSpace)), bind_ok] at h1
    obtain ⟨e', s1, h1, _⟩ := h1
    rw [nodeEntry_solid h.1.solid, bind_ok] at h1
    obtain ⟨e2, s2, h1, _⟩ := h1
    exact h.2 (utf8Len t) [] Ends.nil e2 s2 (by rw [List.append_nil]; exact h1)
  · exact he

/-- **C34** for built entries, the boundary: after `set_value(v)` the printed entry is read as the
new value, with the same name and annotation, exactly if its name, annotation and value can be
written; otherwise it is rejected. -/
theorem C34_built_exact [LawfulFloatIO] {e : Entry} (h : BuiltEntry e) (v : Value) :
    (EntryWritable (e.setValue v) ∧ ∃ e', Entry.parse (e.setValue v).display = .ok e' ∧ Value.eq e'.value v = true ∧
      e'.name.map Ident.value = e.name.map Ident.value ∧ e'.ty.map Ident.value = e.ty.map Ident.value) ∨
    (¬ EntryWritable (e.setValue v) ∧ Entry.parse (e.setValue v).display = .err) := by
  have hs : EntShape (e.setValue v) := BuiltEntry.shape (.setValue v h)
  have hf : EntFrame (e.setValue v) := ⟨hs.format, fun n hn => (Ident.frame (hs.name n hn)).1,
    fun n hn => (Ident.frame (hs.ty n hn)).1, val_frame _⟩
  by_cases hw : EntryWritable (e.setValue v)
  · refine Or.inl ⟨hw, C34_set_value_partial hs.format (fun i hi => Or.inl ⟨hs.name i hi, hw.name i hi⟩)
      (fun i hi => Or.inl ⟨hs.ty i hi, hw.ty i hi⟩) hw.value⟩
  · refine Or.inr ⟨hw, (hf.split.resolve_left fun hp => hw ⟨fun n hn => (Ident.frame (hs.name n hn)).2.mp (hp.name n hn),
      fun n hn => (Ident.frame (hs.ty n hn)).2.mp (hp.ty n hn), valTok_write_iff.mp hp.value⟩).parse⟩

/-- **C34** for parsed entries, the boundary: after `set_value(v)` the printed entry is read as the
old one, so that it is read as `v` exactly if the old value equals `v`. -/
theorem C34_parsed_exact {s : Str} {e : Entry} (h : Entry.parse s = .ok e) (v : Value) :
    Entry.parse (e.setValue v).display = .ok e ∧
    ((∃ e', Entry.parse (e.setValue v).display = .ok e' ∧ Value.eq e'.value v = true) ↔ Value.eq e.value v = true) := by
  have hf : e.format ≠ none := by
    have h1 := tryParse_ok.mp h
    unfold paddedNodeEntry at h1
    rw [bind_here, bind_ok] at h1
    obtain ⟨l, s1, _, h1⟩ := h1
    rw [bind_ok] at h1
    obtain ⟨e', s2, h2, h1⟩ := h1
    rw [bind_ok] at h1
    obtain ⟨tr, s3, _, h1⟩ := h1
    rw [bind_here] at h1
    obtain ⟨rfl, _⟩ := pure_ok.mp h1
    obtain ⟨_, f, hf, _⟩ := nodeEntry_text h2
    simp [hf]
  have h1 : Entry.parse (e.setValue v).display = .ok e := by
    rw [C34_stale hf, C02_entry_lossless s e h, h]
  refine ⟨h1, ?_, fun hv => ⟨e, h1, hv⟩⟩
  rintro ⟨e', h2, hv⟩
  rw [h1] at h2
  cases h2
  exact hv

/-- C34 for identifiers, partial: an identifier without a text of its own. Missing:
parsed identifiers, for which it fails (`C34_identifier_stale`), and names that
cannot be written. -/
theorem C34_identifier_partial {i : Ident} (hr : i.repr = none) {v : Str} (hv : Writable v) :
    ∃ i', Ident.parse (i.setValue v).display = .ok i' ∧ i'.value = v := by
  have e : (i.setValue v).display = (Ident.ofStr v).display := by
    unfold Ident.display
    rw [show (i.setValue v).repr = none from hr]
    rfl
  rw [e]
  exact (C09_identifier_partial v).1 hv

/-- C34 is violated by every identifier with a text of its own, in particular by
every parsed one. -/
theorem C34_identifier_stale {i : Ident} (h : i.repr ≠ none) (v : Str) : (i.setValue v).display = i.display := by
  obtain ⟨v', r, sp⟩ := i
  cases r with
  | none => exact absurd rfl h
  | some r => rfl

/-- C34 is violated: the identifier `a`, parsed and set to `b`, is printed as `a`. -/
theorem C34_identifier_violated : ∃ i, Ident.parse ['a'] = .ok i ∧ (i.setValue ['b']).display = ['a'] :=
  let ⟨i, h1, h2⟩ := ParseResult.holds_ok (r := Ident.parse ['a'])
    (f := fun i : Ident => decide ((i.setValue ['b']).display = ['a'])) (by krfl)
  ⟨i, h1, of_decide_eq_true h2⟩

/-- **C34** for identifiers, the boundary: one without a text of its own is read back with the new
name exactly if that can be written, and rejected otherwise; a parsed one is read back with the old
name. -/
theorem C34_identifier_exact {i : Ident} (v : Str) :
    (i.repr = none → (Writable v ∧ ∃ i', Ident.parse (i.setValue v).display = .ok i' ∧ i'.value = v) ∨
      (¬ Writable v ∧ Ident.parse (i.setValue v).display = .err)) ∧
    (∀ s, Ident.parse s = .ok i → Ident.parse (i.setValue v).display = .ok i) := by
  constructor
  · intro hr
    have e : (i.setValue v).display = (Ident.ofStr v).display := by
      unfold Ident.display
      rw [show (i.setValue v).repr = none from hr]
      rfl
    rw [e]
    by_cases hv : Writable v
    · exact Or.inl ⟨hv, (C09_identifier_partial v).1 hv⟩
    · exact Or.inr ⟨hv, (C09_identifier_partial v).2 hv⟩
  · intro s h
    obtain ⟨h1, h2⟩ := C03_identifier_lossless s i h
    rw [C34_identifier_stale (by rw [h2]; rintro ⟨⟩), h1, h]

/-! ### Assignment through a node -/

theorem NodeShape.setEntries {n : Node} (h : NodeShape n) {es : List Entry} (he : ∀ e ∈ es, EntShape e) :
    NodeShape (.mk n.ty n.name es n.children n.format n.span) := by
  cases h with
  | mk h1 h2 h3 h4 => exact .mk h1 h2 he h4

omit [FloatIO] in
theorem NodeShape.entries {n : Node} (h : NodeShape n) : ∀ e ∈ n.entries, EntShape e := by
  cases h with
  | mk h1 h2 h3 h4 => exact h3

omit [FloatIO] in
theorem NodeWritable.setEntries {n : Node} (h : NodeWritable n) {es : List Entry} (he : ∀ e ∈ es, EntryWritable e) :
    NodeWritable (.mk n.ty n.name es n.children n.format n.span) := by
  cases h with
  | mk h1 h2 h3 h4 => exact .mk h1 h2 he h4

omit [FloatIO] in
theorem NodeWritable.entries {n : Node} (h : NodeWritable n) : ∀ e ∈ n.entries, EntryWritable e := by
  cases h with
  | mk h1 h2 h3 h4 => exact h3

omit [FloatIO] in
theorem Node.get_designated {n : Node} {k : NodeKey} {pre post : List Entry} {x : Entry}
    (he : n.entries = pre ++ x :: post) (hd : Designates k pre x post) : n.get k = some x.value := by
  cases k with
  | key i =>
    rw [Node.get_key]
    simp [lookupProp, he, propsOf_getLast_split hd.1 hd.2]
  | index i =>
    rw [Node.get_index]
    simp [lookupArg, he, args_append, args_cons_pos hd.1, ← hd.2]

theorem NodeShape.parse [LawfulFloatIO] {n : Node} (h : NodeShape n) (hw : NodeWritable n) :
    ∃ d, Document.parse n.display = .ok d ∧ semDoc canonValue d = [semNode canonValue n] := by
  have h1 : DocShape (.mk [n] none .zero) := .mk (by simpa using h)
  have h2 : DocWritable (.mk [n] none .zero) := .mk (by simpa using hw)
  have := (h1.frame.plain (h1.good h2)).parse (g := canonValue) canon_idem
  simpa [Document.display, Document.stringify, nodesStringify, semDoc, semNodes, Node.display] using this

theorem NodeShape.exact [LawfulFloatIO] {n : Node} (h : NodeShape n) :
    (NodeWritable n ∧ ∃ d, Document.parse n.display = .ok d ∧ semDoc canonValue d = [semNode canonValue n]) ∨
      (¬ NodeWritable n ∧ Document.parse n.display = .err) := by
  by_cases hw : NodeWritable n
  · exact Or.inl ⟨hw, h.parse hw⟩
  · refine Or.inr ⟨hw, ?_⟩
    have h1 : DocShape (.mk [n] none .zero) := .mk (by simpa using h)
    have e : (Document.mk [n] none .zero).display = n.display := by
      simp [Document.display, Document.stringify, nodesStringify, Node.display]
    rcases h1.frame.parse (g := canonValue) canon_idem with ⟨h2, _⟩ | ⟨_, h2⟩
    · cases h1.writable h2 with
      | mk h3 => exact absurd (h3 n (by simp)) hw
    · rw [e] at h2
      rcases (C06_ok_or_err n.display).1 with ⟨d', h3⟩ | h3
      · exact absurd h3 (h2 d')
      · exact h3

/-- The entries of a built node after an assignment through `get_mut`. -/
theorem getMutSet_built {n n' : Node} (h : BuiltNode n) {k : NodeKey} {v : Value} (hs : n.getMutSet k v = some n') :
    n'.get k = some v ∧ NodeShape n' := by
  rcases getMutSet_shape n k v with ⟨_, h1⟩ | ⟨pre, x, post, he, hd, h1⟩
  · rw [h1] at hs; cases hs
  · rw [h1] at hs
    cases hs
    refine ⟨Node.get_designated (x := { x with value := v }) (pre := pre) (post := post) rfl
      (by cases k <;> exact hd), ?_⟩
    have hS := BuiltNode.shape h
    refine hS.setEntries ?_
    intro e hm
    rcases List.mem_append.mp hm with hm | hm
    · exact hS.entries e (by rw [he]; simp [hm])
    · rcases List.mem_cons.mp hm with rfl | hm
      · have := hS.entries x (by rw [he]; simp)
        exact ⟨this.format, this.name, this.ty⟩
      · exact hS.entries e (by rw [he]; simp [hm])

/-- **C34** for assignment through `get_mut` on a built node, the boundary: the node holds the new
value under that key, and the printed node is accepted, with the data of the changed node, exactly
if its strings and integers can be written; otherwise it is rejected. -/
theorem C34_assign_exact [LawfulFloatIO] {n n' : Node} (h : BuiltNode n) {k : NodeKey} {v : Value}
    (hs : n.getMutSet k v = some n') :
    n'.get k = some v ∧
    ((NodeWritable n' ∧ ∃ d, Document.parse n'.display = .ok d ∧ semDoc canonValue d = [semNode canonValue n']) ∨
      (¬ NodeWritable n' ∧ Document.parse n'.display = .err)) := by
  obtain ⟨h1, h2⟩ := getMutSet_built h hs
  exact ⟨h1, h2.exact⟩

/-- **C34** for `node[i] = v` and `node["k"] = v` on a built node, the boundary: unless the assignment
panics, the new value is found, and the printed node is accepted, with the data of the changed node,
exactly if its strings and integers can be written; otherwise it is rejected. -/
theorem C34_index_exact [LawfulFloatIO] {n n' : Node} (h : BuiltNode n) {v : Value} :
    (∀ i, n.indexMutUsize i v = .ret n' → n'.get (.index i) = some v ∧
      ((NodeWritable n' ∧ ∃ d, Document.parse n'.display = .ok d ∧ semDoc canonValue d = [semNode canonValue n']) ∨
        (¬ NodeWritable n' ∧ Document.parse n'.display = .err))) ∧
    (∀ k, n.indexMutStr k v = .ret n' → n'.get (.ofStr k) = some v ∧
      ((NodeWritable n' ∧ ∃ d, Document.parse n'.display = .ok d ∧ semDoc canonValue d = [semNode canonValue n']) ∨
        (¬ NodeWritable n' ∧ Document.parse n'.display = .err))) := by
  constructor
  · intro i hs
    have : n.getMutSet (.index i) v = some n' := by
      unfold Node.indexMutUsize at hs
      cases h : n.getMutSet (.index i) v with
      | none => rw [h] at hs; cases hs
      | some m => rw [h] at hs; cases hs; rfl
    exact C34_assign_exact h this
  · intro k hs
    refine ⟨(C23_key_assign_observed n n' k v hs).1, NodeShape.exact ?_⟩
    have hS := BuiltNode.shape h
    rcases C23_key_assign n k v with ⟨_, h1⟩ | ⟨pre, x, post, he, _, _, h1⟩
    · rw [hs] at h1
      cases h1
      refine hS.setEntries ?_
      intro e hm
      rcases List.mem_append.mp hm with hm | hm
      · exact hS.entries e hm
      · rw [List.mem_singleton.mp hm]
        exact BuiltEntry.shape (.newProp _ _)
    · rw [hs] at h1
      cases h1
      refine hS.setEntries ?_
      intro e hm
      rcases List.mem_append.mp hm with hm | hm
      · exact hS.entries e (by rw [he]; simp [hm])
      · rcases List.mem_cons.mp hm with rfl | hm
        · have := hS.entries x (by rw [he]; simp)
          exact ⟨this.format, this.name, this.ty⟩
        · exact hS.entries e (by rw [he]; simp [hm])

/-- C34 is violated by assignment through `get_mut` to entries with formatting: whatever value is
set, the node prints as before. -/
theorem C34_assign_stale {n n' : Node} {k : NodeKey} {v : Value} (hf : ∀ e ∈ n.entries, e.format ≠ none)
    (hs : n.getMutSet k v = some n') : n'.get k = some v ∧ n'.display = n.display := by
  rcases getMutSet_shape n k v with ⟨_, h1⟩ | ⟨pre, x, post, he, hd, h1⟩
  · rw [h1] at hs; cases hs
  · rw [h1] at hs
    cases hs
    refine ⟨Node.get_designated (x := { x with value := v }) (pre := pre) (post := post) rfl
      (by cases k <;> exact hd), ?_⟩
    have hx : x.format ≠ none := hf x (by rw [he]; simp)
    have e1 : ∀ pre, displayEntries (pre ++ { x with value := v } :: post) = displayEntries (pre ++ x :: post) := by
      have := C34_stale hx v
      unfold Entry.setValue at this
      intro pre
      induction pre with
      | nil => simp only [List.nil_append, displayEntries, this]
      | cons a pre ih => simp only [List.cons_append, displayEntries, ih]
    have e2 : spaceBeforeChildren (pre ++ { x with value := v } :: post) = spaceBeforeChildren (pre ++ x :: post) := by
      unfold spaceBeforeChildren
      simp only [List.getLast?_append, List.getLast?_cons]
      cases post.getLast? <;> rfl
    obtain ⟨ty, name, es, ch, f, sp⟩ := n
    change es = _ at he
    subst he
    simp only [Node.display, Node.stringify, Node.ty, Node.name, Node.children, Node.format, e1, e2]

/-- C34, partial, for assignment through `get_mut` on a built node (by property name
or by argument index): the node then holds the new value under that key, and the
printed node is accepted and has the data of the changed node. -/
theorem C34_assign_partial [LawfulFloatIO] {n n' : Node} (h : BuiltNode n) (hw : NodeWritable n) {k : NodeKey} {v : Value}
    (hv : WritableValue v) (hs : n.getMutSet k v = some n') :
    n'.get k = some v ∧
    ∃ d, Document.parse n'.display = .ok d ∧ semDoc canonValue d = [semNode canonValue n'] := by
  rcases getMutSet_shape n k v with ⟨_, h1⟩ | ⟨pre, x, post, he, hd, h1⟩
  · rw [h1] at hs; cases hs
  · rw [h1] at hs
    cases hs
    refine ⟨Node.get_designated (x := { x with value := v }) (pre := pre) (post := post) rfl
      (by cases k <;> exact hd), ?_⟩
    have hS := BuiltNode.shape h
    refine (hS.setEntries ?_).parse (NodeWritable.setEntries hw ?_)
    · intro e hm
      rcases List.mem_append.mp hm with hm | hm
      · exact hS.entries e (by rw [he]; simp [hm])
      · rcases List.mem_cons.mp hm with rfl | hm
        · have := hS.entries x (by rw [he]; simp)
          exact ⟨this.format, this.name, this.ty⟩
        · exact hS.entries e (by rw [he]; simp [hm])
    · intro e hm
      rcases List.mem_append.mp hm with hm | hm
      · exact NodeWritable.entries hw e (by rw [he]; simp [hm])
      · rcases List.mem_cons.mp hm with rfl | hm
        · have := NodeWritable.entries hw x (by rw [he]; simp)
          exact ⟨this.name, this.ty, hv⟩
        · exact NodeWritable.entries hw e (by rw [he]; simp [hm])

/-- C34, partial, for `node[i] = v` and `node["k"] = v` on a built node: whenever the
assignment does not panic, the printed node is accepted and has the data of the
changed node, in which the new value is found. -/
theorem C34_index_assign_partial [LawfulFloatIO] {n n' : Node} (h : BuiltNode n) (hw : NodeWritable n) {v : Value}
    (hv : WritableValue v) {i : Nat} (hs : n.indexMutUsize i v = .ret n') :
    n'.get (.index i) = some v ∧
    ∃ d, Document.parse n'.display = .ok d ∧ semDoc canonValue d = [semNode canonValue n'] := by
  have : n.getMutSet (.index i) v = some n' := by
    unfold Node.indexMutUsize at hs
    cases h : n.getMutSet (.index i) v with
    | none => rw [h] at hs; cases hs
    | some m => rw [h] at hs; cases hs; rfl
  exact C34_assign_partial h hw hv this

theorem C34_key_assign_partial [LawfulFloatIO] {n n' : Node} (h : BuiltNode n) (hw : NodeWritable n) {v : Value}
    (hv : WritableValue v) {k : Str} (hk : Writable k) (hs : n.indexMutStr k v = .ret n') :
    n'.get (.ofStr k) = some v ∧
    ∃ d, Document.parse n'.display = .ok d ∧ semDoc canonValue d = [semNode canonValue n'] := by
  refine ⟨(C23_key_assign_observed n n' k v hs).1, ?_⟩
  have hS := BuiltNode.shape h
  rcases C23_key_assign n k v with ⟨_, h1⟩ | ⟨pre, x, post, he, _, _, h1⟩
  · rw [hs] at h1
    cases h1
    refine (hS.setEntries ?_).parse (NodeWritable.setEntries hw ?_)
    · intro e hm
      rcases List.mem_append.mp hm with hm | hm
      · exact hS.entries e hm
      · rw [List.mem_singleton.mp hm]
        exact BuiltEntry.shape (.newProp _ _)
    · intro e hm
      rcases List.mem_append.mp hm with hm | hm
      · exact NodeWritable.entries hw e hm
      · rw [List.mem_singleton.mp hm]
        exact ⟨by simpa [Entry.newProp, Ident.ofStr] using hk, by simp [Entry.newProp], hv⟩
  · rw [hs] at h1
    cases h1
    refine (hS.setEntries ?_).parse (NodeWritable.setEntries hw ?_)
    · intro e hm
      rcases List.mem_append.mp hm with hm | hm
      · exact hS.entries e (by rw [he]; simp [hm])
      · rcases List.mem_cons.mp hm with rfl | hm
        · have := hS.entries x (by rw [he]; simp)
          exact ⟨this.format, this.name, this.ty⟩
        · exact hS.entries e (by rw [he]; simp [hm])
    · intro e hm
      rcases List.mem_append.mp hm with hm | hm
      · exact NodeWritable.entries hw e (by rw [he]; simp [hm])
      · rcases List.mem_cons.mp hm with rfl | hm
        · have := NodeWritable.entries hw x (by rw [he]; simp)
          exact ⟨this.name, this.ty, hv⟩
        · exact NodeWritable.entries hw e (by rw [he]; simp [hm])

end

/-- A typed property, set to a string that needs quotes. -/
example : let e : Entry := (Entry.newProp (.ofStr "a b".toList) .null).setTy (.ofStr ['t'])
    (∀ i ∈ e.name, Shown i) ∧ (∀ i ∈ e.ty, Shown i) ∧ e.format = none ∧
    WritableValue (.string "x\"y".toList) := by
  refine ⟨?_, ?_, rfl, ?_⟩
  · rintro i ⟨⟩
    exact Or.inl ⟨rfl, Writable.of_head (by decide) (by decide)⟩
  · rintro i ⟨⟩
    exact Or.inl ⟨rfl, Writable.of_head (by decide) (by decide)⟩
  · exact Writable.of_head (by decide) (by decide)

/-- A built node with an argument and a property, both of which are assigned. -/
example : let n : Node := (Node.new (.ofStr ['n'])).push (.new (.bool true)) |>.push (.newProp (.ofStr ['k']) .null)
    BuiltNode n ∧ NodeWritable n ∧ (∃ n', n.indexMutUsize 0 (.bool false) = .ret n') ∧
    (∃ n', n.getMutSet (.ofStr ['k']) (.bool false) = some n') ∧
    ∃ n', n.indexMutStr ['l'] (.bool false) = .ret n' := by
  refine ⟨.push (.push (.new _) (.new _)) (.newProp _ _), ?_, ⟨_, rfl⟩, ⟨_, rfl⟩, ⟨_, rfl⟩⟩
  refine .mk (by rintro _ ⟨⟩) (Writable.of_head (by decide) (by decide)) ?_ (by rintro _ ⟨⟩)
  intro e he
  simp [Node.new, Node.push, Node.setEntries] at he
  rcases he with rfl | rfl
  · exact ⟨by rintro _ ⟨⟩, by rintro _ ⟨⟩, trivial⟩
  · refine ⟨?_, by rintro _ ⟨⟩, trivial⟩
    rintro i ⟨⟩
    exact Writable.of_head (by decide) (by decide)

end Kdl
