import Verif.Lemmas.Calm
import Verif.Lemmas.KernelRfl
import Verif.Model.Ser
/-
C56: formatting repairs whatever has been made through the API.
-/

namespace Kdl
open Spec

section
variable [FloatIO]

/-! ### Calls covered by `MadeNode` and `MadeDoc` -/

theorem Spec.MadeNode.push {n : Node} {e : Entry} (h : MadeNode n) (he : MadeEntry e) : MadeNode (n.push e) := by
  refine h.setEntries fun x hx => ?_
  rcases List.mem_append.mp hx with hx | hx
  · exact .of h hx
  · rw [List.mem_singleton.mp hx]; exact he

theorem Spec.MadeNode.clear {n : Node} (h : MadeNode n) : MadeNode n.clear := h.setEntries (by rintro x ⟨⟩)

theorem Spec.MadeNode.retain {n : Node} (h : MadeNode n) (p : Entry → Bool) : MadeNode (n.retain p) :=
  h.setEntries fun _ hx => .of h (List.mem_filter.mp hx).1

omit [FloatIO] in
theorem mem_of_insertIdx {α : Type} {a b : α} {l : List α} {i : Nat} (h : a ∈ l.insertIdx i b) : a = b ∨ a ∈ l := by
  by_cases hi : i ≤ l.length
  · exact (List.mem_insertIdx hi).mp h
  · rw [List.insertIdx_of_length_lt (by omega)] at h
    exact .inr h

theorem Spec.MadeNode.insert {n n' : Node} {k : NodeKey} {e : Entry} {o : Option Entry} (h : MadeNode n) (he : MadeEntry e)
    (hi : n.insert k e = .ret (n', o)) : MadeNode n' := by
  cases k with
  | key key =>
    have he' : MadeEntry (if e.name.isNone then { e with name := some key } else e) := by
      split
      · exact he.setName (some key)
      · exact he
    simp only [Node.insert] at hi
    generalize (if e.name.isNone then { e with name := some key } else e) = e' at he' hi
    split at hi
    · cases hi
    · split at hi
      · cases hi
        refine h.setEntries fun x hx => ?_
        rcases List.mem_or_eq_of_mem_set hx with hx | rfl
        · exact .of h hx
        · exact he'
      · cases hi
        exact h.push he'
  | index i =>
    simp only [Node.insert] at hi
    split at hi
    · cases hi
    · split at hi
      · cases hi
        refine h.setEntries fun x hx => ?_
        rcases mem_of_insertIdx hx with rfl | hx
        · exact he
        · exact .of h hx
      · split at hi
        · cases hi
        · cases hi
          exact h.push he

theorem Spec.MadeNode.remove {n n' : Node} {k : NodeKey} {o : Option Entry} (h : MadeNode n)
    (hi : n.remove k = .ret (n', o)) : MadeNode n' := by
  have key : ∀ p, MadeNode (n.setEntries (n.entries.eraseIdx p)) := fun p =>
    h.setEntries fun x hx => .of h (List.mem_of_mem_eraseIdx hx)
  cases k with
  | key key' =>
    simp only [Node.remove] at hi
    split at hi
    · cases hi; exact key _
    · cases hi; exact h
  | index i =>
    simp only [Node.remove] at hi
    split at hi
    · cases hi; exact key _
    · cases hi

/-- Changing an entry through `entry_mut`. -/
theorem Spec.MadeNode.entryMut {n n' : Node} {k : NodeKey} {f : Entry → Entry} (h : MadeNode n)
    (hf : ∀ e, MadeEntry e → MadeEntry (f e)) (hi : n.entryMut k f = some n') : MadeNode n' := by
  unfold Node.entryMut at hi
  obtain ⟨p, _, rfl⟩ := Option.map_eq_some_iff.mp hi
  refine h.setEntries fun x hx => ?_
  obtain ⟨i, hi, rfl⟩ := List.mem_iff_getElem.mp hx
  rw [List.getElem_modify]
  have hi' : i < n.entries.length := by simpa using hi
  split
  · exact hf _ (.of h (List.getElem_mem hi'))
  · exact .of h (List.getElem_mem hi')

/-- Assigning a value through `get_mut`. -/
theorem Spec.MadeNode.getMutSet {n n' : Node} {k : NodeKey} {v : Value} (h : MadeNode n)
    (hi : n.getMutSet k v = some n') : MadeNode n' := h.entryMut (fun _ he => he.setValue v) hi

/-- `node["key"] = v`. -/
theorem Spec.MadeNode.indexMutStr {n n' : Node} {k : Str} {v : Value} (h : MadeNode n)
    (hi : n.indexMutStr k v = .ret n') : MadeNode n' := by
  unfold Node.indexMutStr at hi
  simp only at hi
  split at hi
  · next hg =>
    cases hi
    refine Spec.MadeNode.getMutSet ?_ hg
    split
    · exact h.push (.newProp _ _)
    · exact h
  · cases hi

theorem Spec.MadeDoc.push {d : Document} {n : Node} (h : MadeDoc d) (hn : MadeNode n) :
    MadeDoc (.mk (d.nodes ++ [n]) d.format d.span) := by
  refine h.setNodes fun m hm => ?_
  rcases List.mem_append.mp hm with hm | hm
  · exact .of h hm
  · rw [List.mem_singleton.mp hm]; exact hn

/-- Changing a node through `get_mut`. -/
theorem Spec.MadeDoc.getMut {d d' : Document} {name : Str} {f : Node → Node} (h : MadeDoc d)
    (hf : ∀ n, MadeNode n → MadeNode (f n)) (hi : d.getMut name f = some d') : MadeDoc d' := by
  unfold Document.getMut at hi
  obtain ⟨p, _, rfl⟩ := Option.map_eq_some_iff.mp hi
  refine h.setNodes fun x hx => ?_
  obtain ⟨i, hi, rfl⟩ := List.mem_iff_getElem.mp hx
  rw [List.getElem_modify]
  have hi' : i < d.nodes.length := by simpa using hi
  split
  · exact hf _ (.of h (List.getElem_mem hi'))
  · exact .of h (List.getElem_mem hi')

/-- All documents built with constructors are covered. -/
theorem Spec.BuiltEntry.made {e : Entry} (h : BuiltEntry e) : MadeEntry e := by
  induction h with
  | new v => exact .new v
  | newProp k v => exact .newProp _ v
  | setTy t _ ih => exact ih.setTy (.plain rfl)
  | setValue v _ ih => exact ih.setValue v

mutual
theorem Spec.BuiltNode.made : ∀ {n : Node}, BuiltNode n → MadeNode n
  | _, .new name => .new _
  | _, .setTy t h => h.made.setTy _
  | _, .setName t h => h.made.setName _
  | _, .push h he => h.made.push he.made
  | _, .clear h => h.made.clear
  | _, .ensureChildren h => h.made.ensureChildren
  | _, .setChildren h hd => h.made.setChildren hd.made
  | _, .clearChildren h => h.made.clearChildren
theorem Spec.BuiltDoc.made : ∀ {d : Document}, BuiltDoc d → MadeDoc d
  | _, .new => .new
  | _, .push hd hn => hd.made.push hn.made
end

/-! ### The property -/

/-- **C56**: whatever way a document has been made through the API, if its strings and
values can be written, then it prints after formatting to a text that is accepted and has
the data of the document. -/
theorem C56_document [LawfulFloatIO] {d : Document} (h : MadeDoc d) (hw : DocWritable d) {c : FormatConfig} (hc : PlainConfig c) :
    ∃ d', Document.parse (d.autoformatConfig c).display = .ok d' ∧ semDoc canonValue d' = semDoc canonValue d :=
  NeatDoc.parse hc.1 hc.2 (h.calm.neat hw)

/-- **C56**, for a single node. -/
theorem C56_node [LawfulFloatIO] {n : Node} (h : MadeNode n) (hw : NodeWritable n) {c : FormatConfig} (hc : PlainConfig c) :
    ∃ n', Node.parse (n.autoformatConfig c).display = .ok n' ∧ semNode canonValue n' = semNode canonValue n := by
  obtain ⟨lead, B, L, e, h1, h2, h3⟩ := NeatNode.goal hc.1 hc.2 (h.calm.neat hw) 0
  obtain ⟨n', h4, h5⟩ := C50_node.mpr ⟨false, lead, B, '\n' :: L, rfl, h1 _, h3 L,
    .inr ⟨['\n'], L, rfl, .inr (.inl (.inr ⟨_, rfl, by decide, by simp⟩)), h2 _⟩⟩
  refine ⟨n', ?_, canonNode_lift h5⟩
  rw [← h4, ← e]
  rfl

/-- **C56**, for a single entry. -/
theorem C56_entry [LawfulFloatIO] {e : Entry} (h : MadeEntry e) (hw : EntryWritable e) :
    ∃ e', Entry.parse e.autoformat.display = .ok e' ∧ semEntry canonValue e' = semEntry canonValue e := by
  have hf : e.autoformat.format = none := by
    unfold Entry.autoformat
    simp only
    split
    · next f hf => simp [h.calm.1 f hf]
    · rfl
  have hs : semEntry canonValue e.autoformat = semEntry canonValue e := by
    simp only [Entry.autoformat, semEntry]
    cases e.name <;> rfl
  have ht : EntryText (semEntry canonValue e.autoformat) e.autoformat.display := by
    refine EntryText.shown hf ?_ ?_ hw.value
    · intro n hn
      unfold Entry.autoformat at hn
      obtain ⟨i, hi, rfl⟩ := Option.map_eq_some_iff.mp hn
      exact ⟨rfl, hw.name i hi⟩
    · intro t ht
      have := h.calm.2 t ht
      cases hr : t.repr with
      | none => exact .inl ⟨hr, hw.ty t ht⟩
      | some x => exact .inr ⟨x, hr, this x hr⟩
  obtain ⟨e', h1, h2⟩ := C50_entry.mpr ⟨[], e.autoformat.display, [], ht, .nil, .inl ⟨(List.append_nil _).symm, .nil⟩⟩
  refine ⟨e', h1, ?_⟩
  have := canonEntries_lift (a := [e']) (b := [e.autoformat]) (by simpa using h2)
  rw [hs] at h2
  simpa [hs] using this

/-! ### What is left out -/

/-- The condition on parsed nodes is needed: a comment after the terminator of a node
swallows the node that is put behind it. -/
theorem C56_needs_no_comment : ∃ n, Node.parse "a\n// x".toList = .ok n ∧
    (Document.new.pushNode n |>.pushNode (.new (.ofStr ['b']))).autoformat.display = "a\n // xb\n".toList ∧
    Gives "a\n // xb\n".toList [.mk none ['a'] [] none] := by
  obtain ⟨n, h1, h2⟩ := ParseResult.holds_ok (r := Node.parse "a\n// x".toList)
    (f := fun n : Node => decide ((Document.new.pushNode n |>.pushNode (.new (.ofStr ['b']))).autoformat.display =
      "a\n // xb\n".toList)) (by krfl)
  exact ⟨n, h1, of_decide_eq_true h2, gives_iff.mpr (by krfl)⟩

/-- `keep_format` is left out: it makes the formatter print the old value of an entry. -/
theorem C56_needs_no_keep : ∃ e, Entry.parse ['1'] = .ok e ∧
    (e.keepFormat.setValue (.integer ⟨2, by decide⟩)).autoformat.display = ['1'] := by
  obtain ⟨e, h1, h2⟩ := ParseResult.holds_ok (r := Entry.parse ['1'])
    (f := fun e : Entry => decide ((e.keepFormat.setValue (.integer ⟨2, by decide⟩)).autoformat.display = ['1'])) (by krfl)
  exact ⟨e, h1, of_decide_eq_true h2⟩

end

/-- The node that parsing `a "x"` gives. -/
def sampleOnly : Node :=
  .mk none ⟨['a'], some ['a'], ⟨0, 1⟩⟩
    [{ ty := none, name := none, value := .string ['x'], format := some { valueRepr := ['"', 'x', '"'], leading := [' '] },
       span := ⟨2, 3⟩ }]
    none (some {}) ⟨0, 5⟩

example [FloatIO] : Document.parse "a \"x\"".toList = .ok (.mk [sampleOnly] (some {}) ⟨0, 5⟩) := by krfl

/-- Put twice into one document, once with another argument, it is printed as one node. -/
def sampleTwice : Document := .mk [sampleOnly.push (.new (.string ['y'])), sampleOnly] (some {}) ⟨0, 5⟩

example [FloatIO] : sampleTwice.display = "a \"x\" ya \"x\"".toList ∧ sampleTwice.autoformat.display = "a x y\na x\n".toList := by
  constructor <;> krfl

/-- It meets the hypotheses of `C56_document`. -/
example [FloatIO] : MadeDoc sampleTwice ∧ DocWritable sampleTwice ∧ PlainConfig .default := by
  have hd : MadeDoc (.mk [sampleOnly] (some {}) ⟨0, 5⟩) :=
    .parse (s := "a \"x\"".toList) (by krfl) (by decide) (by rintro q ⟨⟩)
  have hn : MadeNode sampleOnly := .of hd (by simp [Document.nodes])
  refine ⟨hd.setNodes ?_, .mk ?_, rfl, by decide⟩
  · intro n h
    rcases List.mem_cons.mp h with rfl | h
    · exact hn.push (.new _)
    · rw [List.mem_singleton.mp h]; exact hn
  · have h1 : ∀ e ∈ [Entry.new (.string ['y'])], EntryWritable e := by
      intro e he
      rw [List.mem_singleton.mp he]
      exact ⟨by rintro _ ⟨⟩, by rintro _ ⟨⟩, Writable.of_head (by decide) (by decide)⟩
    have h2 : ∀ e ∈ sampleOnly.entries, EntryWritable e := by
      intro e he
      rw [List.mem_singleton.mp he]
      exact ⟨by rintro _ ⟨⟩, by rintro _ ⟨⟩, Writable.of_head (by decide) (by decide)⟩
    intro n h
    rcases List.mem_cons.mp h with rfl | h
    · refine .mk (by rintro _ ⟨⟩) (Writable.of_head (by decide) (by decide)) ?_ (by rintro _ ⟨⟩)
      intro e he
      rcases List.mem_append.mp he with he | he
      · exact h2 e he
      · exact h1 e he
    · rw [List.mem_singleton.mp h]
      exact .mk (by rintro _ ⟨⟩) (Writable.of_head (by decide) (by decide)) h2 (by rintro _ ⟨⟩)

end Kdl
