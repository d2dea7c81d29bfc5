import Verif.Props.Exact
import Verif.Props.DocApi
import Verif.Props.Build
import Verif.Spec.Lookup
import Verif.Model.Convert
/-
C63: lookups see the data of a document and nothing else.
-/

namespace Kdl
open Spec

variable {α : Type} (g : Value → α)

theorem semNode_name (n : Node) : (semNode g n).name = n.name.value := by
  cases n; rfl

theorem semNode_entries (n : Node) : (semNode g n).entries = n.entries.map (semEntry g) := by
  cases n; rfl

theorem semNode_kids (n : Node) : (semNode g n).kids = semNodes g n.iterChildren := by
  obtain ⟨ty, nm, es, ch, f, sp⟩ := n
  cases ch with
  | none => rfl
  | some d => cases d; rfl

theorem semNodes_map (ns : List Node) : semNodes g ns = ns.map (semNode g) := by
  induction ns with
  | nil => rfl
  | cons n ns ih => rw [semNodes, ih]; rfl

theorem argValues_sem (es : List Entry) : argValues (es.map (semEntry g)) = (args es).map fun e => g e.value := by
  unfold argValues args
  rw [List.filter_map, List.map_map]
  congr 1
  apply List.filter_congr
  intro e _
  cases h : e.name <;> simp [IsArg, semEntry, h]

theorem propValues_sem (k : Str) (es : List Entry) :
    propValues k (es.map (semEntry g)) = (propsOf k es).map fun e => g e.value := by
  unfold propValues propsOf
  rw [List.filter_map, List.map_map]
  congr 1

/-- **C63**: `get` of a node finds the argument with that index, or the last property with that
name, of the data of the node. -/
theorem C63_node (n : Node) : (∀ i, (n.get (.index i)).map g = (argValues (semNode g n).entries)[i]?) ∧
    ∀ k : Ident, (n.get (.key k)).map g = (propValues k.value (semNode g n).entries).getLast? := by
  constructor
  · intro i
    rw [Node.get_index, semNode_entries, argValues_sem, lookupArg, List.getElem?_map, Option.map_map]; rfl
  · intro k
    rw [Node.get_key, semNode_entries, propValues_sem, lookupProp, List.getLast?_map, Option.map_map]; rfl

/-- **C63**: the lookups of a document find the first node with that name in its data, its
arguments, and the first arguments of its children called `-`. -/
theorem C63_document (d : Document) (nm : Str) :
    (d.get nm).map (semNode g) = firstNode nm (semDoc g d) ∧
    (d.getArg nm).map g = (nodeArgs nm (semDoc g d)).head? ∧
    (d.iterArgs nm).map g = nodeArgs nm (semDoc g d) ∧
    (d.iterDashArgs nm).map g = dashValues nm (semDoc g d) := by
  obtain ⟨ns, f, sp⟩ := d
  have h1 : ((Document.mk ns f sp).get nm).map (semNode g) = firstNode nm (semDoc g (.mk ns f sp)) := by
    show (ns.find? _).map _ = firstNode nm (semNodes g ns)
    rw [semNodes_map, firstNode, List.find?_map]
    congr 2
    funext n
    rw [Bool.eq_iff_iff]; simp [semNode_name]
  have h3 : ((Document.mk ns f sp).iterArgs nm).map g = nodeArgs nm (semDoc g (.mk ns f sp)) := by
    rw [C24_iter_args, nodeArgs, ← h1]
    cases (Document.mk ns f sp).get nm with
    | none => rfl
    | some n => simp [semNode_entries, argValues_sem]
  refine ⟨h1, ?_, h3, ?_⟩
  · rw [C24_get_arg, ← h3, List.head?_map]
  · rw [Document.iterDashArgs, dashValues, ← h1]
    cases (Document.mk ns f sp).get nm with
    | none => rfl
    | some n =>
      simp only [Option.map_some]
      rw [semNode_kids, semNodes_map, List.filter_map, List.filterMap_map, List.map_filterMap]
      congr 1
      · funext m
        have := (C63_node g m).1 0
        simpa [List.head?_eq_getElem?] using this
      · apply List.filter_congr
        intro m _
        rw [Bool.eq_iff_iff]; simp [semNode_name]

/-- **C63**: documents with the same data cannot be told apart by lookups, whatever their
formatting and however their names and values are spelled. -/
theorem C63_same {d d' : Document} (h : semDoc g d = semDoc g d') (nm : Str) :
    (d.get nm).map (semNode g) = (d'.get nm).map (semNode g) ∧ (d.getArg nm).map g = (d'.getArg nm).map g ∧
    (d.iterArgs nm).map g = (d'.iterArgs nm).map g ∧ (d.iterDashArgs nm).map g = (d'.iterDashArgs nm).map g := by
  obtain ⟨a1, a2, a3, a4⟩ := C63_document g d nm
  obtain ⟨b1, b2, b3, b4⟩ := C63_document g d' nm
  rw [a1, a2, a3, a4, b1, b2, b3, b4, h]
  exact ⟨rfl, rfl, rfl, rfl⟩

section
variable [FloatIO]

/-- **C63**: lookups in a parsed document find what the grammar says the text contains. -/
theorem C63_parsed {s : Str} {ds : List (SNode Value)} (h : DocumentInput ds s) : ∃ d, Document.parse s = .ok d ∧ ∀ nm,
    d.getArg nm = (nodeArgs nm ds).head? ∧ d.iterArgs nm = nodeArgs nm ds ∧ d.iterDashArgs nm = dashValues nm ds ∧
    ∀ n, d.get nm = some n → ∃ x, firstNode nm ds = some x ∧ (∀ i, n.get (.index i) = (argValues x.entries)[i]?) ∧
      ∀ k, n.get (.ofStr k) = (propValues k x.entries).getLast? := by
  obtain ⟨d, hd, rfl⟩ := C50_document.mpr h
  refine ⟨d, hd, fun nm => ?_⟩
  obtain ⟨h1, h2, h3, h4⟩ := C63_document id d nm
  refine ⟨by simpa using h2, by simpa using h3, by simpa using h4, fun n hn => ⟨_, by rw [← h1, hn]; rfl, fun i => ?_, fun k => ?_⟩⟩
  · simpa using (C63_node id n).1 i
  · have := (C63_node id n).2 (.ofStr k)
    rw [Option.map_id] at this
    exact this

/-- **C63**: a document built through the API, printed and parsed, gives the same answers to all
lookups (any NaN as the standard one). -/
theorem C63_printed [LawfulFloatIO] {d : Document} (h : BuiltDoc d) (hw : DocWritable d) :
    ∃ d', Document.parse d.display = .ok d' ∧ ∀ nm,
      (d'.getArg nm).map canonValue = (d.getArg nm).map canonValue ∧
      (d'.iterArgs nm).map canonValue = (d.iterArgs nm).map canonValue ∧
      (d'.iterDashArgs nm).map canonValue = (d.iterDashArgs nm).map canonValue ∧
      ((d'.getArg nm).bind Value.asString = (d.getArg nm).bind Value.asString) ∧
      ((d'.getArg nm).bind Value.asInteger = (d.getArg nm).bind Value.asInteger) ∧
      (d'.getArg nm).bind Value.asBool = (d.getArg nm).bind Value.asBool := by
  obtain ⟨d', hd, he⟩ := C10_built_partial h hw
  refine ⟨d', hd, fun nm => ?_⟩
  obtain ⟨_, h2, h3, h4⟩ := C63_same canonValue he nm
  have key {β : Type} (f : Value → Option β) (hf : ∀ v, f (canonValue v) = f v) (o : Option Value) :
      (o.map canonValue).bind f = o.bind f := by
    cases o with
    | none => rfl
    | some v => exact hf v
  have hcanon (x : F64) : ∃ y, canonValue (.float x) = .float y := by
    by_cases hx : x.isNan = true
    · exact ⟨_, if_pos hx⟩
    · exact ⟨_, if_neg hx⟩
  have k1 : ∀ v, Value.asString (canonValue v) = Value.asString v := by
    intro v; cases v with
    | float x => obtain ⟨y, hy⟩ := hcanon x; rw [hy]; rfl
    | _ => rfl
  have k2 : ∀ v, Value.asInteger (canonValue v) = Value.asInteger v := by
    intro v; cases v with
    | float x => obtain ⟨y, hy⟩ := hcanon x; rw [hy]; rfl
    | _ => rfl
  have k3 : ∀ v, Value.asBool (canonValue v) = Value.asBool v := by
    intro v; cases v with
    | float x => obtain ⟨y, hy⟩ := hcanon x; rw [hy]; rfl
    | _ => rfl
  refine ⟨h2, h3, h4, ?_, ?_, ?_⟩
  · rw [← key _ k1, h2, key _ k1]
  · rw [← key _ k2, h2, key _ k2]
  · rw [← key _ k3, h2, key _ k3]

/-- A document with one node `nm`, whose arguments are Rust values converted one by one. -/
def Spec.listDoc (nm : Str) (ss : List Source) : Document :=
  .mk [ss.foldl (fun n s => n.push (.ofSource s)) (.new (.ofStr nm))] none ⟨0, 0⟩

theorem built_push (ss : List Source) : ∀ {n : Node}, BuiltNode n → BuiltNode (ss.foldl (fun n s => n.push (.ofSource s)) n) := by
  induction ss with
  | nil => intro n h; exact h
  | cons s ss ih => intro n h; exact ih (.push h (.new _))

theorem entries_push (ss : List Source) : ∀ n : Node,
    (ss.foldl (fun n s => n.push (.ofSource s)) n) =
      .mk n.ty n.name (n.entries ++ ss.map fun s => .new s.into) n.children n.format n.span := by
  induction ss with
  | nil => intro n; cases n; simp
  | cons s ss ih => intro n; rw [List.foldl_cons, ih]; cases n; simp [Node.push, Node.setEntries, Entry.ofSource]

/-- **C63**: Rust values put into a node, printed and parsed, are found by `iter_args`, in order,
as the values they were converted to. -/
theorem C63_source [LawfulFloatIO] {nm : Str} {ss : List Source} (hn : Writable nm) (hs : ∀ s ∈ ss, WritableValue s.into) :
    ∃ d, Document.parse (listDoc nm ss).display = .ok d ∧ (d.iterArgs nm).map canonValue = ss.map fun s => canonValue s.into := by
  have hb : BuiltDoc (listDoc nm ss) := .push .new (built_push ss (.new nm))
  have hw : DocWritable (listDoc nm ss) := by
    refine .mk fun n h => ?_
    rw [List.mem_singleton.mp h, entries_push]
    refine .mk (by rintro _ ⟨⟩) hn (fun e he => ?_) (by rintro _ ⟨⟩)
    rcases List.mem_append.mp he with he | he
    · cases he
    · obtain ⟨s, hs', rfl⟩ := List.mem_map.mp he
      exact ⟨by rintro _ ⟨⟩, by rintro _ ⟨⟩, hs s hs'⟩
  obtain ⟨d, hd, h⟩ := C63_printed hb hw
  refine ⟨d, hd, ?_⟩
  rw [(h nm).2.1, C24_iter_args]
  have : (listDoc nm ss).get nm = some (ss.foldl (fun n s => n.push (.ofSource s)) (.new (.ofStr nm))) := by
    rw [C24_get_first]
    refine ⟨[], [], rfl, ?_, by simp⟩
    rw [entries_push]; rfl
  rw [this, entries_push]
  show List.map canonValue (List.map Entry.value (args ([] ++ ss.map fun s => Entry.new s.into))) = _
  rw [List.nil_append, args, List.filter_eq_self.mpr (by
    intro e he
    obtain ⟨s, _, rfl⟩ := List.mem_map.mp he
    exact decide_eq_true rfl), List.map_map, List.map_map]
  rfl

/-- **C63**: the kind tests and accessors tell the kinds of values apart: exactly one test holds,
an accessor answers exactly when its test holds, and the accessor of the type a value was
converted from gives back what was converted. `Some` makes no difference. -/
theorem C63_kinds (v : Value) : [v.isString, v.isInteger, v.isFloat, v.isBool, v.isNull].count true = 1 ∧
    v.asString.isSome = v.isString ∧ v.asInteger.isSome = v.isInteger ∧ v.asFloat.isSome = v.isFloat ∧
    v.asBool.isSome = v.isBool ∧
    (∀ i, (Source.int i).into = v ↔ v.asInteger = some i) ∧ (∀ x, (Source.float x).into = v ↔ v.asFloat = some x) ∧
    (∀ s, (Source.text s).into = v ↔ v.asString = some s) ∧ (∀ b, (Source.bool b).into = v ↔ v.asBool = some b) ∧
    (Source.none.into = v ↔ v.isNull = true) ∧ ∀ s, (Source.some s).into = v ↔ s.into = v := by
  cases v <;> simp [Source.into, Value.isString, Value.isInteger, Value.isFloat, Value.isBool, Value.isNull, Value.asString,
    Value.asInteger, Value.asFloat, Value.asBool, eq_comm]

omit [FloatIO] in
/-- **C63**: a value becomes the next argument, a pair of a name and a value the last property of
that name; nothing else is found differently. -/
theorem C63_from (n : Node) (k : Ident) (s : Source) :
    (n.push (.ofSource s)).get (.index (args n.entries).length) = some s.into ∧
    (∀ i, i ≠ (args n.entries).length → (n.push (.ofSource s)).get (.index i) = n.get (.index i)) ∧
    (∀ q, (n.push (.ofSource s)).get (.key q) = n.get (.key q)) ∧
    (n.push (.ofPair k s)).get (.key k) = some s.into ∧
    (∀ q : Ident, q.value ≠ k.value → (n.push (.ofPair k s)).get (.key q) = n.get (.key q)) ∧
    ∀ i, (n.push (.ofPair k s)).get (.index i) = n.get (.index i) := by
  obtain ⟨ty, nm, es, ch, f, sp⟩ := n
  simp only [Node.push, Node.setEntries, Node.entries, Node.get_index, Node.get_key, lookupArg, lookupProp, args, propsOf,
    List.filter_append, Entry.ofSource, Entry.ofPair]
  refine ⟨?_, fun i hi => ?_, fun q => ?_, ?_, fun q hq => ?_, fun i => ?_⟩
  · simp [IsArg, Entry.new]
  · rcases Nat.lt_or_gt_of_ne hi with h | h
    · rw [List.getElem?_append_left h]
    · have h1 : (List.filter (fun e => decide (IsArg e)) [Entry.new s.into]).length ≤ 1 := List.length_filter_le _ _
      rw [List.getElem?_eq_none (by rw [List.length_append]; omega), List.getElem?_eq_none (by omega)]
  · simp [IsProp, Entry.new]
  · simp [IsProp, Entry.newProp]
  · have : k.value ≠ q.value := fun e => hq e.symm
    simp [IsProp, Entry.newProp, this]
  · simp [IsArg, Entry.newProp]

/-- Lookups in a text with formatting, escapes and repeated names. -/
example : ∃ d, Document.parse "(u)\"a\" k=#true /*x*/ #null; a #false\nl { - #true; - #false; x }".toList = .ok d ∧
    d.getArg ['a'] = some .null ∧ d.iterDashArgs ['l'] = [.bool true, .bool false] := by
  have h : ∃ ds, Gives "(u)\"a\" k=#true /*x*/ #null; a #false\nl { - #true; - #false; x }".toList ds ∧
      (nodeArgs ['a'] ds).head? = some .null ∧ dashValues ['l'] ds = [.bool true, .bool false] :=
    ⟨[.mk (some ['u']) ['a'] [⟨none, some ['k'], .bool true⟩, ⟨none, none, .null⟩] none,
      .mk none ['a'] [⟨none, none, .bool false⟩] none,
      .mk none ['l'] [] (some [.mk none ['-'] [⟨none, none, .bool true⟩] none, .mk none ['-'] [⟨none, none, .bool false⟩] none,
        .mk none ['x'] [] none])], gives_iff.mpr (by krfl), by rfl, by rfl⟩
  obtain ⟨ds, h1, h2, h3⟩ := h
  obtain ⟨d, hd, h⟩ := C63_parsed (C50_document.mp h1)
  exact ⟨d, hd, by rw [(h _).1, h2], by rw [(h _).2.2.1, h3]⟩

end

end Kdl
