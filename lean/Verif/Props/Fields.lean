import Verif.Lemmas.Fields
import Verif.Spec.Serde
import Verif.Lemmas.KernelRfl
/-
C54: reading nodes into structs, flags, sequences and enums.
-/

namespace Kdl
open Spec

section
variable [FloatCast]

theorem deMap_eq (l : List (Str × Src)) : ∀ fs : List (Str × Ty),
    deMap fs l = fs.mapM fun f => (fromOne f.2 (valuesOf f.1 l)).map fun v => (f.1, v)
  | [] => rfl
  | (k, t) :: fs => by
    rw [deMap, deMap_eq l fs, List.mapM_cons]
    simp only
    generalize fs.mapM (fun f => (fromOne f.2 (valuesOf f.1 l)).map fun v => (f.1, v)) = r
    have key : ∀ x : Option SVal, (x.bind fun v => r.map fun y => (k, v) :: y) =
        (x.map fun v => (k, v)).bind fun y => r.bind fun z => some (y :: z) := by
      intro x
      cases x <;> cases r <;> rfl
    generalize valuesOf k l = v
    rcases v with _ | ⟨a, _ | ⟨b, v⟩⟩
    · exact key _
    · exact key _
    · exact key none

omit [FloatCast] in
theorem mapM_map_congr {α β γ : Type} {g : α → β} {F : β → Option γ} {G : α → Option γ} :
    ∀ {l : List α}, (∀ a ∈ l, F (g a) = G a) → (l.map g).mapM F = l.mapM G
  | [], _ => rfl
  | a :: l, h => by
    rw [List.map_cons, List.mapM_cons, List.mapM_cons, h a (by simp), mapM_map_congr fun b hb => h b (List.mem_cons_of_mem _ hb)]

/-- **C54**, structs: each field gets exactly what its name says. The names of the fields
are distinct, as in every Rust struct. -/
theorem C54_struct {fs : List (Field × Ty)} (hd : (fs.map Prod.fst).Nodup) (hc : ∀ f ∈ fs, f.1.Clear) {n : DNode}
    (hn : ClearNode n) :
    de (.struct (fs.map fun f => (f.1.text, f.2))) (.node n) =
      (fs.mapM fun f => (fieldValue n (fs.map Prod.fst) f.2 f.1).map fun v => (f.1.text, v)).map .struct := by
  have e1 : (fs.map fun f => (f.1.text, f.2)).map Prod.fst = (fs.map Prod.fst).map Field.text := by
    simp [List.map_map, Function.comp_def]
  have hc' : ∀ g ∈ fs.map Prod.fst, g.Clear := by
    intro g hg
    obtain ⟨f, hf, rfl⟩ := List.mem_map.mp hg
    exact hc f hf
  have e2 : (Src.node n).request (.struct ((fs.map fun f => (f.1.text, f.2)).map Prod.fst)) =
      some (.map ((tagged n (fs.map Prod.fst)).map named)) := by
    rw [e1, ← nodeMap_tag hc' hn]
    rfl
  rw [de, e2]
  simp only
  rw [deMap_eq]
  congr 1
  refine mapM_map_congr fun f hf => ?_
  rw [valuesOf_named (hc f hf) (tagged_clear hn hc'), field_sources hd (List.mem_map.mpr ⟨f, hf, rfl⟩)]

/-- **C54**, fields without a property or child: a flag is `false`, an option is absent, a
number, a string or a char is an error. -/
theorem C54_omitted (t : Ty) (lo hi : Int) (wide : Bool) : de .bool .omitted = some (.bool false) ∧
    de (.option t) .omitted = some .none ∧ de (.int lo hi wide) .omitted = none ∧ de .str .omitted = none ∧
    de .f64 .omitted = none ∧ de .char .omitted = none := by
  refine ⟨?_, ?_, ?_, ?_, ?_, ?_⟩ <;> rw [de] <;> rfl

/-- **C54**, flags: a node without contents is `true`, a node with a single boolean argument
is that boolean, and every other node is an error. -/
theorem C54_flag (ty : Option Str) (name : Str) (es : List DEntry) (ch : Option (List DNode)) :
    de .bool (.node (.mk ty name es ch)) = match es, ch with
      | [], none => some (.bool true)
      | [⟨_, none, .bool b⟩], none => some (.bool b)
      | _, _ => none := by
  rw [de]
  cases ch with
  | some ns =>
    have h1 : DNode.scalar (.mk ty name es (some ns)) = none := by
      unfold DNode.scalar
      split
      · next h => cases h
      · rfl
    have h2 : DNode.isEmpty (.mk ty name es (some ns)) = false := by
      simp [DNode.isEmpty, DNode.children]
    simp only [Src.request, DNode.request, h1, h2]
    rcases es with _ | ⟨e, es⟩ <;> rfl
  | none =>
    rcases es with _ | ⟨⟨t1, n1, v1⟩, _ | ⟨⟨t2, n2, v2⟩, es⟩⟩
    · rfl
    · cases n1 with
      | none =>
        cases v1 with
        | integer n =>
          simp only [Src.request, DNode.request, DNode.scalar, DNode.args, DNode.props, DNode.entries, DNode.children]
          simp only [List.filter_cons, List.filter_nil, Option.isNone_none, if_true, Option.isSome_none, Bool.false_eq_true, if_false,
            Value.event]
          split
          · rfl
          · split <;> rfl
        | _ => rfl
      | some k => rfl
    · have h1 : DNode.scalar (.mk ty name (⟨t1, n1, v1⟩ :: ⟨t2, n2, v2⟩ :: es) none) = none := by
        unfold DNode.scalar DNode.args DNode.props DNode.entries
        cases n1 <;> cases n2 <;> simp only [List.filter_cons, Option.isNone_none, Option.isNone_some, Option.isSome_none, Option.isSome_some,
          if_true, Bool.false_eq_true, if_false] <;> split <;> first | rfl | (next h _ _ => simp at h) | (next _ h _ => simp at h)
      simp only [Src.request, DNode.request, h1]
      rfl

/-- **C54**, sequences: a node with a children block is the sequence of its children, a node
without one the sequence of its arguments. -/
theorem C54_seq (t : Ty) (n : DNode) : de (.seq t) (.node n) = match n.children with
      | some ns => (ns.mapM fun c => de t (.node c)).map .seq
      | none => ((argEntries n).mapM fun a => de t (.value a.value)).map .seq := by
  rw [de]
  simp only [Src.request, DNode.request, DNode.seq]
  cases n.children with
  | some ns =>
    simp only
    congr 1
    exact mapM_map_congr fun c _ => rfl
  | none =>
    simp only
    rw [← args_eq]
    congr 1
    exact mapM_map_congr fun c _ => rfl

theorem nodeMap_none (c : DNode) : nodeMap c none = (c.entries.flatMap (tagProp []) ++ tagKids (c.children.getD [])).map named := by
  unfold nodeMap
  rw [← props_flatMap, List.map_append, List.map_flatMap]
  simp only [List.nil_append, List.append_nil]
  congr 1
  · simp only [List.flatMap]
    congr 1
    refine List.map_congr_left fun e _ => ?_
    obtain ⟨ty, name, v⟩ := e
    cases name <;> cases ty <;> rfl
  · cases c.children with
    | none => rfl
    | some ns => exact tagKids_eq ns

theorem variant_field (c : DNode) (t : Ty) (p : Str) : fromOne t (valuesOf p (nodeMap c none)) = variantField c t p := by
  have key : ∀ {l : List (Field × Src)}, (∀ q ∈ l, ∃ k, q.1 = .plain k) → valuesOf p (l.map named) = srcs (.plain p) l := by
    intro l h
    induction l with
    | nil => rfl
    | cons q l ih =>
      obtain ⟨g, s⟩ := q
      obtain ⟨k, hk⟩ := h (g, s) (by simp)
      have hk : g = .plain k := hk
      subst hk
      rw [srcs_cons, ← ih fun q hq => h q (List.mem_cons_of_mem _ hq)]
      by_cases e : k = p <;> simp [valuesOf, named, Field.text, e]
  rw [nodeMap_none, key, srcs_append, srcs_plainProp, srcs_kids]
  · have h1 : p ∈ (c.children.getD []).map DNode.name ↔ childrenOf c p ≠ [] := by
      unfold childrenOf
      rw [List.mem_map]
      constructor
      · rintro ⟨c, hc, rfl⟩
        exact List.ne_nil_of_mem (List.mem_filter.mpr ⟨hc, by simp⟩)
      · intro h
        obtain ⟨e, he⟩ := List.exists_mem_of_ne_nil _ h
        obtain ⟨h2, h3⟩ := List.mem_filter.mp he
        exact ⟨e, h2, by simpa using h3⟩
    simp only [h1]
    rw [show (c.entries.filter fun e => e.name = some p) = propEntries c p from rfl,
      show ((c.children.getD []).filter fun c => c.name = p) = childrenOf c p from rfl]
    unfold variantField
    generalize propEntries c p = ps
    generalize childrenOf c p = cs
    rcases ps with _ | ⟨a, _ | ⟨b, ps⟩⟩ <;> rcases cs with _ | ⟨c, _ | ⟨d, cs⟩⟩ <;> simp [fromOne, oneOrMany]
  · intro q hq
    rcases List.mem_append.mp hq with hq | hq
    · obtain ⟨e, _, hq⟩ := List.mem_flatMap.mp hq
      obtain ⟨ty, name, v⟩ := e
      cases name with
      | none => cases hq
      | some k =>
        have : tagProp [] ⟨ty, some k, v⟩ = [(.plain k, .value v)] := by cases ty <;> rfl
        rw [this] at hq
        exact ⟨k, by rw [List.mem_singleton.mp hq]⟩
    · obtain ⟨k, _, rfl⟩ := List.mem_map.mp hq
      exact ⟨k, rfl⟩

theorem deBody_node (c : DNode) (vt : VTy) : deBody c.name vt (.node c) = variantValue c vt := by
  cases vt with
  | unit => rfl
  | newtype t => rw [deBody]; rfl
  | tuple ts =>
    rw [deBody, variantValue, de]
    simp only [EnumSrc.tuple, Src.request, DNode.request, DNode.seq]
    cases c.children with
    | none => simp only; generalize deTuple _ _ = r; cases r <;> rfl
    | some ns => simp only; generalize deTuple _ _ = r; cases r <;> rfl
  | struct fs =>
    rw [deBody, variantValue]
    simp only [EnumSrc.struct]
    rw [deMap_eq]
    congr 1
    have := mapM_map_congr (g := id) (l := fs) (F := fun f : Str × Ty => (fromOne f.2 (valuesOf f.1 (nodeMap c none))).map fun v => (f.1, v))
      (G := fun f => (variantField c f.2 f.1).map fun v => (f.1, v)) fun f _ => by
        simp only [id]
        rw [variant_field]
    rwa [List.map_id] at this

/-- **C54**, enums: a document with a single node, or a node with a single child, is the
variant of that name, read from that node. A name that is no variant is an error. -/
theorem C54_enum {vs : List (Str × VTy)} (hd : (vs.map Prod.fst).Nodup) (ty : Option Str) (name : Str) (es : List DEntry) (c : DNode) :
    de (.enum vs) (.doc [c]) = de (.enum vs) (.node (.mk ty name es (some [c]))) ∧
    (∀ vt, (c.name, vt) ∈ vs → de (.enum vs) (.doc [c]) = variantValue c vt) ∧
    (c.name ∉ vs.map Prod.fst → de (.enum vs) (.doc [c]) = none) := by
  have h0 : de (.enum vs) (.doc [c]) = deVariant vs (.node c) := by rw [de]; rfl
  have h1 : de (.enum vs) (.node (.mk ty name es (some [c]))) = deVariant vs (.node c) := by
    have h1 : DNode.scalar (.mk ty name es (some [c])) = none := by
      unfold DNode.scalar
      split
      · next h => cases h
      · rfl
    rw [de]
    simp only [Src.request, DNode.request, DNode.enum, h1]
    rfl
  refine ⟨h0.trans h1.symm, fun vt h => ?_, fun h => ?_⟩
  · rw [h0, ← deBody_node]
    exact deVariant_mem (e := .node c) hd h
  · rw [h0]
    exact deVariant_none h

/-- **C54**, enums: a node with a single string argument and nothing else is the unit variant
of that name. -/
theorem C54_enum_unit {vs : List (Str × VTy)} (hd : (vs.map Prod.fst).Nodup) (ty ety : Option Str) (name s : Str) :
    ((s, VTy.unit) ∈ vs → de (.enum vs) (.node (.mk ty name [⟨ety, none, .string s⟩] none)) = some (.unitVariant s)) ∧
    (s ∉ vs.map Prod.fst → de (.enum vs) (.node (.mk ty name [⟨ety, none, .string s⟩] none)) = none) := by
  have h0 : de (.enum vs) (.node (.mk ty name [⟨ety, none, .string s⟩] none)) = deVariant vs (.str s) := by rw [de]; rfl
  rw [h0]
  refine ⟨fun h => ?_, fun h => deVariant_none h⟩
  rw [deVariant_mem (e := .str s) hd h]
  rfl

omit [FloatCast] in
theorem args_props_length (n : DNode) : n.args.length + n.props.length = n.entries.length := by
  unfold DNode.args DNode.props
  induction n.entries with
  | nil => rfl
  | cons e es ih => cases he : e.name <;> simp [he] <;> omega

omit [FloatCast] in
theorem enum_self {n : DNode}
    (hn : (∃ ns, n.children = some ns ∧ ns.length ≠ 1) ∨ (n.children = none ∧ (n.entries.length ≠ 1 ∨
      ∃ e, n.entries = [e] ∧ e.name = none ∧ ∀ s, e.value ≠ .string s))) : n.enum = .node n := by
  have hl := args_props_length n
  unfold DNode.enum DNode.scalar
  rcases hn with ⟨ns, hc, h⟩ | ⟨hc, h | ⟨e, he, hname, hv⟩⟩
  · rw [hc]
    rcases ns with _ | ⟨a, _ | ⟨b, ns⟩⟩
    · simp
    · exact absurd rfl h
    · simp
  · rw [hc]
    generalize n.args = as at *
    generalize n.props = ps at *
    rcases as with _ | ⟨a, _ | ⟨b, as⟩⟩ <;> rcases ps with _ | ⟨p, _ | ⟨q, ps⟩⟩ <;> simp at hl ⊢ <;> omega
  · have ha : n.args = [e] := by unfold DNode.args; rw [he]; simp [hname]
    have hp : n.props = [] := by unfold DNode.props; rw [he]; simp [hname]
    rw [hc, ha, hp]
    simp only

/-- **C54**, enums: a node with several children, or with an empty block, is the variant of its own
name; so is a node without a block that has no entries, or several, or one argument that is no string. -/
theorem C54_enum_self {vs : List (Str × VTy)} (hd : (vs.map Prod.fst).Nodup) (n : DNode)
    (hn : (∃ ns, n.children = some ns ∧ ns.length ≠ 1) ∨ (n.children = none ∧ (n.entries.length ≠ 1 ∨
      ∃ e, n.entries = [e] ∧ e.name = none ∧ ∀ s, e.value ≠ .string s))) :
    (∀ vt, (n.name, vt) ∈ vs → de (.enum vs) (.node n) = variantValue n vt) ∧
    (n.name ∉ vs.map Prod.fst → de (.enum vs) (.node n) = none) := by
  have h0 : de (.enum vs) (.node n) = deVariant vs (.node n) := by
    have h1 := enum_self hn
    rw [de]
    simp only [Src.request, DNode.request, h1]
  rw [h0]
  refine ⟨fun vt h => ?_, fun h => deVariant_none h⟩
  rw [← deBody_node]
  exact deVariant_mem (e := .node n) hd h

/-- **C54**, enums: a node whose only entry is a property, without a block, is the variant named by
the property, which has the value of the property or nothing as its contents. -/
theorem C54_enum_prop {vs : List (Str × VTy)} (hd : (vs.map Prod.fst).Nodup) (ty ety : Option Str) (name k : Str) (v : Value) :
    ((k, VTy.unit) ∈ vs → de (.enum vs) (.node (.mk ty name [⟨ety, some k, v⟩] none)) = some (.unitVariant k)) ∧
    (∀ t, (k, VTy.newtype t) ∈ vs → de (.enum vs) (.node (.mk ty name [⟨ety, some k, v⟩] none)) =
      (de t (.value v)).map (.newtypeVariant k)) ∧
    (k ∉ vs.map Prod.fst → de (.enum vs) (.node (.mk ty name [⟨ety, some k, v⟩] none)) = none) := by
  have h0 : de (.enum vs) (.node (.mk ty name [⟨ety, some k, v⟩] none)) = deVariant vs (.prop k v) := by rw [de]; rfl
  rw [h0]
  refine ⟨fun h => ?_, fun t h => ?_, fun h => deVariant_none h⟩
  · rw [deVariant_mem (e := .prop k v) hd h]
    rfl
  · rw [deVariant_mem (e := .prop k v) hd h, deBody]
    rfl

/-- A node that meets the hypothesis of `C54_enum_self`: `a { b; c }`. -/
example : ∃ ns, DNode.children (.mk none ['a'] [] (some [.mk none ['b'] [] none, .mk none ['c'] [] none])) = some ns ∧ ns.length ≠ 1 :=
  ⟨_, rfl, by decide⟩

/-! ### A concrete case -/

/-- `(big)server (cool)app 80 x port=(internal)1 { log; log #false; on }`. -/
def serverNode : DNode := .mk (some "big".toList) "server".toList
  [⟨some "cool".toList, none, .string "app".toList⟩, ⟨none, none, .integer ⟨80, by decide⟩⟩, ⟨none, none, .string "x".toList⟩,
    ⟨some "internal".toList, some "port".toList, .integer ⟨1, by decide⟩⟩]
  (some [.mk none "log".toList [] none, .mk none "log".toList [⟨none, none, .bool false⟩] none, .mk none "on".toList [] none])

/-- Fields of every kind. -/
def serverFields : List (Field × Ty) :=
  [(.name, .str), (.type, .str), (.arg 0, .str), (.argType 0, .str), (.arg 1, .int 0 255 false), (.rest, .seq .str),
    (.prop "port".toList, .int 0 255 false), (.propType "port".toList, .str), (.plain "log".toList, .seq .bool),
    (.plain "on".toList, .bool), (.plain "off".toList, .bool), (.arg 7, .option .str)]

/-- The hypotheses of `C54_struct` can be met, and what is read then. -/
theorem C54_example : (serverFields.map Prod.fst).Nodup ∧ (∀ f ∈ serverFields, f.1.Clear) ∧ ClearNode serverNode ∧
    (serverFields.mapM fun f => (fieldValue serverNode (serverFields.map Prod.fst) f.2 f.1).map fun v => (f.1.text, v)) =
      some [("#name".toList, .str "server".toList), ("#type".toList, .str "big".toList), ("#0".toList, .str "app".toList),
        ("#0#type".toList, .str "cool".toList), ("#1".toList, .int ⟨80, by decide⟩), ("#rest".toList, .seq [.str "x".toList]),
        ("#@port".toList, .int ⟨1, by decide⟩), ("#@port#type".toList, .str "internal".toList),
        ("log".toList, .seq [.bool true, .bool false]), ("on".toList, .bool true), ("off".toList, .bool false), ("#7".toList, .none)] := by
  refine ⟨by decide, ?_, ⟨?_, ?_⟩, ?_⟩
  · intro f hf
    simp only [serverFields, List.mem_cons, List.not_mem_nil, or_false] at hf
    rcases hf with rfl | rfl | rfl | rfl | rfl | rfl | rfl | rfl | rfl | rfl | rfl | rfl
    case inr.inr.inr.inr.inr.inr.inl =>
      intro q e
      have := congrArg List.getLast? e
      rw [List.getLast?_append] at this
      exact absurd this (by show ¬ (some 't' = some 'e'); decide)
    all_goals first | trivial | (intro q e; cases e)
  · intro e he p hp
    simp only [serverNode, DNode.entries, List.mem_cons, List.not_mem_nil, or_false] at he
    rcases he with rfl | rfl | rfl | rfl
    · cases hp
    · cases hp
    · cases hp
    · cases hp
      refine ⟨by rintro q ⟨⟩, ?_⟩
      intro q e
      have := congrArg List.getLast? e
      rw [List.getLast?_append] at this
      exact absurd this (by show ¬ (some 't' = some 'e'); decide)
  · intro ns hns c hc q e
    cases hns
    simp only [List.mem_cons, List.not_mem_nil, or_false] at hc
    rcases hc with rfl | rfl | rfl <;> cases e
  · krfl

/-! ### Names that collide -/

/-- A property whose name looks like that of an argument field collides with the argument. -/
theorem C54_collision (v w : Value) :
    de (.struct [("#0".toList, .bool)]) (.node (.mk none ['a'] [⟨none, none, v⟩, ⟨none, some "#0".toList, w⟩] none)) = none ∧
    de (.struct [("#0".toList, .bool)]) (.node (.mk none ['a'] [⟨none, some "#0".toList, .bool true⟩] none)) =
      some (.struct [("#0".toList, .bool true)]) :=
  ⟨by krfl, by krfl⟩

/-- A property given twice cannot be read into a struct, although the rightmost one is the
value of the property: it is a duplicate field. -/
theorem C54_duplicate (t : Ty) (v w : Value) :
    de (.struct [(['k'], t)]) (.node (.mk none ['a'] [⟨none, some ['k'], v⟩, ⟨none, some ['k'], w⟩] none)) = none := by
  have h := C54_struct (fs := [(.plain ['k'], t)]) (by simp) (by
      intro f hf
      rw [List.mem_singleton.mp hf]
      intro q e
      cases e)
    (n := .mk none ['a'] [⟨none, some ['k'], v⟩, ⟨none, some ['k'], w⟩] none) ⟨by
      intro e he p hp
      have : p = ['k'] := by
        simp only [DNode.entries, List.mem_cons, List.not_mem_nil, or_false] at he
        rcases he with rfl | rfl <;> · cases hp; rfl
      subst this
      refine ⟨(by rintro q ⟨⟩), fun q e => ?_⟩
      have := congrArg List.length e
      simp at this, by rintro _ ⟨⟩⟩
  exact h

end

end Kdl
