import Verif.Lemmas.Ser
import Verif.Lemmas.Group
/-
The data written for the values of C44, and its reading.
-/

namespace Kdl

open Spec

/-- The argument written for a value. -/
def argOf (v : SVal) : Value := (toKdlValue v).getD .null

/-- Arguments written for a value. -/
def encArgs : SVal → List Value
  | .some v | .newtypeStruct v => encArgs v
  | .seq vs | .tuple vs | .tupleStruct vs => vs.map argOf
  | .struct fs => (structArgs fs).map argOf
  | .newtypeVariant _ _ | .tupleVariant _ _ | .structVariant _ _ | .map _ | .bytes _ | .int128 _ => []
  | v => [argOf v]

/-- The arguments begin with `false` or null. -/
def flagged : List Value → Bool
  | .bool false :: _ | .null :: _ => true
  | _ => false

/-- Arguments as entries. -/
def plainArgs (l : List Value) : List DEntry := l.map fun x => ⟨none, none, x⟩

/-- Entries written for the fields of a struct. -/
def structEntries : List (Str × SVal) → List DEntry
  | [] => []
  | (k, v) :: fs =>
    (if argsField k then plainArgs ((spread v).map argOf)
     else if argField k then plainArgs [argOf v]
     else if propField k then [⟨none, some (k.drop 2), argOf v⟩]
     else []) ++ structEntries fs

/-- Entries written for a value. -/
def encEntries : SVal → List DEntry
  | .some v | .newtypeStruct v => encEntries v
  | .struct fs => structEntries fs
  | v => plainArgs (encArgs v)

/-- A field written as a node. -/
def kidField (k : Str) : Bool := !(argField k || propField k)

/-- A key that is a string. -/
def keyName : SVal → Str
  | .str k => k
  | _ => []

mutual
/-- Children written for a value. -/
def encKids : SVal → Option (List DNode)
  | .some v | .newtypeStruct v => encKids v
  | .newtypeVariant k v => some [.mk none k (plainArgs [argOf v]) none]
  | .tupleVariant k vs => some [.mk none k (plainArgs (vs.map argOf)) none]
  | .structVariant k fs => some [.mk none k [] (some (encFields fs))]
  | .map kvs => match encMap kvs with
    | [] => none
    | n :: ns => some (n :: ns)
  | .struct fs => if fs.any fun f => kidField f.1 then some (encStruct fs) else none
  | _ => none
/-- Nodes written for the fields of a struct. -/
def encStruct : List (Str × SVal) → List DNode
  | [] => []
  | (k, v) :: fs =>
    if !kidField k || flagged (encArgs v) then encStruct fs
    else .mk none k (encEntries v) (encKids v) :: encStruct fs
/-- Nodes written for fields. -/
def encFields : List (Str × SVal) → List DNode
  | [] => []
  | (k, v) :: fs =>
    if flagged (encArgs v) then encFields fs
    else .mk none k (encEntries v) (encKids v) :: encFields fs
/-- Nodes written for the entries of a map. -/
def encMap : List (SVal × SVal) → List DNode
  | [] => []
  | (k, v) :: kvs =>
    if flagged (encArgs v) then encMap kvs
    else .mk none (keyName k) (encEntries v) (encKids v) :: encMap kvs
end

/-- Node written for a field. -/
def encNode (k : Str) (v : SVal) : DNode := .mk none k (encEntries v) (encKids v)

mutual
/-- The parts of the value that are written as arguments can be. -/
def SerOk : SVal → Prop
  | .some v | .newtypeStruct v => SerOk v
  | .seq vs | .tuple vs | .tupleStruct vs | .tupleVariant _ vs => ∀ v ∈ vs, toKdlValue v ≠ none
  | .newtypeVariant _ v => toKdlValue v ≠ none
  | .map kvs => MapOk kvs
  | .struct fs => StructOk fs
  | .structVariant _ fs => FieldsOk fs
  | _ => True
/-- The same for the fields of a struct. -/
def StructOk : List (Str × SVal) → Prop
  | [] => True
  | (k, v) :: fs =>
    (if argsField k then ∀ w ∈ spread v, toKdlValue w ≠ none
     else if argField k || propField k then toKdlValue v ≠ none
     else SerOk v) ∧ StructOk fs
/-- The same for the entries of a map. -/
def MapOk : List (SVal × SVal) → Prop
  | [] => True
  | (_, v) :: kvs => SerOk v ∧ MapOk kvs
/-- The same for fields. -/
def FieldsOk : List (Str × SVal) → Prop
  | [] => True
  | (_, v) :: fs => SerOk v ∧ FieldsOk fs
end

/-! ### The serializer writes this -/

theorem semNode_pushArg (n : Node) (x : Value) {ty name es ch} (h : semNode id n = .mk ty name es ch) :
    semNode id (n.pushArg x) = .mk ty name (es ++ [⟨none, none, x⟩]) ch := by
  obtain ⟨t, nm, e, c, f, s⟩ := n
  simp only [semNode] at h
  simp only [Node.pushArg, Node.push, Node.setEntries, Node.entries, Node.ty, Node.name, Node.children, semNode,
    List.map_append]
  cases h
  rfl

theorem semNodes_append (a b : List Node) : semNodes id (a ++ b) = semNodes id a ++ semNodes id b := by
  induction a with
  | nil => rfl
  | cons n a ih => simp [semNodes, ih]

theorem semNode_ensure (n : Node) {ty name es ch} (h : semNode id n = .mk ty name es ch) :
    semNode id n.ensureChildren = .mk ty name es (some (ch.getD [])) := by
  obtain ⟨t, nm, e, c, f, s⟩ := n
  cases c with
  | none => simp only [semNode, semOptDoc] at h; cases h; rfl
  | some d => simp only [semNode, semOptDoc] at h; cases h; simp [Node.ensureChildren, Node.children, semNode, semOptDoc]

theorem semNode_pushChild (n c : Node) {ty name es ch} (h : semNode id n = .mk ty name es ch) :
    semNode id (n.pushChild c) = .mk ty name es (some (ch.getD [] ++ [semNode id c])) := by
  rw [Node.pushChild_eq]
  obtain ⟨t, nm, e, k, f, s⟩ := n
  cases k with
  | none => simp only [semNode, semOptDoc] at h; cases h; rfl
  | some d =>
    obtain ⟨ns, fm, sp⟩ := d
    simp only [semNode, semOptDoc, semDoc] at h
    cases h
    simp [Node.setChildren, Node.children, Node.ty, Node.name, Node.entries, Document.nodes, semNode, semOptDoc, semDoc,
      semNodes_append, semNodes]

theorem entryByIndex_zero (es : List Entry) :
    (entryByIndexLoop 0 es 0).map Entry.value =
      ((es.map (semEntry id)).filter (fun e => e.name.isNone)).head?.map SEntry.value := by
  induction es with
  | nil => rfl
  | cons e es ih =>
    obtain ⟨ty, v, nm, f, s⟩ := e
    cases nm with
    | none => simp [entryByIndexLoop, semEntry]
    | some n => simpa [entryByIndexLoop, semEntry] using ih

theorem semNode_pushProp (n : Node) (p : Str) (x : Value) {ty name es ch} (h : semNode id n = .mk ty name es ch) :
    semNode id (n.push (.newProp (.ofStr p) x)) = .mk ty name (es ++ [⟨none, some p, x⟩]) ch := by
  obtain ⟨t, nm, e, c, f, s⟩ := n
  simp only [semNode] at h
  simp only [Node.push, Node.setEntries, Node.entries, Node.ty, Node.name, Node.children, semNode, List.map_append]
  cases h
  rfl

theorem plainArgs_append (l m : List Value) : plainArgs (l ++ m) = plainArgs l ++ plainArgs m := by simp [plainArgs]

theorem plainArgs_args (l : List Value) : (plainArgs l).filter (fun e => e.name.isNone) = plainArgs l := by
  rw [List.filter_eq_self]
  intro e he
  obtain ⟨x, _, rfl⟩ := List.mem_map.mp he
  rfl

theorem plainArgs_props (l : List Value) : (plainArgs l).filter (fun e => e.name.isSome) = [] := by
  rw [List.filter_eq_nil_iff]
  intro e he
  obtain ⟨x, _, rfl⟩ := List.mem_map.mp he
  simp

/-- The three forms of a field name. -/
inductive NameForm : Str → Prop
  | prop (p : Str) : NameForm ('#' :: '@' :: p)
  | arg (t : Str) (h : argField ('#' :: t) = true) (h' : propField ('#' :: t) = false) (hf : ∀ p, t ≠ '@' :: p) : NameForm ('#' :: t)
  | kid (k : Str) (h : argField k = false) (h' : propField k = false) (hf : ∀ t, k ≠ '#' :: t) : NameForm k

theorem nameForm (k : Str) : NameForm k := by
  by_cases h : ∃ t, k = '#' :: t
  · obtain ⟨t, rfl⟩ := h
    by_cases h : ∃ p, t = '@' :: p
    · obtain ⟨p, rfl⟩ := h
      exact .prop p
    · have h' : ∀ p, t ≠ '@' :: p := fun p e => h ⟨p, e⟩
      refine .arg t ?_ ?_ h'
      · unfold argField
        split
        · next e => injection e with _ e; exact absurd e (h' _)
        · rfl
        · next e => exact absurd rfl (e _)
      · unfold propField
        split
        · next e => injection e with _ e; exact absurd e (h' _)
        · rfl
  · have h' : ∀ t, k ≠ '#' :: t := fun t e => h ⟨t, e⟩
    refine .kid k ?_ ?_ h'
    · unfold argField
      split
      · exact absurd rfl (h' _)
      · exact absurd rfl (h' _)
      · rfl
    · unfold propField
      split
      · exact absurd rfl (h' _)
      · rfl

theorem field_excl (k : Str) : (argField k = true → propField k = false) ∧ (argsField k = true → argField k = true) := by
  constructor
  · cases nameForm k with
    | prop p => simp [argField]
    | arg t h h' => simp [h']
    | kid k h h' => simp [h']
  · intro h
    simp only [argsField, decide_eq_true_eq] at h
    rcases h with rfl | rfl <;> rfl

theorem structEntries_args (fs : List (Str × SVal)) :
    (structEntries fs).filter (fun e => e.name.isNone) = plainArgs ((structArgs fs).map argOf) := by
  induction fs with
  | nil => rfl
  | cons f fs ih =>
    obtain ⟨k, v⟩ := f
    have hx := field_excl k
    rw [structEntries, structArgs, List.filter_append, ih, List.map_append, plainArgs_append]
    congr 1
    cases h1 : argsField k with
    | true => simp [plainArgs_args]
    | false =>
      cases h2 : argField k with
      | true => simp [plainArgs_args]
      | false => cases h3 : propField k <;> simp [plainArgs]

theorem encEntries_args : ∀ v : SVal, (encEntries v).filter (fun e => e.name.isNone) = plainArgs (encArgs v)
  | .some v => by rw [encEntries, encArgs]; exact encEntries_args v
  | .newtypeStruct v => by rw [encEntries, encArgs]; exact encEntries_args v
  | .struct fs => by rw [encEntries, encArgs]; exact structEntries_args fs
  | .bool _ | .int _ | .f64 _ | .char _ | .str _ | .none | .unit | .unitStruct _ | .unitVariant _ | .int128 _ | .bytes _
  | .newtypeVariant _ _ | .seq _ | .tuple _ | .tupleStruct _ | .tupleVariant _ _ | .map _
  | .structVariant _ _ => by simp [encEntries, plainArgs_args]

theorem skipped_eq {n : Node} {ty name es l ch} (h : semNode id n = .mk ty name es ch)
    (he : es.filter (fun e => e.name.isNone) = plainArgs l) : n.skipped = flagged l := by
  obtain ⟨t, nm, es', c, f, s⟩ := n
  simp only [semNode] at h
  injection h with h1 h2 h3 h4
  have e : (Node.mk t nm es' c f s).get (.index 0) = l.head? := by
    show (entryByIndexLoop 0 es' 0).map Entry.value = _
    rw [entryByIndex_zero, h3, he]
    cases l with
    | nil => rfl
    | cons x l => simp [plainArgs]
  unfold Node.skipped
  rw [e]
  cases l with
  | nil => rfl
  | cons x l =>
    cases x with
    | bool b => cases b <;> rfl
    | _ => rfl

section
variable [FloatKey]

omit [FloatKey] in
theorem argOf_eq {v : SVal} {x : Value} (h : toKdlValue v = some x) : argOf v = x := by
  rw [argOf, h]; rfl

omit [FloatKey] in
theorem argOf_some {v : SVal} (h : toKdlValue v ≠ none) : toKdlValue v = some (argOf v) := by
  cases hx : toKdlValue v with
  | none => exact absurd hx h
  | some x => rw [argOf_eq hx]

omit [FloatKey] in
theorem serArgs_enc : ∀ {vs : List SVal} {n n' : Node} {ty name es ch}, serArgs n vs = some n' →
    semNode id n = .mk ty name es ch →
    (∀ v ∈ vs, toKdlValue v ≠ none) ∧ semNode id n' = .mk ty name (es ++ plainArgs (vs.map argOf)) ch
  | [], n, n', ty, name, es, ch, hs, hn => by cases hs; exact ⟨by simp, by simpa [plainArgs] using hn⟩
  | v :: vs, n, n', ty, name, es, ch, hs, hn => by
    rw [serArgs] at hs
    obtain ⟨x, hx, hs⟩ := Option.bind_eq_some_iff.mp hs
    obtain ⟨h1, h2⟩ := serArgs_enc hs (semNode_pushArg n x hn)
    refine ⟨?_, ?_⟩
    · rintro w hw
      rcases List.mem_cons.mp hw with rfl | hw
      · rw [hx]; simp
      · exact h1 w hw
    · rw [h2, List.map_cons, argOf_eq hx, List.append_assoc]; rfl

omit [FloatKey] in
theorem serArgsField_enc : ∀ {v : SVal} {n n' : Node} {ty name es ch}, serArgsField n v = some n' →
    semNode id n = .mk ty name es ch →
    (∀ w ∈ spread v, toKdlValue w ≠ none) ∧ semNode id n' = .mk ty name (es ++ plainArgs ((spread v).map argOf)) ch
  | .some v, n, n', ty, name, es, ch, hs, hn => by rw [serArgsField] at hs; rw [spread]; exact serArgsField_enc hs hn
  | .newtypeStruct v, n, n', ty, name, es, ch, hs, hn => by rw [serArgsField] at hs; rw [spread]; exact serArgsField_enc hs hn
  | .seq vs, n, n', ty, name, es, ch, hs, hn => by rw [serArgsField] at hs; rw [spread]; exact serArgs_enc hs hn
  | .tuple vs, n, n', ty, name, es, ch, hs, hn => by rw [serArgsField] at hs; rw [spread]; exact serArgs_enc hs hn
  | .tupleStruct vs, n, n', ty, name, es, ch, hs, hn => by rw [serArgsField] at hs; rw [spread]; exact serArgs_enc hs hn
  | .bool _, n, n', ty, name, es, ch, hs, hn | .int _, n, n', ty, name, es, ch, hs, hn
  | .f64 _, n, n', ty, name, es, ch, hs, hn | .char _, n, n', ty, name, es, ch, hs, hn
  | .str _, n, n', ty, name, es, ch, hs, hn | .none, n, n', ty, name, es, ch, hs, hn
  | .unit, n, n', ty, name, es, ch, hs, hn | .unitStruct _, n, n', ty, name, es, ch, hs, hn
  | .unitVariant _, n, n', ty, name, es, ch, hs, hn => by
    simp only [serArgsField, toKdlValue, Option.map_some, Option.some.injEq] at hs
    subst hs
    exact ⟨by simp [spread, toKdlValue], by rw [semNode_pushArg n _ hn]; simp [spread, argOf, toKdlValue, plainArgs]⟩
  | .int128 _, n, n', ty, name, es, ch, hs, hn | .bytes _, n, n', ty, name, es, ch, hs, hn
  | .newtypeVariant _ _, n, n', ty, name, es, ch, hs, hn | .tupleVariant _ _, n, n', ty, name, es, ch, hs, hn
  | .map _, n, n', ty, name, es, ch, hs, hn | .struct _, n, n', ty, name, es, ch, hs, hn
  | .structVariant _ _, n, n', ty, name, es, ch, hs, hn => by simp [serArgsField, toKdlValue] at hs

omit [FloatKey] in
theorem fieldKind_eq (k : Str) : fieldKind k =
    if propField k then .prop (k.drop 2)
    else if k = Field.args.text then .args
    else if k = Field.rest.text then .rest
    else if argField k then .arg (k.drop 1) else .child := by
  cases nameForm k with
  | prop p => simp [fieldKind, propField]
  | arg t h h' hf =>
    rw [h, h']
    unfold fieldKind
    split
    · next e => injection e with _ e; exact absurd e (hf _)
    · simp [Field.text]
  | kid k h h' hf =>
    rw [h, h']
    unfold fieldKind
    split
    · exact absurd rfl (hf _)
    · split
      · next e => simp [Field.text, e]
      · next e =>
        split
        · next e' => simp [Field.text, e']
        · next e' =>
          split
          · exact absurd rfl (hf _)
          · simp [Field.text, e, e']

theorem fieldKind_child {k : Str} (h : kidField k = true) : fieldKind k = .child := by
  simp only [kidField, Bool.not_eq_true', Bool.or_eq_false_iff] at h
  rw [fieldKind_eq, h.1, h.2, if_neg (by simp), if_neg, if_neg]
  · simp
  · rintro rfl; simp [Field.text, argField] at h
  · rintro rfl; simp [Field.text, argField] at h

theorem kidField_head {k : Str} (h : k.head? ≠ some '#') : kidField k = true := by
  cases nameForm k with
  | prop p => simp at h
  | arg t => simp at h
  | kid k h1 h2 => simp [kidField, h1, h2]

omit [FloatKey] in
theorem semNode_new (k : Str) : semNode id (.new (.ofStr k)) = .mk none k [] none := rfl

omit [FloatKey] in
theorem scalar_sem (n : Node) {ty name} (x : Value) (hn : semNode id n = .mk ty name [] none) :
    semNode id (n.pushArg x) = .mk ty name (plainArgs [x]) none := semNode_pushArg n x hn

/-- Children after writing the nodes `new`, where `ch` were the children before. -/
def addKids (ch : Option (List DNode)) (new : List DNode) : Option (List DNode) :=
  match new with
  | [] => ch
  | n :: ns => some (ch.getD [] ++ n :: ns)

omit [FloatKey] in
theorem encStruct_nil {fs : List (Str × SVal)} (h : ∀ a b, (a, b) ∈ fs → kidField a = false) : encStruct fs = [] := by
  induction fs with
  | nil => rw [encStruct]
  | cons f fs ih =>
    obtain ⟨k, v⟩ := f
    rw [encStruct, h k v List.mem_cons_self, ih fun a b hm => h a b (List.mem_cons_of_mem _ hm)]
    simp

mutual
theorem serNode_enc : ∀ {t : Ty} {v : SVal}, HasTy t v → ∀ {n n' : Node} {ty name}, serNode v n = some n' →
    semNode id n = .mk ty name [] none →
    SerOk v ∧ semNode id n' = .mk ty name (encEntries v) (encKids v)
  | _, _, .bool b, n, n', ty, name, hs, hn | _, _, .int _ i _ _, n, n', ty, name, hs, hn
  | _, _, .f64 x _, n, n', ty, name, hs, hn | _, _, .char c, n, n', ty, name, hs, hn
  | _, _, .str s, n, n', ty, name, hs, hn | _, _, .none t, n, n', ty, name, hs, hn
  | _, _, .unit, n, n', ty, name, hs, hn | _, _, .unitStruct _, n, n', ty, name, hs, hn
  | _, _, .unitVariant _ _, n, n', ty, name, hs, hn => by
    rw [serNode] at hs; cases hs
    exact ⟨by simp [SerOk], by simpa [encEntries, encArgs, encKids, argOf, toKdlValue] using scalar_sem n _ hn⟩
  | _, _, .some h, n, n', ty, name, hs, hn => by
    rw [serNode] at hs
    simpa only [SerOk, encEntries, encKids] using serNode_enc h hs hn
  | _, _, .newtype h, n, n', ty, name, hs, hn => by
    rw [serNode] at hs
    simpa only [SerOk, encEntries, encKids] using serNode_enc h hs hn
  | _, _, .seq h, n, n', ty, name, hs, hn | _, _, .tuple h, n, n', ty, name, hs, hn
  | _, _, .tupleStruct h, n, n', ty, name, hs, hn => by
    rw [serNode] at hs
    obtain ⟨h1, h2⟩ := serArgs_enc hs hn
    exact ⟨by simpa only [SerOk] using h1, by simpa only [encEntries, encArgs, encKids, List.nil_append] using h2⟩
  | _, _, .newtypeVariant (k := k) _ _ h, n, n', ty, name, hs, hn => by
    rw [serNode] at hs
    obtain ⟨x, hx, hs⟩ := Option.map_eq_some_iff.mp hs
    subst hs
    refine ⟨by rw [SerOk, hx]; simp, ?_⟩
    rw [semNode_pushChild _ _ hn, valueNode, scalar_sem _ x (semNode_new k)]
    simp [encEntries, encArgs, encKids, argOf_eq hx, plainArgs]
  | _, _, .tupleVariant (k := k) _ _ h _, n, n', ty, name, hs, hn => by
    rw [serNode] at hs
    obtain ⟨c, hc, hs⟩ := Option.map_eq_some_iff.mp hs
    subst hs
    obtain ⟨h1, h2⟩ := serArgs_enc hc (semNode_new k)
    refine ⟨by simpa only [SerOk] using h1, ?_⟩
    rw [semNode_pushChild _ _ hn, h2]
    simp [encEntries, encArgs, encKids, plainArgs]
  | _, _, .structVariant (k := k) (fs := fs) _ _ h _ hp, n, n', ty, name, hs, hn => by
    rw [serNode] at hs
    obtain ⟨r, hr, hs⟩ := Option.map_eq_some_iff.mp hs
    subst hs
    obtain ⟨h1, h2, h3⟩ := serVariantFields_enc h hp hr
    refine ⟨by simpa only [SerOk] using h1, ?_⟩
    have e : semNode id ((Node.new (.ofStr k)).setChildren r.2) = .mk none k [] (some (encFields fs)) := by
      rw [show semNode id ((Node.new (.ofStr k)).setChildren r.2) = .mk none k [] (some (semDoc id r.2)) from rfl, h3]
      rfl
    rw [h2, semNode_pushChild _ _ hn, e]
    simp [encEntries, encArgs, encKids, plainArgs]
  | _, _, .map h _, n, n', ty, name, hs, hn => by
    rw [serNode] at hs
    obtain ⟨h1, h2⟩ := serMap_enc h hs hn
    refine ⟨by simpa only [SerOk] using h1, ?_⟩
    rw [h2, encEntries, encArgs, encKids]
    · cases encMap _ <;> rfl
    all_goals simp
  | _, _, .struct (fs := fs) h _ _ _, n, n', ty, name, hs, hn => by
    rw [serNode] at hs
    obtain ⟨h1, h2⟩ := serFields_enc h hs hn
    refine ⟨by simpa only [SerOk] using h1, ?_⟩
    rw [h2, encEntries, encKids]
    rfl
theorem serFields_enc : ∀ {tfs : List (Str × Ty)} {fs : List (Str × SVal)}, FieldsTy tfs fs →
    ∀ {n n' : Node} {ty name es ch}, serFields fs n = some n' → semNode id n = .mk ty name es ch →
    StructOk fs ∧ semNode id n' = .mk ty name (es ++ structEntries fs)
      (if (fs.any fun f => kidField f.1) = true then some (ch.getD [] ++ encStruct fs) else ch)
  | _, _, .nil, n, n', ty, name, es, ch, hs, hn => by
    rw [serFields] at hs; cases hs; exact ⟨by simp [StructOk], by simpa [structEntries] using hn⟩
  | _, _, .cons (k := k) (v := v) (fs := fs) h hfs, n, n', ty, name, es, ch, hs, hn => by
    rw [serFields, fieldKind_eq] at hs
    cases hk3 : kidField k with
    | true =>
      have := fieldKind_child hk3
      rw [fieldKind_eq] at this
      rw [this] at hs
      have hk5 := hk3
      simp only [kidField, Bool.not_eq_true', Bool.or_eq_false_iff] at hk3
      have hk4 : argsField k = false := by
        cases h4 : argsField k with
        | false => rfl
        | true => rw [(field_excl k).2 h4] at hk3; cases hk3.1
      obtain ⟨c, hc, hs⟩ := Option.bind_eq_some_iff.mp hs
      obtain ⟨hc1, hc2⟩ := serNode_enc h hc (semNode_new k)
      rw [skipped_eq hc2 (encEntries_args v)] at hs
      by_cases hf : flagged (encArgs v) = true
      · rw [if_pos hf] at hs
        obtain ⟨h1, h2⟩ := serFields_enc hfs hs (semNode_ensure n hn)
        refine ⟨by rw [StructOk, hk4, hk3.1, hk3.2]; exact ⟨hc1, h1⟩, ?_⟩
        rw [h2]
        by_cases he : (fs.any fun f => kidField f.1) = true
        · simp [he, encStruct, hf, structEntries, hk4, hk3, hk5]
        · have : encStruct fs = [] := encStruct_nil (by simpa using he)
          simp [he, encStruct, hf, structEntries, hk4, hk3, hk5, this]
      · rw [if_neg hf] at hs
        obtain ⟨h1, h2⟩ := serFields_enc hfs hs (semNode_pushChild n c hn)
        refine ⟨by rw [StructOk, hk4, hk3.1, hk3.2]; exact ⟨hc1, h1⟩, ?_⟩
        rw [h2, hc2]
        by_cases he : (fs.any fun f => kidField f.1) = true
        · simp [he, encStruct, hf, structEntries, hk4, hk3, hk5]
        · have : encStruct fs = [] := encStruct_nil (by simpa using he)
          simp [he, encStruct, hf, structEntries, hk4, hk3, hk5, this]
    | false =>
      have key : ∀ {n1 : Node} {es1 : List DEntry}, serFields fs n1 = some n' → semNode id n1 = .mk ty name (es ++ es1) ch →
          (if argsField k then ∀ w ∈ spread v, toKdlValue w ≠ none
            else if argField k || propField k then toKdlValue v ≠ none else SerOk v) →
          structEntries ((k, v) :: fs) = es1 ++ structEntries fs →
          StructOk ((k, v) :: fs) ∧ semNode id n' = .mk ty name (es ++ structEntries ((k, v) :: fs))
            (if (((k, v) :: fs).any fun f => kidField f.1) = true then some (ch.getD [] ++ encStruct ((k, v) :: fs)) else ch) := by
        intro n1 es1 h1 h2 h3 h4
        obtain ⟨h5, h6⟩ := serFields_enc hfs h1 h2
        refine ⟨⟨h3, h5⟩, ?_⟩
        rw [h6, h4, List.append_assoc, List.any_cons, hk3, Bool.false_or, encStruct, hk3]
        rfl
      cases hp : propField k with
      | true =>
        have ha : argField k = false := by
          cases ha : argField k with
          | false => rfl
          | true => rw [(field_excl k).1 ha] at hp; cases hp
        have hk4 : argsField k = false := by
          cases h4 : argsField k with
          | false => rfl
          | true => rw [(field_excl k).2 h4] at ha; cases ha
        rw [hp, if_pos rfl] at hs
        obtain ⟨x, hx, hs⟩ := Option.bind_eq_some_iff.mp hs
        refine key hs (semNode_pushProp n _ x hn) ?_ ?_
        · simp [hk4, hp, hx]
        · simp [structEntries, hk4, ha, hp, argOf_eq hx]
      | false =>
        have ha : argField k = true := by
          cases ha : argField k with
          | true => rfl
          | false => simp [kidField, ha, hp] at hk3
        rw [hp, if_neg (by simp)] at hs
        cases hk4 : argsField k with
        | true =>
          have hs : ((serArgsField n v).bind fun n => serFields fs n) = some n' := by
            simp only [argsField, decide_eq_true_eq] at hk4
            rcases hk4 with rfl | rfl
            · exact hs
            · exact hs
          obtain ⟨n1, hn1, hs⟩ := Option.bind_eq_some_iff.mp hs
          obtain ⟨h1, h2⟩ := serArgsField_enc hn1 hn
          refine key hs h2 ?_ ?_
          · rw [hk4, if_pos rfl]; exact h1
          · simp [structEntries, hk4]
        | false =>
          have h5 : ¬ k = Field.args.text ∧ ¬ k = Field.rest.text := by
            simpa [argsField] using hk4
          rw [if_neg h5.1, if_neg h5.2, ha, if_pos rfl] at hs
          obtain ⟨x, hx, hs⟩ := Option.bind_eq_some_iff.mp hs
          refine key hs (semNode_pushArg n x hn) ?_ ?_
          · simp [hk4, ha, hx]
          · simp [structEntries, hk4, ha, argOf_eq hx, plainArgs]
theorem serVariantFields_enc : ∀ {tfs : List (Str × Ty)} {fs : List (Str × SVal)}, FieldsTy tfs fs →
    (∀ k ∈ fs.map Prod.fst, k.head? ≠ Option.some '#') → ∀ {n : Node} {d : Document} {r : Node × Document}, serVariantFields fs n d = some r →
    FieldsOk fs ∧ r.1 = n ∧ semDoc id r.2 = semDoc id d ++ encFields fs
  | _, _, .nil, _, n, d, r, hs => by rw [serVariantFields] at hs; cases hs; exact ⟨by simp [FieldsOk], rfl, by simp [encFields]⟩
  | _, _, .cons (k := k) (v := v) (fs := fs) h hfs, hp, n, d, r, hs => by
    rw [serVariantFields, fieldKind_child (kidField_head (hp k (by simp)))] at hs
    obtain ⟨c, hc, hs⟩ := Option.bind_eq_some_iff.mp hs
    obtain ⟨hc1, hc2⟩ := serNode_enc h hc (semNode_new k)
    rw [skipped_eq hc2 (encEntries_args v)] at hs
    obtain ⟨h1, h2, h3⟩ := serVariantFields_enc hfs (fun k hk => hp k (List.mem_cons_of_mem _ hk)) hs
    refine ⟨⟨hc1, h1⟩, h2, ?_⟩
    rw [h3]
    by_cases hf : flagged (encArgs v) = true
    · simp [encFields, hf]
    · obtain ⟨ns, f, s⟩ := d
      simp [encFields, hf, Document.nodes, semDoc, semNodes_append, semNodes, hc2]
theorem serMap_enc : ∀ {t : Ty} {kvs : List (SVal × SVal)}, MapTy t kvs →
    ∀ {n n' : Node} {ty name es ch}, serMap kvs n = some n' → semNode id n = .mk ty name es ch →
    MapOk kvs ∧ semNode id n' = .mk ty name es (addKids ch (encMap kvs))
  | _, _, .nil _, n, n', ty, name, es, ch, hs, hn => by
    rw [serMap] at hs; cases hs; exact ⟨by simp [MapOk], by simpa [encMap, addKids] using hn⟩
  | _, _, .cons (v := v) (kvs := kvs) k h hks, n, n', ty, name, es, ch, hs, hn => by
    rw [serMap] at hs
    simp only [keyToString, Option.bind_some] at hs
    obtain ⟨c, hc, hs⟩ := Option.bind_eq_some_iff.mp hs
    obtain ⟨hc1, hc2⟩ := serNode_enc h hc (semNode_new k)
    rw [skipped_eq hc2 (encEntries_args v)] at hs
    by_cases hf : flagged (encArgs v) = true
    · rw [if_pos hf] at hs
      obtain ⟨h1, h2⟩ := serMap_enc hks hs hn
      refine ⟨⟨hc1, h1⟩, ?_⟩
      rw [h2, encMap, if_pos hf]
    · rw [if_neg hf] at hs
      obtain ⟨h1, h2⟩ := serMap_enc hks hs (semNode_pushChild n c hn)
      refine ⟨⟨hc1, h1⟩, ?_⟩
      rw [h2, hc2, encMap, if_neg hf]
      cases encMap kvs <;> simp [addKids, keyName]
end

end

/-! ### What is left out, and what is read as absent -/

theorem toKdlValue_null : ∀ {v : SVal} {x : Value}, toKdlValue v = some x → (x = .null ↔ asNull v = true)
  | .some v, x, h => by rw [toKdlValue] at h; rw [asNull]; exact toKdlValue_null h
  | .newtypeStruct v, x, h => by rw [toKdlValue] at h; rw [asNull]; exact toKdlValue_null h
  | .bool _, x, h | .int _, x, h | .f64 _, x, h | .char _, x, h | .str _, x, h | .unitVariant _, x, h
  | .none, x, h | .unit, x, h | .unitStruct _, x, h => by simp only [toKdlValue, Option.some.injEq] at h; subst h; simp [asNull]
  | .int128 _, x, h | .bytes _, x, h | .newtypeVariant _ _, x, h | .seq _, x, h | .tuple _, x, h | .tupleStruct _, x, h
  | .tupleVariant _ _, x, h | .map _, x, h | .struct _, x, h | .structVariant _ _, x, h => by simp [toKdlValue] at h

theorem toKdlValue_off : ∀ {v : SVal} {x : Value}, toKdlValue v = some x → ∀ l, flagged (x :: l) = off v
  | .some v, x, h, l => by rw [toKdlValue] at h; rw [off]; exact toKdlValue_off h l
  | .newtypeStruct v, x, h, l => by rw [toKdlValue] at h; rw [off]; exact toKdlValue_off h l
  | .bool b, x, h, l => by simp only [toKdlValue, Option.some.injEq] at h; subst h; cases b <;> simp [off, flagged]
  | .int _, x, h, l | .f64 _, x, h, l | .char _, x, h, l | .str _, x, h, l | .unitVariant _, x, h, l
  | .none, x, h, l | .unit, x, h, l | .unitStruct _, x, h, l => by
    simp only [toKdlValue, Option.some.injEq] at h; subst h; simp [off, flagged]
  | .int128 _, x, h, l | .bytes _, x, h, l | .newtypeVariant _ _, x, h, l | .seq _, x, h, l | .tuple _, x, h, l
  | .tupleStruct _, x, h, l | .tupleVariant _ _, x, h, l | .map _, x, h, l | .struct _, x, h, l
  | .structVariant _ _, x, h, l => by simp [toKdlValue] at h

theorem enc_scalar : ∀ {v : SVal} {x : Value}, toKdlValue v = some x → encArgs v = [x] ∧ encKids v = none
  | .some v, x, h => by rw [toKdlValue] at h; rw [encArgs, encKids]; exact enc_scalar h
  | .newtypeStruct v, x, h => by rw [toKdlValue] at h; rw [encArgs, encKids]; exact enc_scalar h
  | .bool _, x, h | .int _, x, h | .f64 _, x, h | .char _, x, h | .str _, x, h | .unitVariant _, x, h
  | .none, x, h | .unit, x, h | .unitStruct _, x, h => by simp [encArgs, encKids, argOf_eq h]
  | .int128 _, x, h | .bytes _, x, h | .newtypeVariant _ _, x, h | .seq _, x, h | .tuple _, x, h | .tupleStruct _, x, h
  | .tupleVariant _ _, x, h | .map _, x, h | .struct _, x, h | .structVariant _ _, x, h => by simp [toKdlValue] at h

theorem entries_scalar : ∀ {v : SVal} {x : Value}, toKdlValue v = some x → encEntries v = plainArgs [x]
  | .some v, x, h => by rw [toKdlValue] at h; rw [encEntries]; exact entries_scalar h
  | .newtypeStruct v, x, h => by rw [toKdlValue] at h; rw [encEntries]; exact entries_scalar h
  | .bool _, x, h | .int _, x, h | .f64 _, x, h | .char _, x, h | .str _, x, h | .unitVariant _, x, h
  | .none, x, h | .unit, x, h | .unitStruct _, x, h => by simp [encEntries, encArgs, argOf_eq h]
  | .int128 _, x, h | .bytes _, x, h | .newtypeVariant _ _, x, h | .seq _, x, h | .tuple _, x, h | .tupleStruct _, x, h
  | .tupleVariant _ _, x, h | .map _, x, h | .struct _, x, h | .structVariant _ _, x, h => by simp [toKdlValue] at h

theorem serOk_scalar : ∀ {t : Ty} {v : SVal}, HasTy t v → toKdlValue v ≠ none → SerOk v
  | _, _, .some h, ho => by rw [toKdlValue] at ho; rw [SerOk]; exact serOk_scalar h ho
  | _, _, .newtype h, ho => by rw [toKdlValue] at ho; rw [SerOk]; exact serOk_scalar h ho
  | _, _, .bool _, _ | _, _, .int _ _ _ _, _ | _, _, .f64 _ _, _ | _, _, .char _, _ | _, _, .str _, _ | _, _, .none _, _
  | _, _, .unit, _ | _, _, .unitStruct _, _ | _, _, .unitVariant _ _, _ => by simp [SerOk]
  | _, _, .seq _, ho | _, _, .tuple _, ho | _, _, .tupleStruct _, ho | _, _, .map _ _, ho
  | _, _, .struct _ _ _ _, ho | _, _, .newtypeVariant _ _ _, ho | _, _, .tupleVariant _ _ _ _, ho
  | _, _, .structVariant _ _ _ _ _, ho => by simp [toKdlValue] at ho

theorem flagged_list {vs : List SVal} (h : ∀ v ∈ vs, toKdlValue v ≠ none) :
    flagged (vs.map argOf) = match (generalizing := false) vs with
      | [] => false
      | v :: _ => off v := by
  cases vs with
  | nil => rfl
  | cons v vs => exact toKdlValue_off (argOf_some (h v List.mem_cons_self)) _

theorem structOk_args {fs : List (Str × SVal)} (h : StructOk fs) : ∀ w ∈ structArgs fs, toKdlValue w ≠ none := by
  induction fs with
  | nil => intro w hw; cases hw
  | cons f fs ih =>
    obtain ⟨k, v⟩ := f
    rw [StructOk] at h
    obtain ⟨h1, h2⟩ := h
    intro w hw
    rw [structArgs] at hw
    rcases List.mem_append.mp hw with hw | hw
    · cases h3 : argsField k with
      | true =>
        rw [h3] at h1 hw
        exact h1 w hw
      | false =>
        rw [h3] at h1 hw
        cases h4 : argField k with
        | true =>
          rw [h4] at h1 hw
          rw [List.mem_singleton.mp hw]
          exact h1
        | false => rw [h4] at hw; cases hw
    · exact ih h2 w hw

theorem flagged_eq : ∀ {t : Ty} {v : SVal}, HasTy t v → SerOk v → flagged (encArgs v) = leftOut v
  | _, _, .bool b, _ => by cases b <;> rfl
  | _, _, .int _ i _ _, _ | _, _, .f64 x _, _ | _, _, .char c, _ | _, _, .str s, _ | _, _, .none t, _ | _, _, .unit, _
  | _, _, .unitStruct _, _ | _, _, .unitVariant _ _, _ | _, _, .newtypeVariant _ _ _, _ | _, _, .tupleVariant _ _ _ _, _
  | _, _, .structVariant _ _ _ _ _, _ | _, _, .map _ _, _ => by
    simp [encArgs, leftOut, off, flagged, argOf, toKdlValue]
  | _, _, .struct (fs := fs) _ _ _ _, ho => by
    rw [SerOk] at ho
    rw [encArgs, flagged_list (structOk_args ho), leftOut]
    cases structArgs fs <;> rfl
  | _, _, .some h, ho => by rw [SerOk] at ho; rw [encArgs, leftOut]; exact flagged_eq h ho
  | _, _, .newtype h, ho => by rw [SerOk] at ho; rw [encArgs, leftOut]; exact flagged_eq h ho
  | _, _, .seq (vs := vs) h, ho | _, _, .tuple (vs := vs) h, ho | _, _, .tupleStruct (vs := vs) h, ho => by
    rw [SerOk] at ho
    rw [encArgs, flagged_list ho]
    cases vs <;> simp [leftOut, off]

/-- A node with these entries and children is read as an absent option. -/
def blankEnc : List DEntry → Option (List DNode) → Bool
  | [], none => true
  | [⟨_, none, .null⟩], none => true
  | _, _ => false

theorem blankEnc_list {vs : List SVal} (h : ∀ v ∈ vs, toKdlValue v ≠ none) :
    blankEnc (plainArgs (vs.map argOf)) none = match (generalizing := false) vs with
      | [] => true
      | [v] => asNull v
      | _ => false := by
  match vs with
  | [] => rfl
  | [v] =>
    have := toKdlValue_null (argOf_some (h v List.mem_cons_self))
    simp only [List.map_cons, List.map_nil, plainArgs]
    cases ha : asNull v with
    | true => rw [this.mpr ha]; rfl
    | false =>
      cases hx : argOf v with
      | null => rw [this.mp hx] at ha; cases ha
      | _ => rfl
  | v :: w :: vs => simp [blankEnc, plainArgs]

theorem blankEnc_some (es : List DEntry) (ns : List DNode) : blankEnc es (some ns) = false := by
  unfold blankEnc
  split <;> simp_all

theorem blankEnc_prop {es : List DEntry} {e : DEntry} (he : e ∈ es) (hn : e.name ≠ none) (ch : Option (List DNode)) :
    blankEnc es ch = false := by
  unfold blankEnc
  split
  · cases he
  · rw [List.mem_singleton.mp he] at hn; exact absurd rfl hn
  · rfl

theorem structEntries_all {fs : List (Str × SVal)} (h : (fs.all fun f => argField f.1) = true) :
    structEntries fs = plainArgs ((structArgs fs).map argOf) := by
  rw [← structEntries_args, List.filter_eq_self.mpr]
  induction fs with
  | nil => intro e he; cases he
  | cons f fs ih =>
    obtain ⟨k, v⟩ := f
    rw [List.all_cons, Bool.and_eq_true] at h
    intro e he
    rw [structEntries] at he
    rcases List.mem_append.mp he with he | he
    · have h1 : argField k = true := h.1
      rw [h1] at he
      cases h2 : argsField k <;> rw [h2] at he <;> obtain ⟨x, _, rfl⟩ := List.mem_map.mp he <;> rfl
    · exact ih h.2 e he

theorem structEntries_prop {fs : List (Str × SVal)} {k : Str} {v : SVal} (hm : (k, v) ∈ fs) (hk : propField k = true) :
    ⟨none, some (k.drop 2), argOf v⟩ ∈ structEntries fs := by
  induction fs with
  | nil => cases hm
  | cons f fs ih =>
    obtain ⟨k', v'⟩ := f
    rw [structEntries, List.mem_append]
    rcases List.mem_cons.mp hm with e | hm
    · cases e
      have h1 : argField k = false := by
        cases h : argField k with
        | false => rfl
        | true => rw [(field_excl k).1 h] at hk; cases hk
      have h2 : argsField k = false := by
        cases h : argsField k with
        | false => rfl
        | true => rw [(field_excl k).2 h] at h1; cases h1
      exact .inl (by simp [h1, h2, hk])
    · exact .inr (ih hm)

theorem encMap_nil : ∀ {t : Ty} {kvs : List (SVal × SVal)}, MapTy t kvs → MapOk kvs →
    (encMap kvs = [] ↔ (kvs.all fun e => leftOut e.2) = true)
  | _, _, .nil _, _ => by simp [encMap]
  | _, _, .cons (v := v) k h hs, ho => by
    obtain ⟨h1, h2⟩ := ho
    have ih := encMap_nil hs h2
    rw [encMap, flagged_eq h h1]
    cases hl : leftOut v with
    | true => simpa [hl] using ih
    | false => simp [hl]

theorem blank_eq : ∀ {t : Ty} {v : SVal}, HasTy t v → SerOk v → blankEnc (encEntries v) (encKids v) = blank v
  | _, _, .bool b, _ | _, _, .int _ i _ _, _ | _, _, .f64 x _, _ | _, _, .char c, _ | _, _, .str s, _ | _, _, .none t, _
  | _, _, .unit, _ | _, _, .unitStruct _, _ | _, _, .unitVariant _ _, _ | _, _, .newtypeVariant _ _ _, _
  | _, _, .tupleVariant _ _ _ _, _ | _, _, .structVariant _ _ _ _ _, _ => by
    simp [encEntries, encArgs, encKids, blank, blankEnc, argOf, toKdlValue, plainArgs]
  | _, _, .some h, ho => by rw [SerOk] at ho; rw [encEntries, encKids, blank]; exact blank_eq h ho
  | _, _, .newtype h, ho => by rw [SerOk] at ho; rw [encEntries, encKids, blank]; exact blank_eq h ho
  | _, _, .seq (vs := vs) h, ho | _, _, .tuple (vs := vs) h, ho | _, _, .tupleStruct (vs := vs) h, ho => by
    rw [SerOk] at ho
    simp only [encEntries, encArgs, encKids]
    rw [blankEnc_list ho]
    match vs with
    | [] => simp [blank]
    | [v] => simp [blank]
    | v :: w :: vs => simp [blank]
  | _, _, .map (kvs := kvs) h _, ho => by
    rw [SerOk] at ho
    have := encMap_nil h ho
    simp only [encEntries, encArgs, encKids, blank]
    cases hm : encMap kvs with
    | nil => rw [this.mp hm]; rfl
    | cons n ns =>
      cases hb : kvs.all fun e => leftOut e.2 with
      | false => rfl
      | true => rw [this.mpr hb] at hm; cases hm
  | _, _, .struct (fs := fs) h _ _ _, ho => by
    rw [SerOk] at ho
    rw [encEntries, encKids, blank]
    cases ha : fs.all fun f => argField f.1 with
    | true =>
      have : (fs.any fun f => kidField f.1) = false := by
        rw [List.any_eq_false]
        intro f hf
        have := List.all_eq_true.mp ha f hf
        simp [kidField, this]
      rw [this, structEntries_all ha, if_neg (by simp), blankEnc_list (structOk_args ho), Bool.true_and]
      rcases structArgs fs with _ | ⟨v, _ | ⟨w, l⟩⟩ <;> rfl
    | false =>
      rw [Bool.false_and]
      split
      · exact blankEnc_some _ _
      · next hk =>
        rw [List.all_eq_false] at ha
        obtain ⟨⟨k, v⟩, hf, ha⟩ := ha
        have hp : propField k = true := by
          cases hp : propField k with
          | true => rfl
          | false => exact absurd (List.any_eq_true.mpr ⟨_, hf, by simp [kidField, hp]; simpa using ha⟩) hk
        exact blankEnc_prop (structEntries_prop hf hp) (by simp) _

/-! ### Reading it back -/

theorem encFields_eq (fs : List (Str × SVal)) :
    encFields fs = (fs.filter fun f => !flagged (encArgs f.2)).map fun f => encNode f.1 f.2 := by
  induction fs with
  | nil => simp [encFields]
  | cons f fs ih =>
    obtain ⟨k, v⟩ := f
    by_cases h : flagged (encArgs v) = true
    · simp [encFields, h, ih]
    · simp [encFields, h, ih, encNode]

theorem encFields_names (fs : List (Str × SVal)) :
    (encFields fs).map DNode.name = (fs.filter fun f => !flagged (encArgs f.2)).map Prod.fst := by
  rw [encFields_eq, List.map_map]
  rfl

theorem encFields_nodup {fs : List (Str × SVal)} (h : (fs.map Prod.fst).Nodup) : ((encFields fs).map DNode.name).Nodup := by
  rw [encFields_names]
  exact h.sublist (List.filter_sublist.map _)

theorem grouped_enc {fs : List (Str × SVal)} (h : (fs.map Prod.fst).Nodup) :
    grouped (encFields fs) = (fs.filter fun f => !flagged (encArgs f.2)).map fun f => (f.1, .node (encNode f.1 f.2)) := by
  rw [grouped_of_nodup (encFields_nodup h), encFields_eq, List.map_map]
  rfl

theorem valuesOf_append (k : Str) (a b : List (Str × Src)) : valuesOf k (a ++ b) = valuesOf k a ++ valuesOf k b := by
  simp [valuesOf]

theorem valuesOf_none {k : Str} {l : List (Str × Src)} (h : k ∉ l.map Prod.fst) : valuesOf k l = [] := by
  unfold valuesOf
  rw [List.filter_eq_nil_iff.mpr, List.map_nil]
  intro p hp e
  exact h (List.mem_map.mpr ⟨p, hp, by simpa using e⟩)

theorem valuesOf_enc {fs : List (Str × SVal)} (h : (fs.map Prod.fst).Nodup) {k : Str} {v : SVal} (hm : (k, v) ∈ fs) :
    valuesOf k (grouped (encFields fs)) = if flagged (encArgs v) then [] else [.node (encNode k v)] := by
  rw [grouped_enc h]
  induction fs with
  | nil => cases hm
  | cons f fs ih =>
    obtain ⟨k', v'⟩ := f
    rw [List.map_cons, List.nodup_cons] at h
    have hrest : k' ∉ ((fs.filter fun f => !flagged (encArgs f.2)).map
        fun f => (f.1, Src.node (encNode f.1 f.2))).map Prod.fst := by
      rw [List.map_map]
      intro hx
      obtain ⟨p, hp, e⟩ := List.mem_map.mp hx
      exact h.1 (List.mem_map.mpr ⟨p, (List.mem_filter.mp hp).1, e⟩)
    rcases List.mem_cons.mp hm with e | hm'
    · cases e
      by_cases hf : flagged (encArgs v) = true
      · rw [List.filter_cons_of_neg (by simp [hf]), valuesOf_none hrest, if_pos hf]
      · rw [List.filter_cons_of_pos (by simp [hf]), List.map_cons, ← List.singleton_append, valuesOf_append,
          valuesOf_none hrest, if_neg hf]
        simp [valuesOf]
    · have hne : k' ≠ k := by
        rintro rfl
        exact h.1 (List.mem_map.mpr ⟨_, hm', rfl⟩)
      rw [← ih h.2 hm', List.filter_cons]
      split
      · rw [List.map_cons, ← List.singleton_append, valuesOf_append]
        simp [valuesOf, hne]
      · rfl

theorem FieldsTy.keys : ∀ {tfs : List (Str × Ty)} {fs : List (Str × SVal)}, FieldsTy tfs fs →
    tfs.map Prod.fst = fs.map Prod.fst
  | _, _, .nil => rfl
  | _, _, .cons h hs => by
    rw [List.map_cons, List.map_cons, FieldsTy.keys hs]

theorem option_request {t : Ty} {v : SVal} (h : HasTy t v) (ho : SerOk v) (k : Str) :
    (Src.node (encNode k v)).request .option = some (if blank v then .none else .some (.node (encNode k v))) := by
  rw [← blank_eq h ho]
  show DNode.request _ .option = _
  unfold encNode
  generalize encEntries v = es
  generalize encKids v = ch
  cases ch with
  | some ns =>
    rw [blankEnc_some]
    have h1 : DNode.scalar (.mk none k es (some ns)) = none := by
      unfold DNode.scalar
      split
      · next h => cases h
      · rfl
    have h2 : DNode.isEmpty (.mk none k es (some ns)) = false := by simp [DNode.isEmpty, DNode.children]
    simp [DNode.request, h1, h2]
  | none =>
    rcases es with _ | ⟨⟨t1, n1, v1⟩, _ | ⟨⟨t2, n2, v2⟩, es⟩⟩
    · rfl
    · cases n1 with
      | none => cases v1 <;> rfl
      | some k => rfl
    · have h1 : DNode.scalar (.mk none k (⟨t1, n1, v1⟩ :: ⟨t2, n2, v2⟩ :: es) none) = none := by
        unfold DNode.scalar DNode.args DNode.props DNode.entries
        cases n1 <;> cases n2 <;> simp only [List.filter_cons, Option.isNone_none, Option.isNone_some, Option.isSome_none, Option.isSome_some,
          if_true, Bool.false_eq_true, if_false] <;> split <;> first | rfl | (next h _ _ => simp at h) | (next _ h _ => simp at h)
      have h2 : blankEnc (⟨t1, n1, v1⟩ :: ⟨t2, n2, v2⟩ :: es) none = false := by simp [blankEnc]
      simp only [DNode.request, h1, h2]
      rfl

/-! #### Arguments -/

theorem mapM_cons_some {α β : Type} {f : α → Option β} {a : α} {as : List α} {b : β} {bs : List β} :
    (a :: as).mapM f = some (b :: bs) ↔ f a = some b ∧ as.mapM f = some bs := by
  rw [List.mapM_cons]
  cases f a with
  | none => simp
  | some c =>
    cases List.mapM f as with
    | none => simp
    | some cs => simp

section
variable [FloatCast]

theorem intTy_eq {t : Ty} {lo hi : Int} (ht : IntTy t lo hi) : t = .int lo hi false := by
  cases ht <;> rfl

theorem event_sint (i : SInt) : (Value.integer i.toI128).event = .i64 i.1 ∨ (Value.integer i.toI128).event = .u64 i.1 := by
  obtain ⟨i, h1, h2⟩ := i
  show (if -2 ^ 63 ≤ i ∧ i < 2 ^ 63 then Event.i64 i else if 0 ≤ i ∧ i < 2 ^ 64 then Event.u64 i else Event.i128 i) = .i64 i
    ∨ (if -2 ^ 63 ≤ i ∧ i < 2 ^ 63 then Event.i64 i else if 0 ≤ i ∧ i < 2 ^ 64 then Event.u64 i else Event.i128 i) = .u64 i
  by_cases h3 : -2 ^ 63 ≤ i ∧ i < 2 ^ 63
  · rw [if_pos h3]; exact .inl rfl
  · rw [if_neg h3]
    by_cases h4 : 0 ≤ i ∧ i < 2 ^ 64
    · rw [if_pos h4]; exact .inr rfl
    · omega

theorem visitInt_sint {lo hi : Int} (i : SInt) (h1 : lo ≤ i.1) (h2 : i.1 ≤ hi) :
    visitInt lo hi false (Value.integer i.toI128).event = some (.int i) := by
  rcases event_sint i with e | e <;> rw [e] <;>
    simp only [visitInt, h1, h2, and_self, if_true, dif_pos i.2, Bool.false_eq_true, if_false]


theorem deTuple_cons {t : Ty} {ts : List Ty} {s : Src} {l : List Src} {v : SVal} {vs : List SVal} :
    deTuple (t :: ts) (s :: l) = some (v :: vs) ↔ de t s = some v ∧ deTuple ts l = some vs := by
  rw [deTuple]
  cases de t s with
  | none => simp
  | some w => cases deTuple ts l <;> simp

/-- Reading the argument written for a value. -/
theorem de_value : ∀ {t : Ty} {v : SVal}, HasTy t v → ∀ {x : Value}, toKdlValue v = some x →
    (de t (.value x) = some v ↔ argKept v = true)
  | _, _, .bool b, x, hx | _, _, .f64 _ _, x, hx | _, _, .char _, x, hx | _, _, .str _, x, hx | _, _, .unit, x, hx
  | _, _, .unitStruct _, x, hx | _, _, .none _, x, hx => by
    simp only [toKdlValue, Option.some.injEq] at hx
    subst hx
    simp only [argKept, iff_true]
    rw [de]; rfl
  | _, _, .int hi i h1 h2, x, hx => by
    simp only [toKdlValue, Option.some.injEq] at hx
    subst hx
    simp only [argKept, iff_true]
    rw [intTy_eq hi, de]
    exact visitInt_sint i h1 h2
  | _, _, .some (v := v) h, x, hx => by
    rw [toKdlValue] at hx
    have ih := de_value h hx
    have hnull := toKdlValue_null hx
    rw [de, argKept]
    by_cases hn : x = .null
    · have := hnull.mp hn
      subst hn
      simp [this, Src.request, Value.request]
    · have ha : asNull v = false := by
        cases ha : asNull v with
        | false => rfl
        | true => exact absurd (hnull.mpr ha) hn
      have : (Src.value x).request .option = some (.some (.value x)) := by cases x <;> first | rfl | exact absurd rfl hn
      rw [this]
      simp only [Option.map_eq_some_iff, SVal.some.injEq, exists_eq_right, ih, ha, Bool.not_false, Bool.true_and]
  | _, _, .newtype h, x, hx => by
    rw [toKdlValue] at hx
    have ih := de_value h hx
    rw [de, argKept]
    show Option.map _ (de _ (.value x)) = _ ↔ _
    simp only [Option.map_eq_some_iff, SVal.newtypeStruct.injEq, exists_eq_right, ih]
  | _, _, .unitVariant (k := k) hv hd, x, hx => by
    simp only [toKdlValue, Option.some.injEq] at hx
    subst hx
    simp only [argKept, iff_true]
    rw [de]
    show deVariant _ (.str k) = _
    rw [deVariant_mem (e := .str k) hd hv, deBody]
    rfl
  | _, _, .seq _, x, hx | _, _, .tuple _, x, hx | _, _, .tupleStruct _, x, hx | _, _, .map _ _, x, hx
  | _, _, .struct _ _ _ _, x, hx | _, _, .newtypeVariant _ _ _, x, hx | _, _, .tupleVariant _ _ _ _, x, hx
  | _, _, .structVariant _ _ _ _ _, x, hx => by simp [toKdlValue] at hx

/-- The arguments written for a list of values, as an `ArgSeqAccess` yields them. -/
abbrev valueSrcs (vs : List SVal) : List Src := (vs.map argOf).map fun x => Src.value x

theorem de_list : ∀ {t : Ty} {vs : List SVal}, ListTy t vs → (∀ v ∈ vs, toKdlValue v ≠ none) →
    ((valueSrcs vs).mapM (de t) = some vs ↔ vs.all argKept = true)
  | _, _, .nil _, _ => by simp
  | _, _, .cons h hs, ho => by
    have ih := de_list hs fun v hv => ho v (List.mem_cons_of_mem _ hv)
    have hv := de_value h (argOf_some (ho _ List.mem_cons_self))
    rw [valueSrcs, List.map_cons, List.map_cons, mapM_cons_some, ih, hv, List.all_cons, Bool.and_eq_true]

theorem de_tuple : ∀ {ts : List Ty} {vs : List SVal}, TupleTy ts vs → (∀ v ∈ vs, toKdlValue v ≠ none) →
    (deTuple ts (valueSrcs vs) = some vs ↔ vs.all argKept = true)
  | _, _, .nil, _ => by simp [deTuple]
  | _, _, .cons h hs, ho => by
    have ih := de_tuple hs fun v hv => ho v (List.mem_cons_of_mem _ hv)
    have hv := de_value h (argOf_some (ho _ List.mem_cons_self))
    rw [valueSrcs, List.map_cons, List.map_cons, deTuple_cons, ih, hv, List.all_cons, Bool.and_eq_true]

end

/-! ### NaN -/

/-- Not a NaN. -/
def Value.real : Value → Prop
  | .float x => x.isNan = false
  | _ => True

theorem canonValue_real {a b : Value} (h : canonValue a = canonValue b) (hb : b.real) : a = b := by
  have e : canonValue b = b := by
    cases b with
    | float x =>
      change x.isNan = false at hb
      simp [canonValue, hb]
    | _ => rfl
  rw [e] at h
  cases a with
  | float x =>
    simp only [canonValue] at h
    split at h
    · subst h
      exact absurd hb (show ¬ F64.nan.isNan = false by decide)
    · exact h
  | _ => exact h

/-- No value in the data is a NaN. -/
inductive NoNan : DNode → Prop
  | mk {ty : Option Str} {name : Str} {es : List DEntry} {ch : Option (List DNode)} (he : ∀ e ∈ es, e.value.real)
      (hc : ∀ ns, ch = some ns → ∀ n ∈ ns, NoNan n) : NoNan (.mk ty name es ch)

theorem semEntry_real {a b : Entry} (h : semEntry canonValue a = semEntry canonValue b) (hb : (semEntry id b).value.real) :
    semEntry id a = semEntry id b := by
  simp only [semEntry, SEntry.mk.injEq] at h ⊢
  exact ⟨h.1, h.2.1, canonValue_real h.2.2 hb⟩

theorem semEntries_real : ∀ {a b : List Entry}, a.map (semEntry canonValue) = b.map (semEntry canonValue) →
    (∀ e ∈ b.map (semEntry id), e.value.real) → a.map (semEntry id) = b.map (semEntry id)
  | [], [], _, _ => rfl
  | [], _ :: _, h, _ => by cases h
  | _ :: _, [], h, _ => by cases h
  | x :: a, y :: b, h, hb => by
    simp only [List.map_cons, List.cons.injEq] at h ⊢
    exact ⟨semEntry_real h.1 (hb _ (by simp)), semEntries_real h.2 fun e he => hb e (by simp only [List.map_cons]; exact List.mem_cons_of_mem _ he)⟩

mutual
theorem semNode_real : ∀ {a b : Node}, semNode canonValue a = semNode canonValue b → NoNan (semNode id b) →
    semNode id a = semNode id b
  | .mk ty name es ch _ _, .mk ty' name' es' ch' _ _, h, hn => by
    simp only [semNode, SNode.mk.injEq] at h hn ⊢
    cases hn with
    | mk he hc => exact ⟨h.1, h.2.1, semEntries_real h.2.2.1 he, semOptDoc_real h.2.2.2 hc⟩
theorem semOptDoc_real : ∀ {a b : Option Document}, semOptDoc canonValue a = semOptDoc canonValue b →
    (∀ ns, semOptDoc id b = some ns → ∀ n ∈ ns, NoNan n) → semOptDoc id a = semOptDoc id b
  | none, none, _, _ => rfl
  | none, some _, h, _ => by simp [semOptDoc] at h
  | some _, none, h, _ => by simp [semOptDoc] at h
  | some a, some b, h, hn => by
    simp only [semOptDoc, Option.some.injEq] at h hn ⊢
    exact semDoc_real h (hn _ rfl)
theorem semDoc_real : ∀ {a b : Document}, semDoc canonValue a = semDoc canonValue b →
    (∀ n ∈ semDoc id b, NoNan n) → semDoc id a = semDoc id b
  | .mk ns _ _, .mk ms _ _, h, hn => by
    simp only [semDoc] at h hn ⊢
    exact semNodes_real h hn
theorem semNodes_real : ∀ {a b : List Node}, semNodes canonValue a = semNodes canonValue b →
    (∀ n ∈ semNodes id b, NoNan n) → semNodes id a = semNodes id b
  | [], [], _, _ => rfl
  | [], _ :: _, h, _ => by simp [semNodes] at h
  | _ :: _, [], h, _ => by simp [semNodes] at h
  | x :: a, y :: b, h, hn => by
    simp only [semNodes, List.cons.injEq] at h hn ⊢
    exact ⟨semNode_real h.1 (hn _ (by simp)), semNodes_real h.2 fun n hm => hn n (List.mem_cons_of_mem _ hm)⟩
end

end Kdl
