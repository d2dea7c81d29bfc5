import Verif.Spec.Leaves
import Verif.Lemmas.Ser
import Verif.Lemmas.Serde
/-
What the serializers write, as facts.
-/

namespace Kdl

open Spec

/-- The facts of a node, relative to it. -/
def inner : DNode → List Fact
  | .mk _ _ es ch => es.map (fun e => ⟨[], e.name, e.value⟩) ++ blockFacts ch

/-- The arguments of a node. -/
def argVals (n : DNode) : List Value := (n.entries.filter fun e => e.name.isNone).map SEntry.value

theorem nodeFacts_eq (n : DNode) : nodeFacts n = below n.name (inner n) := by
  cases n
  simp only [nodeFacts, inner, DNode.name]

theorem below_append (k : Str) (a b : List Fact) : below k (a ++ b) = below k a ++ below k b := List.map_append

theorem ownArgs_append (a b : List Fact) : ownArgs (a ++ b) = ownArgs a ++ ownArgs b := List.filterMap_append

theorem ownArgs_below (k : Str) (l : List Fact) : ownArgs (below k l) = [] := by
  rw [ownArgs, List.filterMap_eq_nil_iff]
  intro f hf
  obtain ⟨g, _, rfl⟩ := List.mem_map.mp hf
  simp

theorem ownArgs_prop (name : Str) (l : List Fact) : ownArgs (l.map fun f => ⟨f.path, some name, f.value⟩) = [] := by
  rw [ownArgs, List.filterMap_eq_nil_iff]
  intro f hf
  obtain ⟨g, _, rfl⟩ := List.mem_map.mp hf
  simp

theorem listFacts_append (a b : List DNode) : listFacts (a ++ b) = listFacts a ++ listFacts b := by
  induction a with
  | nil => rfl
  | cons n a ih => simp only [List.cons_append, listFacts, ih, List.append_assoc]

/-- `n'` is `n` with the facts `l` added. -/
structure Wrote (n n' : Node) (l : List Fact) : Prop where
  name : DNode.name (semNode id n') = DNode.name (semNode id n)
  facts : (inner (semNode id n')).Perm (inner (semNode id n) ++ l)
  args : argVals (semNode id n') = argVals (semNode id n) ++ ownArgs l

theorem Wrote.refl (n : Node) : Wrote n n [] := ⟨rfl, by simp, by simp [ownArgs]⟩

theorem Wrote.trans {a b c : Node} {l m : List Fact} (h1 : Wrote a b l) (h2 : Wrote b c m) : Wrote a c (l ++ m) :=
  ⟨h2.name.trans h1.name, (h2.facts.trans (h1.facts.append_right m)).trans (.of_eq (List.append_assoc _ _ _)), by
    rw [h2.args, h1.args, ownArgs_append, List.append_assoc]⟩

theorem Wrote.arg (n : Node) (x : Value) : Wrote n (n.pushArg x) [⟨[], none, x⟩] := by
  cases h : semNode id n with
  | mk ty name es ch =>
    refine ⟨?_, ?_, ?_⟩ <;> rw [semNode_pushArg n x h, h]
    · rfl
    · simp only [inner, List.map_append, List.map_cons, List.map_nil, List.append_assoc]
      exact List.perm_append_comm.append_left _
    · simp [argVals, DNode.entries, ownArgs]

theorem Wrote.prop (n : Node) (k : Str) (x : Value) : Wrote n (n.push (.newProp (.ofStr k) x)) [⟨[], some k, x⟩] := by
  cases h : semNode id n with
  | mk ty name es ch =>
    refine ⟨?_, ?_, ?_⟩ <;> rw [semNode_pushProp n k x h, h]
    · rfl
    · simp only [inner, List.map_append, List.map_cons, List.map_nil, List.append_assoc]
      exact List.perm_append_comm.append_left _
    · simp [argVals, DNode.entries, ownArgs]

theorem blockFacts_some (ch : Option (List DNode)) (l : List DNode) :
    blockFacts (some (ch.getD [] ++ l)) = blockFacts ch ++ listFacts l := by
  cases ch <;> simp [blockFacts, listFacts, listFacts_append]

theorem Wrote.ensure (n : Node) : Wrote n n.ensureChildren [] := by
  cases h : semNode id n with
  | mk ty name es ch =>
    have e := blockFacts_some ch []
    rw [List.append_nil, listFacts, List.append_nil] at e
    refine ⟨?_, ?_, ?_⟩ <;> rw [semNode_ensure n h, h]
    · rfl
    · rw [inner, inner, e, List.append_nil]
    · simp [argVals, DNode.entries, ownArgs]

theorem Wrote.child (n c : Node) : Wrote n (n.pushChild c) (below (DNode.name (semNode id c)) (inner (semNode id c))) := by
  cases h : semNode id n with
  | mk ty name es ch =>
    refine ⟨?_, ?_, ?_⟩ <;> rw [semNode_pushChild n c h, h]
    · rfl
    · rw [inner, inner, blockFacts_some, listFacts, listFacts, List.append_nil, nodeFacts_eq, List.append_assoc]
    · rw [ownArgs_below]; simp [argVals, DNode.entries]

theorem below_perm (k : Str) {a b : List Fact} (h : a.Perm b) : (below k a).Perm (below k b) := h.map _

/-- The same facts in another order, with the same arguments. -/
theorem Wrote.congr {a b : Node} {l m : List Fact} (h : Wrote a b l) (hp : l.Perm m) (ho : ownArgs l = ownArgs m) : Wrote a b m :=
  ⟨h.name, h.facts.trans (hp.append_left _), by rw [h.args, ho]⟩

/-- A node written from scratch. -/
theorem Wrote.new_facts {k : Str} {c : Node} {l : List Fact} (h : Wrote (.new (.ofStr k)) c l) :
    (DNode.name (semNode id c)) = k ∧ (inner (semNode id c)).Perm l ∧ argVals (semNode id c) = ownArgs l :=
  ⟨h.name, h.facts, h.args⟩

theorem Wrote.pushNew {n c : Node} {k : Str} {l : List Fact} (h : Wrote (.new (.ofStr k)) c l) : Wrote n (n.pushChild c) (below k l) := by
  obtain ⟨h1, h2, _⟩ := h.new_facts
  have := Wrote.child n c
  rw [h1] at this
  exact this.congr (below_perm k h2) (by rw [ownArgs_below, ownArgs_below])

theorem skipped_args (n : Node) : n.skipped = flagged (argVals (semNode id n)) := by
  obtain ⟨t, nm, es, c, f, s⟩ := n
  have e : (Node.mk t nm es c f s).get (.index 0) = (argVals (semNode id (Node.mk t nm es c f s))).head? := by
    show (entryByIndexLoop 0 es 0).map Entry.value = _
    rw [entryByIndex_zero]
    simp only [argVals, semNode, DNode.entries, List.head?_map]
  unfold Node.skipped
  rw [e]
  cases argVals (semNode id (Node.mk t nm es c f s)) with
  | nil => rfl
  | cons x l =>
    cases x with
    | bool b => cases b <;> rfl
    | _ => rfl

theorem flagged_head (l : List Value) : flagged l = true ↔ l.head? = some (.bool false) ∨ l.head? = some .null := by
  cases l with
  | nil => simp [flagged]
  | cons x l =>
    cases x with
    | bool b => cases b <;> simp [flagged]
    | _ => simp [flagged]

section
variable [FloatKey]

theorem isFlag_args : ∀ (v : SVal), isFlag v = true → flagged (ownArgs (leaves v)) = true
  | .bool b, h => by cases b <;> simp_all [isFlag, leaves, ownArgs, flagged]
  | .none, _ | .unit, _ | .unitStruct _, _ => by simp [leaves, ownArgs, flagged]
  | .some v, h => by rw [leaves]; exact isFlag_args v h
  | .newtypeStruct v, h => by rw [leaves]; exact isFlag_args v h
  | .int _, h | .int128 _, h | .f64 _, h | .char _, h | .str _, h | .bytes _, h | .unitVariant _, h
  | .newtypeVariant _ _, h | .tupleVariant _ _, h | .map _, h | .seq _, h | .tuple _, h | .tupleStruct _, h
  | .struct _, h | .structVariant _ _, h => by cases h

/-- A `FlagSafe` value is left out exactly when it is a plain flag. -/
theorem flagSafe_skipped {v : SVal} (h : FlagSafe v) {k : Str} {c : Node} (hw : Wrote (.new (.ofStr k)) c (leaves v)) :
    c.skipped = isFlag v := by
  obtain ⟨_, _, h3⟩ := hw.new_facts
  rw [skipped_args, h3]
  cases hf : isFlag v with
  | true => exact isFlag_args v hf
  | false =>
    cases hg : flagged (ownArgs (leaves v)) with
    | false => rfl
    | true => rw [h ((flagged_head _).mp hg)] at hf; cases hf

theorem toKdlValue_leaves : ∀ {v : SVal} {x : Value}, toKdlValue v = some x → leaves v = [⟨[], none, x⟩]
  | .bool _, x, h | .int _, x, h | .f64 _, x, h | .char _, x, h | .str _, x, h | .none, x, h | .unit, x, h
  | .unitStruct _, x, h | .unitVariant _, x, h => by cases h; rw [leaves]
  | .some v, x, h | .newtypeStruct v, x, h => by rw [leaves]; exact toKdlValue_leaves (v := v) h
  | .int128 _, x, h | .bytes _, x, h | .newtypeVariant _ _, x, h | .seq _, x, h | .tuple _, x, h
  | .tupleStruct _, x, h | .tupleVariant _ _, x, h | .map _, x, h | .struct _, x, h
  | .structVariant _ _, x, h => by cases h

theorem Wrote.value {v : SVal} {x : Value} (h : toKdlValue v = some x) (n : Node) : Wrote n (n.pushArg x) (leaves v) := by
  rw [toKdlValue_leaves h]; exact .arg n x

theorem Wrote.serArgs : ∀ {vs : List SVal} {n n' : Node}, serArgs n vs = some n' → Wrote n n' (listLeaves vs)
  | [], n, n', h => by cases h; rw [listLeaves]; exact .refl n
  | v :: vs, n, n', h => by
    rw [Kdl.serArgs] at h
    obtain ⟨x, hx, h⟩ := Option.bind_eq_some_iff.mp h
    rw [listLeaves]
    exact (Wrote.value hx n).trans (Wrote.serArgs h)

theorem Wrote.serArgsField : ∀ {v : SVal} {n n' : Node}, serArgsField n v = some n' → Wrote n n' (leaves v)
  | .seq vs, n, n', h => by rw [leaves]; exact Wrote.serArgs (vs := vs) h
  | .tuple vs, n, n', h => by rw [leaves]; exact Wrote.serArgs (vs := vs) h
  | .tupleStruct vs, n, n', h => by rw [leaves]; exact Wrote.serArgs (vs := vs) h
  | .some v, n, n', h => by rw [leaves]; exact Wrote.serArgsField (v := v) h
  | .newtypeStruct v, n, n', h => by rw [leaves]; exact Wrote.serArgsField (v := v) h
  | .bool _, n, n', h | .int _, n, n', h | .int128 _, n, n', h | .f64 _, n, n', h
  | .char _, n, n', h | .str _, n, n', h | .bytes _, n, n', h | .none, n, n', h
  | .unit, n, n', h | .unitStruct _, n, n', h | .unitVariant _, n, n', h
  | .newtypeVariant _ _, n, n', h | .tupleVariant _ _, n, n', h | .map _, n, n', h
  | .struct _, n, n', h | .structVariant _ _, n, n', h => by
    obtain ⟨x, hx, rfl⟩ := Option.map_eq_some_iff.mp h
    exact Wrote.value hx n

theorem Wrote.bytes : ∀ (bs : List (Fin 256)) (n : Node),
    Wrote n (bs.foldl (fun n b => n.pushArg (.integer ⟨b.1, by
      have := b.2; unfold i128Min i128Max; omega⟩)) n) (leaves (.bytes bs))
  | [], n => by rw [leaves]; exact .refl n
  | b :: bs, n => by
    have := Wrote.bytes bs (n.pushArg (.integer ⟨b.1, by have := b.2; unfold i128Min i128Max; omega⟩))
    rw [leaves] at this ⊢
    exact (Wrote.arg n _).trans this

omit [FloatKey] in
theorem fieldPlace_nil (k : Str) : fieldPlace k [] = [] := by
  unfold fieldPlace
  split <;> rfl

omit [FloatKey] in
theorem fieldKind_head {k : Str} (h : fieldKind k = .child) : k.head? ≠ some '#' := by
  unfold fieldKind at h
  split at h
  · cases h
  · split at h
    · cases h
    · split at h
      · cases h
      · split at h
        · cases h
        · next h1 => intro h2; cases k <;> simp_all

omit [FloatKey] in
theorem fieldKind_place {k : Str} (l : List Fact) :
    (∀ name, fieldKind k = .prop name → k.head? = some '#' ∧ fieldPlace k l = l.map fun f => ⟨f.path, some name, f.value⟩) ∧
    (fieldKind k = .args ∨ fieldKind k = .rest ∨ (∃ t, fieldKind k = .arg t) → k.head? = some '#' ∧ fieldPlace k l = l) ∧
    (fieldKind k = .child → k.head? ≠ some '#' ∧ fieldPlace k l = below k l) := by
  unfold fieldKind
  split
  · simp [fieldPlace]
  · next h0 =>
    split
    · subst_vars; simp [fieldPlace]
    · split
      · subst_vars; simp [fieldPlace]
      · split
        · next t _ _ =>
          cases t with
          | nil => simp [fieldPlace]
          | cons c t =>
            have : c ≠ '@' := fun e => h0 t (by rw [e])
            simp [fieldPlace, this]
        · next h1 =>
          cases k with
          | nil => simp [fieldPlace]
          | cons c t =>
            have : c ≠ '#' := fun e => h1 t (by rw [e])
            simp [fieldPlace, this]

mutual
theorem Wrote.serNode : ∀ (v : SVal) {n n' : Node}, serNode v n = some n' → Faithful v → Wrote n n' (leaves v)
  | .bool _, n, n', h, _ => by rw [Kdl.serNode] at h; cases h; exact .value rfl n
  | .int _, n, n', h, _ => by rw [Kdl.serNode] at h; cases h; exact .value rfl n
  | .int128 _, n, n', h, _ => by rw [Kdl.serNode] at h; cases h
  | .f64 _, n, n', h, _ => by rw [Kdl.serNode] at h; cases h; exact .value rfl n
  | .char _, n, n', h, _ => by rw [Kdl.serNode] at h; cases h; exact .value rfl n
  | .str _, n, n', h, _ => by rw [Kdl.serNode] at h; cases h; exact .value rfl n
  | .bytes bs, n, n', h, _ => by rw [Kdl.serNode] at h; cases h; exact .bytes bs n
  | .none, n, n', h, _ => by rw [Kdl.serNode] at h; cases h; exact .value rfl n
  | .some v, n, n', h, hf => by
    rw [Kdl.serNode] at h; rw [Faithful] at hf; rw [leaves]; exact Wrote.serNode v h hf
  | .unit, n, n', h, _ => by rw [Kdl.serNode] at h; cases h; exact .value rfl n
  | .unitStruct k, n, n', h, _ => by rw [Kdl.serNode] at h; cases h; exact .value (v := .unitStruct k) rfl n
  | .unitVariant _, n, n', h, _ => by rw [Kdl.serNode] at h; cases h; exact .value rfl n
  | .newtypeStruct v, n, n', h, hf => by
    rw [Kdl.serNode] at h; rw [Faithful] at hf; rw [leaves]; exact Wrote.serNode v h hf
  | .newtypeVariant k v, n, n', h, _ => by
    rw [Kdl.serNode] at h
    obtain ⟨x, hx, rfl⟩ := Option.map_eq_some_iff.mp h
    rw [leaves]
    exact (Wrote.value hx _).pushNew
  | .seq vs, n, n', h, _ => by rw [Kdl.serNode] at h; rw [leaves]; exact .serArgs h
  | .tuple vs, n, n', h, _ => by rw [Kdl.serNode] at h; rw [leaves]; exact .serArgs h
  | .tupleStruct vs, n, n', h, _ => by rw [Kdl.serNode] at h; rw [leaves]; exact .serArgs h
  | .tupleVariant k vs, n, n', h, _ => by
    rw [Kdl.serNode] at h
    obtain ⟨c, hc, rfl⟩ := Option.map_eq_some_iff.mp h
    rw [leaves]
    exact (Wrote.serArgs hc).pushNew
  | .map kvs, n, n', h, hf => by
    rw [Kdl.serNode] at h; rw [Faithful] at hf; rw [leaves]; exact Wrote.serMap kvs h hf
  | .struct fs, n, n', h, hf => by
    rw [Kdl.serNode] at h; rw [Faithful] at hf; rw [leaves]; exact Wrote.serFields fs h hf
  | .structVariant k fs, n, n', h, hf => by
    rw [Kdl.serNode] at h
    rw [Faithful] at hf
    obtain ⟨r, hr, rfl⟩ := Option.map_eq_some_iff.mp h
    obtain ⟨h1, h2⟩ := serVariantFields_facts fs hr hf.1 hf.2
    rw [leaves, h1]
    refine Wrote.pushNew ⟨rfl, ?_, ?_⟩
    · obtain ⟨_, ⟨ns, f, s⟩⟩ := r
      exact h2
    · have : ownArgs (fieldLeaves fs) = [] := by
        clear h2 hr h h1
        have h3 := hf.1
        revert h3
        induction fs with
        | nil => intro _; simp [fieldLeaves, ownArgs]
        | cons f fs ih =>
          obtain ⟨k, v⟩ := f
          intro h3
          rw [fieldLeaves, ownArgs_append, ih (by rw [FaithfulFields] at hf; exact ⟨fun f hm => h3 f (List.mem_cons_of_mem _ hm), hf.2.2⟩)
            (fun f hm => h3 f (List.mem_cons_of_mem _ hm)), List.append_nil]
          split
          · simp [ownArgs]
          · by_cases hq : k.head? = some '#'
            · have h4 : leaves v = [] := h3 (k, v) List.mem_cons_self hq
              rw [h4, fieldPlace_nil]
              rfl
            · rw [((fieldKind_place _).2.2 (fieldKind_child (kidField_head hq))).2, ownArgs_below]
      rw [this]
      rfl
theorem Wrote.serMap : ∀ (kvs : List (SVal × SVal)) {n n' : Node}, serMap kvs n = some n' → FaithfulMap kvs →
    Wrote n n' (mapLeaves kvs)
  | [], n, n', h, _ => by rw [Kdl.serMap] at h; cases h; rw [mapLeaves]; exact .refl n
  | (k, v) :: kvs, n, n', h, hf => by
    rw [Kdl.serMap] at h
    rw [FaithfulMap] at hf
    obtain ⟨key, hk, h⟩ := Option.bind_eq_some_iff.mp h
    obtain ⟨c, hc, h⟩ := Option.bind_eq_some_iff.mp h
    have hc := Wrote.serNode v hc hf.1.2
    rw [flagSafe_skipped hf.1.1 hc] at h
    rw [mapLeaves, hk]
    refine Wrote.trans ?_ (Wrote.serMap kvs h hf.2)
    cases isFlag v with
    | true => exact .refl n
    | false => exact hc.pushNew
theorem Wrote.serFields : ∀ (fs : List (Str × SVal)) {n n' : Node}, serFields fs n = some n' → FaithfulFields fs →
    Wrote n n' (fieldLeaves fs)
  | [], n, n', h, _ => by rw [Kdl.serFields] at h; cases h; rw [fieldLeaves]; exact .refl n
  | (k, v) :: fs, n, n', h, hf => by
    rw [Kdl.serFields] at h
    rw [FaithfulFields] at hf
    have hp := fieldKind_place (k := k) (leaves v)
    rw [fieldLeaves]
    cases hk : fieldKind k with
    | prop name =>
      simp only [hk] at h
      obtain ⟨x, hx, h⟩ := Option.bind_eq_some_iff.mp h
      obtain ⟨h1, h2⟩ := hp.1 name hk
      rw [if_neg (by simp [h1]), h2, toKdlValue_leaves hx]
      exact (Wrote.prop n name x).trans (Wrote.serFields fs h hf.2)
    | args =>
      simp only [hk] at h
      obtain ⟨m, hm, h⟩ := Option.bind_eq_some_iff.mp h
      obtain ⟨h1, h2⟩ := hp.2.1 (.inl hk)
      rw [if_neg (by simp [h1]), h2]
      exact (Wrote.serArgsField hm).trans (Wrote.serFields fs h hf.2)
    | rest =>
      simp only [hk] at h
      obtain ⟨m, hm, h⟩ := Option.bind_eq_some_iff.mp h
      obtain ⟨h1, h2⟩ := hp.2.1 (.inr (.inl hk))
      rw [if_neg (by simp [h1]), h2]
      exact (Wrote.serArgsField hm).trans (Wrote.serFields fs h hf.2)
    | arg t =>
      simp only [hk] at h
      obtain ⟨x, hx, h⟩ := Option.bind_eq_some_iff.mp h
      obtain ⟨h1, h2⟩ := hp.2.1 (.inr (.inr ⟨t, hk⟩))
      rw [if_neg (by simp [h1]), h2]
      exact (Wrote.value hx n).trans (Wrote.serFields fs h hf.2)
    | child =>
      simp only [hk] at h
      obtain ⟨c, hc, h⟩ := Option.bind_eq_some_iff.mp h
      obtain ⟨h1, h2⟩ := hp.2.2 hk
      have hf1 := hf.1 h1
      have hc := Wrote.serNode v hc hf1.2
      rw [flagSafe_skipped hf1.1 hc] at h
      rw [h2]
      refine Wrote.trans ?_ (Wrote.serFields fs h hf.2)
      cases isFlag v with
      | true => simpa [h1] using Wrote.ensure n
      | false => simpa using hc.pushNew
theorem serVariantFields_facts : ∀ (fs : List (Str × SVal)) {n : Node} {d : Document} {r : Node × Document},
    serVariantFields fs n d = some r → (∀ f ∈ fs, f.1.head? = some '#' → leaves f.2 = []) → FaithfulFields fs →
    r.1 = n ∧ (listFacts (semNodes id r.2.nodes)).Perm (listFacts (semNodes id d.nodes) ++ fieldLeaves fs)
  | [], n, d, r, h, _, _ => by
    rw [serVariantFields] at h; cases h; rw [fieldLeaves, List.append_nil]; exact ⟨rfl, .refl _⟩
  | (k, v) :: fs, n, d, r, h, hh, hf => by
    rw [serVariantFields] at h
    rw [FaithfulFields] at hf
    have hr : ∀ {r : Node × Document}, serVariantFields fs n d = some r → r.1 = n ∧
        (listFacts (semNodes id r.2.nodes)).Perm (listFacts (semNodes id d.nodes) ++ fieldLeaves fs) := fun h =>
      serVariantFields_facts fs h (fun f hm => hh f (List.mem_cons_of_mem _ hm)) hf.2
    by_cases hq : k.head? = some '#'
    · have h4 : leaves v = [] := hh (k, v) List.mem_cons_self hq
      have hn : ∀ x, toKdlValue v ≠ some x := fun x hx => by rw [toKdlValue_leaves hx] at h4; cases h4
      rw [fieldLeaves, h4, fieldPlace_nil, ite_self, List.nil_append]
      cases hk : fieldKind k with
      | prop name =>
        simp only [hk] at h
        obtain ⟨x, hx, _⟩ := Option.bind_eq_some_iff.mp h
        exact absurd hx (hn x)
      | arg t =>
        simp only [hk] at h
        obtain ⟨x, hx, _⟩ := Option.bind_eq_some_iff.mp h
        exact absurd hx (hn x)
      | args =>
        simp only [hk] at h
        obtain ⟨x, hx, h⟩ := Option.bind_eq_some_iff.mp h
        exact hr h
      | rest =>
        simp only [hk] at h
        obtain ⟨x, hx, h⟩ := Option.bind_eq_some_iff.mp h
        exact hr h
      | child => exact absurd hq (fieldKind_head hk)
    have h1 := hq
    have hk := fieldKind_child (kidField_head h1)
    simp only [hk] at h
    obtain ⟨c, hc, h⟩ := Option.bind_eq_some_iff.mp h
    have hf1 := hf.1 h1
    have hc := Wrote.serNode v hc hf1.2
    rw [flagSafe_skipped hf1.1 hc] at h
    obtain ⟨h3, h4⟩ := serVariantFields_facts fs h (fun f hm => hh f (List.mem_cons_of_mem _ hm)) hf.2
    refine ⟨h3, h4.trans ?_⟩
    rw [fieldLeaves, ((fieldKind_place _).2.2 hk).2]
    cases isFlag v with
    | true => simp [h1]
    | false =>
      obtain ⟨h5, h6, _⟩ := hc.new_facts
      simp only [Document.nodes, Bool.false_eq_true, if_false, and_false, semNodes_append, semNodes, listFacts_append,
        listFacts, List.append_nil, nodeFacts_eq, h5, List.append_assoc]
      exact ((below_perm k h6).append_right _).append_left _
end

/-! ### Documents -/

/-- The facts of a document. -/
def docFacts (d : Document) : List Fact := listFacts (semDoc id d)

omit [FloatKey] in
theorem docFacts_push {d : Document} {c : Node} {k : Str} {l : List Fact} (h : Wrote (.new (.ofStr k)) c l) :
    (docFacts (d.pushNode c)).Perm (docFacts d ++ below k l) := by
  obtain ⟨h1, h2, _⟩ := h.new_facts
  obtain ⟨ns, f, s⟩ := d
  simp only [docFacts, Document.pushNode, Document.nodes, semDoc, semNodes_append, semNodes, listFacts_append, listFacts,
    List.append_nil, nodeFacts_eq, h1]
  exact (below_perm k h2).append_left _

theorem serSeqNodes_facts {k : Str} : ∀ (vs : List SVal) {d d' : Document}, serSeqNodes k vs d = some d' →
    (∀ v ∈ vs, Faithful v) → (docFacts d').Perm (docFacts d ++ below k (listLeaves vs))
  | [], d, d', h, _ => by cases h; simp [listLeaves, below]
  | v :: vs, d, d', h, hf => by
    rw [serSeqNodes] at h
    obtain ⟨c, hc, h⟩ := Option.bind_eq_some_iff.mp h
    have hc := Wrote.serNode v hc (hf v List.mem_cons_self)
    rw [listLeaves, below_append, ← List.append_assoc]
    exact (serSeqNodes_facts vs h fun v hv => hf v (List.mem_cons_of_mem _ hv)).trans ((docFacts_push hc).append_right _)

theorem serMapNodes_facts : ∀ (kvs : List (SVal × SVal)) {d d' : Document}, serMapNodes kvs d = some d' →
    (∀ kv ∈ kvs, Faithful kv.2) →
    (docFacts d').Perm (docFacts d ++ kvs.flatMap fun kv => below ((keyToString kv.1).getD []) (leaves kv.2))
  | [], d, d', h, _ => by cases h; simp
  | (k, v) :: kvs, d, d', h, hf => by
    rw [serMapNodes] at h
    obtain ⟨key, hk, h⟩ := Option.bind_eq_some_iff.mp h
    obtain ⟨c, hc, h⟩ := Option.bind_eq_some_iff.mp h
    have hc := Wrote.serNode v hc (hf (k, v) List.mem_cons_self)
    rw [List.flatMap_cons, ← List.append_assoc, hk]
    exact (serMapNodes_facts kvs h fun v hv => hf v (List.mem_cons_of_mem _ hv)).trans ((docFacts_push hc).append_right _)

theorem serFieldNodes_facts : ∀ (fs : List (Str × SVal)) {d d' : Document}, serFieldNodes fs d = some d' →
    (∀ f ∈ fs, FlagSafe f.2 ∧ Faithful f.2) →
    (docFacts d').Perm (docFacts d ++ fs.flatMap fun f => if isFlag f.2 then [] else below f.1 (leaves f.2))
  | [], d, d', h, _ => by cases h; simp
  | (k, v) :: fs, d, d', h, hf => by
    rw [serFieldNodes] at h
    obtain ⟨c, hc, h⟩ := Option.bind_eq_some_iff.mp h
    have hf1 := hf (k, v) List.mem_cons_self
    have hc := Wrote.serNode v hc hf1.2
    rw [flagSafe_skipped hf1.1 hc] at h
    rw [List.flatMap_cons, ← List.append_assoc]
    refine (serFieldNodes_facts fs h fun v hv => hf v (List.mem_cons_of_mem _ hv)).trans (.append_right _ ?_)
    cases isFlag v with
    | true => simp
    | false => simpa using docFacts_push hc

theorem bytesNodes_facts : ∀ (bs : List (Fin 256)) (d : Document),
    (docFacts (bs.foldl (fun d b => d.pushNode (valueNode ['-'] (.integer ⟨b.1, by
      have := b.2; unfold i128Min i128Max; omega⟩))) d)).Perm (docFacts d ++ below ['-'] (leaves (.bytes bs)))
  | [], d => by simp [leaves, below]
  | b :: bs, d => by
    have := bytesNodes_facts bs (d.pushNode (valueNode ['-'] (.integer ⟨b.1, by have := b.2; unfold i128Min i128Max; omega⟩)))
    refine this.trans (((docFacts_push (Wrote.arg _ _)).append_right _).trans (.of_eq ?_))
    simp [leaves, below]

theorem serDoc_facts : ∀ (v : SVal) {d d' : Document}, serDoc v d = some d' → FaithfulDoc v →
    (docFacts d').Perm (docFacts d ++ docLeaves v)
  | .bool _, d, d', h, _ => by rw [serDoc] at h; cases h; exact docFacts_push (Wrote.value (v := .bool _) rfl _)
  | .int _, d, d', h, _ => by rw [serDoc] at h; cases h; exact docFacts_push (Wrote.value (v := .int _) rfl _)
  | .int128 _, d, d', h, _ => by rw [serDoc] at h; cases h
  | .f64 _, d, d', h, _ => by rw [serDoc] at h; cases h; exact docFacts_push (Wrote.value (v := .f64 _) rfl _)
  | .char _, d, d', h, _ => by rw [serDoc] at h; cases h; exact docFacts_push (Wrote.value (v := .char _) rfl _)
  | .str _, d, d', h, _ => by rw [serDoc] at h; cases h; exact docFacts_push (Wrote.value (v := .str _) rfl _)
  | .unitVariant _, d, d', h, _ => by
    rw [serDoc] at h; cases h; exact docFacts_push (Wrote.value (v := .unitVariant _) rfl _)
  | .bytes bs, d, d', h, _ => by rw [serDoc] at h; cases h; exact bytesNodes_facts bs d
  | .none, d, d', h, _ | .unit, d, d', h, _ | .unitStruct _, d, d', h, _ => by
    rw [serDoc] at h; cases h; simp [docLeaves]
  | .some v, d, d', h, hf | .newtypeStruct v, d, d', h, hf => by
    rw [serDoc] at h; rw [FaithfulDoc] at hf; rw [docLeaves]; exact serDoc_facts v h hf
  | .newtypeVariant k v, d, d', h, _ => by
    rw [serDoc] at h
    obtain ⟨x, hx, rfl⟩ := Option.map_eq_some_iff.mp h
    exact docFacts_push (Wrote.value hx _)
  | .seq vs, d, d', h, hf | .tuple vs, d, d', h, hf | .tupleStruct vs, d, d', h, hf | .tupleVariant _ vs, d, d', h, hf => by
    rw [serDoc] at h; rw [FaithfulDoc] at hf; rw [docLeaves]; exact serSeqNodes_facts vs h hf
  | .map kvs, d, d', h, hf => by
    rw [serDoc] at h; rw [FaithfulDoc] at hf; rw [docLeaves]; exact serMapNodes_facts kvs h hf
  | .struct fs, d, d', h, hf => by
    rw [serDoc] at h; rw [FaithfulDoc] at hf; rw [docLeaves]; exact serFieldNodes_facts fs h hf
  | .structVariant k fs, d, d', h, hf => by
    rw [serDoc] at h
    rw [FaithfulDoc] at hf
    obtain ⟨_, _, rfl⟩ := Option.map_eq_some_iff.mp h
    rw [docLeaves, hf]
    exact docFacts_push ⟨rfl, .refl _, rfl⟩

end

end Kdl
