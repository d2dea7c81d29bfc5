import Verif.Spec.Serde
import Verif.Spec.Build
/-
What every serialised document satisfies.
-/

namespace Kdl

open Spec

/-- Properties of nodes and documents kept by everything the serializers do, provided the texts
written satisfy `wr`. -/
structure SerInv (wr : Str → Prop) (P : Node → Prop) (Q : Document → Prop) : Prop where
  new : ∀ {k}, wr k → P (.new (.ofStr k))
  arg : ∀ {n x}, P n → (∀ s, x = Value.string s → wr s) → (∀ i, x = Value.integer i → i.1 ≠ i128Min) → P (n.pushArg x)
  prop : ∀ {n k x}, P n → wr k → (∀ s, x = Value.string s → wr s) → (∀ i, x = Value.integer i → i.1 ≠ i128Min) →
    P (n.push (.newProp (.ofStr k) x))
  ensure : ∀ {n}, P n → P n.ensureChildren
  child : ∀ {n c}, P n → P c → P (n.pushChild c)
  setChildren : ∀ {n d}, P n → Q d → P (n.setChildren d)
  docNew : Q .new
  docPush : ∀ {d n}, Q d → P n → Q (d.pushNode n)

theorem SInt.ne_min (i : SInt) : i.toI128.1 ≠ i128Min := by
  obtain ⟨i, h1, h2⟩ := i
  simp only [SInt.toI128, i128Min]
  omega

section
variable [FloatKey]

theorem toKdlValue_texts {wr : Str → Prop} : ∀ {v : SVal} {x : Value}, toKdlValue v = some x → (∀ s ∈ texts v, wr s) →
    (∀ s, x = Value.string s → wr s) ∧ (∀ i, x = Value.integer i → i.1 ≠ i128Min)
  | .bool b, x, h, hw => by cases h; exact ⟨by rintro _ ⟨⟩, by rintro _ ⟨⟩⟩
  | .int i, x, h, hw => by
    cases h
    refine ⟨by rintro _ ⟨⟩, ?_⟩
    rintro _ ⟨⟩
    exact i.ne_min
  | .f64 _, x, h, hw => by cases h; exact ⟨by rintro _ ⟨⟩, by rintro _ ⟨⟩⟩
  | .char c, x, h, hw => by
    cases h
    exact ⟨(by rintro _ ⟨⟩; exact hw _ (by simp [texts])), by rintro _ ⟨⟩⟩
  | .str s, x, h, hw => by
    cases h
    exact ⟨(by rintro _ ⟨⟩; exact hw _ (by simp [texts])), by rintro _ ⟨⟩⟩
  | .none, x, h, hw => by cases h; exact ⟨by rintro _ ⟨⟩, by rintro _ ⟨⟩⟩
  | .unit, x, h, hw => by cases h; exact ⟨by rintro _ ⟨⟩, by rintro _ ⟨⟩⟩
  | .unitStruct _, x, h, hw => by cases h; exact ⟨by rintro _ ⟨⟩, by rintro _ ⟨⟩⟩
  | .unitVariant s, x, h, hw => by
    cases h
    exact ⟨(by rintro _ ⟨⟩; exact hw _ (by simp [texts])), by rintro _ ⟨⟩⟩
  | .some v, x, h, hw => toKdlValue_texts (v := v) h (by rw [texts] at hw; exact hw)
  | .newtypeStruct v, x, h, hw => toKdlValue_texts (v := v) h (by rw [texts] at hw; exact hw)
  | .int128 _, x, h, _ | .bytes _, x, h, _ | .newtypeVariant _ _, x, h, _ | .seq _, x, h, _ | .tuple _, x, h, _
  | .tupleStruct _, x, h, _ | .tupleVariant _ _, x, h, _ | .map _, x, h, _ | .struct _, x, h, _
  | .structVariant _ _, x, h, _ => by cases h

variable {wr : Str → Prop} {P : Node → Prop} {Q : Document → Prop}

theorem SerInv.pushVal (H : SerInv wr P Q) {v : SVal} {x : Value} {n : Node} (h : toKdlValue v = some x)
    (hw : ∀ s ∈ texts v, wr s) (hn : P n) : P (n.pushArg x) :=
  H.arg hn (toKdlValue_texts h hw).1 (toKdlValue_texts h hw).2

theorem SerInv.serArgs (H : SerInv wr P Q) : ∀ {vs : List SVal} {n n' : Node}, serArgs n vs = some n' →
    (∀ s ∈ textsList vs, wr s) → P n → P n'
  | [], n, n', h, _, hn => by cases h; exact hn
  | v :: vs, n, n', h, hw, hn => by
    rw [Kdl.serArgs] at h
    obtain ⟨x, hx, h⟩ := Option.bind_eq_some_iff.mp h
    rw [textsList] at hw
    exact SerInv.serArgs H h (fun s hs => hw s (List.mem_append_right _ hs))
      (H.pushVal hx (fun s hs => hw s (List.mem_append_left _ hs)) hn)

theorem SerInv.serArgsField (H : SerInv wr P Q) : ∀ {v : SVal} {n n' : Node}, serArgsField n v = some n' →
    (∀ s ∈ texts v, wr s) → P n → P n'
  | .seq vs, n, n', h, hw, hn => H.serArgs (vs := vs) h (by rw [texts] at hw; exact hw) hn
  | .tuple vs, n, n', h, hw, hn => H.serArgs (vs := vs) h (by rw [texts] at hw; exact hw) hn
  | .tupleStruct vs, n, n', h, hw, hn => H.serArgs (vs := vs) h (by rw [texts] at hw; exact hw) hn
  | .some v, n, n', h, hw, hn => SerInv.serArgsField H (v := v) h (by rw [texts] at hw; exact hw) hn
  | .newtypeStruct v, n, n', h, hw, hn => SerInv.serArgsField H (v := v) h (by rw [texts] at hw; exact hw) hn
  | .bool _, n, n', h, hw, hn | .int _, n, n', h, hw, hn | .int128 _, n, n', h, hw, hn | .f64 _, n, n', h, hw, hn
  | .char _, n, n', h, hw, hn | .str _, n, n', h, hw, hn | .bytes _, n, n', h, hw, hn | .none, n, n', h, hw, hn
  | .unit, n, n', h, hw, hn | .unitStruct _, n, n', h, hw, hn | .unitVariant _, n, n', h, hw, hn
  | .newtypeVariant _ _, n, n', h, hw, hn | .tupleVariant _ _, n, n', h, hw, hn | .map _, n, n', h, hw, hn
  | .struct _, n, n', h, hw, hn | .structVariant _ _, n, n', h, hw, hn => by
    obtain ⟨x, hx, rfl⟩ := Option.map_eq_some_iff.mp h
    exact H.pushVal hx hw hn

theorem SerInv.bytes (H : SerInv wr P Q) : ∀ (bs : List (Fin 256)) {n : Node}, P n →
    P (bs.foldl (fun n b => n.pushArg (.integer ⟨b.1, by
      have := b.2; unfold i128Min i128Max; omega⟩)) n)
  | [], n, hn => hn
  | b :: bs, n, hn => SerInv.bytes H bs (H.arg hn (by rintro _ ⟨⟩) (by
      rintro _ ⟨⟩
      show (b.1 : Int) ≠ i128Min
      unfold i128Min
      omega))

omit [FloatKey] in
theorem fieldKind_prop {k name : Str} (h : fieldKind k = .prop name) : propNames k = [name] := by
  unfold fieldKind at h
  split at h
  · cases h; rfl
  · split at h
    · cases h
    · split at h
      · cases h
      · split at h <;> cases h

mutual
theorem SerInv.serNode (H : SerInv wr P Q) : ∀ (v : SVal) {n n' : Node}, serNode v n = some n' →
    (∀ s ∈ texts v, wr s) → P n → P n'
  | .bool _, n, n', h, hw, hn => by
    rw [Kdl.serNode] at h; cases h; exact H.pushVal (v := .bool _) rfl hw hn
  | .int _, n, n', h, hw, hn => by
    rw [Kdl.serNode] at h; cases h; exact H.pushVal (v := .int _) rfl hw hn
  | .int128 _, n, n', h, hw, hn => by rw [Kdl.serNode] at h; cases h
  | .f64 _, n, n', h, hw, hn => by
    rw [Kdl.serNode] at h; cases h; exact H.pushVal (v := .f64 _) rfl hw hn
  | .char _, n, n', h, hw, hn => by
    rw [Kdl.serNode] at h; cases h; exact H.pushVal (v := .char _) rfl hw hn
  | .str _, n, n', h, hw, hn => by
    rw [Kdl.serNode] at h; cases h; exact H.pushVal (v := .str _) rfl hw hn
  | .bytes bs, n, n', h, hw, hn => by
    rw [Kdl.serNode] at h; cases h; exact SerInv.bytes H bs hn
  | .none, n, n', h, hw, hn => by
    rw [Kdl.serNode] at h; cases h; exact H.pushVal (v := .none) rfl hw hn
  | .some v, n, n', h, hw, hn => by
    rw [Kdl.serNode] at h
    rw [texts] at hw
    exact SerInv.serNode H v h hw hn
  | .unit, n, n', h, hw, hn => by
    rw [Kdl.serNode] at h; cases h; exact H.pushVal (v := .unit) rfl hw hn
  | .unitStruct k, n, n', h, hw, hn => by
    rw [Kdl.serNode] at h; cases h; exact H.pushVal (v := .unitStruct k) rfl hw hn
  | .unitVariant _, n, n', h, hw, hn => by
    rw [Kdl.serNode] at h; cases h; exact H.pushVal (v := .unitVariant _) rfl hw hn
  | .newtypeStruct v, n, n', h, hw, hn => by
    rw [Kdl.serNode] at h
    rw [texts] at hw
    exact SerInv.serNode H v h hw hn
  | .newtypeVariant k v, n, n', h, hw, hn => by
    rw [Kdl.serNode] at h
    obtain ⟨x, hx, rfl⟩ := Option.map_eq_some_iff.mp h
    rw [texts] at hw
    exact H.child hn (H.pushVal hx (fun s hs => hw s (List.mem_cons_of_mem _ hs)) (H.new (hw k List.mem_cons_self)))
  | .seq vs, n, n', h, hw, hn => by
    rw [Kdl.serNode] at h; rw [texts] at hw; exact H.serArgs h hw hn
  | .tuple vs, n, n', h, hw, hn => by
    rw [Kdl.serNode] at h; rw [texts] at hw; exact H.serArgs h hw hn
  | .tupleStruct vs, n, n', h, hw, hn => by
    rw [Kdl.serNode] at h; rw [texts] at hw; exact H.serArgs h hw hn
  | .tupleVariant k vs, n, n', h, hw, hn => by
    rw [Kdl.serNode] at h
    obtain ⟨c, hc, rfl⟩ := Option.map_eq_some_iff.mp h
    rw [texts] at hw
    exact H.child hn (H.serArgs hc (fun s hs => hw s (List.mem_cons_of_mem _ hs)) (H.new (hw k List.mem_cons_self)))
  | .map kvs, n, n', h, hw, hn => by
    rw [Kdl.serNode] at h; rw [texts] at hw; exact SerInv.serMap H kvs h hw hn
  | .struct fs, n, n', h, hw, hn => by
    rw [Kdl.serNode] at h; rw [texts] at hw; exact SerInv.serFields H fs h hw hn
  | .structVariant k fs, n, n', h, hw, hn => by
    rw [Kdl.serNode] at h
    obtain ⟨⟨m, d⟩, hr, rfl⟩ := Option.map_eq_some_iff.mp h
    rw [texts] at hw
    have := SerInv.serVariantFields H fs hr (fun s hs => hw s (List.mem_cons_of_mem _ hs)) hn H.docNew
    exact H.child this.1 (H.setChildren (H.new (hw k List.mem_cons_self)) this.2)
theorem SerInv.serMap (H : SerInv wr P Q) : ∀ (kvs : List (SVal × SVal)) {n n' : Node}, serMap kvs n = some n' →
    (∀ s ∈ textsMap kvs, wr s) → P n → P n'
  | [], n, n', h, hw, hn => by rw [Kdl.serMap] at h; cases h; exact hn
  | (k, v) :: kvs, n, n', h, hw, hn => by
    rw [Kdl.serMap] at h
    obtain ⟨key, hk, h⟩ := Option.bind_eq_some_iff.mp h
    obtain ⟨c, hc, h⟩ := Option.bind_eq_some_iff.mp h
    rw [textsMap] at hw
    have hP := SerInv.serNode H v hc (fun s hs => hw s (by simp [hs])) (H.new (hw key (by simp [hk])))
    refine SerInv.serMap H kvs h (fun s hs => hw s (by simp [hs])) ?_
    split
    · exact hn
    · exact H.child hn hP
theorem SerInv.serFields (H : SerInv wr P Q) : ∀ (fs : List (Str × SVal)) {n n' : Node}, serFields fs n = some n' →
    (∀ s ∈ textsFields fs, wr s) → P n → P n'
  | [], n, n', h, hw, hn => by rw [Kdl.serFields] at h; cases h; exact hn
  | (k, v) :: fs, n, n', h, hw, hn => by
    rw [Kdl.serFields] at h
    rw [textsFields] at hw
    have hv : ∀ s ∈ texts v, wr s := fun s hs => hw s (by simp [hs])
    have hfs : ∀ s ∈ textsFields fs, wr s := fun s hs => hw s (by simp [hs])
    split at h
    · next name hk =>
      obtain ⟨x, hx, h⟩ := Option.bind_eq_some_iff.mp h
      exact SerInv.serFields H fs h hfs (H.prop hn (hw name (by simp [fieldKind_prop hk]))
        (toKdlValue_texts hx hv).1 (toKdlValue_texts hx hv).2)
    · obtain ⟨m, hm, h⟩ := Option.bind_eq_some_iff.mp h
      exact SerInv.serFields H fs h hfs (H.serArgsField hm hv hn)
    · obtain ⟨m, hm, h⟩ := Option.bind_eq_some_iff.mp h
      exact SerInv.serFields H fs h hfs (H.serArgsField hm hv hn)
    · obtain ⟨x, hx, h⟩ := Option.bind_eq_some_iff.mp h
      exact SerInv.serFields H fs h hfs (H.pushVal hx hv hn)
    · obtain ⟨c, hc, h⟩ := Option.bind_eq_some_iff.mp h
      have hP := SerInv.serNode H v hc hv (H.new (hw k (by simp)))
      refine SerInv.serFields H fs h hfs ?_
      split
      · exact H.ensure hn
      · exact H.child hn hP
theorem SerInv.serVariantFields (H : SerInv wr P Q) : ∀ (fs : List (Str × SVal)) {n : Node} {d : Document} {r : Node × Document},
    serVariantFields fs n d = some r → (∀ s ∈ textsFields fs, wr s) → P n → Q d → P r.1 ∧ Q r.2
  | [], n, d, r, h, hw, hn, hd => by rw [Kdl.serVariantFields] at h; cases h; exact ⟨hn, hd⟩
  | (k, v) :: fs, n, d, r, h, hw, hn, hd => by
    rw [Kdl.serVariantFields] at h
    rw [textsFields] at hw
    have hv : ∀ s ∈ texts v, wr s := fun s hs => hw s (by simp [hs])
    have hfs : ∀ s ∈ textsFields fs, wr s := fun s hs => hw s (by simp [hs])
    split at h
    · next name hk =>
      obtain ⟨x, hx, h⟩ := Option.bind_eq_some_iff.mp h
      exact SerInv.serVariantFields H fs h hfs (H.prop hn (hw name (by simp [fieldKind_prop hk]))
        (toKdlValue_texts hx hv).1 (toKdlValue_texts hx hv).2) hd
    · obtain ⟨m, hm, h⟩ := Option.bind_eq_some_iff.mp h
      exact SerInv.serVariantFields H fs h hfs hn hd
    · obtain ⟨m, hm, h⟩ := Option.bind_eq_some_iff.mp h
      exact SerInv.serVariantFields H fs h hfs hn hd
    · obtain ⟨x, hx, h⟩ := Option.bind_eq_some_iff.mp h
      exact SerInv.serVariantFields H fs h hfs (H.pushVal hx hv hn) hd
    · obtain ⟨c, hc, h⟩ := Option.bind_eq_some_iff.mp h
      have hP := SerInv.serNode H v hc hv (H.new (hw k (by simp)))
      refine SerInv.serVariantFields H fs h hfs hn ?_
      split
      · exact hd
      · exact H.docPush hd hP
end

theorem SerInv.serSeqNodes (H : SerInv wr P Q) {name : Str} (hk : wr name) : ∀ (vs : List SVal) {d d' : Document},
    serSeqNodes name vs d = some d' → (∀ s ∈ textsList vs, wr s) → Q d → Q d'
  | [], d, d', h, hw, hd => by rw [Kdl.serSeqNodes] at h; cases h; exact hd
  | v :: vs, d, d', h, hw, hd => by
    rw [Kdl.serSeqNodes] at h
    obtain ⟨n, hn, h⟩ := Option.bind_eq_some_iff.mp h
    rw [textsList] at hw
    exact SerInv.serSeqNodes H hk vs h (fun s hs => hw s (List.mem_append_right _ hs))
      (H.docPush hd (H.serNode v hn (fun s hs => hw s (List.mem_append_left _ hs)) (H.new hk)))

theorem SerInv.serMapNodes (H : SerInv wr P Q) : ∀ (kvs : List (SVal × SVal)) {d d' : Document},
    serMapNodes kvs d = some d' → (∀ s ∈ textsMap kvs, wr s) → Q d → Q d'
  | [], d, d', h, hw, hd => by rw [Kdl.serMapNodes] at h; cases h; exact hd
  | (k, v) :: kvs, d, d', h, hw, hd => by
    rw [Kdl.serMapNodes] at h
    obtain ⟨key, hk, h⟩ := Option.bind_eq_some_iff.mp h
    obtain ⟨n, hn, h⟩ := Option.bind_eq_some_iff.mp h
    rw [textsMap] at hw
    exact SerInv.serMapNodes H kvs h (fun s hs => hw s (by simp [hs]))
      (H.docPush hd (H.serNode v hn (fun s hs => hw s (by simp [hs])) (H.new (hw key (by simp [hk])))))

theorem SerInv.serFieldNodes (H : SerInv wr P Q) : ∀ (fs : List (Str × SVal)) {d d' : Document},
    serFieldNodes fs d = some d' → (∀ s ∈ textsFields fs, wr s) → Q d → Q d'
  | [], d, d', h, hw, hd => by rw [Kdl.serFieldNodes] at h; cases h; exact hd
  | (k, v) :: fs, d, d', h, hw, hd => by
    rw [Kdl.serFieldNodes] at h
    obtain ⟨n, hn, h⟩ := Option.bind_eq_some_iff.mp h
    rw [textsFields] at hw
    refine SerInv.serFieldNodes H fs h (fun s hs => hw s (by simp [hs])) ?_
    split
    · exact hd
    · exact H.docPush hd (H.serNode v hn (fun s hs => hw s (by simp [hs])) (H.new (hw k (by simp))))

theorem SerInv.byteNodes (H : SerInv wr P Q) (h0 : wr ['-']) : ∀ (bs : List (Fin 256)) {d : Document}, Q d →
    Q (bs.foldl (fun d b => d.pushNode (valueNode ['-'] (.integer ⟨b.1, by
      have := b.2; unfold i128Min i128Max; omega⟩))) d)
  | [], d, hd => hd
  | b :: bs, d, hd => SerInv.byteNodes H h0 bs (H.docPush hd (H.arg (H.new h0) (by rintro _ ⟨⟩) (by
      rintro _ ⟨⟩
      show (b.1 : Int) ≠ i128Min
      unfold i128Min
      omega)))

theorem SerInv.serDoc (H : SerInv wr P Q) (h0 : wr ['-']) : ∀ (v : SVal) {d d' : Document}, serDoc v d = some d' →
    (∀ s ∈ texts v, wr s) → Q d → Q d'
  | .bool _, d, d', h, hw, hd => by
    cases h; exact H.docPush hd (H.pushVal (v := .bool _) rfl hw (H.new h0))
  | .int _, d, d', h, hw, hd => by
    cases h; exact H.docPush hd (H.pushVal (v := .int _) rfl hw (H.new h0))
  | .int128 _, d, d', h, hw, hd => by cases h
  | .f64 _, d, d', h, hw, hd => by
    cases h; exact H.docPush hd (H.pushVal (v := .f64 _) rfl hw (H.new h0))
  | .char _, d, d', h, hw, hd => by
    cases h; exact H.docPush hd (H.pushVal (v := .char _) rfl hw (H.new h0))
  | .str _, d, d', h, hw, hd => by
    cases h; exact H.docPush hd (H.pushVal (v := .str _) rfl hw (H.new h0))
  | .bytes bs, d, d', h, hw, hd => by cases h; exact H.byteNodes h0 bs hd
  | .none, d, d', h, hw, hd => by cases h; exact hd
  | .unit, d, d', h, hw, hd => by cases h; exact hd
  | .unitStruct _, d, d', h, hw, hd => by cases h; exact hd
  | .some v, d, d', h, hw, hd => by rw [texts] at hw; exact SerInv.serDoc H h0 v h hw hd
  | .newtypeStruct v, d, d', h, hw, hd => by rw [texts] at hw; exact SerInv.serDoc H h0 v h hw hd
  | .unitVariant _, d, d', h, hw, hd => by
    cases h; exact H.docPush hd (H.pushVal (v := .unitVariant _) rfl hw (H.new h0))
  | .newtypeVariant k v, d, d', h, hw, hd => by
    obtain ⟨x, hx, rfl⟩ := Option.map_eq_some_iff.mp h
    rw [texts] at hw
    exact H.docPush hd (H.pushVal hx (fun s hs => hw s (List.mem_cons_of_mem _ hs)) (H.new (hw k List.mem_cons_self)))
  | .seq vs, d, d', h, hw, hd => by rw [texts] at hw; exact H.serSeqNodes h0 vs h hw hd
  | .tuple vs, d, d', h, hw, hd => by rw [texts] at hw; exact H.serSeqNodes h0 vs h hw hd
  | .tupleStruct vs, d, d', h, hw, hd => by rw [texts] at hw; exact H.serSeqNodes h0 vs h hw hd
  | .tupleVariant k vs, d, d', h, hw, hd => by
    rw [texts] at hw
    exact H.serSeqNodes (hw k List.mem_cons_self) vs h (fun s hs => hw s (List.mem_cons_of_mem _ hs)) hd
  | .map kvs, d, d', h, hw, hd => by rw [texts] at hw; exact H.serMapNodes kvs h hw hd
  | .struct fs, d, d', h, hw, hd => by rw [texts] at hw; exact H.serFieldNodes fs h hw hd
  | .structVariant k fs, d, d', h, hw, hd => by
    obtain ⟨x, hx, rfl⟩ := Option.map_eq_some_iff.mp h
    rw [texts] at hw
    exact H.docPush hd (H.setChildren (H.new (hw k List.mem_cons_self)) H.docNew)

end

/-! ### Instances -/

theorem BuiltNode.childDoc : ∀ {n : Node}, BuiltNode n → ∀ d, n.children = some d → BuiltDoc d
  | _, .new name => by rintro _ ⟨⟩
  | _, .setTy t h => fun d hd => BuiltNode.childDoc h d hd
  | _, .setName t h => fun d hd => BuiltNode.childDoc h d hd
  | _, .push h he => fun d hd => BuiltNode.childDoc h d hd
  | _, .clear h => fun d hd => BuiltNode.childDoc h d hd
  | _, .ensureChildren (n := m) h => by
    have ih := BuiltNode.childDoc h
    intro d hd
    unfold Node.ensureChildren at hd
    cases hc : m.children with
    | some d' => simp only [hc] at hd; exact ih d (by rw [← hd, hc])
    | none => simp only [hc] at hd; cases hd; exact .new
  | _, .setChildren h hd => by rintro _ ⟨⟩; exact hd
  | _, .clearChildren h => by rintro _ ⟨⟩

theorem Node.pushChild_eq (n c : Node) : n.pushChild c =
    n.setChildren (match n.children with
      | some d => .mk (d.nodes ++ [c]) d.format d.span
      | none => .mk [c] none .zero) := by
  obtain ⟨ty, name, es, ch, f, s⟩ := n
  cases ch <;> rfl

theorem builtInv : SerInv (fun _ => True) BuiltNode BuiltDoc where
  new _ := .new _
  arg hn _ _ := .push hn (.new _)
  prop hn _ _ _ := .push hn (.newProp _ _)
  ensure hn := .ensureChildren hn
  child {n c} hn hc := by
    rw [Node.pushChild_eq]
    refine .setChildren hn ?_
    cases h : n.children with
    | some d => exact .push (BuiltNode.childDoc hn d h) hc
    | none => exact .push .new hc
  setChildren hn hd := .setChildren hn hd
  docNew := .new
  docPush hd hn := .push hd hn

theorem writableInv : SerInv Writable NodeWritable DocWritable where
  new hk := .mk (by rintro _ ⟨⟩) hk (by intro _ h; cases h) (by rintro _ ⟨⟩)
  arg {n x} hn h1 h2 := by
    cases hn with
    | mk a b c d =>
      refine .mk a b (fun e he => ?_) d
      rcases List.mem_append.mp he with he | he
      · exact c e he
      · rw [List.mem_singleton.mp he]
        refine ⟨by rintro _ ⟨⟩, by rintro _ ⟨⟩, ?_⟩
        show WritableValue x
        cases x with
        | string s => exact h1 s rfl
        | integer i => exact h2 i rfl
        | _ => trivial
  prop {n k x} hn hk h1 h2 := by
    cases hn with
    | mk a b c d =>
      refine .mk a b (fun e he => ?_) d
      rcases List.mem_append.mp he with he | he
      · exact c e he
      · rw [List.mem_singleton.mp he]
        refine ⟨(by rintro _ ⟨⟩; exact hk), by rintro _ ⟨⟩, ?_⟩
        show WritableValue x
        cases x with
        | string s => exact h1 s rfl
        | integer i => exact h2 i rfl
        | _ => trivial
  ensure {n} hn := by
    cases hn with
    | mk a b c d =>
      rename_i ch _ _
      cases ch with
      | some x => exact .mk a b c d
      | none => exact .mk a b c (by rintro _ ⟨⟩; exact .mk (by intro _ h; cases h))
  child {n c} hn hc := by
    rw [Node.pushChild_eq]
    cases hn with
    | mk a b c' d =>
      rename_i ch _ _
      refine .mk a b c' ?_
      cases ch with
      | some x =>
        rintro _ ⟨⟩
        cases d x rfl with
        | mk hd =>
        refine .mk fun m hm => ?_
        rcases List.mem_append.mp hm with hm | hm
        · exact hd m hm
        · rw [List.mem_singleton.mp hm]; exact hc
      | none =>
        rintro _ ⟨⟩
        exact .mk (fun m hm => by rw [List.mem_singleton.mp hm]; exact hc)
  setChildren {n d} hn hd := by
    cases hn with
    | mk a b c _ => exact .mk a b c (by rintro _ ⟨⟩; exact hd)
  docNew := .mk (by intro _ h; cases h)
  docPush {d n} hd hn := by
    cases hd with
    | mk hd =>
      refine .mk fun m hm => ?_
      rcases List.mem_append.mp hm with hm | hm
      · exact hd m hm
      · rw [List.mem_singleton.mp hm]; exact hn

/-- Serialised documents are built. -/
theorem toDocument_built [FloatKey] {v : SVal} {d : Document} (h : toDocument v = some d) : BuiltDoc d :=
  builtInv.serDoc trivial v h (fun _ _ => trivial) .new

/-- Serialised documents contain only the texts of the value. -/
theorem toDocument_writable [FloatKey] {v : SVal} {d : Document} (h : toDocument v = some d) (hw : SWritable v) :
    DocWritable d :=
  writableInv.serDoc ⟨by decide, by rintro ⟨⟨g, x, t, _, _, e⟩, _⟩; simp at e⟩ v h hw writableInv.docNew

end Kdl
