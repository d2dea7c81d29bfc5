import Verif.Lemmas.Group
import Verif.Lemmas.Parser.Shown
/-
C43, C46: reading documents with serde.
-/

namespace Kdl

open Spec

/-! ### C43 -/

theorem filter_perm {α : Type} (p : α → Bool) (l : List α) :
    (l.filter p ++ l.filter (fun a => !p a)).Perm l := by
  induction l with
  | nil => exact .refl _
  | cons a l ih =>
    by_cases h : p a = true
    · simp only [List.filter_cons, h, if_true, Bool.not_true]
      exact ih.cons a
    · simp only [List.filter_cons, h, Bool.not_false, if_true]
      exact (List.perm_middle).trans (ih.cons a)

theorem groups_perm (ns : List DNode) {ks : List Str} (h : ks.Nodup) :
    (ks.flatMap fun k => ns.filter (·.name = k)).Perm (ns.filter fun n => decide (n.name ∈ ks)) := by
  induction ks with
  | nil => simp
  | cons k ks ih =>
    obtain ⟨h1, h2⟩ := List.nodup_cons.mp h
    rw [List.flatMap_cons]
    refine ((ih h2).append_left _).trans ?_
    have e := filter_perm (fun n : DNode => decide (n.name = k)) (ns.filter fun n => decide (n.name ∈ k :: ks))
    rw [List.filter_filter, List.filter_filter] at e
    refine .trans (.of_eq ?_) e
    congr 1 <;> refine List.filter_congr fun n _ => ?_
    · by_cases hn : n.name = k <;> simp [hn]
    · by_cases hn : n.name = k
      · simp [hn, h1]
      · simp [hn]

/-- **C43**: the map read from a list of nodes has the distinct node names as keys, in order of
first appearance; each key carries exactly the nodes of that name, in document order; taken
together the values carry every node exactly once. -/
theorem C43_grouped (ns : List DNode) : ∃ l, (Src.doc ns).request .map = some (.map l) ∧
    l.map Prod.fst = firsts (ns.map DNode.name) ∧ (∀ p ∈ l, carried p.2 = ns.filter (·.name = p.1)) ∧
    (l.flatMap fun p => carried p.2).Perm ns := by
  have hc : ∀ k, carried (oneOrMany (ns.filter (·.name = k))) = ns.filter (·.name = k) :=
    fun k => carried_oneOrMany _
  refine ⟨_, rfl, ?_, ?_, ?_⟩
  · rw [grouped_eq, List.map_map]
    exact List.map_id _
  · intro p hp
    rw [grouped_eq] at hp
    obtain ⟨k, _, rfl⟩ := List.mem_map.mp hp
    exact hc k
  · rw [grouped_eq, List.flatMap_map]
    refine .trans (.of_eq ?_) ((groups_perm ns (firsts_nodup (ns.map DNode.name))).trans (.of_eq ?_))
    · congr 1
      funext k
      exact hc k
    · rw [List.filter_eq_self]
      intro n hn
      rw [decide_eq_true_eq, mem_firsts]
      exact List.mem_map.mpr ⟨n, hn, rfl⟩

/-- C43 for the children of a node without properties. -/
theorem C43_children (ty : Option Str) (name : Str) (es : List DEntry) (hes : ∀ e ∈ es, e.name = none)
    (ns : List DNode) :
    (Src.node (.mk ty name es (some ns))).request .map = (Src.doc ns).request .map := by
  have : (es.filter fun e => e.name.isSome) = [] := by
    rw [List.filter_eq_nil_iff]
    intro e he
    simp [hes e he]
  show some (Event.map (nodeMap _ none)) = some (Event.map (grouped ns))
  simp [nodeMap, DNode.props, DNode.entries, DNode.children, this]

theorem valuesOf_map (f : Str → Src) {ks : List Str} (h : ks.Nodup) (k : Str) :
    valuesOf k (ks.map fun k => (k, f k)) = if k ∈ ks then [f k] else [] := by
  induction ks with
  | nil => simp [valuesOf]
  | cons a ks ih =>
    obtain ⟨h1, h2⟩ := List.nodup_cons.mp h
    have ih := ih h2
    unfold valuesOf at ih ⊢
    rw [List.map_cons, List.filter_cons]
    by_cases hk : a = k
    · subst hk
      rw [if_pos (by simp), List.map_cons, ih, if_neg h1, if_pos List.mem_cons_self]
    · rw [if_neg (by simpa using hk), ih]
      simp [Ne.symm hk]

/-- C43, read off: a struct whose field `k` is a `Vec`, read from a document with at least two
nodes named `k`, gets one element per such node, in document order. -/
theorem C43_vec [FloatCast] (t : Ty) (k : Str) (ns : List DNode) (h : 2 ≤ (ns.filter (·.name = k)).length) :
    de (.struct [(k, .seq t)]) (.doc ns) =
      ((ns.filter (·.name = k)).mapM fun n => de t (.node n)).map fun vs => .struct [(k, .seq vs)] := by
  have hk : k ∈ firsts (ns.map DNode.name) := by
    rw [mem_firsts, List.mem_map]
    obtain ⟨n, hn⟩ := List.exists_mem_of_length_pos (Nat.lt_of_lt_of_le Nat.two_pos h)
    exact ⟨n, (List.mem_filter.mp hn).1, by simpa using (List.mem_filter.mp hn).2⟩
  have e : (Src.doc ns).request (.struct ([(k, Ty.seq t)].map Prod.fst)) = some (.map (grouped ns)) := rfl
  have ev : valuesOf k (grouped ns) = [.group (ns.filter (·.name = k))] := by
    rw [grouped_eq, valuesOf_map (fun k => oneOrMany (ns.filter (·.name = k))) (firsts_nodup _), if_pos hk]
    unfold oneOrMany
    split
    · next n e => rw [e] at h; simp at h
    · rfl
  simp only [de, e, deMap, ev, Src.request, nodeSrcs, List.mapM_map]
  have : (de t ∘ Src.node) = fun n => de t (.node n) := rfl
  rw [this]
  cases (List.mapM (m := Option) (fun n => de t (.node n)) (ns.filter (·.name = k))) <;> rfl

/-- A document `a 1`, `b`, `a 2`: two keys, the first with two nodes. -/
example : (Src.doc [.mk none ['a'] [⟨none, none, .bool true⟩] none, .mk none ['b'] [] none,
      .mk none ['a'] [⟨none, none, .null⟩] none]).request .map =
    some (.map [(['a'], .group [.mk none ['a'] [⟨none, none, .bool true⟩] none,
      .mk none ['a'] [⟨none, none, .null⟩] none]), (['b'], .node (.mk none ['b'] [] none))]) := rfl

/-! ### C46 -/

theorem DNode.scalar_inv {n : DNode} {e : DEntry} (h : n.scalar = some e) :
    ∃ ty name, n = .mk ty name [e] none ∧ e.name = none := by
  obtain ⟨ty, name, es, ch⟩ := n
  unfold DNode.scalar at h
  split at h
  · next e' h1 h2 h3 =>
    cases h
    have hall : ∀ x ∈ es, x.name.isNone = true := by
      intro x hx
      have := List.filter_eq_nil_iff.mp h2 x hx
      cases hn : x.name with
      | none => rfl
      | some y => simp [hn] at this
    have : es = [e] := by
      rw [← h1]
      exact (List.filter_eq_self.mpr hall).symm
    subst this
    cases h3
    refine ⟨ty, name, rfl, ?_⟩
    simpa using hall e List.mem_cons_self
  · cases h

theorem DNode.scalar_mk (ty : Option Str) (name : Str) (ety : Option Str) (v : Value) :
    DNode.scalar (.mk ty name [⟨ety, none, v⟩] none) = some ⟨ety, none, v⟩ := rfl

theorem event_int {v : Value} {i : Int} (h : v.event = .i64 i ∨ v.event = .u64 i) :
    ∃ n : I128, v = .integer n ∧ n.1 = i := by
  cases v with
  | integer n =>
    refine ⟨n, rfl, ?_⟩
    simp only [Value.event] at h
    split at h
    · rcases h with h | h
      · exact Event.i64.inj h
      · cases h
    · split at h
      · rcases h with h | h
        · cases h
        · exact Event.u64.inj h
      · rcases h with h | h <;> cases h
  | string s => rcases h with h | h <;> cases h
  | float x => rcases h with h | h <;> cases h
  | bool b => rcases h with h | h <;> cases h
  | null => rcases h with h | h <;> cases h

theorem DNode.any_int {n : DNode} {i : Int} (h : n.any = .i64 i ∨ n.any = .u64 i) :
    ∃ e, n.scalar = some e ∧ (e.value.event = .i64 i ∨ e.value.event = .u64 i) := by
  unfold DNode.any at h
  split at h
  · rcases h with h | h <;> cases h
  · split at h
    · next e he => exact ⟨e, he, h⟩
    · split at h <;> (rcases h with h | h <;> cases h)

theorem request_int {s : Src} {e : Event} {i : Int} (h : s.request .scalar = some e)
    (he : e = .i64 i ∨ e = .u64 i) : HoldsInt s i := by
  have hnode : ∀ {n : DNode} {x : DEntry}, n.scalar = some x →
      (x.value.event = .i64 i ∨ x.value.event = .u64 i) → HoldsInt (.node n) i := by
    intro n x hx hv
    obtain ⟨ty, name, rfl, hname⟩ := DNode.scalar_inv hx
    obtain ⟨k, hk, rfl⟩ := event_int hv
    obtain ⟨ety, nm, v⟩ := x
    cases hname
    cases hk
    exact .node ty name ety k
  cases s with
  | doc ns => cases h; rcases he with he | he <;> cases he
  | node n =>
    change n.request .scalar = some e at h
    unfold DNode.request at h
    cases hs : n.scalar with
    | some x =>
      simp only [hs] at h
      cases h
      exact hnode hs he
    | none =>
      simp only [hs] at h
      cases h
      obtain ⟨x, hx, hv⟩ := DNode.any_int he
      exact hnode hx hv
  | group ns => cases h; rcases he with he | he <;> cases he
  | value v =>
    cases h
    obtain ⟨k, rfl, rfl⟩ := event_int he
    exact .value k
  | ident s => cases h; rcases he with he | he <;> cases he
  | args es => cases h; rcases he with he | he <;> cases he
  | omitted => cases h; rcases he with he | he <;> cases he

theorem visitInt_inv {lo hi : Int} {e : Event} {x : SVal} (h : visitInt lo hi false e = some x) :
    ∃ i : SInt, x = .int i ∧ (e = .i64 i.1 ∨ e = .u64 i.1) ∧ lo ≤ i.1 ∧ i.1 ≤ hi := by
  unfold visitInt at h
  split at h
  · next i =>
    split at h
    · next hr =>
      split at h
      · next hs => cases h; exact ⟨⟨i, hs⟩, rfl, .inl rfl, hr⟩
      · cases h
    · cases h
  · next i =>
    split at h
    · next hr =>
      split at h
      · next hs => cases h; exact ⟨⟨i, hs⟩, rfl, .inr rfl, hr⟩
      · cases h
    · cases h
  · next i => simp at h
  · cases h

/-- **C46**: whatever an integer type of at most 64 bits is read from, the result is exactly the
integer that is there, and it is within the bounds of the type. -/
theorem C46_exact [FloatCast] {t : Ty} {lo hi : Int} (ht : IntTy t lo hi) {s : Src} {x : SVal}
    (h : de t s = some x) : ∃ i : SInt, x = .int i ∧ HoldsInt s i.1 ∧ lo ≤ i.1 ∧ i.1 ≤ hi := by
  have key : ∀ {lo hi : Int}, de (.int lo hi false) s = some x →
      ∃ i : SInt, x = .int i ∧ HoldsInt s i.1 ∧ lo ≤ i.1 ∧ i.1 ≤ hi := by
    intro lo hi h
    rw [de] at h
    obtain ⟨e, he, hv⟩ := Option.bind_eq_some_iff.mp h
    obtain ⟨i, rfl, h1, h2⟩ := visitInt_inv hv
    exact ⟨i, rfl, request_int he h1, h2⟩
  cases ht with
  | signed w hw => exact key h
  | unsigned w hw => exact key h

theorem IntTy.bounds {t : Ty} {lo hi : Int} (ht : IntTy t lo hi) : -(2 ^ 63) ≤ lo ∧ hi < 2 ^ 64 := by
  cases ht with
  | signed w hw =>
    simp only [List.mem_cons, List.not_mem_nil, or_false] at hw
    rcases hw with rfl | rfl | rfl | rfl <;> decide
  | unsigned w hw =>
    simp only [List.mem_cons, List.not_mem_nil, or_false] at hw
    rcases hw with rfl | rfl | rfl | rfl <;> decide

theorem event_of_int (i : I128) (h : -(2 ^ 63) ≤ i.1 ∧ i.1 < 2 ^ 64) :
    (Value.integer i).event = .i64 i.1 ∨ (Value.integer i).event = .u64 i.1 := by
  unfold Value.event
  dsimp only
  split
  · exact .inl rfl
  · split
    · exact .inr rfl
    · omega

/-- C46: an integer that is within the bounds of the type is read. -/
theorem C46_in_range [FloatCast] {t : Ty} {lo hi : Int} (ht : IntTy t lo hi) {s : Src} {i : Int}
    (hs : HoldsInt s i) (h1 : lo ≤ i) (h2 : i ≤ hi) :
    ∃ h : -(2 ^ 63) ≤ i ∧ i < 2 ^ 64, de t s = some (.int ⟨i, h⟩) := by
  have hb := IntTy.bounds ht
  have hr : -(2 ^ 63) ≤ i ∧ i < 2 ^ 64 := by omega
  refine ⟨hr, ?_⟩
  have key : ∀ e, (e = .i64 i ∨ e = .u64 i) → visitInt lo hi false e = some (.int ⟨i, hr⟩) := by
    rintro e (rfl | rfl) <;> simp only [visitInt, h1, h2, and_self, if_true, dif_pos hr, Bool.false_eq_true, if_false]
  have hreq : ∃ e, s.request .scalar = some e ∧ (e = .i64 i ∨ e = .u64 i) := by
    cases hs with
    | value k => exact ⟨_, rfl, event_of_int k hr⟩
    | node ty name ety k => exact ⟨_, rfl, event_of_int k hr⟩
  obtain ⟨e, he, hi'⟩ := hreq
  have : de (.int lo hi false) s = some (.int ⟨i, hr⟩) := by
    rw [de, he]
    exact key e hi'
  cases ht with
  | signed w hw => exact this
  | unsigned w hw => exact this

/-- C46: an integer outside the bounds of the type is an error, never another integer. -/
theorem C46_out_of_range [FloatCast] {t : Ty} {lo hi : Int} (ht : IntTy t lo hi) {s : Src} {i : Int}
    (hs : HoldsInt s i) (h : ¬ (lo ≤ i ∧ i ≤ hi)) : de t s = none := by
  cases hd : de t s with
  | none => rfl
  | some x =>
    obtain ⟨j, _, hj, hb⟩ := C46_exact ht hd
    have : i = j.1 := by
      cases hs with
      | value k =>
        generalize hjj : j.1 = m at hj
        cases hj; rfl
      | node ty name ety k =>
        generalize hjj : j.1 = m at hj
        cases hj; rfl
    exact absurd (this ▸ hb) h

/-- `a 300` does not fit `u8` and fits `i16`. -/
example [FloatCast] : de (.int 0 255 false) (.node (.mk none ['a'] [⟨none, none, .integer ⟨300, by decide⟩⟩] none)) = none ∧
    de (.int (-32768) 32767 false) (.node (.mk none ['a'] [⟨none, none, .integer ⟨300, by decide⟩⟩] none)) =
      some (.int ⟨300, by decide⟩) :=
  ⟨C46_out_of_range (.unsigned 8 (by decide)) (.node _ _ _ _) (by decide),
   (C46_in_range (.signed 16 (by decide)) (.node _ _ _ _) (by decide) (by decide)).2⟩

end Kdl
