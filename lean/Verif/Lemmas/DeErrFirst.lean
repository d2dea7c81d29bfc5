import Verif.Lemmas.DeErrParts
/-
The first value that does not suit its field is the one that the error points at.
-/

namespace Kdl
open Spec

/-! ### Nodes with different names -/

theorem lgroupOf_none {k : Str} {g : List (Str × List Node)} (h : k ∉ g.map Prod.fst) : lgroupOf k g = none := by
  induction g with
  | nil => rfl
  | cons p g ih =>
    obtain ⟨k', ns⟩ := p
    simp only [List.map_cons, List.mem_cons, not_or] at h
    rw [lgroupOf, if_neg h.1, ih h.2]

theorem lgroupPush_new {k : Str} {n : Node} {g : List (Str × List Node)} (h : k ∉ g.map Prod.fst) :
    lgroupPush k n g = g ++ [(k, [n])] := by
  induction g with
  | nil => rfl
  | cons p g ih =>
    obtain ⟨k', ns⟩ := p
    simp only [List.map_cons, List.mem_cons, not_or] at h
    rw [lgroupPush, if_neg h.1, ih h.2]
    rfl

theorem lgroupLoop_nodup {ns : List Node} {keys : List Str} {g : List (Str × List Node)}
    (h : (ns.map fun n => n.name.value).Nodup) (hg : ∀ n ∈ ns, n.name.value ∉ g.map Prod.fst) :
    lgroupLoop ns keys g = (keys ++ ns.map (fun n => n.name.value), g ++ ns.map fun n => (n.name.value, [n])) := by
  induction ns generalizing keys g with
  | nil => simp [lgroupLoop]
  | cons n ns ih =>
    rw [List.map_cons, List.nodup_cons] at h
    have hn := hg n List.mem_cons_self
    rw [lgroupLoop, lgroupOf_none hn, lgroupPush_new hn, ih h.2]
    · simp
    · intro m hm
      simp only [List.map_append, List.map_cons, List.map_nil, List.mem_append, List.mem_singleton, not_or]
      exact ⟨hg m (List.mem_cons_of_mem _ hm), fun e => h.1 (e ▸ List.mem_map_of_mem (f := fun n : Node => n.name.value) hm)⟩

theorem lgroupOf_single {ns : List Node} (h : (ns.map fun n => n.name.value).Nodup) {n : Node} (hn : n ∈ ns) :
    lgroupOf n.name.value (ns.map fun n => (n.name.value, [n])) = some [n] := by
  induction ns with
  | nil => cases hn
  | cons m ns ih =>
    rw [List.map_cons, List.nodup_cons] at h
    rw [List.map_cons, lgroupOf]
    rcases List.mem_cons.1 hn with rfl | hn
    · rw [if_pos rfl]
    · rw [if_neg, ih h.2 hn]
      exact fun e => h.1 (e ▸ List.mem_map_of_mem (f := fun n : Node => n.name.value) hn)

theorem lgrouped_nodup {ns : List Node} (h : (ns.map fun n => n.name.value).Nodup) :
    lgrouped ns = ns.map fun n => (n.name.value, .node n) := by
  unfold lgrouped
  rw [lgroupLoop_nodup h (by simp)]
  simp only [List.nil_append, List.map_map]
  refine List.map_congr_left fun n hn => ?_
  simp only [Function.comp, lgroupSrc, lgroupOf_single h hn]

/-! ### Values that do not suit -/

section
variable [FloatCast]

theorem refused {t : Ty} (ht : ScalarTy t) {n : Node} {e : Entry} (hs : n.scalarEntry = some e) (hv : ¬Suits t e.value) :
    deE t (.node n) = .error ⟨some e.span, some "while deserializing this KDL value"⟩ := by
  have h1 : (LSrc.node n).call .bool = e.anyCall := by
    change n.call .bool = _
    simp only [Node.call, hs]
  have h2 : (LSrc.node n).call .scalar = e.anyCall := by
    change n.call .scalar = _
    simp only [Node.call, hs]
  have key : ∀ (r : Req) (f : Event → Option SVal), (LSrc.node n).call r = e.anyCall → f e.value.event = none →
      (LSrc.node n).ask r (LEvent.visit f) = .error ⟨some e.span, some "while deserializing this KDL value"⟩ := by
    intro r f hc hf
    unfold LSrc.ask
    rw [hc]
    simp only [Entry.anyCall, LEvent.visit, hf, annotated, DeError.withSpan, valueLabel]
  cases t with
  | bool =>
    rw [deE]
    refine key _ _ h1 ?_
    revert hv
    cases e.value with
    | bool b => exact fun h => absurd trivial h
    | integer i => intro _; simp only [Value.event]; split <;> (try split) <;> rfl
    | _ => intro _; rfl
  | int lo hi wide =>
    rw [deE]
    refine key _ _ h2 ?_
    revert hv
    cases e.value with
    | integer i =>
      intro h
      simp only [Suits] at h
      simp only [Value.event]
      split
      · next h64 =>
        simp only [visitInt]
        rw [if_neg]
        rintro ⟨a, b⟩
        exact h ⟨a, b, Or.inr ⟨h64.1, by omega⟩⟩
      · split
        · next h64 =>
          simp only [visitInt]
          rw [if_neg]
          rintro ⟨a, b⟩
          exact h ⟨a, b, Or.inr ⟨by omega, h64.2⟩⟩
        · simp only [visitInt]
          rw [if_neg]
          rintro ⟨w, a, b⟩
          exact h ⟨a, b, Or.inl w⟩
    | _ => intro _; rfl
  | f64 =>
    rw [deE]
    refine key _ _ h2 ?_
    revert hv
    cases e.value with
    | float x => exact fun h => absurd trivial h
    | integer i =>
      intro h
      simp only [Suits] at h
      simp only [Value.event]
      rw [if_neg (by omega), if_neg (by omega)]
      rfl
    | _ => intro _; rfl
  | char =>
    rw [deE]
    refine key _ _ h2 ?_
    revert hv
    cases e.value with
    | string s =>
      intro h
      simp only [Suits] at h
      rcases s with _ | ⟨a, _ | ⟨b, s⟩⟩
      · rfl
      · exact absurd rfl h
      · rfl
    | integer i => intro _; simp only [Value.event]; split <;> (try split) <;> rfl
    | _ => intro _; rfl
  | str =>
    rw [deE]
    refine key _ _ h2 ?_
    revert hv
    cases e.value with
    | string s => exact fun h => absurd trivial h
    | integer i => intro _; simp only [Value.event]; split <;> (try split) <;> rfl
    | _ => intro _; rfl
  | _ => exact ht.elim

theorem accepted {t : Ty} (ht : ScalarTy t) {n : Node} {e : Entry} (hs : n.scalarEntry = some e) (hv : Suits t e.value) :
    ∃ v, deE t (.node n) = .ok v := by
  have h1 : (LSrc.node n).call .bool = e.anyCall := by
    change n.call .bool = _
    simp only [Node.call, hs]
  have h2 : (LSrc.node n).call .scalar = e.anyCall := by
    change n.call .scalar = _
    simp only [Node.call, hs]
  have key : ∀ (r : Req) (f : Event → Option SVal), (LSrc.node n).call r = e.anyCall → (∃ v, f e.value.event = some v) →
      ∃ v, (LSrc.node n).ask r (LEvent.visit f) = .ok v := by
    rintro r f hc ⟨v, hf⟩
    unfold LSrc.ask
    rw [hc]
    simp only [Entry.anyCall, LEvent.visit, hf, annotated]
    exact ⟨v, rfl⟩
  cases t with
  | bool =>
    rw [deE]
    refine key _ _ h1 ?_
    revert hv
    cases e.value with
    | bool b => exact fun _ => ⟨_, rfl⟩
    | _ => exact fun h => h.elim
  | int lo hi wide =>
    rw [deE]
    refine key _ _ h2 ?_
    revert hv
    cases e.value with
    | integer i =>
      intro h
      simp only [Suits] at h
      simp only [Value.event]
      split
      · next h64 =>
        simp only [visitInt]
        rw [if_pos ⟨h.1, h.2.1⟩, dif_pos ⟨h64.1, by omega⟩]
        exact ⟨_, rfl⟩
      · split
        · next h64 =>
          simp only [visitInt]
          rw [if_pos ⟨h.1, h.2.1⟩, dif_pos ⟨by omega, h64.2⟩]
          exact ⟨_, rfl⟩
        · simp only [visitInt]
          rw [if_pos ⟨h.2.2.resolve_right (by omega), h.1, h.2.1⟩]
          exact ⟨_, rfl⟩
    | _ => exact fun h => h.elim
  | f64 =>
    rw [deE]
    refine key _ _ h2 ?_
    revert hv
    cases e.value with
    | float x => exact fun _ => ⟨_, rfl⟩
    | integer i =>
      intro h
      simp only [Suits] at h
      simp only [Value.event]
      split
      · exact ⟨_, rfl⟩
      · rw [if_pos (by omega)]
        exact ⟨_, rfl⟩
    | _ => exact fun h => h.elim
  | char =>
    rw [deE]
    refine key _ _ h2 ?_
    revert hv
    cases e.value with
    | string s =>
      intro h
      simp only [Suits] at h
      rcases s with _ | ⟨a, _ | ⟨b, s⟩⟩
      · cases h
      · exact ⟨_, rfl⟩
      · simp at h
    | _ => exact fun h => h.elim
  | str =>
    rw [deE]
    refine key _ _ h2 ?_
    revert hv
    cases e.value with
    | string s => exact fun _ => ⟨_, rfl⟩
    | _ => exact fun h => h.elim
  | _ => exact ht.elim

omit [FloatCast] in
/-- The loop over the fields stops at the first one that fails. -/
theorem fieldLoop_first {field : Str → Option (LSrc → Except DeError SVal)} {err : DeError}
    {k : Str} {s : LSrc} {f : LSrc → Except DeError SVal} (hk : field k = some f) (hs : f s = .error err)
    (post : List (Str × LSrc)) :
    ∀ (pre : List (Str × LSrc)) (acc : List (Str × SVal)),
      (pre.map Prod.fst ++ [k]).Nodup → (∀ p ∈ pre ++ [(k, s)], lookupKey p.1 acc = none) →
      (∀ p ∈ pre, ∀ f, field p.1 = some f → ∃ v, f p.2 = .ok v) →
      fieldLoop field (pre ++ (k, s) :: post) acc = .error err
  | [], acc, _, ha, _ => by
    rw [List.nil_append, fieldLoop, hk]
    simp only [ha (k, s) (by simp), hs]
  | (k', s') :: pre, acc, hd, ha, hp => by
    rw [List.map_cons, List.cons_append, List.nodup_cons] at hd
    rw [List.cons_append, fieldLoop]
    have rest : ∀ acc', (∀ p ∈ pre ++ [(k, s)], lookupKey p.1 acc' = none) →
        fieldLoop field (pre ++ (k, s) :: post) acc' = .error err :=
      fun acc' h => fieldLoop_first hk hs post pre acc' hd.2 h fun p hm => hp p (List.mem_cons_of_mem _ hm)
    cases hf : field k' with
    | none => exact rest acc fun p hm => ha p (List.mem_cons_of_mem _ hm)
    | some g =>
      obtain ⟨v, hv⟩ := hp (k', s') List.mem_cons_self g hf
      simp only [ha (k', s') (by simp), hv]
      refine rest _ fun p hm => ?_
      rw [lookupKey_cons, if_neg]
      · exact ha p (List.mem_cons_of_mem _ hm)
      · intro e
        apply hd.1
        rw [← e]
        have := List.mem_map_of_mem (f := Prod.fst) hm
        simpa using this

theorem struct_first {fs : List (Str × Ty)} (hp : Proper (.struct fs)) {pre post : List Node} {n : Node} {err : DeError}
    {t : Ty} (hd : ((pre ++ n :: post).map fun n => n.name.value).Nodup) (hf : (n.name.value, t) ∈ fs)
    (hn : deE t (.node n) = .error err)
    (hpre : ∀ m ∈ pre, ∀ t', (m.name.value, t') ∈ fs → ∃ v, deE t' (.node m) = .ok v) :
    deE (.struct fs) (.doc (pre ++ n :: post)) = .error err := by
  rw [Proper] at hp
  rw [deE]
  unfold LSrc.ask
  simp only [LSrc.call, lgrouped_nodup hd, List.map_append, List.map_cons]
  rw [fieldLoop_first (deFieldE_mem hp.1 hf) hn]
  · rfl
  · rw [List.map_map]
    simp only [List.map_append, List.map_cons] at hd
    refine hd.sublist ?_
    refine List.Sublist.append (List.Sublist.refl _) ?_
    exact List.Sublist.cons_cons _ (List.nil_sublist _)
  · intro p _
    rfl
  · intro p hm f hf'
    obtain ⟨m, hm', rfl⟩ := List.mem_map.1 hm
    obtain ⟨t', ht', rfl⟩ := deFieldE_some hf'
    exact hpre m hm' t' ht'

end

end Kdl
