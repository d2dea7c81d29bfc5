import Verif.Props.NodeParts
import Verif.Model.Convert
/-
C48: sorting the entries of a node.
-/

namespace Kdl
open Spec

/-- A comparison that orders its arguments: any two can be compared, in both directions alike, and
`not greater` is transitive. -/
structure Spec.Orders {α : Type} (cmp : α → α → Ordering) : Prop where
  swap : ∀ a b, cmp b a = (cmp a b).swap
  trans : ∀ a b c, cmp a b ≠ .gt → cmp b c ≠ .gt → cmp a c ≠ .gt

/-- `l'` is the list `l`, sorted stably: nothing is added or lost, no element is greater than a
later one, and elements that compare equal keep their order. -/
structure Spec.StablySorted {α : Type} (cmp : α → α → Ordering) (l l' : List α) : Prop where
  perm : l'.Perm l
  sorted : l'.Pairwise fun a b => cmp a b ≠ .gt
  stable : ∀ a, l'.filter (fun b => cmp a b == .eq) = l.filter fun b => cmp a b == .eq

section
variable {α : Type} {cmp : α → α → Ordering}

theorem Spec.Orders.refl (h : Orders cmp) (a : α) : cmp a a = .eq := by
  have := h.swap a a
  cases e : cmp a a <;> rw [e] at this <;> simp at this ⊢

theorem Spec.Orders.eq_of (h : Orders cmp) {a b : α} (h1 : cmp a b ≠ .gt) (h2 : cmp b a ≠ .gt) : cmp a b = .eq := by
  have := h.swap a b
  cases e : cmp a b <;> simp_all

theorem Spec.Orders.symm (h : Orders cmp) {a b : α} (h1 : cmp a b = .eq) : cmp b a = .eq := by
  rw [h.swap, h1]; rfl

theorem Spec.Orders.eq_trans (h : Orders cmp) {a b c : α} (h1 : cmp a b = .eq) (h2 : cmp b c = .eq) : cmp a c = .eq := by
  refine h.eq_of (h.trans a b c (by simp [h1]) (by simp [h2])) (h.trans c b a ?_ ?_)
  · simp [h.symm h2]
  · simp [h.symm h1]

/-- A stably sorted list is determined by the list it was made from. -/
theorem stablySorted_unique (h : Orders cmp) : ∀ {l l1 l2 : List α}, l1.Pairwise (fun a b => cmp a b ≠ .gt) →
    l2.Pairwise (fun a b => cmp a b ≠ .gt) → l1.Perm l2 →
    (∀ a, l1.filter (fun b => cmp a b == .eq) = l2.filter fun b => cmp a b == .eq) → l1 = l2 := by
  intro _ l1
  induction l1 with
  | nil => intro l2 _ _ hp _; exact (List.nil_perm.mp hp).symm
  | cons a l1 ih =>
    intro l2 h1 h2 hp hf
    cases l2 with
    | nil => exact absurd hp.length_eq (by simp)
    | cons b l2 =>
      obtain ⟨h1a, h1'⟩ := List.pairwise_cons.mp h1
      obtain ⟨h2b, h2'⟩ := List.pairwise_cons.mp h2
      have hab : cmp a b ≠ .gt := by
        rcases List.mem_cons.mp (hp.mem_iff.mpr (List.mem_cons_self ..)) with e | hb
        · rw [e]; simp [h.refl]
        · exact h1a b hb
      have hba : cmp b a ≠ .gt := by
        rcases List.mem_cons.mp (hp.mem_iff.mp (List.mem_cons_self ..)) with e | ha
        · rw [e]; simp [h.refl]
        · exact h2b a ha
      have he := h.eq_of hab hba
      have := hf a
      rw [List.filter_cons_of_pos (by simp [h.refl]), List.filter_cons_of_pos (by simp [he])] at this
      obtain ⟨rfl, _⟩ := List.cons.inj this
      refine congrArg _ (ih (l2 := l2) h1' h2' (List.Perm.cons_inv hp) fun c => ?_)
      have := hf c
      by_cases hc : (cmp c a == .eq) = true
      · simp only [List.filter_cons, hc, if_true] at this
        exact (List.cons.inj this).2
      · simp only [List.filter_cons, hc, if_false] at this
        exact this

theorem mergeSort_stable (h : Orders cmp) (l : List α) : StablySorted cmp l (l.mergeSort fun a b => cmp a b != .gt) := by
  have ht : ∀ a b c : α, (cmp a b != .gt) = true → (cmp b c != .gt) = true → (cmp a c != .gt) = true := by
    intro a b c h1 h2
    simp only [bne_iff_ne] at *
    exact h.trans a b c h1 h2
  have htot : ∀ a b : α, ((cmp a b != .gt) || (cmp b a != .gt)) = true := by
    intro a b
    have := h.swap a b
    cases e : cmp a b <;> simp_all
  have hp := List.mergeSort_perm l fun a b => cmp a b != .gt
  refine ⟨hp, ?_, fun a => ?_⟩
  · exact (List.pairwise_mergeSort ht htot l).imp fun h => by simpa using h
  · have hs : (l.filter fun b => cmp a b == .eq).Sublist (l.mergeSort fun a b => cmp a b != .gt) := by
      refine List.sublist_mergeSort ht htot ?_ List.filter_sublist
      refine List.Pairwise.imp_of_mem ?_ (List.pairwise_of_forall (R := fun _ _ => True) (fun _ _ => trivial))
      intro b c hb hc _
      have hb := (List.mem_filter.mp hb).2
      have hc := (List.mem_filter.mp hc).2
      have := h.eq_trans (h.symm (by simpa using hb)) (by simpa using hc : cmp a c = .eq)
      simp [this]
    have hs' := hs.filter fun b => cmp a b == .eq
    rw [List.filter_filter] at hs'
    simp only [Bool.and_self] at hs'
    exact (hs'.eq_of_length (hp.filter _).length_eq.symm).symm

end

/-- **C48**: `sort_by(cmp)`, for a comparison that is an ordering, sorts the entries stably and
changes nothing else; and there is only one such result, so any stable sort is described. -/
theorem C48_sort_by (n : Node) {cmp : Entry → Entry → Ordering} (h : Orders cmp) :
    StablySorted cmp n.entries (n.sortBy cmp).entries ∧ SameBut n (n.sortBy cmp) ∧
    ∀ l, StablySorted cmp n.entries l → l = (n.sortBy cmp).entries := by
  have h0 := mergeSort_stable h n.entries
  refine ⟨h0, ⟨rfl, rfl, rfl, rfl, rfl⟩, fun l hl => ?_⟩
  exact stablySorted_unique (l := l) h hl.sorted h0.sorted (hl.perm.trans h0.perm.symm) fun a => by
    rw [hl.stable a]; exact (h0.stable a).symm

/-- **C48**: sorting by a key sorts by comparing keys. -/
theorem C48_sort_by_key {κ : Type} [Ord κ] (n : Node) (f : Entry → κ) (h : Orders (compare : κ → κ → Ordering)) :
    StablySorted (fun a b => compare (f a) (f b)) n.entries (n.sortByKey f).entries ∧ SameBut n (n.sortByKey f) := by
  have h' : Orders fun a b : Entry => compare (f a) (f b) := ⟨fun a b => h.swap _ _, fun a b c => h.trans _ _ _⟩
  exact ⟨(C48_sort_by n h').1, (C48_sort_by n h').2.1⟩

/-- Sorting twice is sorting once, and a sorted node is left alone. -/
theorem C48_sort_idem (n : Node) {cmp : Entry → Entry → Ordering} (h : Orders cmp) : (n.sortBy cmp).sortBy cmp = n.sortBy cmp := by
  have h0 := (C48_sort_by n h).1
  have h1 := (C48_sort_by (n.sortBy cmp) h).2.2 (n.sortBy cmp).entries ⟨.refl _, h0.sorted, fun _ => rfl⟩
  show (n.sortBy cmp).setEntries _ = _
  have : ((n.sortBy cmp).entries.mergeSort fun a b => cmp a b != .gt) = (n.sortBy cmp).entries := h1.symm
  rw [this]
  rfl

/-- **C48**: sorting that keeps entries of one kind together never changes which argument has
which index, nor what the last property of a name is. -/
theorem C48_sort_lookup (n : Node) {cmp : Entry → Entry → Ordering} (h : Orders cmp)
    (ha : ∀ a b, IsArg a → IsArg b → cmp a b = .eq) (hk : ∀ k a b, IsProp k a → IsProp k b → cmp a b = .eq) (key : NodeKey) :
    (n.sortBy cmp).get key = n.get key := by
  have h0 := (C48_sort_by n h).1
  -- the entries of a class that compare equal among themselves keep their order
  have cls (p : Entry → Bool) (hp : ∀ a b, p a = true → p b = true → cmp a b = .eq) :
      (n.sortBy cmp).entries.filter p = n.entries.filter p := by
    cases hc : n.entries.filter p with
    | nil =>
      rw [List.filter_eq_nil_iff] at hc ⊢
      exact fun a ha => hc a (h0.perm.mem_iff.mp ha)
    | cons a l =>
      have hpa : p a = true := (List.mem_filter.mp (hc ▸ List.mem_cons_self .. : a ∈ n.entries.filter p)).2
      have := congrArg (List.filter p) (h0.stable a)
      rw [List.filter_filter, List.filter_filter] at this
      have e : (fun b => p b && (cmp a b == .eq)) = p := by
        funext b
        cases hb : p b with
        | false => rfl
        | true => simp [hp a b hpa hb]
      rw [e] at this
      rw [this, hc]
  cases key with
  | index i =>
    rw [Node.get_index, Node.get_index, lookupArg, lookupArg, args, args, cls _ fun a b h1 h2 => ha a b (by simpa using h1) (by simpa using h2)]
  | key k =>
    rw [Node.get_key, Node.get_key, lookupProp, lookupProp, propsOf, propsOf,
      cls _ fun a b h1 h2 => hk k.value a b (by simpa using h1) (by simpa using h2)]

theorem bySome_orders : Orders (fun a b : Entry => compare a.name.isSome b.name.isSome) := by
  refine ⟨fun a b => ?_, fun a b c => ?_⟩
  · generalize a.name.isSome = x, b.name.isSome = y; revert x y; decide
  · generalize a.name.isSome = x, b.name.isSome = y, c.name.isSome = z; revert x y z; decide

/-- Sorting the arguments of a node before its properties. -/
example : Orders (fun a b : Entry => compare a.name.isSome b.name.isSome) ∧
    (sampleNode.sortByKey fun e => e.name.isSome).entries =
      [.new .null, .new (.string ['z']), .newProp (.ofStr ['x']) (.bool true), .newProp (.ofStr ['x']) (.bool false),
        .newProp (.ofStr ['y']) (.string ['v'])] := by
  refine ⟨bySome_orders, ((C48_sort_by sampleNode bySome_orders).2.2 _ ⟨by decide, by decide, fun a => ?_⟩).symm⟩
  show List.filter (fun b : Entry => compare a.name.isSome b.name.isSome == .eq) _ =
    List.filter (fun b : Entry => compare a.name.isSome b.name.isSome == .eq) _
  cases a.name.isSome <;> decide

end Kdl
