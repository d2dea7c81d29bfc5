import Verif.Spec.Serde
/-
The grouping loop of `kdl::de`.
-/

namespace Kdl

open Spec

theorem firsts_append (l : List Str) (a : Str) :
    firsts (l ++ [a]) = if a ∈ l then firsts l else firsts l ++ [a] := by
  induction l with
  | nil => simp [firsts]
  | cons b l ih =>
    simp only [List.cons_append, firsts, ih, List.mem_cons]
    by_cases hab : a = b
    · subst hab
      by_cases hl : a ∈ l <;> simp [hl, List.filter_append]
    · by_cases hl : a ∈ l <;> simp [hl, hab, List.filter_append]

theorem mem_firsts {l : List Str} {a : Str} : a ∈ firsts l ↔ a ∈ l := by
  induction l with
  | nil => simp [firsts]
  | cons b l ih =>
    simp only [firsts, List.mem_cons, List.mem_filter, ih, decide_eq_true_eq]
    by_cases hab : a = b <;> simp [hab]

theorem firsts_nodup (l : List Str) : (firsts l).Nodup := by
  induction l with
  | nil => simp [firsts]
  | cons b l ih =>
    rw [firsts, List.nodup_cons]
    exact ⟨by simp, ih.filter _⟩

theorem firsts_of_nodup {l : List Str} (h : l.Nodup) : firsts l = l := by
  induction l with
  | nil => rfl
  | cons b l ih =>
    obtain ⟨h1, h2⟩ := List.nodup_cons.mp h
    rw [firsts, ih h2, List.filter_eq_self.mpr]
    rintro a ha
    simp only [decide_eq_true_eq]
    rintro rfl
    exact h1 ha

theorem groupOf_push (k k' : Str) (n : DNode) (g : List (Str × List DNode)) :
    groupOf k' (groupPush k n g) =
      if k' = k then some ((groupOf k g).getD [] ++ [n]) else groupOf k' g := by
  induction g with
  | nil =>
    simp only [groupPush, groupOf]
    split <;> rfl
  | cons p g ih =>
    obtain ⟨a, ns⟩ := p
    simp only [groupPush]
    by_cases hka : k = a
    · subst hka
      simp only [if_true, groupOf]
      by_cases h : k' = k <;> simp [h]
    · simp only [if_neg hka, groupOf, ih]
      by_cases h : k' = a
      · subst h
        simp [Ne.symm hka]
      · simp [h]

/-- What the loop has computed after the nodes `done`. -/
theorem groupLoop_eq (done : List DNode) (ns : List DNode) (keys : List Str) (g : List (Str × List DNode))
    (hk : keys = firsts (done.map DNode.name))
    (hg : ∀ k, groupOf k g = if k ∈ done.map DNode.name then some (done.filter (·.name = k)) else none) :
    (groupLoop ns keys g).1 = firsts ((done ++ ns).map DNode.name) ∧
    ∀ k, groupOf k (groupLoop ns keys g).2 =
      if k ∈ (done ++ ns).map DNode.name then some ((done ++ ns).filter (·.name = k)) else none := by
  induction ns generalizing done keys g with
  | nil => rw [List.append_nil]; exact ⟨hk, hg⟩
  | cons n ns ih =>
    have e : done ++ n :: ns = (done ++ [n]) ++ ns := by simp
    rw [e, groupLoop]
    refine ih (done ++ [n]) _ _ ?_ ?_
    · rw [List.map_append, List.map_singleton, firsts_append, hg, ← hk]
      by_cases h : n.name ∈ done.map DNode.name
      · rw [if_pos h, if_pos h]; rfl
      · rw [if_neg h, if_neg h]; rfl
    · intro k
      rw [groupOf_push, hg, hg]
      by_cases hkn : k = n.name
      · subst hkn
        simp only [if_true, List.map_append, List.map_singleton, List.mem_append, List.mem_singleton, or_true,
          List.filter_append]
        have e2 : [n].filter (fun m => decide (m.name = n.name)) = [n] := by simp
        rw [e2]
        by_cases h : n.name ∈ done.map DNode.name
        · rw [if_pos h]; rfl
        · rw [if_neg h]
          have : done.filter (fun m => decide (m.name = n.name)) = [] := by
            rw [List.filter_eq_nil_iff]
            intro m hm
            simp only [decide_eq_true_eq]
            intro e
            exact h (List.mem_map.mpr ⟨m, hm, e⟩)
          rw [this]; rfl
      · simp only [if_neg hkn, List.map_append, List.map_singleton, List.mem_append, List.mem_singleton, hkn, or_false,
          List.filter_append]
        have e2 : [n].filter (fun m => decide (m.name = k)) = [] := by
          simp [Ne.symm hkn]
        rw [e2, List.append_nil, if_neg (by simp)]

/-- A group of one node is that node. -/
def oneOrMany : List DNode → Src
  | [n] => .node n
  | g => .group g

theorem carried_oneOrMany (g : List DNode) : carried (oneOrMany g) = g := by
  unfold oneOrMany
  split <;> rfl

/-- The keys and values yielded for a list of nodes. -/
theorem grouped_eq (ns : List DNode) :
    grouped ns = (firsts (ns.map DNode.name)).map fun k =>
      (k, oneOrMany (ns.filter (·.name = k))) := by
  have h := groupLoop_eq [] ns [] [] rfl (by simp [groupOf])
  simp only [List.nil_append] at h
  unfold grouped
  simp only [h.1]
  refine List.map_congr_left fun k hk => ?_
  rw [mem_firsts] at hk
  simp only [groupSrc, h.2, if_pos hk]
  split
  · next n e => rw [Option.some.inj e]; rfl
  · next m hne e =>
    cases Option.some.inj e
    unfold oneOrMany
    split
    · next n e' => exact absurd e' (hne n)
    · rfl
  · next e => cases e

theorem grouped_of_nodup {ns : List DNode} (h : (ns.map DNode.name).Nodup) :
    grouped ns = ns.map fun n => (n.name, .node n) := by
  rw [grouped_eq, firsts_of_nodup h, List.map_map]
  refine List.map_congr_left fun n hn => ?_
  have : ns.filter (fun m => decide (m.name = n.name)) = [n] := by
    induction ns with
    | nil => cases hn
    | cons m ns ih =>
      rw [List.map_cons, List.nodup_cons] at h
      rcases List.mem_cons.mp hn with rfl | hn'
      · rw [List.filter_cons_of_pos (by simp), List.filter_eq_nil_iff.mpr]
        intro a ha
        simp only [decide_eq_true_eq]
        intro e
        exact h.1 (List.mem_map.mpr ⟨a, ha, e⟩)
      · rw [List.filter_cons_of_neg]
        · exact ih h.2 hn'
        · simp only [decide_eq_true_eq]
          intro e
          exact h.1 (List.mem_map.mpr ⟨n, hn', e.symm⟩)
  show (n.name, _) = _
  rw [this]; rfl

section
variable [FloatCast]

theorem deVariant_mem {vs : List (Str × VTy)} (hd : (vs.map Prod.fst).Nodup) {e : EnumSrc} {vt : VTy} (h : (e.variant, vt) ∈ vs) :
    deVariant vs e = deBody e.variant vt e := by
  induction vs with
  | nil => cases h
  | cons v vs ih =>
    obtain ⟨k, vt'⟩ := v
    obtain ⟨h1, h2⟩ := List.nodup_cons.mp hd
    rw [deVariant]
    rcases List.mem_cons.mp h with h | h
    · cases h
      rw [if_pos rfl]
    · rw [if_neg]
      · exact ih h2 h
      · intro hk
        exact h1 (List.mem_map.mpr ⟨_, h, hk⟩)

theorem deVariant_none {vs : List (Str × VTy)} {e : EnumSrc} (h : e.variant ∉ vs.map Prod.fst) : deVariant vs e = none := by
  induction vs with
  | nil => rfl
  | cons v vs ih =>
    obtain ⟨k, vt'⟩ := v
    rw [deVariant]
    simp only [List.map_cons, List.mem_cons, not_or] at h
    rw [if_neg h.1]
    exact ih h.2

end

end Kdl
