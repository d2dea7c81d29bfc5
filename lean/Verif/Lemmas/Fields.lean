import Verif.Spec.Fields
import Verif.Lemmas.Group
import Verif.Lemmas.Parser.Print
/-
What a node hands over to the fields of a struct.
-/

namespace Kdl
open Spec

theorem decimal_fuel : ∀ (fuel n : Nat), n < fuel → ((natDigitsRev fuel n).reverse).map digitChar = numeral n
  | 0, _, h => by omega
  | fuel + 1, n, h => by
    unfold natDigitsRev numeral
    split
    · simp [digitChar]
    · rw [List.reverse_cons, List.map_append, decimal_fuel fuel (n / 10) (by omega)]
      simp [digitChar]

theorem showNat_decimal (n : Nat) : showNat n = numeral n := decimal_fuel (n + 1) n (by omega)

theorem decimal_head (n : Nat) : ∃ c ds, numeral n = c :: ds ∧ IsDigit 10 c ∧ (∀ x ∈ ds, IsDigit 10 x) := by
  obtain ⟨c, ds, h1, h2, h3, _⟩ := showNat_lit n
  exact ⟨c, ds, by rw [← showNat_decimal, h1], h2, h3⟩

theorem decimal_digit (n : Nat) : ∀ x ∈ numeral n, IsDigit 10 x := by
  obtain ⟨c, ds, h1, h2, h3⟩ := decimal_head n
  rw [h1]
  intro x hx
  rcases List.mem_cons.mp hx with rfl | hx
  · exact h2
  · exact h3 x hx

theorem decimal_inj {a b : Nat} (h : numeral a = numeral b) : a = b := by
  have ha := (showNat_fuel (a + 1) a (by omega)).2.2
  have hb := (showNat_fuel (b + 1) b (by omega)).2.2
  rw [decimal_fuel _ _ (by omega)] at ha hb
  rw [← ha, ← hb, h]

theorem decimal_ne {n : Nat} {c : Char} {s : Str} (hc : ¬ IsDigit 10 c) : numeral n ≠ c :: s := by
  intro h
  exact hc (decimal_digit n c (by rw [h]; simp))

theorem decimal_type_ne {a b : Nat} : numeral a ++ ['#', 't', 'y', 'p', 'e'] ≠ numeral b := by
  intro h
  have := decimal_digit b '#' (by rw [← h]; simp)
  exact absurd (isDigit_iff.1.mp this) (by decide)

theorem decimal_append_ne {n : Nat} {c : Char} {s t : Str} (hc : ¬ IsDigit 10 c) : numeral n ++ t ≠ c :: s := by
  obtain ⟨d, ds, h1, h2, _⟩ := decimal_head n
  rw [h1]
  intro h
  exact hc ((List.cons.inj h).1 ▸ h2)

/-- Fields of distinct kinds have distinct names. -/
theorem field_inj {f g : Field} (hf : f.Clear) (hg : g.Clear) (h : f.text = g.text) : f = g := by
  have hn : ¬ IsDigit 10 'n' := fun h => absurd (isDigit_iff.1.mp h) (by decide)
  have ht : ¬ IsDigit 10 't' := fun h => absurd (isDigit_iff.1.mp h) (by decide)
  have ha : ¬ IsDigit 10 'a' := fun h => absurd (isDigit_iff.1.mp h) (by decide)
  have hr : ¬ IsDigit 10 'r' := fun h => absurd (isDigit_iff.1.mp h) (by decide)
  have hat : ¬ IsDigit 10 '@' := fun h => absurd (isDigit_iff.1.mp h) (by decide)
  cases f <;> cases g <;> simp only [Field.text, Field.Clear] at h hf hg <;>
    first
    | rfl
    | (exact absurd h (hf _))
    | (exact absurd h.symm (hg _))
    | skip
  all_goals
    try simp only [List.cons.injEq, true_and, Char.reduceEq, false_and, and_false] at h
  all_goals
    first
    | exact absurd h (decimal_ne hn)
    | exact absurd h (decimal_ne ht)
    | exact absurd h (decimal_ne ha)
    | exact absurd h (decimal_ne hr)
    | exact absurd h (decimal_ne hat)
    | exact absurd h.symm (decimal_ne hn)
    | exact absurd h.symm (decimal_ne ht)
    | exact absurd h.symm (decimal_ne ha)
    | exact absurd h.symm (decimal_ne hr)
    | exact absurd h.symm (decimal_ne hat)
    | exact absurd h (decimal_append_ne hn)
    | exact absurd h (decimal_append_ne ht)
    | exact absurd h (decimal_append_ne ha)
    | exact absurd h (decimal_append_ne hr)
    | exact absurd h (decimal_append_ne hat)
    | exact absurd h.symm (decimal_append_ne hn)
    | exact absurd h.symm (decimal_append_ne ht)
    | exact absurd h.symm (decimal_append_ne ha)
    | exact absurd h.symm (decimal_append_ne hr)
    | exact absurd h.symm (decimal_append_ne hat)
    | exact absurd h decimal_type_ne
    | exact absurd h.symm decimal_type_ne
    | (rw [decimal_inj h])
    | (rw [decimal_inj (List.append_cancel_right h)])
    | (rw [List.append_cancel_right h])
    | exact absurd h (hf _)
    | exact absurd h.symm (hg _)
    | (rw [h])

/-! ### The fields a node hands over, by kind -/

/-- The sources for a field. -/
def srcs (f : Field) (l : List (Field × Src)) : List Src := (l.filter fun p => p.1 = f).map Prod.snd

theorem srcs_nil (f : Field) : srcs f [] = [] := rfl
theorem srcs_cons (f g : Field) (s : Src) (l : List (Field × Src)) :
    srcs f ((g, s) :: l) = if g = f then s :: srcs f l else srcs f l := by
  unfold srcs
  by_cases h : g = f <;> simp [h]
theorem srcs_append (f : Field) (l m : List (Field × Src)) : srcs f (l ++ m) = srcs f l ++ srcs f m := by
  simp [srcs]
theorem srcs_none {f : Field} {l : List (Field × Src)} (h : ∀ p ∈ l, p.1 ≠ f) : srcs f l = [] := by
  unfold srcs
  rw [List.map_eq_nil_iff, List.filter_eq_nil_iff]
  intro p hp
  simpa using h p hp

/-- With its name in Rust. -/
def named (p : Field × Src) : Str × Src := (p.1.text, p.2)

theorem valuesOf_named {f : Field} (hf : f.Clear) {l : List (Field × Src)} (h : ∀ p ∈ l, p.1.Clear) :
    valuesOf f.text (l.map named) = srcs f l := by
  induction l with
  | nil => rfl
  | cons p l ih =>
    obtain ⟨g, s⟩ := p
    have ih := ih fun q hq => h q (List.mem_cons_of_mem _ hq)
    rw [srcs_cons, ← ih]
    have hg : g.Clear := h (g, s) (by simp)
    by_cases e : g = f
    · subst e
      simp [valuesOf, named]
    · have : ¬ g.text = f.text := fun e' => e (field_inj hg hf e')
      simp [valuesOf, named, this, e]

/-- `#name` and `#type`. -/
def tagHead (n : DNode) (fs : List Field) : List (Field × Src) :=
  (if .name ∈ fs then [(.name, .ident n.name)] else []) ++
  (match n.ty with | some t => if .type ∈ fs then [(.type, .ident t)] else [] | none => [])

/-- Arguments. -/
def tagArgs (fs : List Field) : List DEntry → Nat → List (Field × Src)
  | [], _ => []
  | a :: as, i =>
    (match a.ty with | some t => [(.argType i, .ident t)] | none => []) ++
    (if .arg i ∈ fs then [(.arg i, .value a.value)] else []) ++ tagArgs fs as (i + 1)

/-- A property. -/
def tagProp (fs : List Field) (e : DEntry) : List (Field × Src) :=
  match e.name with
  | none => []
  | some p =>
    (if .prop p ∈ fs then [(.prop p, .value e.value)] else []) ++
    (match e.ty with | some t => if .propType p ∈ fs then [(.propType p, .ident t)] else [] | none => []) ++
    [(.plain p, .value e.value)]

/-- Children. -/
def tagKids (ns : List DNode) : List (Field × Src) :=
  (firsts (ns.map DNode.name)).map fun k => (.plain k, oneOrMany (ns.filter (·.name = k)))

/-- Fields without a source. -/
def tagOmitted (n : DNode) : List Field → List (Field × Src)
  | [] => []
  | .plain p :: fs => if p ∈ usedNames n then tagOmitted n fs else (.plain p, .omitted) :: tagOmitted n fs
  | _ :: fs => tagOmitted n fs

/-- Everything. -/
def tagged (n : DNode) (fs : List Field) : List (Field × Src) :=
  tagHead n fs ++ (tagArgs fs n.args 0 ++ ((if .args ∈ fs then [(.args, .args n.args)] else []) ++
    (if .rest ∈ fs then [(.rest, .args (restOf n fs))] else []))) ++
  n.props.flatMap (tagProp fs) ++ tagKids (n.children.getD []) ++ tagOmitted n fs

theorem mem_text {f : Field} {fs : List Field} (hf : f.Clear) (h : ∀ g ∈ fs, g.Clear) : f.text ∈ fs.map Field.text ↔ f ∈ fs := by
  constructor
  · intro hm
    obtain ⟨g, hg, e⟩ := List.mem_map.mp hm
    rw [← field_inj (h g hg) hf e]
    exact hg
  · exact fun hm => List.mem_map.mpr ⟨f, hm, rfl⟩

theorem if_tag {f : Field} {fs : List Field} {k : Str} (e : k = f.text) (hf : f.Clear) (h : ∀ g ∈ fs, g.Clear) (s : Src) :
    (if k ∈ fs.map Field.text then [(k, s)] else []) = (if f ∈ fs then [(f, s)] else []).map named := by
  subst e
  by_cases hm : f ∈ fs
  · rw [if_pos hm, if_pos ((mem_text hf h).mpr hm)]; rfl
  · rw [if_neg hm, if_neg fun h' => hm ((mem_text hf h).mp h')]; rfl

theorem nodeMapHead_tag {n : DNode} {fs : List Field} (h : ∀ g ∈ fs, g.Clear) :
    nodeMapHead n (fs.map Field.text) = (tagHead n fs).map named := by
  unfold nodeMapHead tagHead
  rw [List.map_append, if_tag (f := .name) (k := ['#', 'n', 'a', 'm', 'e']) rfl trivial h]
  congr 1
  cases n.ty with
  | none => rfl
  | some t => exact if_tag (f := .type) rfl trivial h _

theorem nodeMapArgs_tag {fs : List Field} (h : ∀ g ∈ fs, g.Clear) : ∀ (as : List DEntry) (i : Nat),
    (nodeMapArgs (fs.map Field.text) as i).1 = (tagArgs fs as i).map named ∧
    (nodeMapArgs (fs.map Field.text) as i).2 = ((as.zipIdx i).filter fun a => Field.arg a.2 ∉ fs).map Prod.fst
  | [], _ => ⟨rfl, rfl⟩
  | a :: as, i => by
    obtain ⟨ih1, ih2⟩ := nodeMapArgs_tag h as (i + 1)
    have h1 := mem_text (f := .arg i) trivial h
    have e : '#' :: showNat i = (Field.arg i).text := by rw [showNat_decimal]; rfl
    have et : (Field.arg i).text ++ ['#', 't', 'y', 'p', 'e'] = (Field.argType i).text := rfl
    obtain ⟨ty, name, v⟩ := a
    simp only [nodeMapArgs, tagArgs, List.zipIdx_cons, List.filter_cons, e, et]
    by_cases hm : Field.arg i ∈ fs
    · have hm' := h1.mpr hm
      rw [if_pos hm', if_pos hm, if_neg (by simpa using hm)]
      simp only [ih1, ih2, List.map_append, List.append_assoc, and_true]
      cases ty <;> rfl
    · have hm' : (Field.arg i).text ∉ fs.map Field.text := fun h => hm (h1.mp h)
      rw [if_neg hm', if_neg hm, if_pos (by simpa using hm)]
      simp only [ih1, ih2, List.map_append, List.append_nil, List.map_cons, and_true]
      cases ty <;> rfl

theorem args_eq (n : DNode) : n.args = argEntries n := by
  unfold DNode.args argEntries
  refine List.filter_congr fun e _ => ?_
  cases e.name <;> simp

theorem nodeMapAllArgs_tag {n : DNode} {fs : List Field} (h : ∀ g ∈ fs, g.Clear) :
    nodeMapAllArgs n (fs.map Field.text) = (tagArgs fs n.args 0 ++ ((if Field.args ∈ fs then [(Field.args, Src.args n.args)] else []) ++
    (if Field.rest ∈ fs then [(Field.rest, Src.args (restOf n fs))] else []))).map named := by
  obtain ⟨h1, h2⟩ := nodeMapArgs_tag h n.args 0
  unfold nodeMapAllArgs
  simp only [h1, h2]
  rw [if_tag (f := .args) (k := ['#', 'a', 'r', 'g', 's']) rfl trivial h, if_tag (f := .rest) (k := ['#', 'r', 'e', 's', 't']) rfl trivial h, List.map_append, List.map_append, List.append_assoc,
    restOf, ← args_eq]

theorem nodeMapProp_tag {fs : List Field} (h : ∀ g ∈ fs, g.Clear) {e : DEntry}
    (he : ∀ p, e.name = some p → (Field.prop p).Clear) :
    nodeMapProp (some (fs.map Field.text)) e = (tagProp fs e).map named := by
  obtain ⟨ty, name, v⟩ := e
  cases name with
  | none => rfl
  | some p =>
    simp only [nodeMapProp, tagProp, List.map_append]
    rw [if_tag (f := .prop p) (k := '#' :: '@' :: p) rfl (he p rfl) h]
    congr 2
    cases ty with
    | none => rfl
    | some t => exact if_tag (f := .propType p) rfl trivial h _

theorem tagKids_eq (ns : List DNode) : grouped ns = (tagKids ns).map named := by
  rw [grouped_eq, tagKids, List.map_map]
  rfl

theorem omitted_tag (n : DNode) : ∀ {fs : List Field}, (∀ g ∈ fs, g.Clear) →
    omittedFields n (fs.map Field.text) = (tagOmitted n fs).map named
  | [], _ => rfl
  | f :: fs, h => by
    have ih := omitted_tag n (fs := fs) fun g hg => h g (List.mem_cons_of_mem _ hg)
    have hf := h f (by simp)
    unfold omittedFields at ih ⊢
    rw [List.map_cons, List.filter_cons]
    cases f with
    | plain p =>
      have hp : (p.head? == some '#') = false := by
        cases p with
        | nil => rfl
        | cons c q =>
          have : c ≠ '#' := fun e => hf q (by rw [e])
          simpa using this
      by_cases hm : p ∈ usedNames n
      · simp only [Field.text, hp, Bool.not_false, Bool.true_and, tagOmitted, hm, if_true, List.contains_eq_mem, decide_true,
          Bool.not_true, Bool.false_eq_true, if_false]
        simpa using ih
      · simp only [Field.text, hp, Bool.not_false, Bool.true_and, tagOmitted, hm, if_false, List.contains_eq_mem, decide_false,
          if_true, List.map_cons]
        rw [show named (Field.plain p, Src.omitted) = (p, Src.omitted) from rfl]
        simpa using ih
    | _ => simpa [tagOmitted, Field.text] using ih

theorem nodeMap_tag {n : DNode} {fs : List Field} (h : ∀ g ∈ fs, g.Clear) (hn : ClearNode n) :
    nodeMap n (some (fs.map Field.text)) = (tagged n fs).map named := by
  have hp : n.props.flatMap (nodeMapProp (some (fs.map Field.text))) = (n.props.flatMap (tagProp fs)).map named := by
    rw [List.map_flatMap]
    simp only [List.flatMap]
    congr 1
    refine List.map_congr_left fun e he => ?_
    exact nodeMapProp_tag h fun p hp => (hn.prop e ((List.mem_filter.mp he).1) p hp).2
  unfold nodeMap tagged
  simp only [List.map_append]
  rw [nodeMapHead_tag h, nodeMapAllArgs_tag h, hp, omitted_tag n h]
  simp only [List.map_append]
  congr 2
  cases n.children with
  | none => rfl
  | some ns => exact tagKids_eq ns

/-! ### The sources of each field -/

theorem tagArgs_kind {fs : List Field} : ∀ (as : List DEntry) (k : Nat), ∀ p ∈ tagArgs fs as k,
    (∃ i, p.1 = .arg i) ∨ ∃ i, p.1 = .argType i
  | [], _, p, h => by cases h
  | a :: as, k, p, h => by
    simp only [tagArgs, List.mem_append] at h
    rcases h with (h | h) | h
    · cases ht : a.ty with
      | none => rw [ht] at h; cases h
      | some t => rw [ht] at h; exact Or.inr ⟨k, by rw [List.mem_singleton.mp h]⟩
    · split at h
      · exact Or.inl ⟨k, by rw [List.mem_singleton.mp h]⟩
      · cases h
    · exact tagArgs_kind as (k + 1) p h

theorem srcs_tagArgs_arg {fs : List Field} {i : Nat} (hi : .arg i ∈ fs) : ∀ (as : List DEntry) (k : Nat),
    srcs (.arg i) (tagArgs fs as k) = if k ≤ i then as[i - k]?.toList.map (fun a => .value a.value) else []
  | [], k => by simp [tagArgs, srcs_nil]
  | a :: as, k => by
    have ih := srcs_tagArgs_arg hi as (k + 1)
    have h1 : srcs (.arg i) (match a.ty with | some t => [(Field.argType k, Src.ident t)] | none => []) = [] := by
      cases a.ty <;> simp [srcs]
    simp only [tagArgs, srcs_append, h1, ih, List.nil_append]
    by_cases hk : k = i
    · subst hk
      rw [if_pos hi, srcs_cons, if_neg (by omega : ¬ k + 1 ≤ k)]
      simp [srcs_nil]
    · have h2 : srcs (.arg i) (if Field.arg k ∈ fs then [(Field.arg k, Src.value a.value)] else []) = [] := by
        split <;> simp [srcs, hk]
      rw [h2, List.nil_append]
      by_cases hk2 : k ≤ i
      · obtain ⟨j, rfl⟩ : ∃ j, i = k + 1 + j := ⟨i - k - 1, by omega⟩
        rw [if_pos (by omega), if_pos (by omega), show k + 1 + j - k = j + 1 by omega, show k + 1 + j - (k + 1) = j by omega]
        simp
      · rw [if_neg (by omega), if_neg (by omega)]

theorem srcs_tagArgs_argType {fs : List Field} {i : Nat} : ∀ (as : List DEntry) (k : Nat),
    srcs (.argType i) (tagArgs fs as k) = if k ≤ i then (as[i - k]?.bind fun a => a.ty).toList.map .ident else []
  | [], k => by simp [tagArgs, srcs_nil]
  | a :: as, k => by
    have ih := srcs_tagArgs_argType (i := i) (fs := fs) as (k + 1)
    have h1 : srcs (.argType i) (if Field.arg k ∈ fs then [(Field.arg k, Src.value a.value)] else []) = [] := by
      split <;> simp [srcs]
    simp only [tagArgs, srcs_append, h1, ih, List.append_nil]
    by_cases hk : k = i
    · subst hk
      rw [if_neg (by omega : ¬ k + 1 ≤ k)]
      cases ht : a.ty <;> simp [srcs, ht]
    · have h2 : srcs (.argType i) (match a.ty with | some t => [(Field.argType k, Src.ident t)] | none => []) = [] := by
        cases a.ty <;> simp [srcs, hk]
      rw [h2, List.nil_append]
      by_cases hk2 : k ≤ i
      · obtain ⟨j, rfl⟩ : ∃ j, i = k + 1 + j := ⟨i - k - 1, by omega⟩
        rw [if_pos (by omega), if_pos (by omega), show k + 1 + j - k = j + 1 by omega, show k + 1 + j - (k + 1) = j by omega]
        simp
      · rw [if_neg (by omega), if_neg (by omega)]

theorem tagProp_kind {fs : List Field} (es : List DEntry) : ∀ p ∈ es.flatMap (tagProp fs),
    (∃ k, p.1 = .prop k) ∨ (∃ k, p.1 = .propType k) ∨ ∃ k, p.1 = .plain k := by
  intro p h
  obtain ⟨e, _, h⟩ := List.mem_flatMap.mp h
  obtain ⟨ty, name, v⟩ := e
  cases name with
  | none => cases h
  | some k =>
    simp only [tagProp, List.mem_append, List.mem_singleton] at h
    rcases h with (h | h) | h
    · split at h
      · exact Or.inl ⟨k, by rw [List.mem_singleton.mp h]⟩
      · cases h
    · cases ty with
      | none => cases h
      | some t =>
        simp only at h
        split at h
        · exact Or.inr (Or.inl ⟨k, by rw [List.mem_singleton.mp h]⟩)
        · cases h
    · exact Or.inr (Or.inr ⟨k, by rw [h]⟩)

theorem srcs_prop {fs : List Field} {p : Str} (hp : .prop p ∈ fs) (es : List DEntry) :
    srcs (.prop p) (es.flatMap (tagProp fs)) = (es.filter fun e => e.name = some p).map fun e => .value e.value := by
  induction es with
  | nil => rfl
  | cons e es ih =>
    obtain ⟨ty, name, v⟩ := e
    rw [List.flatMap_cons, srcs_append, ih]
    cases name with
    | none => simp [tagProp, srcs]
    | some k =>
      have h1 : srcs (.prop p) (match ty with | some t => if Field.propType k ∈ fs then [(Field.propType k, Src.ident t)] else [] | none => []) = [] := by
        cases ty with
        | none => rfl
        | some t => simp only; split <;> simp [srcs]
      simp only [tagProp, srcs_append, h1, List.filter_cons]
      by_cases hk : k = p
      · subst hk
        simp [srcs, hp]
      · split <;> simp [srcs, hk]

theorem srcs_propType {fs : List Field} {p : Str} (hp : .propType p ∈ fs) (es : List DEntry) :
    srcs (.propType p) (es.flatMap (tagProp fs)) = (es.filter fun e => e.name = some p).filterMap fun e => e.ty.map .ident := by
  induction es with
  | nil => rfl
  | cons e es ih =>
    obtain ⟨ty, name, v⟩ := e
    rw [List.flatMap_cons, srcs_append, ih]
    cases name with
    | none => simp [tagProp, srcs]
    | some k =>
      have h1 : srcs (.propType p) (if Field.prop k ∈ fs then [(Field.prop k, Src.value v)] else []) = [] := by
        split <;> simp [srcs]
      simp only [tagProp, srcs_append, h1, List.filter_cons]
      by_cases hk : k = p
      · subst hk
        cases ty <;> simp [srcs, hp]
      · cases ty with
        | none => simp [srcs, hk]
        | some t => simp only; split <;> simp [srcs, hk]

theorem srcs_plainProp {fs : List Field} {p : Str} (es : List DEntry) :
    srcs (.plain p) (es.flatMap (tagProp fs)) = (es.filter fun e => e.name = some p).map fun e => .value e.value := by
  induction es with
  | nil => rfl
  | cons e es ih =>
    obtain ⟨ty, name, v⟩ := e
    rw [List.flatMap_cons, srcs_append, ih]
    cases name with
    | none => simp [tagProp, srcs]
    | some k =>
      have h1 : srcs (.plain p) (if Field.prop k ∈ fs then [(Field.prop k, Src.value v)] else []) = [] := by
        split <;> simp [srcs]
      have h2 : srcs (.plain p) (match ty with | some t => if Field.propType k ∈ fs then [(Field.propType k, Src.ident t)] else [] | none => []) = [] := by
        cases ty with
        | none => rfl
        | some t => simp only; split <;> simp [srcs]
      simp only [tagProp, srcs_append, h1, h2, List.filter_cons]
      by_cases hk : k = p <;> simp [srcs, hk]

theorem srcs_kids (ns : List DNode) (p : Str) :
    srcs (.plain p) (tagKids ns) = if p ∈ ns.map DNode.name then [oneOrMany (ns.filter (·.name = p))] else [] := by
  have key : ∀ {ks : List Str}, ks.Nodup → ∀ g : Str → Src,
      srcs (.plain p) (ks.map fun k => (Field.plain k, g k)) = if p ∈ ks then [g p] else [] := by
    intro ks h g
    induction ks with
    | nil => rfl
    | cons a ks ih =>
      obtain ⟨h1, h2⟩ := List.nodup_cons.mp h
      rw [List.map_cons, srcs_cons, ih h2]
      by_cases hk : a = p
      · subst hk
        simp [h1]
      · rw [if_neg (by simpa using hk)]
        simp [Ne.symm hk]
  unfold tagKids
  rw [key (firsts_nodup _)]
  simp only [mem_firsts]

theorem tagOmitted_kind (n : DNode) : ∀ (fs : List Field), ∀ p ∈ tagOmitted n fs, ∃ k, p.1 = .plain k
  | [], p, h => by cases h
  | f :: fs, p, h => by
    have ih := tagOmitted_kind n fs p
    cases f with
    | plain q =>
      rw [tagOmitted] at h
      split at h
      · exact ih h
      · rcases List.mem_cons.mp h with rfl | h
        · exact ⟨q, rfl⟩
        · exact ih h
    | _ => exact ih h

theorem srcs_omitted (n : DNode) (p : Str) : ∀ {fs : List Field}, fs.Nodup →
    srcs (.plain p) (tagOmitted n fs) = if .plain p ∈ fs ∧ p ∉ usedNames n then [.omitted] else []
  | [], _ => by simp [tagOmitted, srcs]
  | f :: fs, h => by
    obtain ⟨h1, h2⟩ := List.nodup_cons.mp h
    have ih := srcs_omitted n p h2
    cases f with
    | plain q =>
      rw [tagOmitted]
      by_cases hq : q = p
      · subst hq
        rw [if_neg (fun h => h1 h.1)] at ih
        by_cases hu : q ∈ usedNames n
        · rw [if_pos hu, ih]; simp [hu]
        · rw [if_neg hu, srcs_cons, ih]; simp [hu]
      · have e : (Field.plain p ∈ Field.plain q :: fs ∧ p ∉ usedNames n) ↔ (Field.plain p ∈ fs ∧ p ∉ usedNames n) := by
          simp [Ne.symm hq]
        simp only [e]
        split
        · exact ih
        · rw [srcs_cons, if_neg (by simpa using hq), ih]
    | _ => simpa [tagOmitted] using ih

theorem usedNames_iff (n : DNode) (p : Str) : p ∈ usedNames n ↔ propEntries n p ≠ [] ∨ childrenOf n p ≠ [] := by
  have h1 : p ∈ n.props.filterMap (·.name) ↔ propEntries n p ≠ [] := by
    rw [List.mem_filterMap]
    unfold propEntries DNode.props
    constructor
    · rintro ⟨e, he, hp⟩
      exact List.ne_nil_of_mem (List.mem_filter.mpr ⟨(List.mem_filter.mp he).1, by simpa using hp⟩)
    · intro h
      obtain ⟨e, he⟩ := List.exists_mem_of_ne_nil _ h
      obtain ⟨h2, h3⟩ := List.mem_filter.mp he
      have h3 : e.name = some p := by simpa using h3
      exact ⟨e, List.mem_filter.mpr ⟨h2, by simp [h3]⟩, h3⟩
  have h2 : ∀ ns : List DNode, p ∈ ns.map DNode.name ↔ (ns.filter fun c => c.name = p) ≠ [] := by
    intro ns
    rw [List.mem_map]
    constructor
    · rintro ⟨c, hc, rfl⟩
      exact List.ne_nil_of_mem (List.mem_filter.mpr ⟨hc, by simp⟩)
    · intro h
      obtain ⟨e, he⟩ := List.exists_mem_of_ne_nil _ h
      obtain ⟨h2, h3⟩ := List.mem_filter.mp he
      exact ⟨e, h2, by simpa using h3⟩
  unfold usedNames childrenOf
  rw [List.mem_append, h1]
  cases n.children with
  | none => simp
  | some ns => rw [h2]; rfl

theorem props_flatMap (n : DNode) (fs : List Field) : n.props.flatMap (tagProp fs) = n.entries.flatMap (tagProp fs) := by
  unfold DNode.props
  induction n.entries with
  | nil => rfl
  | cons e es ih =>
    rw [List.filter_cons, List.flatMap_cons, ← ih]
    split
    · rw [List.flatMap_cons]
    · next h =>
      have : e.name = none := by simpa using h
      simp [tagProp, this]

theorem tagged_clear {n : DNode} (hn : ClearNode n) {fs : List Field} (hc : ∀ g ∈ fs, g.Clear) : ∀ p ∈ tagged n fs, p.1.Clear := by
  intro p hp
  unfold tagged at hp
  rw [props_flatMap] at hp
  simp only [List.mem_append] at hp
  rcases hp with (((hp | hp | hp | hp) | hp) | hp) | hp
  · unfold tagHead at hp
    rcases List.mem_append.mp hp with hp | hp
    · split at hp
      · rw [List.mem_singleton.mp hp]; trivial
      · cases hp
    · cases ht : n.ty with
      | none => rw [ht] at hp; cases hp
      | some t =>
        rw [ht] at hp
        simp only at hp
        split at hp
        · rw [List.mem_singleton.mp hp]; trivial
        · cases hp
  · rcases tagArgs_kind _ _ p hp with ⟨i, h⟩ | ⟨i, h⟩ <;> rw [h] <;> trivial
  · split at hp
    · rw [List.mem_singleton.mp hp]; trivial
    · cases hp
  · split at hp
    · rw [List.mem_singleton.mp hp]; trivial
    · cases hp
  · obtain ⟨e, he, hp⟩ := List.mem_flatMap.mp hp
    have h1 := hn.prop e he
    obtain ⟨ty, name, v⟩ := e
    cases name with
    | none => cases hp
    | some k =>
      obtain ⟨h2, h3⟩ := h1 k rfl
      simp only [tagProp, List.mem_append, List.mem_singleton] at hp
      rcases hp with (hp | hp) | hp
      · split at hp
        · rw [List.mem_singleton.mp hp]; exact h3
        · cases hp
      · cases ty with
        | none => cases hp
        | some t =>
          simp only at hp
          split at hp
          · rw [List.mem_singleton.mp hp]; trivial
          · cases hp
      · rw [hp]; exact h2
  · obtain ⟨k, hk, rfl⟩ := List.mem_map.mp hp
    rw [mem_firsts] at hk
    obtain ⟨c, hc', rfl⟩ := List.mem_map.mp hk
    cases hch : n.children with
    | none => rw [hch] at hc'; cases hc'
    | some ns => rw [hch] at hc'; exact hn.child ns hch c hc'
  · have key : ∀ {fs : List Field}, (∀ g ∈ fs, g.Clear) → ∀ p ∈ tagOmitted n fs, p.1.Clear := by
      intro fs
      induction fs with
      | nil => intro _ p hp; cases hp
      | cons f fs ih =>
        intro hc p hp
        have ih := ih (fun g hg => hc g (List.mem_cons_of_mem _ hg)) p
        cases f with
        | plain q =>
          rw [tagOmitted] at hp
          split at hp
          · exact ih hp
          · rcases List.mem_cons.mp hp with rfl | hp
            · exact hc (.plain q) (by simp)
            · exact ih hp
        | _ => exact ih hp
    exact key hc p hp

section
variable [FloatCast]

theorem field_sources {n : DNode} {fs : List Field} (hd : fs.Nodup) {f : Field} (hf : f ∈ fs) (t : Ty) :
    fromOne t (srcs f (tagged n fs)) = fieldValue n fs t f := by
  have hA : ∀ {g : Field}, (∀ i, g ≠ .arg i) → (∀ i, g ≠ .argType i) → srcs g (tagArgs fs n.args 0) = [] := by
    intro g h1 h2
    refine srcs_none fun p hp e => ?_
    rcases tagArgs_kind _ _ p hp with ⟨i, h⟩ | ⟨i, h⟩
    · exact h1 i (by rw [← e, h])
    · exact h2 i (by rw [← e, h])
  have hP : ∀ {g : Field}, (∀ i, g ≠ .prop i) → (∀ i, g ≠ .propType i) → (∀ i, g ≠ .plain i) →
      srcs g (n.entries.flatMap (tagProp fs)) = [] := by
    intro g h1 h2 h3
    refine srcs_none fun p hp e => ?_
    rcases tagProp_kind _ p hp with ⟨i, h⟩ | ⟨i, h⟩ | ⟨i, h⟩
    · exact h1 i (by rw [← e, h])
    · exact h2 i (by rw [← e, h])
    · exact h3 i (by rw [← e, h])
  have hK : ∀ {g : Field}, (∀ i, g ≠ .plain i) → srcs g (tagKids (n.children.getD [])) = [] := by
    intro g h
    refine srcs_none fun p hp e => ?_
    obtain ⟨k, _, rfl⟩ := List.mem_map.mp hp
    exact h k e.symm
  have hO : ∀ {g : Field}, (∀ i, g ≠ .plain i) → srcs g (tagOmitted n fs) = [] := by
    intro g h
    refine srcs_none fun p hp e => ?_
    obtain ⟨k, hk⟩ := tagOmitted_kind n fs p hp
    exact h k (by rw [← e, hk])
  have hH : ∀ {g : Field}, g ≠ .name → g ≠ .type → srcs g (tagHead n fs) = [] := by
    intro g h1 h2
    unfold tagHead
    rw [srcs_append]
    have e1 : srcs g (if Field.name ∈ fs then [(Field.name, Src.ident n.name)] else []) = [] := by
      split <;> simp [srcs, Ne.symm h1]
    rw [e1]
    cases n.ty with
    | none => rfl
    | some t => simp only; split <;> simp [srcs, Ne.symm h2]
  have hargs : ∀ {g : Field}, g ≠ .args → srcs g (if Field.args ∈ fs then [(Field.args, Src.args n.args)] else []) = [] := by
    intro g h
    split <;> simp [srcs, Ne.symm h]
  have hrest : ∀ {g : Field}, g ≠ .rest → srcs g (if Field.rest ∈ fs then [(Field.rest, Src.args (restOf n fs))] else []) = [] := by
    intro g h
    split <;> simp [srcs, Ne.symm h]
  unfold tagged
  rw [props_flatMap]
  simp only [srcs_append]
  cases f with
  | name =>
    rw [hA (by simp) (by simp), hP (by simp) (by simp) (by simp), hK (by simp), hO (by simp), hargs (by simp), hrest (by simp)]
    have : srcs .name (tagHead n fs) = [.ident n.name] := by
      unfold tagHead
      rw [if_pos hf, srcs_append]
      cases n.ty with
      | none => rfl
      | some t => simp only; split <;> simp [srcs]
    rw [this]; rfl
  | type =>
    rw [hA (by simp) (by simp), hP (by simp) (by simp) (by simp), hK (by simp), hO (by simp), hargs (by simp), hrest (by simp)]
    have : srcs .type (tagHead n fs) = n.ty.toList.map .ident := by
      unfold tagHead
      rw [srcs_append]
      have e1 : srcs .type (if Field.name ∈ fs then [(Field.name, Src.ident n.name)] else []) = [] := by
        split <;> simp [srcs]
      rw [e1]
      cases n.ty with
      | none => rfl
      | some t => simp [hf, srcs]
    rw [this]; simp [fieldValue]
  | args =>
    rw [hH (by simp) (by simp), hA (by simp) (by simp), hP (by simp) (by simp) (by simp), hK (by simp), hO (by simp), hrest (by simp),
      if_pos hf, args_eq]
    rfl
  | rest =>
    rw [hH (by simp) (by simp), hA (by simp) (by simp), hP (by simp) (by simp) (by simp), hK (by simp), hO (by simp), hargs (by simp),
      if_pos hf]
    rfl
  | arg i =>
    rw [hH (by simp) (by simp), hP (by simp) (by simp) (by simp), hK (by simp), hO (by simp), hargs (by simp), hrest (by simp),
      srcs_tagArgs_arg hf, if_pos (Nat.zero_le _), args_eq]
    simp [fieldValue]
  | argType i =>
    rw [hH (by simp) (by simp), hP (by simp) (by simp) (by simp), hK (by simp), hO (by simp), hargs (by simp), hrest (by simp),
      srcs_tagArgs_argType, if_pos (Nat.zero_le _), args_eq]
    simp [fieldValue]
  | prop p =>
    rw [hH (by simp) (by simp), hA (by simp) (by simp), hK (by simp), hO (by simp), hargs (by simp), hrest (by simp), srcs_prop hf]
    simp [fieldValue, propEntries]
  | propType p =>
    rw [hH (by simp) (by simp), hA (by simp) (by simp), hK (by simp), hO (by simp), hargs (by simp), hrest (by simp), srcs_propType hf]
    simp [fieldValue, propEntries]
  | plain p =>
    rw [hH (by simp) (by simp), hA (by simp) (by simp), hargs (by simp), hrest (by simp), srcs_plainProp, srcs_kids, srcs_omitted n p hd]
    have h1 : p ∈ (n.children.getD []).map DNode.name ↔ childrenOf n p ≠ [] := by
      unfold childrenOf
      rw [List.mem_map]
      constructor
      · rintro ⟨c, hc, rfl⟩
        exact List.ne_nil_of_mem (List.mem_filter.mpr ⟨hc, by simp⟩)
      · intro h
        obtain ⟨e, he⟩ := List.exists_mem_of_ne_nil _ h
        obtain ⟨h2, h3⟩ := List.mem_filter.mp he
        exact ⟨e, h2, by simpa using h3⟩
    simp only [h1, usedNames_iff, hf, true_and]
    rw [show (n.entries.filter fun e => e.name = some p) = propEntries n p from rfl,
      show ((n.children.getD []).filter fun c => c.name = p) = childrenOf n p from rfl]
    simp only [fieldValue]
    generalize propEntries n p = ps
    generalize childrenOf n p = cs
    rcases ps with _ | ⟨a, _ | ⟨b, ps⟩⟩ <;> rcases cs with _ | ⟨c, _ | ⟨d, cs⟩⟩ <;> simp [fromOne, oneOrMany]

end

end Kdl
