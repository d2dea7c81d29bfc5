import Verif.Lemmas.Serde
import Verif.Props.Fields
/-
Reading the nodes and documents written for the values of C44.
-/

namespace Kdl

open Spec

/-! ### Fields without a node -/

/-- `false` or an absent option. -/
def dflt : SVal → Bool
  | .bool false | .none => true
  | _ => false

/-- An absent option. -/
def absent : SVal → Bool
  | .none => true
  | _ => false

theorem not_and_ite (a b : Bool) : (!a && b) = if a = true then false else b := by cases a <;> rfl

/-- A field of a struct that is read back. -/
def fieldKept (k : Str) (v : SVal) : Bool :=
  if argsField k then spreadKept v
  else if argField k || propField k then argKept v
  else if leftOut v then dflt v else nodeKept v

theorem fieldsKept_cons (k : Str) (v : SVal) (fs : List (Str × SVal)) :
    fieldsKept ((k, v) :: fs) = (fieldKept k v && fieldsKept fs) := by
  unfold fieldKept
  by_cases h1 : argsField k = true
  · cases v with
    | bool b => cases b <;> simp [fieldsKept, h1]
    | _ => simp only [fieldsKept, h1, if_true]
  · by_cases h2 : (argField k || propField k) = true
    · cases v with
      | bool b => cases b <;> simp [fieldsKept, h1, h2]
      | _ => simp only [fieldsKept, h1, h2, if_true, if_false, Bool.false_eq_true]
    · cases v with
      | bool b => cases b <;> simp [fieldsKept, h1, h2, leftOut, off, dflt]
      | none => simp [fieldsKept, h1, h2, leftOut, off, dflt]
      | _ => simp only [fieldsKept, h1, h2, dflt, not_and_ite, if_false, Bool.false_eq_true]

theorem docFieldsKept_cons (k : Str) (v : SVal) (fs : List (Str × SVal)) :
    docFieldsKept ((k, v) :: fs) = ((if leftOut v then absent v else nodeKept v) && docFieldsKept fs) := by
  cases v with
  | none => simp [docFieldsKept, leftOut, off, absent]
  | _ => simp only [docFieldsKept, absent, not_and_ite]

section
variable [FloatCast]

theorem missing_iff {t : Ty} {v : SVal} (h : HasTy t v) : t.missing = some v ↔ absent v = true := by
  cases h with
  | int hi => rw [intTy_eq hi]; simp [Ty.missing, absent]
  | _ => simp [Ty.missing, absent]

theorem de_omitted {t : Ty} {v : SVal} (h : HasTy t v) : de t .omitted = some v ↔ dflt v = true := by
  cases h with
  | bool b => rw [de]; cases b <;> simp [Src.request, visitBool, dflt]
  | int hi => rw [intTy_eq hi, de]; simp [Src.request, visitInt, dflt]
  | _ => rw [de]; simp [Src.request, visitF64, visitChar, visitStr, visitUnit, visitUnitStruct, dflt]

/-- The value is read back from the node written for it exactly if it is kept. -/
def NodeRead (t : Ty) (v : SVal) : Prop := ∀ k, de t (.node (encNode k v)) = some v ↔ nodeKept v = true

/-- The same for each field. -/
def FieldsRead : List (Str × Ty) → List (Str × SVal) → Prop
  | [], [] => True
  | (k, t) :: tfs, (k', v) :: fs => k = k' ∧ HasTy t v ∧ SerOk v ∧ NodeRead t v ∧ FieldsRead tfs fs
  | _, _ => False

theorem deMap_cons {k : Str} {t : Ty} {tfs : List (Str × Ty)} {l : List (Str × Src)} {v : SVal} {fs : List (Str × SVal)} :
    deMap ((k, t) :: tfs) l = some ((k, v) :: fs) ↔
      (match valuesOf k l with
       | [] => t.missing
       | [s] => de t s
       | _ => none) = some v ∧ deMap tfs l = some fs := by
  have : ∀ o : Option SVal, (o.bind fun v => (deMap tfs l).map ((k, v) :: ·)) = some ((k, v) :: fs) ↔
      o = some v ∧ deMap tfs l = some fs := by
    intro o
    cases o with
    | none => simp
    | some w => cases deMap tfs l <;> simp
  rw [deMap]
  exact this _

/-- The same for each field of a struct that is written as a node. -/
def StructRead : List (Str × Ty) → List (Str × SVal) → Prop
  | [], [] => True
  | (k, t) :: tfs, (k', v) :: fs => k = k' ∧ HasTy t v ∧ (kidField k = true → SerOk v ∧ NodeRead t v) ∧ StructRead tfs fs
  | _, _ => False

theorem deMap_doc : ∀ {tfs : List (Str × Ty)} {fs : List (Str × SVal)}, FieldsRead tfs fs →
    ∀ {l : List (Str × Src)},
    (∀ k v, (k, v) ∈ fs → valuesOf k l = if flagged (encArgs v) then [] else [.node (encNode k v)]) →
    (deMap tfs l = some fs ↔ docFieldsKept fs = true)
  | [], [], _, l, _ => by simp [deMap, docFieldsKept]
  | (k, t) :: tfs, (k', v) :: fs, h, l, hl => by
    obtain ⟨rfl, h1, h2, h3, h4⟩ := h
    have ih := deMap_doc h4 fun k v hm => hl k v (List.mem_cons_of_mem _ hm)
    rw [deMap_cons, hl k v List.mem_cons_self, ih, docFieldsKept_cons, Bool.and_eq_true, flagged_eq h1 h2]
    refine and_congr ?_ Iff.rfl
    by_cases hf : leftOut v = true
    · rw [if_pos hf, if_pos hf]; exact missing_iff h1
    · rw [if_neg hf, if_neg hf]; exact h3 k
  | [], _ :: _, h, _, _ => by exact h.elim
  | _ :: _, [], h, _, _ => by exact h.elim

/-! ### Structs -/

/-- Reading the arguments written for a field `#args` or `#rest`. -/
theorem de_args : ∀ {t : Ty} {v : SVal}, HasTy t v → (∀ w ∈ spread v, toKdlValue w ≠ none) →
    (de t (.args (plainArgs ((spread v).map argOf))) = some v ↔ spreadKept v = true)
  | _, _, .bool b, _ | _, _, .f64 _ _, _ | _, _, .char _, _ | _, _, .str _, _ | _, _, .unit, _ | _, _, .unitStruct _, _ => by
    rw [de]
    simp [Src.request, visitBool, visitF64, visitChar, visitStr, visitUnit, visitUnitStruct, spreadKept]
  | _, _, .int hi i h1 h2, _ => by
    rw [intTy_eq hi, de]
    simp [Src.request, visitInt, spreadKept]
  | _, _, .none _, _ => by
    rw [de]
    simp [Src.request, spread, plainArgs, spreadKept]
  | _, _, .some (v := v) h, ho => by
    rw [spread] at ho
    have ih := de_args h ho
    rw [de, spreadKept, spread]
    simp only [Src.request]
    cases hv : spread v with
    | nil => simp [plainArgs]
    | cons w l =>
      rw [← hv]
      have : (plainArgs ((spread v).map argOf)).isEmpty = false := by rw [hv]; rfl
      have h2 : (spread v).isEmpty = false := by rw [hv]; rfl
      simp only [this, h2, Bool.false_eq_true, if_false, Option.map_eq_some_iff, SVal.some.injEq, exists_eq_right, ih,
        Bool.not_false, Bool.true_and]
  | _, _, .newtype (v := v) h, ho => by
    rw [spread] at ho
    have ih := de_args h ho
    rw [de, spreadKept, spread]
    simp only [Src.request, Option.map_eq_some_iff, SVal.newtypeStruct.injEq, exists_eq_right, ih]
  | _, _, .seq h, ho => by
    simp only [spread] at ho ⊢
    rw [de, spreadKept, ← de_list h ho]
    simp only [Src.request, Option.map_eq_some_iff, SVal.seq.injEq, exists_eq_right]
    rw [argSrcs, plainArgs, List.map_map]
    rfl
  | _, _, .tuple h, ho => by
    simp only [spread] at ho ⊢
    rw [de, spreadKept, ← de_tuple h ho]
    simp only [Src.request, Option.map_eq_some_iff, SVal.tuple.injEq, exists_eq_right]
    rw [argSrcs, plainArgs, List.map_map]
    rfl
  | _, _, .tupleStruct h, ho => by
    simp only [spread] at ho ⊢
    rw [de, spreadKept, ← de_tuple h ho]
    simp only [Src.request, Option.map_eq_some_iff, SVal.tupleStruct.injEq, exists_eq_right]
    rw [argSrcs, plainArgs, List.map_map]
    rfl
  | _, _, .unitVariant _ _, _ => by rw [de]; simp [Src.request, spreadKept]
  | _, _, .map _ _, ho | _, _, .struct _ _ _ _, ho | _, _, .newtypeVariant _ _ _, ho | _, _, .tupleVariant _ _ _ _, ho
  | _, _, .structVariant _ _ _ _ _, ho => by simp [spread, toKdlValue] at ho

/-- A field with its type and its value. -/
abbrev FTV := Field × Ty × SVal
/-- Its name and type. -/
def FTV.decl (x : FTV) : Str × Ty := (x.1.text, x.2.1)
/-- Its name and value. -/
def FTV.val (x : FTV) : Str × SVal := (x.1.text, x.2.2)

theorem triples : ∀ {tfs : List (Str × Ty)} {fs : List (Str × SVal)} {fl : List Field}, StructRead tfs fs →
    fs.map Prod.fst = fl.map Field.text → ∃ l : List FTV, tfs = l.map FTV.decl ∧ fs = l.map FTV.val ∧ fl = l.map Prod.fst ∧
      ∀ x ∈ l, HasTy x.2.1 x.2.2 ∧ (kidField x.1.text = true → SerOk x.2.2 ∧ NodeRead x.2.1 x.2.2)
  | [], [], [], _, _ => ⟨[], rfl, rfl, rfl, by simp⟩
  | [], [], _ :: _, _, h => by cases h
  | (k, t) :: tfs, (k', v) :: fs, [], _, h => by cases h
  | (k, t) :: tfs, (k', v) :: fs, f :: fl, h, hn => by
    obtain ⟨rfl, h1, h2, h3⟩ := h
    rw [List.map_cons, List.map_cons, List.cons.injEq] at hn
    obtain ⟨l, rfl, rfl, rfl, hl⟩ := triples h3 hn.2
    have hk : k = f.text := hn.1
    subst hk
    refine ⟨(f, t, v) :: l, rfl, rfl, rfl, ?_⟩
    intro x hx
    rcases List.mem_cons.mp hx with rfl | hx
    · exact ⟨h1, h2⟩
    · exact hl x hx
  | [], _ :: _, _, h, _ => by exact h.elim
  | _ :: _, [], _, h, _ => by exact h.elim

omit [FloatCast] in
/-- The kinds of fields that a layout has. -/
theorem Spec.Layout.kind {fl : List Field} (h : Layout fl) {f : Field} (hf : f ∈ fl) :
    (∃ i, f = .arg i) ∨ f = .args ∨ f = .rest ∨ (∃ p, f = .prop p) ∨ ∃ p, f = .plain p := by
  cases hi : f.isArg with
  | false => cases f <;> simp [Field.isArg] at hi <;> simp
  | true =>
    have hm : f ∈ fl.filter Field.isArg := List.mem_filter.mpr ⟨hf, hi⟩
    rcases h.args with ⟨n, h | h⟩ | h
    · rw [h] at hm
      obtain ⟨i, _, rfl⟩ := List.mem_map.mp hm
      exact .inl ⟨i, rfl⟩
    · rw [h] at hm
      rcases List.mem_append.mp hm with hm | hm
      · obtain ⟨i, _, rfl⟩ := List.mem_map.mp hm
        exact .inl ⟨i, rfl⟩
      · rw [List.mem_singleton.mp hm]; simp
    · rw [h] at hm
      rw [List.mem_singleton.mp hm]; simp

omit [FloatCast] in
/-- Fields have different names. -/
theorem Spec.Layout.names {fl : List Field} (h : Layout fl) : (fl.map Field.text).Nodup := by
  have hc := h.clear
  have hd := h.nodup
  clear h
  induction fl with
  | nil => exact List.nodup_nil
  | cons f fl ih =>
    rw [List.nodup_cons] at hd
    rw [List.map_cons, List.nodup_cons]
    refine ⟨fun hm => ?_, ih (fun g hg => hc g (List.mem_cons_of_mem _ hg)) hd.2⟩
    obtain ⟨g, hg, e⟩ := List.mem_map.mp hm
    exact hd.1 (field_inj (hc g (List.mem_cons_of_mem _ hg)) (hc f List.mem_cons_self) e ▸ hg)

omit [FloatCast] in
theorem argsField_arg (i : Nat) : argsField (Field.arg i).text = false := by
  unfold argsField
  rw [decide_eq_false_iff_not]
  rintro (h | h)
  · exact Field.noConfusion (field_inj (f := .arg i) (g := .args) trivial trivial h)
  · exact Field.noConfusion (field_inj (f := .arg i) (g := .rest) trivial trivial h)

omit [FloatCast] in
theorem argField_arg (i : Nat) : argField (Field.arg i).text = true ∧ propField (Field.arg i).text = false := by
  have hat : ¬ IsDigit 10 '@' := fun h => absurd (isDigit_iff.1.mp h) (by decide)
  show argField ('#' :: numeral i) = true ∧ propField ('#' :: numeral i) = false
  generalize hk : '#' :: numeral i = k
  cases nameForm k with
  | prop p => injection hk with _ hk; exact absurd hk (decimal_ne hat)
  | arg t h h' => exact ⟨h, h'⟩
  | kid k h h' hf => exact absurd hk.symm (hf _)

omit [FloatCast] in
theorem field_plain {p : Str} (h : (Field.plain p).Clear) : argsField p = false ∧ argField p = false ∧ propField p = false := by
  cases nameForm p with
  | prop q => exact absurd rfl (h _)
  | arg t => exact absurd rfl (h _)
  | kid k h1 h2 hf =>
    refine ⟨?_, h1, h2⟩
    cases h3 : argsField p with
    | false => rfl
    | true => rw [(field_excl p).2 h3] at h1; cases h1

omit [FloatCast] in
theorem field_prop (p : Str) : argsField (Field.prop p).text = false ∧ argField (Field.prop p).text = false ∧
    propField (Field.prop p).text = true := by
  refine ⟨?_, rfl, rfl⟩
  cases h3 : argsField (Field.prop p).text with
  | false => rfl
  | true => exact absurd ((field_excl _).2 h3) (by simp [Field.text, argField])

omit [FloatCast] in
/-- The arguments of the node written for a struct, field by field. -/
theorem structArgs_fields {l : List FTV} (h : ∀ x ∈ l, (∃ i, x.1 = .arg i) ∨ x.1 = .args ∨ x.1 = .rest ∨ (∃ p, x.1 = .prop p) ∨ ∃ p, x.1 = .plain p)
    (hc : ∀ x ∈ l, x.1.Clear) :
    structArgs (l.map FTV.val) = (l.filter fun x => x.1.isArg).flatMap fun x =>
      if x.1 = .args ∨ x.1 = .rest then spread x.2.2 else [x.2.2] := by
  induction l with
  | nil => rfl
  | cons x l ih =>
    obtain ⟨f, t, v⟩ := x
    have ih := ih (fun x hx => h x (List.mem_cons_of_mem _ hx)) fun x hx => hc x (List.mem_cons_of_mem _ hx)
    rw [List.map_cons, FTV.val, structArgs, ih]
    have hf : f.Clear := hc _ List.mem_cons_self
    rcases h _ List.mem_cons_self with ⟨i, hi⟩ | hi | hi | ⟨p, hi⟩ | ⟨p, hi⟩ <;> (change f = _ at hi; subst hi)
    · rw [argsField_arg, (argField_arg i).1, List.filter_cons_of_pos rfl, List.flatMap_cons]
      simp
    · rw [List.filter_cons_of_pos rfl, List.flatMap_cons]
      simp [argsField]
    · rw [List.filter_cons_of_pos rfl, List.flatMap_cons]
      simp [argsField]
    · rw [List.filter_cons_of_neg (by simp [Field.isArg]), (field_prop p).1, (field_prop p).2.1]
      simp
    · have := field_plain hf
      rw [List.filter_cons_of_neg (by simp [Field.isArg])]
      simp only [Field.text, this.1, this.2.1]
      simp

omit [FloatCast] in
theorem structEntries_named {l : List FTV} (h : ∀ x ∈ l, (∃ i, x.1 = .arg i) ∨ x.1 = .args ∨ x.1 = .rest ∨ (∃ p, x.1 = .prop p) ∨ ∃ p, x.1 = .plain p)
    (hc : ∀ x ∈ l, x.1.Clear) (p : Str) :
    ((structEntries (l.map FTV.val)).filter fun e => e.name = some p) =
      (l.filter fun x => x.1 = .prop p).map fun x => ⟨none, some p, argOf x.2.2⟩ := by
  have key : ∀ l : List Value, ((plainArgs l).filter fun e => decide (e.name = some p)) = [] := by
    intro l
    rw [List.filter_eq_nil_iff]
    intro e he
    obtain ⟨x, _, rfl⟩ := List.mem_map.mp he
    simp
  induction l with
  | nil => rfl
  | cons x l ih =>
    obtain ⟨f, t, v⟩ := x
    have ih := ih (fun x hx => h x (List.mem_cons_of_mem _ hx)) fun x hx => hc x (List.mem_cons_of_mem _ hx)
    rw [List.map_cons, FTV.val, structEntries, List.filter_append, ih]
    have hf : f.Clear := hc _ List.mem_cons_self
    rcases h _ List.mem_cons_self with ⟨i, hi⟩ | hi | hi | ⟨q, hi⟩ | ⟨q, hi⟩ <;> (change f = _ at hi; subst hi)
    · rw [argsField_arg, (argField_arg i).1, List.filter_cons_of_neg (by simp)]
      simp [key]
    · rw [List.filter_cons_of_neg (by simp)]
      simp [argsField, key]
    · rw [List.filter_cons_of_neg (by simp)]
      simp [argsField, key]
    · rw [(field_prop q).1, (field_prop q).2.1, (field_prop q).2.2]
      by_cases e : q = p
      · subst e
        rw [List.filter_cons_of_pos (by simp)]
        simp [Field.text]
      · rw [List.filter_cons_of_neg (by simpa using e)]
        simp [Field.text, e]
    · have := field_plain hf
      rw [List.filter_cons_of_neg (by simp)]
      simp only [Field.text, this.1, this.2.1, this.2.2]
      simp

omit [FloatCast] in
theorem encStruct_named {l : List FTV} (h : ∀ x ∈ l, (∃ i, x.1 = .arg i) ∨ x.1 = .args ∨ x.1 = .rest ∨ (∃ p, x.1 = .prop p) ∨ ∃ p, x.1 = .plain p)
    (hc : ∀ x ∈ l, x.1.Clear) (p : Str) :
    ((encStruct (l.map FTV.val)).filter fun c => c.name = p) =
      ((l.filter fun x => x.1 = .plain p).filter fun x => !flagged (encArgs x.2.2)).map fun x => encNode p x.2.2 := by
  induction l with
  | nil => simp [encStruct]
  | cons x l ih =>
    obtain ⟨f, t, v⟩ := x
    have ih := ih (fun x hx => h x (List.mem_cons_of_mem _ hx)) fun x hx => hc x (List.mem_cons_of_mem _ hx)
    rw [List.map_cons, FTV.val, encStruct]
    have hf : f.Clear := hc _ List.mem_cons_self
    rcases h _ List.mem_cons_self with ⟨i, hi⟩ | hi | hi | ⟨q, hi⟩ | ⟨q, hi⟩ <;> (change f = _ at hi; subst hi)
    · rw [List.filter_cons_of_neg (by simp), ← ih]
      simp [kidField, argField_arg]
    · rw [List.filter_cons_of_neg (by simp), ← ih]
      simp [kidField, Field.text, argField]
    · rw [List.filter_cons_of_neg (by simp), ← ih]
      simp [kidField, Field.text, argField]
    · rw [List.filter_cons_of_neg (by simp), ← ih]
      simp [kidField, field_prop]
    · have := field_plain hf
      have hk : kidField q = true := by simp [kidField, this]
      simp only [Field.text, hk, Bool.not_true, Bool.false_or]
      by_cases e : q = p
      · subst e
        rw [List.filter_cons_of_pos (by simp)]
        by_cases hg : flagged (encArgs v) = true
        · rw [if_pos hg, ih, List.filter_cons_of_neg (by simpa using hg)]
        · rw [if_neg hg, List.filter_cons_of_pos (by simp [DNode.name]), ih, List.filter_cons_of_pos (by simpa using hg)]
          rfl
      · rw [List.filter_cons_of_neg (by simpa using e), ← ih]
        split
        · rfl
        · rw [List.filter_cons_of_neg (by simp [DNode.name, e])]

omit [FloatCast] in
theorem filter_field {l : List FTV} (hn : (l.map Prod.fst).Nodup) {x : FTV} (hx : x ∈ l) : (l.filter fun y => y.1 = x.1) = [x] := by
  induction l with
  | nil => cases hx
  | cons y l ih =>
    rw [List.map_cons, List.nodup_cons] at hn
    rcases List.mem_cons.mp hx with rfl | hx'
    · rw [List.filter_cons_of_pos (by simp), List.filter_eq_nil_iff.mpr]
      intro z hz e
      exact hn.1 (List.mem_map.mpr ⟨z, hz, by simpa using e⟩)
    · rw [List.filter_cons_of_neg, ih hn.2 hx']
      intro e
      exact hn.1 (List.mem_map.mpr ⟨x, hx', by simpa using (of_decide_eq_true e).symm⟩)

omit [FloatCast] in
theorem drop_zipIdx {α : Type} (n : Nat) : ∀ (as : List α) (k : Nat),
    ((as.zipIdx k).filter fun a => decide (n ≤ a.2)).map Prod.fst = as.drop (n - k)
  | [], k => by simp
  | a :: as, k => by
    rw [List.zipIdx_cons]
    by_cases h : n ≤ k
    · rw [List.filter_cons_of_pos (by simpa using h), List.map_cons, drop_zipIdx n as (k + 1), show n - (k + 1) = 0 by omega,
        show n - k = 0 by omega]
      rfl
    · rw [List.filter_cons_of_neg (by simpa using h), drop_zipIdx n as (k + 1), show n - k = (n - (k + 1)) + 1 by omega]
      rfl

/-- The kinds of fields of a layout. -/
abbrev Kinds (l : List FTV) : Prop :=
  ∀ x ∈ l, (∃ i, x.1 = .arg i) ∨ x.1 = .args ∨ x.1 = .rest ∨ (∃ p, x.1 = .prop p) ∨ ∃ p, x.1 = .plain p

omit [FloatCast] in
/-- The fields written as arguments: those with an index, in order, then perhaps one that holds the
rest. -/
theorem layout_args {l : List FTV} (hl : Layout (l.map Prod.fst)) :
    ∃ (n : Nat) (a b : List FTV), (l.filter fun x => x.1.isArg) = a ++ b ∧ a.map Prod.fst = (List.range n).map Field.arg ∧
      (b = [] ∨ ∃ r, b = [r] ∧ (r.1 = .rest ∨ n = 0 ∧ r.1 = .args)) := by
  have hm : (l.filter fun x => x.1.isArg).map Prod.fst = (l.map Prod.fst).filter Field.isArg := by
    rw [List.filter_map]; rfl
  rcases hl.args with ⟨n, h | h⟩ | h
  · exact ⟨n, _, [], (List.append_nil _).symm, hm.trans h, .inl rfl⟩
  · obtain ⟨a, b, e, ha, hb⟩ := List.map_eq_append_iff.mp (hm.trans h)
    refine ⟨n, a, b, e, ha, .inr ?_⟩
    obtain ⟨r, rfl, hr⟩ := List.map_eq_singleton_iff.mp hb
    exact ⟨r, rfl, .inl hr⟩
  · refine ⟨0, [], _, rfl, rfl, .inr ?_⟩
    obtain ⟨r, e, hr⟩ := List.map_eq_singleton_iff.mp (hm.trans h)
    exact ⟨r, e, .inr ⟨rfl, hr⟩⟩

omit [FloatCast] in
theorem flatMap_single {l : List FTV} {n : Nat} (h : l.map Prod.fst = (List.range n).map Field.arg) :
    (l.flatMap fun x => if x.1 = .args ∨ x.1 = .rest then spread x.2.2 else [x.2.2]) = l.map fun x => x.2.2 := by
  rw [List.flatMap_def, List.map_congr_left (g := fun x => [x.2.2])]
  · clear h
    induction l with
    | nil => rfl
    | cons x l ih => rw [List.map_cons, List.flatten_cons, ih]; rfl
  · intro x hx
    have : x.1 ∈ l.map Prod.fst := List.mem_map_of_mem hx
    rw [h] at this
    obtain ⟨i, _, hi⟩ := List.mem_map.mp this
    rw [if_neg]
    rw [← hi]
    simp

omit [FloatCast] in
theorem mapM_fields {α : Type} (g : α → Option (Str × SVal)) (v : α → Str × SVal) : ∀ (l : List α),
    l.mapM g = some (l.map v) ↔ ∀ x ∈ l, g x = some (v x)
  | [] => by simp
  | x :: l => by
    rw [List.map_cons, mapM_cons_some, mapM_fields g v l]
    simp

theorem fieldsKept_all (l : List FTV) : fieldsKept (l.map FTV.val) = true ↔ ∀ x ∈ l, fieldKept x.1.text x.2.2 = true := by
  induction l with
  | nil => simp [fieldsKept]
  | cons x l ih =>
    rw [List.map_cons]
    show fieldsKept ((x.1.text, x.2.2) :: _) = true ↔ _
    rw [fieldsKept_cons, Bool.and_eq_true, ih]
    simp

omit [FloatCast] in
theorem structOk_mem {l : List FTV} (h : StructOk (l.map FTV.val)) {x : FTV} (hx : x ∈ l) :
    if argsField x.1.text then ∀ w ∈ spread x.2.2, toKdlValue w ≠ none
    else if argField x.1.text || propField x.1.text then toKdlValue x.2.2 ≠ none
    else SerOk x.2.2 := by
  induction l with
  | nil => cases hx
  | cons y l ih =>
    rw [List.map_cons] at h
    rcases List.mem_cons.mp hx with rfl | hx
    · exact h.1
    · exact ih h.2 hx

omit [FloatCast] in
theorem structKids (fs : List (Str × SVal)) : (encKids (.struct fs)).getD [] = encStruct fs := by
  rw [encKids]
  split
  · rfl
  · next h => exact (encStruct_nil (by simpa using h)).symm

omit [FloatCast] in
theorem argEntries_struct (k : Str) (fs : List (Str × SVal)) :
    argEntries (encNode k (.struct fs)) = plainArgs ((structArgs fs).map argOf) := by
  show (encEntries (.struct fs)).filter _ = _
  rw [encEntries, ← structEntries_args]
  congr 1
  funext e
  cases e.name <;> simp

/-- Reading a struct from the node written for it. -/
theorem struct_read {l : List FTV} (hl : Layout (l.map Prod.fst)) (ho : StructOk (l.map FTV.val))
    (hr : ∀ x ∈ l, HasTy x.2.1 x.2.2 ∧ (kidField x.1.text = true → SerOk x.2.2 ∧ NodeRead x.2.1 x.2.2)) (k : Str) :
    de (.struct (l.map FTV.decl)) (.node (encNode k (.struct (l.map FTV.val)))) = some (.struct (l.map FTV.val)) ↔
      fieldsKept (l.map FTV.val) = true := by
  have hk : Kinds l := fun x hx => hl.kind (List.mem_map_of_mem hx)
  have hc : ∀ x ∈ l, x.1.Clear := fun x hx => hl.clear _ (List.mem_map_of_mem hx)
  have hp : ∀ p, Field.prop p ∉ l.map Prod.fst → (l.filter fun x => x.1 = .prop p) = [] := by
    intro p h
    rw [List.filter_eq_nil_iff]
    intro x hx e
    exact h (List.mem_map.mpr ⟨x, hx, by simpa using e⟩)
  have hpe : ∀ p, propEntries (encNode k (.struct (l.map FTV.val))) p =
      (l.filter fun x => x.1 = .prop p).map fun x => ⟨none, some p, argOf x.2.2⟩ := by
    intro p
    show (encEntries (.struct (l.map FTV.val))).filter _ = _
    rw [encEntries]
    exact structEntries_named hk hc p
  have hch : ∀ p, childrenOf (encNode k (.struct (l.map FTV.val))) p =
      ((l.filter fun x => x.1 = .plain p).filter fun x => !flagged (encArgs x.2.2)).map fun x => encNode p x.2.2 := by
    intro p
    show ((encKids (.struct (l.map FTV.val))).getD []).filter _ = _
    rw [structKids]
    exact encStruct_named hk hc p
  have hn : ClearNode (encNode k (.struct (l.map FTV.val))) := by
    refine ⟨?_, ?_⟩
    · intro e he p hep
      have hm : e ∈ propEntries (encNode k (.struct (l.map FTV.val))) p := List.mem_filter.mpr ⟨he, by simpa using hep⟩
      rw [hpe] at hm
      obtain ⟨x, hx, _⟩ := List.mem_map.mp hm
      obtain ⟨hx, hxp⟩ := List.mem_filter.mp hx
      have hxp : x.1 = .prop p := by simpa using hxp
      have h1 := hc x hx
      have h2 := hl.props p (List.mem_map.mpr ⟨x, hx, hxp⟩)
      rw [hxp] at h1
      exact ⟨h2.1, h1⟩
    · intro ns hns c hcm q
      have hcm : c ∈ (DNode.children (encNode k (.struct (l.map FTV.val)))).getD [] := by rw [hns]; exact hcm
      have hm : c ∈ childrenOf (encNode k (.struct (l.map FTV.val))) c.name := List.mem_filter.mpr ⟨hcm, by simp⟩
      rw [hch] at hm
      obtain ⟨x, hx, _⟩ := List.mem_map.mp hm
      obtain ⟨hx, hxp⟩ := List.mem_filter.mp (List.mem_filter.mp hx).1
      have hxp : x.1 = .plain c.name := by simpa using hxp
      have h1 := hc x hx
      rw [hxp] at h1
      exact h1 q
  have main := C54_struct (fs := l.map fun x => (x.1, x.2.1)) (by rw [List.map_map]; exact hl.nodup)
    (by intro f hf; obtain ⟨x, hx, rfl⟩ := List.mem_map.mp hf; exact hc x hx) hn
  rw [List.map_map, List.map_map] at main
  have e1 : l.map FTV.decl = l.map ((fun f : Field × Ty => (f.1.text, f.2)) ∘ fun x : FTV => (x.1, x.2.1)) := rfl
  rw [e1, main, Option.map_eq_some_iff]
  simp only [SVal.struct.injEq, exists_eq_right]
  rw [List.mapM_map, mapM_fields _ FTV.val, fieldsKept_all]
  refine forall_congr' fun x => forall_congr' fun hx => ?_
  show Option.map (fun w => (x.1.text, w)) (fieldValue (encNode k (.struct (l.map FTV.val))) (l.map Prod.fst) x.2.1 x.1) =
    some x.val ↔ _
  simp only [FTV.val, Option.map_eq_some_iff, Prod.mk.injEq, true_and, exists_eq_right]
  obtain ⟨ht, hkid⟩ := hr x hx
  have hxo := structOk_mem ho hx
  obtain ⟨n, a, b, hab, ha, hb⟩ := layout_args hl
  have hargs := argEntries_struct k (l.map FTV.val)
  rw [structArgs_fields hk hc, hab, List.flatMap_append, flatMap_single ha, List.map_append] at hargs
  have hlen : a.length = n := by have := congrArg List.length ha; simpa using this
  obtain ⟨f, t, v⟩ := x
  have hcx : f.Clear := hc _ hx
  rcases hk _ hx with ⟨i, hi⟩ | hi | hi | ⟨p, hi⟩ | ⟨p, hi⟩ <;> (change f = _ at hi; subst hi)
  · have h1 := argsField_arg i
    have h2 := argField_arg i
    have hxv : toKdlValue v ≠ none := by simpa [h1, h2] using hxo
    have hm : (Field.arg i, t, v) ∈ a ++ b := hab ▸ List.mem_filter.mpr ⟨hx, rfl⟩
    have hma : (Field.arg i, t, v) ∈ a := by
      rcases List.mem_append.mp hm with hm | hm
      · exact hm
      · rcases hb with rfl | ⟨r, rfl, hr⟩
        · cases hm
        · rw [← List.mem_singleton.mp hm] at hr
          simp at hr
    obtain ⟨j, hj⟩ := List.getElem?_of_mem hma
    have hj' := congrArg (fun l => l[j]?) ha
    simp only [List.getElem?_map, hj, Option.map_some] at hj'
    have hji : j = i := by
      rcases hrj : (List.range n)[j]? with _ | m
      · rw [hrj] at hj'; cases hj'
      · rw [hrj] at hj'
        obtain ⟨hlt, hm⟩ := List.getElem?_eq_some_iff.mp hrj
        rw [List.getElem_range] at hm
        simp at hj'
        omega
    subst hji
    have : (argEntries (encNode k (.struct (l.map FTV.val))))[j]? = some ⟨none, none, argOf v⟩ := by
      rw [hargs, plainArgs, List.getElem?_map, List.getElem?_append_left, List.map_map, List.getElem?_map, hj]
      · rfl
      · rw [List.length_map, List.length_map]
        exact (List.getElem?_eq_some_iff.mp hj).1
    rw [fieldValue, this, fieldKept, h1, h2.1]
    exact de_value ht (argOf_some hxv)
  · have h1 : argsField Field.args.text = true := rfl
    have hxo : ∀ w ∈ spread v, toKdlValue w ≠ none := by simpa [h1] using hxo
    have hm : (Field.args, t, v) ∈ a ++ b := hab ▸ List.mem_filter.mpr ⟨hx, rfl⟩
    have hma : (Field.args, t, v) ∉ a := by
      intro hma
      have : Field.args ∈ a.map Prod.fst := List.mem_map.mpr ⟨_, hma, rfl⟩
      rw [ha] at this
      simp at this
    rcases hb with rfl | ⟨r, rfl, hr⟩
    · rw [List.append_nil] at hm; exact absurd hm hma
    · obtain rfl : (Field.args, t, v) = r := List.mem_singleton.mp ((List.mem_append.mp hm).resolve_left hma)
      have hn0 : n = 0 := by simpa using hr
      obtain rfl : a = [] := List.length_eq_zero_iff.mp (by omega)
      have : argEntries (encNode k (.struct (l.map FTV.val))) = plainArgs ((spread v).map argOf) := by
        rw [hargs]; simp
      rw [fieldValue, this, fieldKept, if_pos h1]
      exact de_args ht hxo
  · have h1 : argsField Field.rest.text = true := rfl
    have hxo : ∀ w ∈ spread v, toKdlValue w ≠ none := by simpa [h1] using hxo
    have hm : (Field.rest, t, v) ∈ a ++ b := hab ▸ List.mem_filter.mpr ⟨hx, rfl⟩
    have hma : (Field.rest, t, v) ∉ a := by
      intro hma
      have : Field.rest ∈ a.map Prod.fst := List.mem_map.mpr ⟨_, hma, rfl⟩
      rw [ha] at this
      simp at this
    rcases hb with rfl | ⟨r, rfl, hr⟩
    · rw [List.append_nil] at hm; exact absurd hm hma
    · obtain rfl : (Field.rest, t, v) = r := List.mem_singleton.mp ((List.mem_append.mp hm).resolve_left hma)
      have hfl : ∀ j, Field.arg j ∉ l.map Prod.fst ↔ n ≤ j := by
        intro j
        have : Field.arg j ∈ l.map Prod.fst ↔ Field.arg j ∈ (l.filter fun x => x.1.isArg).map Prod.fst := by
          constructor
          · intro h
            obtain ⟨y, hy, hyj⟩ := List.mem_map.mp h
            exact List.mem_map.mpr ⟨y, List.mem_filter.mpr ⟨hy, by rw [hyj]; rfl⟩, hyj⟩
          · intro h
            obtain ⟨y, hy, hyj⟩ := List.mem_map.mp h
            exact List.mem_map.mpr ⟨y, (List.mem_filter.mp hy).1, hyj⟩
        rw [this, hab, List.map_append, ha]
        simp
      have : restOf (encNode k (.struct (l.map FTV.val))) (l.map Prod.fst) = plainArgs ((spread v).map argOf) := by
        unfold restOf
        have e : (fun a : DEntry × Nat => decide (Field.arg a.2 ∉ l.map Prod.fst)) = fun a => decide (n ≤ a.2) := by
          funext a
          simp only [hfl]
        rw [e, drop_zipIdx, hargs, plainArgs, Nat.sub_zero, ← List.map_drop, List.map_map, List.drop_append_of_le_length (by simp [hlen]),
          List.drop_eq_nil_of_le (by simp [hlen])]
        simp [plainArgs]
      rw [fieldValue, this, fieldKept, if_pos h1]
      exact de_args ht hxo
  · obtain ⟨h1, h2, h3⟩ := field_prop p
    have hxo : toKdlValue v ≠ none := by simpa [h1, h2, h3] using hxo
    rw [fieldValue, hpe, filter_field hl.nodup hx, fieldKept, h1, h2, h3]
    exact de_value ht (argOf_some hxo)
  · obtain ⟨h1, h2, h3⟩ := field_plain hcx
    obtain ⟨hso, hread⟩ := hkid (by simp [kidField, Field.text, h2, h3])
    have hnp : propEntries (encNode k (.struct (l.map FTV.val))) p = [] := by
      rw [hpe, hp p, List.map_nil]
      intro h
      exact (hl.props p h).2 (List.mem_map.mpr ⟨_, hx, rfl⟩)
    have hkids := hch p
    rw [filter_field hl.nodup hx] at hkids
    simp only [fieldValue, hnp, hkids, fieldKept, Field.text, h1, h2, h3, Bool.or_self, Bool.false_eq_true, if_false,
      ← flagged_eq ht hso]
    by_cases hf : flagged (encArgs v) = true
    · rw [List.filter_cons_of_neg (by simpa using hf), if_pos hf]
      exact de_omitted ht
    · rw [List.filter_cons_of_pos (by simpa using hf), if_neg hf]
      exact hread p

/-! ### Maps -/

omit [FloatCast] in
theorem insertEntry_new {k : Str} {v : SVal} : ∀ {m : List (Str × SVal)}, k ∉ m.map Prod.fst →
    insertEntry k v m = m ++ [(k, v)]
  | [], _ => rfl
  | (k', v') :: m, h => by
    simp only [List.map_cons, List.mem_cons, not_or] at h
    rw [insertEntry, if_neg h.1, insertEntry_new h.2]
    rfl

omit [FloatCast] in
theorem insertAll_nodup {l : List (Str × SVal)} (h : (l.map Prod.fst).Nodup) : insertAll l = l := by
  have : ∀ (l m : List (Str × SVal)), ((m ++ l).map Prod.fst).Nodup →
      l.foldl (fun m p => insertEntry p.1 p.2 m) m = m ++ l := by
    intro l
    induction l with
    | nil => intro m _; simp
    | cons p l ih =>
      intro m hm
      have hk : p.1 ∉ m.map Prod.fst := by
        rw [List.map_append, List.map_cons, List.nodup_append] at hm
        intro hp
        exact hm.2.2 _ hp _ List.mem_cons_self rfl
      rw [List.foldl_cons, insertEntry_new hk, ih _ (by simpa using hm)]
      simp
  simpa [insertAll] using this l [] (by simpa using h)

omit [FloatCast] in
theorem encMap_names : ∀ {t : Ty} {kvs : List (SVal × SVal)}, MapTy t kvs → (kvs.map Prod.fst).Nodup →
    ((encMap kvs).map DNode.name).Nodup ∧ ∀ s ∈ (encMap kvs).map DNode.name, SVal.str s ∈ kvs.map Prod.fst
  | _, _, .nil _, _ => by simp [encMap]
  | _, _, .cons (v := v) (kvs := kvs) k h hs, hd => by
    obtain ⟨hd1, hd2⟩ := List.nodup_cons.mp hd
    obtain ⟨h1, h2⟩ := encMap_names hs hd2
    rw [encMap]
    split
    · exact ⟨h1, fun s hs => List.mem_cons_of_mem _ (h2 s hs)⟩
    · rw [List.map_cons]
      refine ⟨List.nodup_cons.mpr ⟨fun hk => hd1 (h2 _ hk), h1⟩, ?_⟩
      intro s hs
      rcases List.mem_cons.mp hs with rfl | hs
      · exact List.mem_cons_self
      · exact List.mem_cons_of_mem _ (h2 s hs)

/-- How an entry of a map is read. -/
def deEntry (t : Ty) (p : Str × Src) : Option (Str × SVal) := (de t p.2).map fun v => (p.1, v)

/-- Entries with keys of type `String`. -/
def strKeys (l : List (Str × SVal)) : List (SVal × SVal) := l.map fun p => (.str p.1, p.2)

theorem mapM_keys {t : Ty} : ∀ {l : List (Str × Src)} {m : List (Str × SVal)}, l.mapM (deEntry t) = some m →
    m.map Prod.fst = l.map Prod.fst
  | [], m, h => by cases h; rfl
  | p :: l, m, h => by
    rw [List.mapM_cons] at h
    cases hp : deEntry t p with
    | none => rw [hp] at h; cases h
    | some q =>
      rw [hp] at h
      cases hl : l.mapM (deEntry t) with
      | none => rw [hl] at h; cases h
      | some r =>
        rw [hl] at h
        cases h
        rw [List.map_cons, List.map_cons, mapM_keys hl]
        congr 1
        obtain ⟨v, _, rfl⟩ := Option.map_eq_some_iff.mp hp
        rfl

/-- The nodes written for the entries of a map, as they are handed over. -/
abbrev mapSrcs (ns : List DNode) : List (Str × Src) := ns.map fun n => (n.name, .node n)

theorem encMap_length (kvs : List (SVal × SVal)) : (encMap kvs).length ≤ kvs.length := by
  induction kvs with
  | nil => simp [encMap]
  | cons e kvs ih =>
    obtain ⟨k, v⟩ := e
    rw [encMap]
    split <;> simp <;> omega

theorem de_entries {t : Ty} : ∀ {kvs : List (SVal × SVal)}, MapTy t kvs → MapOk kvs → (∀ e ∈ kvs, NodeRead t e.2) →
    ((∃ m, (mapSrcs (encMap kvs)).mapM (deEntry t) = some m ∧ strKeys m = kvs) ↔ mapKept kvs = true)
  | _, .nil _, _, _ => by simp [encMap, mapKept, strKeys]
  | _, .cons (v := v) (kvs := kvs) k h hs, ho, hr => by
    obtain ⟨ho1, ho2⟩ := ho
    have ih := de_entries hs ho2 fun e he => hr e (List.mem_cons_of_mem _ he)
    have hv := hr _ List.mem_cons_self k
    rw [encMap, flagged_eq h ho1, mapKept]
    by_cases hf : leftOut v = true
    · rw [if_pos hf, hf]
      simp only [Bool.not_true, Bool.false_and, Bool.false_eq_true, iff_false, not_exists, not_and]
      intro m hm he
      have h1 := congrArg List.length (mapM_keys hm)
      have h2 := congrArg List.length he
      have h3 := encMap_length kvs
      simp only [List.length_map, List.length_cons, strKeys, mapSrcs] at h1 h2
      omega
    · rw [if_neg hf]
      have hf' : leftOut v = false := by simpa using hf
      rw [hf', Bool.not_false, Bool.true_and, Bool.and_eq_true, ← hv, ← ih]
      show (∃ m, (((k, Src.node (encNode k v)) :: mapSrcs (encMap kvs)).mapM (deEntry t)) = some m ∧ _) ↔ _
      constructor
      · rintro ⟨m, hm, he⟩
        cases m with
        | nil => cases he
        | cons p m =>
          obtain ⟨h1, h2⟩ := mapM_cons_some.mp hm
          obtain ⟨w, hw, rfl⟩ := Option.map_eq_some_iff.mp h1
          simp only [strKeys, List.map_cons, List.cons.injEq, Prod.mk.injEq] at he
          exact ⟨he.1.2 ▸ hw, m, h2, he.2⟩
      · rintro ⟨h1, m, h2, h3⟩
        refine ⟨(k, v) :: m, mapM_cons_some.mpr ⟨?_, h2⟩, ?_⟩
        · simp [deEntry, h1]
        · simp only [strKeys, List.map_cons]; rw [← h3]; rfl

/-- Reading a map from the nodes written for its entries. -/
theorem de_map_kids {t : Ty} {kvs : List (SVal × SVal)} (h : MapTy t kvs) (hd : (kvs.map Prod.fst).Nodup) (ho : MapOk kvs)
    (hr : ∀ e ∈ kvs, NodeRead t e.2) :
    (((grouped (encMap kvs)).mapM (deEntry t)).map fun m => mapOf (insertAll m)) = some (.map kvs) ↔ mapKept kvs = true := by
  rw [grouped_of_nodup (encMap_names h hd).1, ← de_entries h ho hr, Option.map_eq_some_iff]
  refine exists_congr fun m => and_congr_right fun hm => ?_
  have hk : (m.map Prod.fst).Nodup := by
    rw [mapM_keys hm, List.map_map]
    exact (encMap_names h hd).1
  rw [insertAll_nodup hk, mapOf, SVal.map.injEq]
  rfl

/-! ### Nodes -/

theorem nodeMap_kids (k : Str) (ch : Option (List DNode)) : nodeMap (.mk none k [] ch) none = grouped (ch.getD []) := by
  cases ch <;> simp [nodeMap, DNode.props, DNode.entries, DNode.children, grouped, groupLoop]

theorem seq_args (k : Str) (l : List Value) : DNode.seq (.mk none k (plainArgs l) none) = .seq (l.map fun x => .value x) := by
  simp only [DNode.seq, DNode.children, DNode.args, DNode.entries, ]
  rw [plainArgs_args]
  simp [argSrcs, plainArgs, Function.comp_def]

theorem seq_request (r : Req) (hr : r = .seq ∨ r = .tuple) (k : Str) (vs : List SVal) :
    (Src.node (.mk none k (plainArgs (vs.map argOf)) none)).request r = some (.seq (valueSrcs vs)) := by
  rcases hr with rfl | rfl
  · show some (DNode.seq _) = _
    rw [seq_args]
  · show some (DNode.seq _) = _
    rw [seq_args]

theorem scalar_node (k : Str) (x : Value) : DNode.scalar (.mk none k (plainArgs [x]) none) = some ⟨none, none, x⟩ := rfl

mutual
theorem de_node : ∀ {t : Ty} {v : SVal}, HasTy t v → SerOk v → NodeRead t v
  | _, _, .bool b, _, k | _, _, .f64 x _, _, k | _, _, .char c, _, k | _, _, .str s, _, k | _, _, .none t, _, k
  | _, _, .unit, _, k | _, _, .unitStruct _, _, k => by
    simp only [encNode, encEntries, encArgs, encKids, argOf, toKdlValue, Option.getD_some, nodeKept, iff_true]
    rw [de]; rfl
  | _, _, .int hi i h1 h2, _, k => by
    simp only [encNode, encEntries, encArgs, encKids, argOf, toKdlValue, Option.getD_some, nodeKept, iff_true]
    rw [intTy_eq hi, de]
    exact visitInt_sint i h1 h2
  | _, _, .some (v := v) h, ho, k => by
    rw [SerOk] at ho
    have ih := de_node h ho k
    have e : encNode k v.some = encNode k v := by simp only [encNode, encEntries, encKids]
    rw [de, e, option_request h ho, nodeKept]
    cases hb : blank v with
    | true => simp
    | false =>
      simp only [Bool.false_eq_true, if_false, Option.map_eq_some_iff, SVal.some.injEq, exists_eq_right, ih, Bool.not_false,
        Bool.true_and]
  | _, _, .newtype (v := v) h, ho, k => by
    rw [SerOk] at ho
    have ih := de_node h ho k
    have e : encNode k v.newtypeStruct = encNode k v := by simp only [encNode, encEntries, encKids]
    rw [de, e, nodeKept]
    show Option.map _ (de _ (.node (encNode k v))) = _ ↔ _
    simp only [Option.map_eq_some_iff, SVal.newtypeStruct.injEq, exists_eq_right, ih]
  | _, _, .seq (vs := vs) h, ho, k => by
    rw [SerOk] at ho
    rw [de, nodeKept, ← de_list h ho, encNode, encEntries, encArgs, encKids]
    · rw [seq_request .seq (by simp)]
      simp only [Option.map_eq_some_iff, SVal.seq.injEq, exists_eq_right]
    all_goals simp
  | _, _, .tuple (vs := vs) h, ho, k => by
    rw [SerOk] at ho
    rw [de, nodeKept, ← de_tuple h ho, encNode, encEntries, encArgs, encKids]
    · rw [seq_request .tuple (by simp)]
      simp only [Option.map_eq_some_iff, SVal.tuple.injEq, exists_eq_right]
    all_goals simp
  | _, _, .tupleStruct (vs := vs) h, ho, k => by
    rw [SerOk] at ho
    rw [de, nodeKept, ← de_tuple h ho, encNode, encEntries, encArgs, encKids]
    · rw [seq_request .tuple (by simp)]
      simp only [Option.map_eq_some_iff, SVal.tupleStruct.injEq, exists_eq_right]
    all_goals simp
  | _, _, .map (t := t) (kvs := kvs) h hd, ho, k => by
    rw [SerOk] at ho
    have hr := de_mapNodes h ho
    rw [nodeKept, ← de_map_kids h hd ho hr, de]
    show (match some (Event.map (nodeMap (encNode k (.map kvs)) none)) with
        | some (.map l) => (l.mapM (deEntry t)).map fun m => mapOf (insertAll m)
        | _ => none) = _ ↔ _
    have e : encNode k (.map kvs) = .mk none k [] (encKids (.map kvs)) := by simp [encNode, encEntries, encArgs, plainArgs]
    have e2 : (encKids (.map kvs)).getD [] = encMap kvs := by
      rw [encKids]; cases encMap kvs <;> rfl
    rw [e, nodeMap_kids, e2]
  | _, _, .struct (tfs := tfs) (fs := fs) h fl hn hl, ho, k => by
    rw [SerOk] at ho
    obtain ⟨l, rfl, rfl, rfl, hr⟩ := triples (de_structNodes h ho) hn
    rw [nodeKept]
    exact struct_read hl ho hr k
  | _, _, .unitVariant (k := v) hv hd, _, k => by
    simp only [encNode, encEntries, encArgs, encKids, argOf, toKdlValue, Option.getD_some, nodeKept, iff_true]
    rw [de]
    show deVariant _ (.str v) = _
    rw [deVariant_mem (e := .str v) hd hv, deBody]
    rfl
  | _, _, .newtypeVariant (vts := vts) (k := v) (t := t) (v := w) hv hd h, ho, k => by
    rw [SerOk] at ho
    obtain ⟨e1, e2⟩ := enc_scalar (argOf_some ho)
    have hw : SerOk w := serOk_scalar h ho
    have ih := de_node h hw v
    have e : encNode k (.newtypeVariant v w) = .mk none k [] (some [encNode v w]) := by
      simp only [encNode, entries_scalar (argOf_some ho), encKids, e2]; rfl
    rw [e, de, nodeKept, ← ih]
    show deVariant vts (.node (encNode v w)) = _ ↔ _
    rw [deVariant_mem (e := .node (encNode v w)) hd hv, deBody]
    show Option.map _ (de t (.node (encNode v w))) = _ ↔ _
    simp only [Option.map_eq_some_iff]
    constructor
    · rintro ⟨a, h1, h2⟩
      injection h2 with _ h2
      exact h2 ▸ h1
    · intro h1
      exact ⟨w, h1, rfl⟩
  | _, _, .tupleVariant (vts := vts) (k := v) (ts := ts) (vs := vs) hv hd h _, ho, k => by
    rw [SerOk] at ho
    have e : encNode k (.tupleVariant v vs) = .mk none k [] (some [.mk none v (plainArgs (vs.map argOf)) none]) := by
      simp only [encNode, encEntries, encArgs, encKids]; rfl
    rw [e, de, nodeKept, ← de_tuple h ho]
    show deVariant vts (.node (.mk none v (plainArgs (vs.map argOf)) none)) = _ ↔ _
    rw [deVariant_mem (e := .node (.mk none v (plainArgs (vs.map argOf)) none)) hd hv, deBody]
    have hreq : EnumSrc.tuple (.node (.mk none v (plainArgs (vs.map argOf)) none)) = some (.seq (valueSrcs vs)) := by
      show some (DNode.seq _) = _
      rw [seq_args]
    rw [hreq]
    simp only [Option.map_eq_some_iff, SVal.tupleVariant.injEq, EnumSrc.variant, DNode.name, true_and, exists_eq_right]
  | _, _, .structVariant (vts := vts) (k := v) (tfs := tfs) (fs := fs) hv hd h hf _, ho, k => by
    rw [SerOk] at ho
    have hr := de_fieldNodes h ho
    have e : encNode k (.structVariant v fs) = .mk none k [] (some [.mk none v [] (some (encFields fs))]) := by
      simp only [encNode, encEntries, encArgs, encKids]; rfl
    rw [e, de, nodeKept]
    show deVariant vts (.node (.mk none v [] (some (encFields fs)))) = _ ↔ _
    rw [deVariant_mem (e := .node (.mk none v [] (some (encFields fs)))) hd hv, deBody]
    show (match some (Event.map (nodeMap (.mk none v [] (some (encFields fs))) none)) with
      | some (.map l) => (deMap tfs l).map (SVal.structVariant v)
      | some (.seq l) => (deSeq tfs l).map (SVal.structVariant v)
      | _ => none) = some (SVal.structVariant v fs) ↔ _
    rw [nodeMap_kids]
    simp only [Option.map_eq_some_iff, SVal.structVariant.injEq, true_and, exists_eq_right, Option.getD_some]
    exact deMap_doc hr fun k v hm => valuesOf_enc hf hm
theorem de_fieldNodes : ∀ {tfs : List (Str × Ty)} {fs : List (Str × SVal)}, FieldsTy tfs fs → FieldsOk fs → FieldsRead tfs fs
  | _, _, .nil, _ => trivial
  | _, _, .cons h hs, ho => ⟨rfl, h, ho.1, de_node h ho.1, de_fieldNodes hs ho.2⟩
theorem de_structNodes : ∀ {tfs : List (Str × Ty)} {fs : List (Str × SVal)}, FieldsTy tfs fs → StructOk fs → StructRead tfs fs
  | _, _, .nil, _ => trivial
  | _, _, .cons (k := k) h hs, ho => by
    refine ⟨rfl, h, fun hk => ?_, de_structNodes hs ho.2⟩
    have ho1 := ho.1
    have h1 : (argField k || propField k) = false := by simpa [kidField] using hk
    have h2 : argsField k = false := by
      cases h2 : argsField k with
      | false => rfl
      | true => rw [(field_excl k).2 h2] at h1; cases h1
    rw [h2, h1] at ho1
    exact ⟨ho1, de_node h ho1⟩
theorem de_mapNodes : ∀ {t : Ty} {kvs : List (SVal × SVal)}, MapTy t kvs → MapOk kvs → ∀ e ∈ kvs, NodeRead t e.2
  | _, _, .nil _, _, e, he => by cases he
  | _, _, .cons (v := v) (kvs := kvs) k h hs, ho, e, he => by
    have ho1 := ho.1
    have ho2 := ho.2
    rcases List.mem_cons.mp he with rfl | he
    · exact de_node h ho1
    · exact de_mapNodes hs ho2 e he
end

/-! ### Documents -/

omit [FloatCast] in
/-- Nodes written for a value at the top level. -/
def encDoc : SVal → List DNode
  | .some v | .newtypeStruct v => encDoc v
  | .none | .unit | .unitStruct _ => []
  | .seq vs | .tuple vs | .tupleStruct vs => vs.map (encNode ['-'])
  | .tupleVariant k vs => vs.map (encNode k)
  | .map kvs => kvs.map fun e => encNode (keyName e.1) e.2
  | .struct fs => encFields fs
  | .newtypeVariant k v => [encNode k v]
  | .structVariant k _ => [.mk none k [] (some [])]
  | v => [encNode ['-'] v]

/-- The parts of the value that are written as arguments can be. -/
def DocOk : SVal → Prop
  | .some v | .newtypeStruct v => DocOk v
  | .seq vs | .tuple vs | .tupleStruct vs | .tupleVariant _ vs => ∀ v ∈ vs, SerOk v
  | .map kvs => MapOk kvs
  | .struct fs => FieldsOk fs
  | .newtypeVariant _ v => toKdlValue v ≠ none
  | _ => True

section
variable [FloatKey]

omit [FloatCast] [FloatKey] in
theorem semDoc_pushNode (d : Document) (n : Node) : semDoc id (d.pushNode n) = semDoc id d ++ [semNode id n] := by
  obtain ⟨ns, f, s⟩ := d
  simp [Document.pushNode, Document.nodes, semDoc, semNodes_append, semNodes]

omit [FloatCast] in
theorem serSeqNodes_enc {k : Str} : ∀ {vs : List SVal}, (∀ v ∈ vs, ∃ t, HasTy t v) → ∀ {d d' : Document},
    serSeqNodes k vs d = some d' → (∀ v ∈ vs, SerOk v) ∧ semDoc id d' = semDoc id d ++ vs.map (encNode k)
  | [], _, d, d', hs => by cases hs; simp
  | v :: vs, h, d, d', hs => by
    rw [serSeqNodes] at hs
    obtain ⟨c, hc, hs⟩ := Option.bind_eq_some_iff.mp hs
    obtain ⟨t, ht⟩ := h v List.mem_cons_self
    obtain ⟨hc1, hc2⟩ := serNode_enc ht hc (semNode_new k)
    obtain ⟨h1, h2⟩ := serSeqNodes_enc (fun v hv => h v (List.mem_cons_of_mem _ hv)) hs
    refine ⟨?_, ?_⟩
    · intro w hw
      rcases List.mem_cons.mp hw with rfl | hw
      · exact hc1
      · exact h1 w hw
    · rw [h2, semDoc_pushNode, hc2, List.append_assoc]; rfl

omit [FloatCast] in
theorem serMapNodes_enc : ∀ {t : Ty} {kvs : List (SVal × SVal)}, MapTy t kvs → ∀ {d d' : Document},
    serMapNodes kvs d = some d' →
    MapOk kvs ∧ semDoc id d' = semDoc id d ++ kvs.map fun e => encNode (keyName e.1) e.2
  | _, _, .nil _, d, d', hs => by cases hs; simp [MapOk]
  | _, _, .cons (v := v) (kvs := kvs) k h hks, d, d', hs => by
    rw [serMapNodes] at hs
    simp only [keyToString, Option.bind_some] at hs
    obtain ⟨c, hc, hs⟩ := Option.bind_eq_some_iff.mp hs
    obtain ⟨hc1, hc2⟩ := serNode_enc h hc (semNode_new k)
    obtain ⟨h1, h2⟩ := serMapNodes_enc hks hs
    refine ⟨⟨hc1, h1⟩, ?_⟩
    rw [h2, semDoc_pushNode, hc2, List.append_assoc]; rfl

omit [FloatCast] in
theorem serFieldNodes_enc : ∀ {tfs : List (Str × Ty)} {fs : List (Str × SVal)}, FieldsTy tfs fs →
    ∀ {d d' : Document}, serFieldNodes fs d = some d' → FieldsOk fs ∧ semDoc id d' = semDoc id d ++ encFields fs
  | _, _, .nil, d, d', hs => by cases hs; simp [FieldsOk, encFields]
  | _, _, .cons (k := k) (v := v) (fs := fs) h hfs, d, d', hs => by
    rw [serFieldNodes] at hs
    obtain ⟨c, hc, hs⟩ := Option.bind_eq_some_iff.mp hs
    obtain ⟨hc1, hc2⟩ := serNode_enc h hc (semNode_new k)
    rw [skipped_eq hc2 (encEntries_args v)] at hs
    obtain ⟨h1, h2⟩ := serFieldNodes_enc hfs hs
    refine ⟨⟨hc1, h1⟩, ?_⟩
    rw [h2, encFields]
    by_cases hf : flagged (encArgs v) = true
    · rw [if_pos hf, if_pos hf]
    · rw [if_neg hf, if_neg hf, semDoc_pushNode, hc2, List.append_assoc]; rfl

omit [FloatCast] [FloatKey] in
theorem ListTy.typed : ∀ {t : Ty} {vs : List SVal}, ListTy t vs → ∀ v ∈ vs, ∃ t, HasTy t v
  | _, _, .nil _, v, hv => by cases hv
  | _, _, .cons h hs, v, hv => by
    rcases List.mem_cons.mp hv with rfl | hv
    · exact ⟨_, h⟩
    · exact ListTy.typed hs v hv

omit [FloatCast] [FloatKey] in
theorem TupleTy.typed : ∀ {ts : List Ty} {vs : List SVal}, TupleTy ts vs → ∀ v ∈ vs, ∃ t, HasTy t v
  | _, _, .nil, v, hv => by cases hv
  | _, _, .cons h hs, v, hv => by
    rcases List.mem_cons.mp hv with rfl | hv
    · exact ⟨_, h⟩
    · exact TupleTy.typed hs v hv

omit [FloatCast] [FloatKey] in
theorem semDoc_new : semDoc id Document.new = [] := rfl

omit [FloatCast] [FloatKey] in
theorem valueNode_sem (k : Str) {v : SVal} {x : Value} (h : toKdlValue v = some x) :
    semNode id (valueNode k x) = encNode k v := by
  obtain ⟨e1, e2⟩ := enc_scalar h
  rw [valueNode, scalar_sem _ x (semNode_new k), encNode, entries_scalar h, e2]

omit [FloatCast] in
theorem serDoc_enc : ∀ {t : Ty} {v : SVal}, HasTy t v → ∀ {d : Document}, serDoc v .new = some d →
    DocOk v ∧ semDoc id d = encDoc v
  | _, _, .bool b, d, hs => by
    rw [serDoc] at hs; cases hs
    exact ⟨by simp [DocOk], by rw [semDoc_pushNode, valueNode_sem (v := .bool b) _ rfl]; simp [encDoc, semDoc_new]⟩
  | _, _, .int _ i _ _, d, hs => by
    rw [serDoc] at hs; cases hs
    exact ⟨by simp [DocOk], by rw [semDoc_pushNode, valueNode_sem (v := .int i) _ rfl]; simp [encDoc, semDoc_new]⟩
  | _, _, .f64 x _, d, hs => by
    rw [serDoc] at hs; cases hs
    exact ⟨by simp [DocOk], by rw [semDoc_pushNode, valueNode_sem (v := .f64 x) _ rfl]; simp [encDoc, semDoc_new]⟩
  | _, _, .char c, d, hs => by
    rw [serDoc] at hs; cases hs
    exact ⟨by simp [DocOk], by rw [semDoc_pushNode, valueNode_sem (v := .char c) _ rfl]; simp [encDoc, semDoc_new]⟩
  | _, _, .str s, d, hs => by
    rw [serDoc] at hs; cases hs
    exact ⟨by simp [DocOk], by rw [semDoc_pushNode, valueNode_sem (v := .str s) _ rfl]; simp [encDoc, semDoc_new]⟩
  | _, _, .unitVariant (k := k) _ _, d, hs => by
    rw [serDoc] at hs; cases hs
    exact ⟨by simp [DocOk], by rw [semDoc_pushNode, valueNode_sem (v := .unitVariant k) _ rfl]; simp [encDoc, semDoc_new]⟩
  | _, _, .none _, d, hs | _, _, .unit, d, hs | _, _, .unitStruct _, d, hs => by
    rw [serDoc] at hs; cases hs
    exact ⟨by simp [DocOk], by simp [encDoc, semDoc_new]⟩
  | _, _, .some h, d, hs => by rw [serDoc] at hs; simpa only [DocOk, encDoc] using serDoc_enc h hs
  | _, _, .newtype h, d, hs => by rw [serDoc] at hs; simpa only [DocOk, encDoc] using serDoc_enc h hs
  | _, _, .seq h, d, hs => by
    rw [serDoc] at hs
    simpa only [DocOk, encDoc, semDoc_new, List.nil_append] using serSeqNodes_enc (ListTy.typed h) hs
  | _, _, .tuple h, d, hs | _, _, .tupleStruct h, d, hs | _, _, .tupleVariant _ _ h _, d, hs => by
    rw [serDoc] at hs
    simpa only [DocOk, encDoc, semDoc_new, List.nil_append] using serSeqNodes_enc (TupleTy.typed h) hs
  | _, _, .map h _, d, hs => by
    rw [serDoc] at hs
    simpa only [DocOk, encDoc, semDoc_new, List.nil_append] using serMapNodes_enc h hs
  | _, _, .struct h _ _ _, d, hs => by
    rw [serDoc] at hs
    simpa only [DocOk, encDoc, semDoc_new, List.nil_append] using serFieldNodes_enc h hs
  | _, _, .newtypeVariant (k := k) _ _ h, d, hs => by
    rw [serDoc] at hs
    obtain ⟨x, hx, rfl⟩ := Option.map_eq_some_iff.mp hs
    refine ⟨by rw [DocOk, hx]; simp, ?_⟩
    rw [semDoc_pushNode, valueNode_sem k hx, encDoc, semDoc_new]; rfl
  | _, _, .structVariant (k := k) _ _ h _ _, d, hs => by
    rw [serDoc] at hs
    obtain ⟨x, hx, rfl⟩ := Option.map_eq_some_iff.mp hs
    refine ⟨by simp [DocOk], ?_⟩
    rw [semDoc_pushNode, encDoc, semDoc_new]; rfl

end

/-! #### Reading -/

theorem de_nodes : ∀ {t : Ty} {vs : List SVal}, ListTy t vs → (∀ v ∈ vs, SerOk v) → ∀ k,
    ((nodeSrcs (vs.map (encNode k))).mapM (de t) = some vs ↔ vs.all nodeKept = true)
  | _, _, .nil _, _, k => by simp [nodeSrcs]
  | _, _, .cons h hs, ho, k => by
    have ih := de_nodes hs (fun v hv => ho v (List.mem_cons_of_mem _ hv)) k
    have hv := de_node h (ho _ List.mem_cons_self) k
    rw [nodeSrcs, List.map_cons, List.map_cons, mapM_cons_some, ← nodeSrcs, ih, hv, List.all_cons, Bool.and_eq_true]

/-- Nodes written for the entries of a map at the top level. -/
abbrev mapNodes (kvs : List (SVal × SVal)) : List DNode := kvs.map fun e => encNode (keyName e.1) e.2

omit [FloatCast] in
theorem mapNodes_names : ∀ {t : Ty} {kvs : List (SVal × SVal)}, MapTy t kvs →
    ((mapNodes kvs).map DNode.name).map SVal.str = kvs.map Prod.fst
  | _, _, .nil _ => rfl
  | _, _, .cons k h hs => by
    simp only [mapNodes, List.map_cons] at *
    rw [mapNodes_names hs]
    rfl

theorem de_docEntries : ∀ {t : Ty} {kvs : List (SVal × SVal)}, MapTy t kvs → MapOk kvs →
    ((∃ m, (mapSrcs (mapNodes kvs)).mapM (deEntry t) = some m ∧ strKeys m = kvs) ↔ (kvs.all fun e => nodeKept e.2) = true)
  | _, _, .nil _, _ => by simp [strKeys]
  | t, _, .cons (v := v) (kvs := kvs) k h hs, ho => by
    obtain ⟨ho1, ho2⟩ := ho
    have ih := de_docEntries hs ho2
    have hv := de_node h ho1 k
    rw [List.all_cons, Bool.and_eq_true, ← ih]
    show (∃ m, (((k, Src.node (encNode k v)) :: mapSrcs (mapNodes kvs)).mapM (deEntry t)) = some m ∧ _) ↔ nodeKept v = true ∧ _
    rw [← hv]
    constructor
    · rintro ⟨m, hm, he⟩
      cases m with
      | nil => cases he
      | cons p m =>
        obtain ⟨h1, h2⟩ := mapM_cons_some.mp hm
        obtain ⟨w, hw, rfl⟩ := Option.map_eq_some_iff.mp h1
        simp only [strKeys, List.map_cons, List.cons.injEq, Prod.mk.injEq] at he
        exact ⟨he.1.2 ▸ hw, m, h2, he.2⟩
    · rintro ⟨h1, m, h2, h3⟩
      refine ⟨(k, v) :: m, mapM_cons_some.mpr ⟨?_, h2⟩, ?_⟩
      · simp [deEntry, h1]
      · simp only [strKeys, List.map_cons]; rw [← h3]; rfl

omit [FloatCast] in
theorem emptyDoc_iff : ∀ {t : Ty} {v : SVal}, HasTy t v → DocOk v → (encDoc v).isEmpty = emptyDoc v
  | _, _, .bool b, _ | _, _, .int _ _ _ _, _ | _, _, .f64 _ _, _ | _, _, .char _, _ | _, _, .str _, _ | _, _, .unit, _
  | _, _, .unitStruct _, _ | _, _, .none _, _ | _, _, .unitVariant _ _, _ | _, _, .newtypeVariant _ _ _, _
  | _, _, .structVariant _ _ _ _ _, _ => by simp [encDoc, emptyDoc]
  | _, _, .some h, ho => by rw [DocOk] at ho; rw [encDoc, emptyDoc]; exact emptyDoc_iff h ho
  | _, _, .newtype h, ho => by rw [DocOk] at ho; rw [encDoc, emptyDoc]; exact emptyDoc_iff h ho
  | _, _, .seq (vs := vs) h, _ | _, _, .tuple (vs := vs) h, _ | _, _, .tupleStruct (vs := vs) h, _
  | _, _, .tupleVariant (vs := vs) _ _ h _, _ => by rw [encDoc, emptyDoc]; cases vs <;> rfl
  | _, _, .map (kvs := kvs) h _, _ => by rw [encDoc, emptyDoc]; cases kvs <;> rfl
  | _, _, .struct (fs := fs) h _ _ _, ho => by
    rw [DocOk] at ho
    rw [encDoc, emptyDoc]
    have : ∀ {tfs : List (Str × Ty)} {fs : List (Str × SVal)}, FieldsTy tfs fs → FieldsOk fs →
        (encFields fs).isEmpty = fs.all fun f => leftOut f.2 := by
      intro tfs fs h
      induction fs generalizing tfs with
      | nil => intro _; simp [encFields]
      | cons f fs ih =>
        intro ho
        cases h with
        | cons h hs =>
          rw [encFields, flagged_eq h ho.1, List.all_cons]
          cases hl : leftOut _ with
          | true => simpa using ih hs ho.2
          | false => simp
    exact this h ho

theorem deVariant_name {vts : List (Str × VTy)} {e : EnumSrc} {v : SVal} : deVariant vts e = some v →
    match v with
    | .unitVariant k | .newtypeVariant k _ | .tupleVariant k _ | .structVariant k _ => k = e.variant
    | _ => False := by
  induction vts with
  | nil => intro h; rw [deVariant] at h; cases h
  | cons a vts ih =>
    obtain ⟨k, vt⟩ := a
    intro h
    rw [deVariant] at h
    split at h
    · next hk =>
      cases vt with
      | unit => rw [deBody] at h; cases h; exact hk.symm
      | newtype t =>
        rw [deBody] at h
        obtain ⟨s, _, h⟩ := Option.bind_eq_some_iff.mp h
        obtain ⟨w, _, rfl⟩ := Option.map_eq_some_iff.mp h
        exact hk.symm
      | tuple ts =>
        rw [deBody] at h
        split at h
        · obtain ⟨w, _, rfl⟩ := Option.map_eq_some_iff.mp h
          exact hk.symm
        · cases h
      | struct tfs =>
        rw [deBody] at h
        split at h
        · obtain ⟨w, _, rfl⟩ := Option.map_eq_some_iff.mp h
          exact hk.symm
        · obtain ⟨w, _, rfl⟩ := Option.map_eq_some_iff.mp h
          exact hk.symm
        · cases h
    · exact ih h

theorem deMap_missing : ∀ {tfs : List (Str × Ty)} {fs : List (Str × SVal)}, FieldsTy tfs fs →
    (deMap tfs [] = some fs ↔ (fs.all fun f => match f.2 with
      | .none => true
      | _ => false) = true)
  | _, _, .nil => by simp [deMap]
  | _, _, .cons (v := v) h hs => by
    have ih := deMap_missing hs
    rw [deMap_cons, ih, List.all_cons, Bool.and_eq_true]
    refine and_congr ?_ Iff.rfl
    show Ty.missing _ = _ ↔ _
    rw [missing_iff h]
    cases v <;> simp [absent]

/-- The value is read back from the document written for it exactly if it is kept. -/
theorem de_doc : ∀ {t : Ty} {v : SVal}, HasTy t v → DocOk v → (de t (.doc (encDoc v)) = some v ↔ Kept v = true)
  | _, _, .bool b, _ | _, _, .f64 _ _, _ | _, _, .char _, _ | _, _, .str _, _ => by
    rw [de]; simp [Src.request, visitBool, visitF64, visitChar, visitStr, Kept]
  | _, _, .int hi i h1 h2, _ => by rw [intTy_eq hi, de]; simp [Src.request, visitInt, Kept]
  | _, _, .unit, _ | _, _, .unitStruct _, _ => by rw [de]; simp [Src.request, visitUnit, visitUnitStruct, Kept]
  | _, _, .none _, _ => by rw [de]; simp [Src.request, encDoc, Kept]
  | _, _, .some (v := v) h, ho => by
    rw [DocOk] at ho
    have ih := de_doc h ho
    have he := emptyDoc_iff h ho
    rw [de, Kept, encDoc]
    simp only [Src.request, he]
    cases emptyDoc v with
    | true => simp
    | false =>
      simp only [Bool.false_eq_true, if_false, Option.map_eq_some_iff, SVal.some.injEq, exists_eq_right, ih, Bool.not_false,
        Bool.true_and]
  | _, _, .newtype (v := v) h, ho => by
    rw [DocOk] at ho
    have ih := de_doc h ho
    rw [de, Kept, encDoc]
    simp only [Src.request, Option.map_eq_some_iff, SVal.newtypeStruct.injEq, exists_eq_right, ih]
  | _, _, .seq h, ho => by
    rw [DocOk] at ho
    rw [de, Kept, ← de_nodes h ho ['-'], encDoc]
    simp only [Src.request, Option.map_eq_some_iff, SVal.seq.injEq, exists_eq_right]
  | _, _, .tuple h, ho | _, _, .tupleStruct h, ho => by rw [de]; simp [Src.request, Kept]
  | _, _, .map (t := t) (kvs := kvs) h hd, ho => by
    rw [DocOk] at ho
    have hn : ((mapNodes kvs).map DNode.name).Nodup := by
      have := mapNodes_names h
      rw [← this] at hd
      exact List.Pairwise.of_map SVal.str (fun a b h e => h (congrArg _ e)) hd
    rw [de, Kept, ← de_docEntries h ho, encDoc]
    show (((grouped (mapNodes kvs)).mapM (deEntry t)).map fun m => mapOf (insertAll m)) = some (.map kvs) ↔ _
    rw [grouped_of_nodup hn, Option.map_eq_some_iff]
    refine exists_congr fun m => and_congr_right fun hm => ?_
    have hk : (m.map Prod.fst).Nodup := by
      rw [mapM_keys hm, List.map_map]
      exact hn
    rw [insertAll_nodup hk, mapOf, SVal.map.injEq]
    rfl
  | _, _, .struct (tfs := tfs) (fs := fs) h fl hn hl, ho => by
    rw [DocOk] at ho
    have hd : (fs.map Prod.fst).Nodup := hn ▸ hl.names
    rw [de, Kept, encDoc, ← deMap_doc (de_fieldNodes h ho) fun k v hm => valuesOf_enc hd hm]
    simp only [Src.request, Option.map_eq_some_iff, SVal.struct.injEq, exists_eq_right]
  | _, _, .unitVariant (vts := vts) (k := k) hv hd, _ => by
    rw [de]
    show deVariant vts (.node (encNode ['-'] (.unitVariant k))) = _ ↔ _
    simp only [Kept, beq_iff_eq]
    constructor
    · intro h
      exact deVariant_name h
    · rintro rfl
      rw [deVariant_mem (e := .node (encNode ['-'] (.unitVariant ['-']))) hd hv, deBody]
      rfl
  | _, _, .newtypeVariant (vts := vts) (k := v) (t := t) (v := w) hv hd h, ho => by
    rw [DocOk] at ho
    have ih := de_node h (serOk_scalar h ho) v
    rw [de, Kept, ← ih, encDoc]
    show deVariant vts (.node (encNode v w)) = _ ↔ _
    rw [deVariant_mem (e := .node (encNode v w)) hd hv, deBody]
    show Option.map _ (de t (.node (encNode v w))) = _ ↔ _
    simp only [Option.map_eq_some_iff]
    constructor
    · rintro ⟨a, h1, h2⟩
      injection h2 with _ h2
      exact h2 ▸ h1
    · intro h1
      exact ⟨w, h1, rfl⟩
  | _, _, .tupleVariant (vts := vts) (k := v) (ts := ts) (vs := vs) hv hd h hl, ho => by
    have hl' : vs.length ≠ 1 := by
      have : ∀ {ts : List Ty} {vs : List SVal}, TupleTy ts vs → ts.length = vs.length := by
        intro ts vs h
        induction vs generalizing ts with
        | nil => cases h; rfl
        | cons v vs ih => cases h with | cons h hs => simp [ih hs]
      rw [← this h]; exact hl
    rw [de, encDoc]
    have : (Src.doc (vs.map (encNode v))).request .enum = none := by
      match vs, hl' with
      | [], _ => rfl
      | [a], h => exact absurd rfl h
      | a :: b :: vs, _ => rfl
    rw [this]
    simp [Kept]
  | _, _, .structVariant (vts := vts) (k := v) (tfs := tfs) (fs := fs) hv hd h hf _, _ => by
    rw [de, encDoc, Kept]
    show deVariant vts (.node (.mk none v [] (some []))) = _ ↔ _
    rw [deVariant_mem (e := .node (.mk none v [] (some []))) hd hv, deBody]
    show (match some (Event.map (nodeMap (.mk none v [] (some [])) none)) with
      | some (.map l) => (deMap tfs l).map (SVal.structVariant v)
      | some (.seq l) => (deSeq tfs l).map (SVal.structVariant v)
      | _ => none) = some (SVal.structVariant v fs) ↔ _
    rw [nodeMap_kids]
    simp only [Option.map_eq_some_iff, SVal.structVariant.injEq, true_and, exists_eq_right, Option.getD_some]
    exact deMap_missing h

/-! ### NaN -/

omit [FloatCast] in
theorem argOf_real : ∀ {t : Ty} {v : SVal}, HasTy t v → (argOf v).real
  | _, _, .bool b | _, _, .int _ i _ _ | _, _, .char c | _, _, .str s | _, _, .none t | _, _, .unit | _, _, .unitStruct _
  | _, _, .unitVariant _ _ | _, _, .seq _ | _, _, .tuple _ | _, _, .tupleStruct _ | _, _, .map _ _ | _, _, .struct _ _ _ _
  | _, _, .newtypeVariant _ _ _ | _, _, .tupleVariant _ _ _ _ | _, _, .structVariant _ _ _ _ _ => by
    simp [argOf, toKdlValue, Value.real]
  | _, _, .f64 x h => by simpa [argOf, toKdlValue, Value.real] using h
  | _, _, .some h => by rw [argOf, toKdlValue]; exact argOf_real h
  | _, _, .newtype h => by rw [argOf, toKdlValue]; exact argOf_real h

omit [FloatCast] in
theorem argOfs_real {vs : List SVal} (h : ∀ v ∈ vs, ∃ t, HasTy t v) : ∀ x ∈ vs.map argOf, x.real := by
  intro x hx
  obtain ⟨v, hv, rfl⟩ := List.mem_map.mp hx
  obtain ⟨t, ht⟩ := h v hv
  exact argOf_real ht

omit [FloatCast] in
theorem plainArgs_real {l : List Value} (h : ∀ x ∈ l, x.real) : ∀ e ∈ plainArgs l, e.value.real := by
  intro e he
  obtain ⟨x, hx, rfl⟩ := List.mem_map.mp he
  exact h x hx

omit [FloatCast] in
theorem spread_typed : ∀ {t : Ty} {v : SVal}, HasTy t v → ∀ w ∈ spread v, ∃ t, HasTy t w
  | _, _, .some h, w, hw => by rw [spread] at hw; exact spread_typed h w hw
  | _, _, .newtype h, w, hw => by rw [spread] at hw; exact spread_typed h w hw
  | _, _, .seq h, w, hw => by rw [spread] at hw; exact ListTy.typed h w hw
  | _, _, .tuple h, w, hw | _, _, .tupleStruct h, w, hw => by rw [spread] at hw; exact TupleTy.typed h w hw
  | _, _, .bool b, w, hw => by
    rw [spread, List.mem_singleton] at hw
    · subst hw; exact ⟨_, .bool b⟩
    all_goals simp
  | _, _, .int a b c d, w, hw => by
    rw [spread, List.mem_singleton] at hw
    · subst hw; exact ⟨_, .int a b c d⟩
    all_goals simp
  | _, _, .char c, w, hw => by
    rw [spread, List.mem_singleton] at hw
    · subst hw; exact ⟨_, .char c⟩
    all_goals simp
  | _, _, .str c, w, hw => by
    rw [spread, List.mem_singleton] at hw
    · subst hw; exact ⟨_, .str c⟩
    all_goals simp
  | _, _, .f64 c h, w, hw => by
    rw [spread, List.mem_singleton] at hw
    · subst hw; exact ⟨_, .f64 c h⟩
    all_goals simp
  | _, _, .none t, w, hw => by
    rw [spread, List.mem_singleton] at hw
    · subst hw; exact ⟨_, .none t⟩
    all_goals simp
  | _, _, .unit, w, hw => by
    rw [spread, List.mem_singleton] at hw
    · subst hw; exact ⟨_, .unit⟩
    all_goals simp
  | _, _, .unitStruct n, w, hw => by
    rw [spread, List.mem_singleton] at hw
    · subst hw; exact ⟨_, .unitStruct n⟩
    all_goals simp
  | _, _, .unitVariant a b, w, hw => by
    rw [spread, List.mem_singleton] at hw
    · subst hw; exact ⟨_, .unitVariant a b⟩
    all_goals simp
  | _, _, .map h hd, w, hw => by
    rw [spread, List.mem_singleton] at hw
    · subst hw; exact ⟨_, .map h hd⟩
    all_goals simp
  | _, _, .struct h fl hn hl, w, hw => by
    rw [spread, List.mem_singleton] at hw
    · subst hw; exact ⟨_, .struct h fl hn hl⟩
    all_goals simp
  | _, _, .newtypeVariant a b c, w, hw => by
    rw [spread, List.mem_singleton] at hw
    · subst hw; exact ⟨_, .newtypeVariant a b c⟩
    all_goals simp
  | _, _, .tupleVariant a b c d, w, hw => by
    rw [spread, List.mem_singleton] at hw
    · subst hw; exact ⟨_, .tupleVariant a b c d⟩
    all_goals simp
  | _, _, .structVariant a b c d e, w, hw => by
    rw [spread, List.mem_singleton] at hw
    · subst hw; exact ⟨_, .structVariant a b c d e⟩
    all_goals simp

omit [FloatCast] in
theorem structEntries_real : ∀ {tfs : List (Str × Ty)} {fs : List (Str × SVal)}, FieldsTy tfs fs →
    ∀ e ∈ structEntries fs, e.value.real
  | _, _, .nil, e, he => by cases he
  | _, _, .cons (k := k) (v := v) h hs, e, he => by
    rw [structEntries] at he
    rcases List.mem_append.mp he with he | he
    · split at he
      · exact plainArgs_real (argOfs_real (spread_typed h)) e he
      · split at he
        · exact plainArgs_real (by simpa using argOf_real h) e he
        · split at he
          · rw [List.mem_singleton] at he
            subst he
            exact argOf_real h
          · cases he
    · exact structEntries_real hs e he

omit [FloatCast] in
theorem encEntries_real : ∀ {t : Ty} {v : SVal}, HasTy t v → ∀ e ∈ encEntries v, e.value.real
  | _, _, .bool b, e, he => by
    rw [encEntries, encArgs] at he
    · exact plainArgs_real (by simpa using argOf_real (.bool b)) e he
    all_goals simp
  | _, _, .int a b c d, e, he => by
    rw [encEntries, encArgs] at he
    · exact plainArgs_real (by simpa using argOf_real (.int a b c d)) e he
    all_goals simp
  | _, _, .char c, e, he => by
    rw [encEntries, encArgs] at he
    · exact plainArgs_real (by simpa using argOf_real (.char c)) e he
    all_goals simp
  | _, _, .str c, e, he => by
    rw [encEntries, encArgs] at he
    · exact plainArgs_real (by simpa using argOf_real (.str c)) e he
    all_goals simp
  | _, _, .f64 c h, e, he => by
    rw [encEntries, encArgs] at he
    · exact plainArgs_real (by simpa using argOf_real (.f64 c h)) e he
    all_goals simp
  | _, _, .none t, e, he => by
    rw [encEntries, encArgs] at he
    · exact plainArgs_real (by simpa using argOf_real (.none t)) e he
    all_goals simp
  | _, _, .unit, e, he => by
    rw [encEntries, encArgs] at he
    · exact plainArgs_real (by simpa using argOf_real (.unit)) e he
    all_goals simp
  | _, _, .unitStruct n, e, he => by
    rw [encEntries, encArgs] at he
    · exact plainArgs_real (by simpa using argOf_real (.unitStruct n)) e he
    all_goals simp
  | _, _, .unitVariant a b, e, he => by
    rw [encEntries, encArgs] at he
    · exact plainArgs_real (by simpa using argOf_real (.unitVariant a b)) e he
    all_goals simp
  | _, _, .some h, e, he => by rw [encEntries] at he; exact encEntries_real h e he
  | _, _, .newtype h, e, he => by rw [encEntries] at he; exact encEntries_real h e he
  | _, _, .seq h, e, he => by
    rw [encEntries, encArgs] at he
    · exact plainArgs_real (argOfs_real (ListTy.typed h)) e he
    all_goals simp
  | _, _, .tuple h, e, he | _, _, .tupleStruct h, e, he => by
    rw [encEntries, encArgs] at he
    · exact plainArgs_real (argOfs_real (TupleTy.typed h)) e he
    all_goals simp
  | _, _, .struct h _ _ _, e, he => by rw [encEntries] at he; exact structEntries_real h e he
  | _, _, .map h hd, e, he | _, _, .newtypeVariant _ _ _, e, he | _, _, .tupleVariant _ _ _ _, e, he
  | _, _, .structVariant _ _ _ _ _, e, he => by simp [encEntries, encArgs, plainArgs] at he

omit [FloatCast] in
theorem noNan_args {k : Str} {l : List Value} (h : ∀ x ∈ l, x.real) : NoNan (.mk none k (plainArgs l) none) := by
  refine .mk (fun e he => ?_) (by simp)
  obtain ⟨x, hx, rfl⟩ := List.mem_map.mp he
  exact h x hx

mutual
theorem encKids_real : ∀ {t : Ty} {v : SVal}, HasTy t v → ∀ ns, encKids v = some ns → ∀ n ∈ ns, NoNan n
  | _, _, .bool b, ns, hn | _, _, .int _ i _ _, ns, hn | _, _, .char c, ns, hn | _, _, .str s, ns, hn
  | _, _, .none t, ns, hn | _, _, .f64 x h, ns, hn | _, _, .seq h, ns, hn | _, _, .tuple h, ns, hn
  | _, _, .tupleStruct h, ns, hn | _, _, .unit, ns, hn | _, _, .unitStruct _, ns, hn
  | _, _, .unitVariant _ _, ns, hn => by simp [encKids] at hn
  | _, _, .some h, ns, hn => by rw [encKids] at hn; exact encKids_real h ns hn
  | _, _, .newtype h, ns, hn => by rw [encKids] at hn; exact encKids_real h ns hn
  | _, _, .newtypeVariant _ _ h, ns, hn => by
    rw [encKids] at hn
    cases hn
    intro n hn
    rw [List.mem_singleton] at hn
    subst hn
    exact noNan_args (by simpa using argOf_real h)
  | _, _, .tupleVariant _ _ h _, ns, hn => by
    rw [encKids] at hn
    cases hn
    intro n hn
    rw [List.mem_singleton] at hn
    subst hn
    exact noNan_args (argOfs_real (TupleTy.typed h))
  | _, _, .structVariant _ _ h _ _, ns, hn => by
    rw [encKids] at hn
    cases hn
    intro n hn
    rw [List.mem_singleton] at hn
    subst hn
    refine .mk (by simp) fun ns hns => ?_
    cases hns
    exact encFields_real h
  | _, _, .map (kvs := kvs) h _, ns, hn => by
    have : ns = encMap kvs := by
      rw [encKids] at hn
      cases hm : encMap kvs with
      | nil => rw [hm] at hn; cases hn
      | cons a l => rw [hm] at hn; cases hn; rfl
    rw [this]
    exact encMap_real h
  | _, _, .struct (fs := fs) h _ _ _, ns, hn => by
    have : ns = encStruct fs := by
      have := structKids fs
      rw [hn] at this
      exact this
    rw [this]
    exact encStruct_real h
theorem encStruct_real : ∀ {tfs : List (Str × Ty)} {fs : List (Str × SVal)}, FieldsTy tfs fs → ∀ n ∈ encStruct fs, NoNan n
  | _, _, .nil, n, hn => by simp [encStruct] at hn
  | _, _, .cons (k := k) (v := v) (fs := fs) h hs, n, hn => by
    have : n = encNode k v ∨ n ∈ encStruct fs := by
      rw [encStruct] at hn
      split at hn
      · exact .inr hn
      · exact List.mem_cons.mp hn
    rcases this with rfl | hn
    · exact .mk (encEntries_real h) (encKids_real h)
    · exact encStruct_real hs n hn
theorem encFields_real : ∀ {tfs : List (Str × Ty)} {fs : List (Str × SVal)}, FieldsTy tfs fs → ∀ n ∈ encFields fs, NoNan n
  | _, _, .nil, n, hn => by simp [encFields] at hn
  | _, _, .cons (k := k) (v := v) (fs := fs) h hs, n, hn => by
    have : n = encNode k v ∨ n ∈ encFields fs := by
      rw [encFields] at hn
      split at hn
      · exact .inr hn
      · exact List.mem_cons.mp hn
    rcases this with rfl | hn
    · exact .mk (encEntries_real h) (encKids_real h)
    · exact encFields_real hs n hn
theorem encMap_real : ∀ {t : Ty} {kvs : List (SVal × SVal)}, MapTy t kvs → ∀ n ∈ encMap kvs, NoNan n
  | _, _, .nil _, n, hn => by simp [encMap] at hn
  | _, _, .cons (v := v) (kvs := kvs) k h hs, n, hn => by
    have : n = encNode k v ∨ n ∈ encMap kvs := by
      rw [encMap] at hn
      split at hn
      · exact .inr hn
      · exact List.mem_cons.mp hn
    rcases this with rfl | hn
    · exact .mk (encEntries_real h) (encKids_real h)
    · exact encMap_real hs n hn
end

theorem encNode_real {t : Ty} {v : SVal} (h : HasTy t v) (k : Str) : NoNan (encNode k v) :=
  .mk (encEntries_real h) (encKids_real h)

theorem encNodes_real {vs : List SVal} (h : ∀ v ∈ vs, ∃ t, HasTy t v) (k : Str) : ∀ n ∈ vs.map (encNode k), NoNan n := by
  intro n hn
  obtain ⟨v, hv, rfl⟩ := List.mem_map.mp hn
  obtain ⟨t, ht⟩ := h v hv
  exact encNode_real ht k

theorem encDoc_real : ∀ {t : Ty} {v : SVal}, HasTy t v → ∀ n ∈ encDoc v, NoNan n
  | _, _, .bool b, n, hn => by
    rw [encDoc, List.mem_singleton] at hn
    · subst hn; exact encNode_real (.bool b) _
    all_goals simp
  | _, _, .int a b c d, n, hn => by
    rw [encDoc, List.mem_singleton] at hn
    · subst hn; exact encNode_real (.int a b c d) _
    all_goals simp
  | _, _, .char c, n, hn => by
    rw [encDoc, List.mem_singleton] at hn
    · subst hn; exact encNode_real (.char c) _
    all_goals simp
  | _, _, .str c, n, hn => by
    rw [encDoc, List.mem_singleton] at hn
    · subst hn; exact encNode_real (.str c) _
    all_goals simp
  | _, _, .f64 c h, n, hn => by
    rw [encDoc, List.mem_singleton] at hn
    · subst hn; exact encNode_real (.f64 c h) _
    all_goals simp
  | _, _, .unitVariant a b, n, hn => by
    rw [encDoc, List.mem_singleton] at hn
    · subst hn; exact encNode_real (.unitVariant a b) _
    all_goals simp
  | _, _, .none _, n, hn | _, _, .unit, n, hn | _, _, .unitStruct _, n, hn => by simp [encDoc] at hn
  | _, _, .some h, n, hn => by rw [encDoc] at hn; exact encDoc_real h n hn
  | _, _, .newtype h, n, hn => by rw [encDoc] at hn; exact encDoc_real h n hn
  | _, _, .seq h, n, hn => by rw [encDoc] at hn; exact encNodes_real (ListTy.typed h) _ n hn
  | _, _, .tuple h, n, hn => by rw [encDoc] at hn; exact encNodes_real (TupleTy.typed h) _ n hn
  | _, _, .tupleStruct h, n, hn => by rw [encDoc] at hn; exact encNodes_real (TupleTy.typed h) _ n hn
  | _, _, .tupleVariant _ _ h _, n, hn => by rw [encDoc] at hn; exact encNodes_real (TupleTy.typed h) _ n hn
  | _, _, .struct h _ _ _, n, hn => by rw [encDoc] at hn; exact encFields_real h n hn
  | _, _, .newtypeVariant _ _ h, n, hn => by
    rw [encDoc, List.mem_singleton] at hn; subst hn; exact encNode_real h _
  | _, _, .structVariant _ _ _ _ _, n, hn => by
    rw [encDoc, List.mem_singleton] at hn; subst hn
    exact .mk (by simp) fun ns hns => by cases hns; simp
  | _, _, .map h hd, n, hn => by
    rw [encDoc] at hn
    clear hd
    have : ∀ {t : Ty} {kvs : List (SVal × SVal)}, MapTy t kvs → ∀ n ∈ mapNodes kvs, NoNan n := by
      intro t kvs h
      induction kvs with
      | nil => simp
      | cons e kvs ih =>
        cases h with
        | cons k h hs =>
          intro n hn
          rcases List.mem_cons.mp hn with rfl | hn
          · exact encNode_real h k
          · exact ih hs n hn
    exact this h n hn

end

/-! ### What can be written -/

theorem isSome_bind {α β : Type} {o : Option α} {f : α → Option β} {b : Bool} (h : ∀ a, o = some a → (f a).isSome = b) :
    (o.bind f).isSome = (o.isSome && b) := by
  cases o with
  | none => rfl
  | some a => simpa using h a rfl

theorem toKdlValue_isSome : ∀ v : SVal, (toKdlValue v).isSome = oneArg v
  | .some v => by rw [toKdlValue, oneArg]; exact toKdlValue_isSome v
  | .newtypeStruct v => by rw [toKdlValue, oneArg]; exact toKdlValue_isSome v
  | .bool _ | .int _ | .f64 _ | .char _ | .str _ | .none | .unit | .unitStruct _ | .unitVariant _ | .int128 _ | .bytes _
  | .newtypeVariant _ _ | .seq _ | .tuple _ | .tupleStruct _ | .tupleVariant _ _ | .map _ | .struct _
  | .structVariant _ _ => by simp [toKdlValue, oneArg]

theorem serArgs_isSome : ∀ (vs : List SVal) (n : Node), (serArgs n vs).isSome = vs.all oneArg
  | [], _ => rfl
  | v :: vs, n => by
    rw [serArgs, isSome_bind fun x _ => serArgs_isSome vs _, toKdlValue_isSome, List.all_cons]

theorem serArgsField_isSome : ∀ (v : SVal) (n : Node), (serArgsField n v).isSome = (spread v).all oneArg
  | .some v, n => by rw [serArgsField, spread]; exact serArgsField_isSome v n
  | .newtypeStruct v, n => by rw [serArgsField, spread]; exact serArgsField_isSome v n
  | .seq vs, n | .tuple vs, n | .tupleStruct vs, n => by rw [serArgsField, spread]; exact serArgs_isSome vs n
  | .bool _, n | .int _, n | .f64 _, n | .char _, n | .str _, n | .none, n | .unit, n | .unitStruct _, n
  | .unitVariant _, n | .int128 _, n | .bytes _, n | .newtypeVariant _ _, n | .tupleVariant _ _, n | .map _, n
  | .struct _, n | .structVariant _ _, n => by
    simp [serArgsField, spread, Option.isSome_map, toKdlValue_isSome]

/-- How a field of a struct is written, with the predicates of the specification. -/
inductive KindForm (k : Str) : Prop
  | prop (h : fieldKind k = .prop (k.drop 2)) (h1 : argsField k = false) (h2 : argField k = false) (h3 : propField k = true)
  | args (h : fieldKind k = .args) (h1 : argsField k = true)
  | rest (h : fieldKind k = .rest) (h1 : argsField k = true)
  | arg (h : fieldKind k = .arg (k.drop 1)) (h1 : argsField k = false) (h2 : argField k = true)
  | kid (h : fieldKind k = .child) (h1 : argsField k = false) (h2 : argField k = false) (h3 : propField k = false)

theorem kindForm (k : Str) : KindForm k := by
  have hk := fieldKind_eq k
  obtain ⟨e1, e2⟩ := field_excl k
  cases hp : propField k with
  | true =>
    have h2 : argField k = false := by
      cases ha : argField k with
      | false => rfl
      | true => rw [e1 ha] at hp; cases hp
    have h1 : argsField k = false := by
      cases ha : argsField k with
      | false => rfl
      | true => rw [e2 ha] at h2; cases h2
    rw [hp] at hk
    exact .prop hk h1 h2 hp
  | false =>
    rw [hp] at hk
    by_cases ha : k = Field.args.text
    · subst ha; exact .args rfl rfl
    · by_cases hr : k = Field.rest.text
      · subst hr; exact .rest rfl rfl
      · have h1 : argsField k = false := by simp [argsField, ha, hr]
        rw [if_neg ha, if_neg hr] at hk
        cases h2 : argField k with
        | true => rw [h2] at hk; exact .arg hk h1 h2
        | false => rw [h2] at hk; exact .kid hk h1 h2 hp

section
variable [FloatKey]

mutual
theorem serNode_isSome : ∀ {t : Ty} {v : SVal}, HasTy t v → ∀ n, (serNode v n).isSome = canNode v
  | _, _, .bool b, n | _, _, .int _ i _ _, n | _, _, .f64 x _, n | _, _, .char c, n | _, _, .str s, n | _, _, .none t, n
  | _, _, .unit, n | _, _, .unitStruct _, n | _, _, .unitVariant _ _, n => by simp [serNode, canNode]
  | _, _, .some h, n => by rw [serNode, canNode]; exact serNode_isSome h n
  | _, _, .newtype h, n => by rw [serNode, canNode]; exact serNode_isSome h n
  | _, _, .seq h, n | _, _, .tuple h, n | _, _, .tupleStruct h, n => by rw [serNode, canNode]; exact serArgs_isSome _ _
  | _, _, .newtypeVariant _ _ _, n => by rw [serNode, canNode, Option.isSome_map]; exact toKdlValue_isSome _
  | _, _, .tupleVariant _ _ _ _, n => by rw [serNode, canNode, Option.isSome_map]; exact serArgs_isSome _ _
  | _, _, .structVariant _ _ h _ hp, n => by rw [serNode, canNode, Option.isSome_map]; exact serVariantFields_isSome h hp _ _
  | _, _, .map h _, n => by rw [serNode, canNode]; exact serMap_isSome h n
  | _, _, .struct h _ _ _, n => by rw [serNode, canNode]; exact serFields_isSome h n
theorem serFields_isSome : ∀ {tfs : List (Str × Ty)} {fs : List (Str × SVal)}, FieldsTy tfs fs → ∀ n,
    (serFields fs n).isSome = canStruct fs
  | _, _, .nil, n => by rw [serFields, canStruct]; rfl
  | _, _, .cons (k := k) (v := v) h hs, n => by
    have ih := serFields_isSome hs
    rw [serFields, canStruct]
    cases kindForm k with
    | prop e h1 h2 h3 => rw [e, h1, h2, h3]; exact (isSome_bind fun c _ => ih _).trans (by rw [toKdlValue_isSome]; rfl)
    | args e h1 => rw [e, h1]; exact (isSome_bind fun c _ => ih _).trans (by rw [serArgsField_isSome]; rfl)
    | rest e h1 => rw [e, h1]; exact (isSome_bind fun c _ => ih _).trans (by rw [serArgsField_isSome]; rfl)
    | arg e h1 h2 => rw [e, h1, h2]; exact (isSome_bind fun c _ => ih _).trans (by rw [toKdlValue_isSome]; rfl)
    | kid e h1 h2 h3 => rw [e, h1, h2, h3]; exact (isSome_bind fun c _ => ih _).trans (by rw [serNode_isSome h]; rfl)
theorem serVariantFields_isSome : ∀ {tfs : List (Str × Ty)} {fs : List (Str × SVal)}, FieldsTy tfs fs →
    (∀ k ∈ fs.map Prod.fst, k.head? ≠ some '#') → ∀ n d, (serVariantFields fs n d).isSome = canFields fs
  | _, _, .nil, _, n, d => by rw [serVariantFields, canFields]; rfl
  | _, _, .cons h hs, hp, n, d => by
    rw [serVariantFields, fieldKind_child (kidField_head (hp _ List.mem_cons_self)), canFields]
    exact (isSome_bind fun c _ => serVariantFields_isSome hs (fun k hk => hp k (List.mem_cons_of_mem _ hk)) _ _).trans
      (by rw [serNode_isSome h])
theorem serMap_isSome : ∀ {t : Ty} {kvs : List (SVal × SVal)}, MapTy t kvs → ∀ n, (serMap kvs n).isSome = canMap kvs
  | _, _, .nil _, n => by rw [serMap, canMap]; rfl
  | _, _, .cons k h hs, n => by
    rw [serMap, canMap]
    simp only [keyToString, Option.bind_some]
    exact (isSome_bind fun c _ => serMap_isSome hs _).trans (by rw [serNode_isSome h])
end

theorem serSeqNodes_isSome {k : Str} : ∀ {vs : List SVal}, (∀ v ∈ vs, ∃ t, HasTy t v) → ∀ d,
    (serSeqNodes k vs d).isSome = vs.all canNode
  | [], _, _ => rfl
  | v :: vs, h, d => by
    obtain ⟨t, ht⟩ := h v List.mem_cons_self
    rw [serSeqNodes, isSome_bind fun c _ => serSeqNodes_isSome (fun v hv => h v (List.mem_cons_of_mem _ hv)) _,
      serNode_isSome ht, List.all_cons]

theorem serMapNodes_isSome : ∀ {t : Ty} {kvs : List (SVal × SVal)}, MapTy t kvs → ∀ d, (serMapNodes kvs d).isSome = canMap kvs
  | _, _, .nil _, d => by rw [serMapNodes, canMap]; rfl
  | _, _, .cons k h hs, d => by
    rw [serMapNodes, canMap]
    simp only [keyToString, Option.bind_some]
    exact (isSome_bind fun c _ => serMapNodes_isSome hs _).trans (by rw [serNode_isSome h])

theorem serFieldNodes_isSome : ∀ {tfs : List (Str × Ty)} {fs : List (Str × SVal)}, FieldsTy tfs fs → ∀ d,
    (serFieldNodes fs d).isSome = canFields fs
  | _, _, .nil, d => by rw [serFieldNodes, canFields]; rfl
  | _, _, .cons h hs, d => by
    rw [serFieldNodes, canFields]
    exact (isSome_bind fun c _ => serFieldNodes_isSome hs _).trans (by rw [serNode_isSome h])

theorem serTopVariantFields_isSome : ∀ {tfs : List (Str × Ty)} {fs : List (Str × SVal)}, FieldsTy tfs fs →
    (∀ k ∈ fs.map Prod.fst, k.head? ≠ some '#') → ∀ used, (serTopVariantFields fs used).isSome = canFields fs
  | _, _, .nil, _, _ => by rw [serTopVariantFields, canFields]; rfl
  | _, _, .cons h hs, hp, used => by
    rw [serTopVariantFields, fieldKind_child (kidField_head (hp _ List.mem_cons_self)), canFields]
    exact (isSome_bind fun c _ => serTopVariantFields_isSome hs (fun k hk => hp k (List.mem_cons_of_mem _ hk)) _).trans
      (by rw [serNode_isSome h])

theorem serDoc_isSome : ∀ {t : Ty} {v : SVal}, HasTy t v → ∀ d, (serDoc v d).isSome = canWrite v
  | _, _, .bool b, n | _, _, .int _ i _ _, n | _, _, .f64 x _, n | _, _, .char c, n | _, _, .str s, n | _, _, .none t, n
  | _, _, .unit, n | _, _, .unitStruct _, n | _, _, .unitVariant _ _, n => by simp [serDoc, canWrite]
  | _, _, .some h, n => by rw [serDoc, canWrite]; exact serDoc_isSome h n
  | _, _, .newtype h, n => by rw [serDoc, canWrite]; exact serDoc_isSome h n
  | _, _, .seq h, n => by rw [serDoc, canWrite]; exact serSeqNodes_isSome (ListTy.typed h) _
  | _, _, .tuple h, n | _, _, .tupleStruct h, n | _, _, .tupleVariant _ _ h _, n => by
    rw [serDoc, canWrite]; exact serSeqNodes_isSome (TupleTy.typed h) _
  | _, _, .newtypeVariant _ _ _, n => by rw [serDoc, canWrite, Option.isSome_map]; exact toKdlValue_isSome _
  | _, _, .structVariant _ _ h _ hp, n => by rw [serDoc, canWrite, Option.isSome_map]; exact serTopVariantFields_isSome h hp _
  | _, _, .map h _, n => by rw [serDoc, canWrite]; exact serMapNodes_isSome h n
  | _, _, .struct h _ _ _, n => by rw [serDoc, canWrite]; exact serFieldNodes_isSome h n

end

end Kdl
