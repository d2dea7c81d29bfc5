import Verif.Model.Api
import Verif.Spec.Entries
/-
Lemmas about the loops of the entry API.
-/

namespace Kdl
open Spec

theorem hasKey_iff (e : Entry) (k : Str) : e.hasKey k = true ↔ IsProp k e := by
  unfold Entry.hasKey IsProp
  cases e.name <;> simp

theorem hasKey_false_iff (e : Entry) (k : Str) : e.hasKey k = false ↔ ¬ IsProp k e := by
  rw [← hasKey_iff]; simp

theorem isNone_iff_isArg (e : Entry) : e.name.isNone = true ↔ IsArg e := by
  unfold IsArg; simp

/-- Either no entry has the key, or there is a last one. -/
theorem last_split (k : Str) (es : List Entry) :
    (∀ e ∈ es, ¬ IsProp k e) ∨
    ∃ pre x post, es = pre ++ x :: post ∧ IsProp k x ∧ ∀ e ∈ post, ¬ IsProp k e := by
  induction es with
  | nil => left; simp
  | cons a es ih =>
    rcases ih with h | ⟨pre, x, post, rfl, hx, hp⟩
    · by_cases ha : IsProp k a
      · right; exact ⟨[], a, es, rfl, ha, h⟩
      · left; intro e he
        rcases List.mem_cons.mp he with rfl | he
        · exact ha
        · exact h e he
    · right; exact ⟨a :: pre, x, post, rfl, hx, hp⟩

theorem posByKey_none {k : Str} {es : List Entry} (h : ∀ e ∈ es, ¬ IsProp k e) (pos : Nat)
    (cur : Option Nat) : posByKeyLoop k es pos cur = cur := by
  induction es generalizing pos cur with
  | nil => rfl
  | cons a es ih =>
    have ha : a.hasKey k = false := (hasKey_false_iff a k).mpr (h a (by simp))
    simp [posByKeyLoop, ha]
    exact ih (fun e he => h e (by simp [he])) _ _

theorem posByKey_split {k : Str} {pre post : List Entry} {x : Entry} (hx : IsProp k x)
    (hp : ∀ e ∈ post, ¬ IsProp k e) (pos : Nat) (cur : Option Nat) :
    posByKeyLoop k (pre ++ x :: post) pos cur = some (pos + pre.length) := by
  induction pre generalizing pos cur with
  | nil =>
    have hx' : x.hasKey k = true := (hasKey_iff x k).mpr hx
    simp [posByKeyLoop, hx', posByKey_none hp]
  | cons a pre ih =>
    simp only [List.cons_append, posByKeyLoop, ih, List.length_cons]
    congr 1; omega

theorem entryByKey_none {k : Str} {es : List Entry} (h : ∀ e ∈ es, ¬ IsProp k e)
    (cur : Option Entry) : entryByKeyLoop k es cur = cur := by
  induction es generalizing cur with
  | nil => rfl
  | cons a es ih =>
    have ha : a.hasKey k = false := (hasKey_false_iff a k).mpr (h a (by simp))
    simp [entryByKeyLoop, ha]
    exact ih (fun e he => h e (by simp [he])) _

theorem entryByKey_split {k : Str} {pre post : List Entry} {x : Entry} (hx : IsProp k x)
    (hp : ∀ e ∈ post, ¬ IsProp k e) (cur : Option Entry) :
    entryByKeyLoop k (pre ++ x :: post) cur = some x := by
  induction pre generalizing cur with
  | nil =>
    have hx' : x.hasKey k = true := (hasKey_iff x k).mpr hx
    simp [entryByKeyLoop, hx', entryByKey_none hp]
  | cons a pre ih => simp only [List.cons_append, entryByKeyLoop, ih]

theorem propsOf_none {k : Str} {es : List Entry} (h : ∀ e ∈ es, ¬ IsProp k e) :
    propsOf k es = [] := by
  unfold propsOf; rw [List.filter_eq_nil_iff]; simpa using h

theorem propsOf_append (k : Str) (a b : List Entry) :
    propsOf k (a ++ b) = propsOf k a ++ propsOf k b := by simp [propsOf]

theorem propsOf_cons_pos {k : Str} {x : Entry} (hx : IsProp k x) (b : List Entry) :
    propsOf k (x :: b) = x :: propsOf k b := by simp [propsOf, hx]

theorem propsOf_cons_neg {k : Str} {x : Entry} (hx : ¬ IsProp k x) (b : List Entry) :
    propsOf k (x :: b) = propsOf k b := by simp [propsOf, hx]

theorem propsOf_getLast_split {k : Str} {pre post : List Entry} {x : Entry} (hx : IsProp k x)
    (hp : ∀ e ∈ post, ¬ IsProp k e) : (propsOf k (pre ++ x :: post)).getLast? = some x := by
  rw [propsOf_append, propsOf_cons_pos hx, propsOf_none hp]; simp

theorem entryByKey_eq (k : Str) (es : List Entry) :
    entryByKeyLoop k es none = (propsOf k es).getLast? := by
  rcases last_split k es with h | ⟨pre, x, post, rfl, hx, hp⟩
  · rw [entryByKey_none h, propsOf_none h]; rfl
  · rw [entryByKey_split hx hp, propsOf_getLast_split hx hp]

theorem args_append (a b : List Entry) : args (a ++ b) = args a ++ args b := by simp [args]
theorem args_cons_pos {x : Entry} (hx : IsArg x) (b : List Entry) :
    args (x :: b) = x :: args b := by simp [args, hx]
theorem args_cons_neg {x : Entry} (hx : ¬ IsArg x) (b : List Entry) :
    args (x :: b) = args b := by simp [args, hx]
theorem props_append (a b : List Entry) : props (a ++ b) = props a ++ props b := by simp [props]
theorem props_cons_arg {x : Entry} (hx : IsArg x) (b : List Entry) :
    props (x :: b) = props b := by simp [props, hx]
theorem props_cons_prop {x : Entry} (hx : ¬ IsArg x) (b : List Entry) :
    props (x :: b) = x :: props b := by simp [props, hx]

theorem Spec.IsProp.not_arg {k : Str} {e : Entry} (h : IsProp k e) : ¬ IsArg e := by
  intro h'; unfold IsProp at h; unfold IsArg at h'; rw [h'] at h; simp at h

theorem Spec.IsArg.not_prop {e : Entry} (h : IsArg e) (k : Str) : ¬ IsProp k e :=
  fun h2 => Spec.IsProp.not_arg h2 h

theorem countArgs_eq (es : List Entry) : countArgs es = (args es).length := by
  induction es with
  | nil => rfl
  | cons a es ih =>
    by_cases h : IsArg a
    · have h' : a.name.isNone = true := (isNone_iff_isArg a).mpr h
      rw [args_cons_pos h]; simp [countArgs, h', ih]; omega
    · have h' : ¬ a.name.isNone = true := fun x => h ((isNone_iff_isArg a).mp x)
      rw [args_cons_neg h]; simp only [countArgs, h', ih]; simp

theorem entryByIndex_eq (idx : Nat) (es : List Entry) (cur : Nat) (hc : cur ≤ idx) :
    entryByIndexLoop idx es cur = (args es)[idx - cur]? := by
  induction es generalizing cur with
  | nil => simp [entryByIndexLoop, args]
  | cons a es ih =>
    by_cases h : IsArg a
    · have h' : a.name.isNone = true := (isNone_iff_isArg a).mpr h
      rw [args_cons_pos h]
      simp only [entryByIndexLoop, h', if_true]
      by_cases hce : cur = idx
      · simp [hce]
      · simp only [hce, if_false]
        rw [ih (cur + 1) (by omega)]
        have : idx - cur = (idx - (cur + 1)) + 1 := by omega
        rw [this, List.getElem?_cons_succ]
    · have h' : ¬ a.name.isNone = true := fun x => h ((isNone_iff_isArg a).mp x)
      rw [args_cons_neg h]
      simp only [entryByIndexLoop, h']
      exact ih cur hc

/-- Splitting an entry list at the `i`-th argument. -/
theorem arg_split (es : List Entry) (i : Nat) :
    ((args es).length ≤ i ∧ ∀ pos cur, posByIndexLoop (i + cur) es pos cur = none) ∨
    ∃ pre x post, es = pre ++ x :: post ∧ IsArg x ∧ (args pre).length = i ∧
      ∀ pos cur, posByIndexLoop (i + cur) es pos cur = some (pos + pre.length) := by
  induction es generalizing i with
  | nil => left; simp [args, posByIndexLoop]
  | cons a es ih =>
    by_cases h : IsArg a
    · have h' : a.name.isNone = true := (isNone_iff_isArg a).mpr h
      cases i with
      | zero =>
        right; refine ⟨[], a, es, rfl, h, rfl, ?_⟩
        intro pos cur; simp [posByIndexLoop, h']
      | succ i =>
        rcases ih i with ⟨hl, hp⟩ | ⟨pre, x, post, rfl, hx, hl, hp⟩
        · left; rw [args_cons_pos h]; refine ⟨by simpa using hl, ?_⟩
          intro pos cur
          have e1 : i + 1 + cur = i + (cur + 1) := by omega
          have e2 : ¬ cur = i + (cur + 1) := by omega
          rw [e1]; simp only [posByIndexLoop, h', if_true, e2, if_false]
          exact hp _ _
        · right; refine ⟨a :: pre, x, post, rfl, hx, by rw [args_cons_pos h]; simpa using hl, ?_⟩
          intro pos cur
          have e1 : i + 1 + cur = i + (cur + 1) := by omega
          have e2 : ¬ cur = i + (cur + 1) := by omega
          rw [e1]; simp only [List.cons_append, posByIndexLoop, h', if_true, e2, if_false]
          rw [hp]; simp; omega
    · have h' : ¬ a.name.isNone = true := fun x => h ((isNone_iff_isArg a).mp x)
      rcases ih i with ⟨hl, hp⟩ | ⟨pre, x, post, rfl, hx, hl, hp⟩
      · left; rw [args_cons_neg h]; refine ⟨hl, ?_⟩
        intro pos cur
        simp only [posByIndexLoop, h']
        exact hp _ _
      · right; refine ⟨a :: pre, x, post, rfl, hx, by rw [args_cons_neg h]; exact hl, ?_⟩
        intro pos cur
        simp only [List.cons_append, posByIndexLoop, h', List.length_cons]
        have := hp (pos + 1) cur
        simp only [this, Bool.false_eq_true, if_false, Option.some.injEq]; omega

@[simp] theorem Ident.value_ofStr (s : Str) : (Ident.ofStr s).value = s := rfl

section
variable (t : Option Ident) (nm : Ident) (es : List Entry) (c : Option Document)
  (f : Option NodeFmt) (sp : Span)
@[simp] theorem Node.ty_mk : (Node.mk t nm es c f sp).ty = t := rfl
@[simp] theorem Node.name_mk : (Node.mk t nm es c f sp).name = nm := rfl
@[simp] theorem Node.entries_mk : (Node.mk t nm es c f sp).entries = es := rfl
@[simp] theorem Node.children_mk : (Node.mk t nm es c f sp).children = c := rfl
@[simp] theorem Node.format_mk : (Node.mk t nm es c f sp).format = f := rfl
@[simp] theorem Node.span_mk : (Node.mk t nm es c f sp).span = sp := rfl
end

@[simp] theorem Node.entries_setEntries (n : Node) (es : List Entry) :
    (n.setEntries es).entries = es := by cases n; rfl
@[simp] theorem Node.ty_setEntries (n : Node) (es : List Entry) :
    (n.setEntries es).ty = n.ty := by cases n; rfl
@[simp] theorem Node.name_setEntries (n : Node) (es : List Entry) :
    (n.setEntries es).name = n.name := by cases n; rfl
@[simp] theorem Node.children_setEntries (n : Node) (es : List Entry) :
    (n.setEntries es).children = n.children := by cases n; rfl
@[simp] theorem Node.format_setEntries (n : Node) (es : List Entry) :
    (n.setEntries es).format = n.format := by cases n; rfl
@[simp] theorem Node.setEntries_entries (n : Node) : n.setEntries n.entries = n := by cases n; rfl
@[simp] theorem Node.setEntries_setEntries (n : Node) (a b : List Entry) :
    (n.setEntries a).setEntries b = n.setEntries b := by cases n; rfl

/-- The spec form of `get`. -/
theorem Node.get_key (n : Node) (k : Ident) : n.get (.key k) = lookupProp k.value n.entries := by
  simp [Node.get, Node.entry, entryByKey_eq, lookupProp]

theorem Node.get_index (n : Node) (i : Nat) : n.get (.index i) = lookupArg i n.entries := by
  simp [Node.get, Node.entry, entryByIndex_eq, lookupArg]

theorem modify_split {α : Type} (pre : List α) (x : α) (post : List α) (f : α → α) :
    (pre ++ x :: post).modify pre.length f = pre ++ f x :: post := by
  induction pre with
  | nil => rfl
  | cons a pre ih => simpa [List.modify_cons] using ih

theorem set_split {α : Type} (pre : List α) (x y : α) (post : List α) :
    (pre ++ x :: post).set pre.length y = pre ++ y :: post := by
  induction pre with
  | nil => rfl
  | cons a pre ih => simpa using ih

theorem getElem_split {α : Type} (pre : List α) (x : α) (post : List α) :
    (pre ++ x :: post)[pre.length]? = some x := by simp

theorem eraseIdx_split {α : Type} (pre : List α) (x : α) (post : List α) :
    (pre ++ x :: post).eraseIdx pre.length = pre ++ post := by
  induction pre with
  | nil => rfl
  | cons a pre ih => simpa using ih

theorem insertIdx_split {α : Type} (pre : List α) (x : α) (post : List α) :
    (pre ++ post).insertIdx pre.length x = pre ++ x :: post := by
  induction pre with
  | nil => simp
  | cons a pre ih => simpa using ih

end Kdl
