import Verif.Lemmas.FloatRead
import Verif.Props.Serde
import Verif.Model.FloatCast
/-
C59: reading numbers into `f64`.
-/

namespace Kdl.Spec

/-- The value held by a deserializer: that value, or a node with that value as its only argument and
nothing else. -/
inductive HoldsValue : Src → Value → Prop
  | value (v : Value) : HoldsValue (.value v) v
  | node (ty : Option Str) (name : Str) (ety : Option Str) (v : Value) :
      HoldsValue (.node (.mk ty name [⟨ety, none, v⟩] none)) v

end Kdl.Spec

namespace Kdl
open Spec

attribute [local instance] rustFloatCast

theorem event_float {v : Value} {x : F64} (h : v.event = .f64 x) : v = .float x := by
  cases v with
  | integer n =>
    simp only [Value.event] at h
    split at h
    · cases h
    · split at h <;> cases h
  | float y => cases h; rfl
  | string s => cases h
  | bool b => cases h
  | null => cases h

theorem DNode.any_float {n : DNode} {x : F64} (h : n.any = .f64 x) :
    ∃ e, n.scalar = some e ∧ e.value.event = .f64 x := by
  unfold DNode.any at h
  split at h
  · cases h
  · split at h
    · next e he => exact ⟨e, he, h⟩
    · split at h <;> cases h

theorem request_float {s : Src} {x : F64} (h : s.request .scalar = some (.f64 x)) : HoldsValue s (.float x) := by
  have hnode : ∀ {n : DNode} {e : DEntry}, n.scalar = some e → e.value.event = .f64 x →
      HoldsValue (.node n) (.float x) := by
    intro n e he hv
    obtain ⟨ty, name, rfl, hname⟩ := DNode.scalar_inv he
    obtain ⟨ety, nm, v⟩ := e
    cases hname
    obtain rfl := event_float hv
    exact .node ty name ety _
  cases s with
  | doc ns => cases h
  | node n =>
    change n.request .scalar = some _ at h
    unfold DNode.request at h
    cases hs : n.scalar with
    | some e =>
      simp only [hs] at h
      exact hnode hs (Option.some.inj h)
    | none =>
      simp only [hs] at h
      obtain ⟨e, he, hv⟩ := DNode.any_float (Option.some.inj h)
      exact hnode he hv
  | group ns => cases h
  | value v =>
    obtain rfl := event_float (Option.some.inj h)
    exact .value _
  | ident s => cases h
  | args es => cases h
  | omitted => cases h

theorem holds_request {s : Src} {v : Value} (h : HoldsValue s v) : s.request .scalar = some v.event := by
  cases h with
  | value => rfl
  | node => rfl

theorem de_f64 {s : Src} {v : Value} (h : HoldsValue s v) : de .f64 s = visitF64 v.event := by
  rw [de, holds_request h]
  rfl

/-- **C59** (floats). A float is read into an `f64` unchanged. -/
theorem C59_float {s : Src} {x : F64} (h : HoldsValue s (.float x)) : de .f64 s = some (.f64 x) := by
  rw [de_f64 h]
  rfl

/-- **C59** (integers). An integer that fits `i64` or `u64` is read into an `f64` as the float nearest
to it. Other integers are an error. -/
theorem C59_integer {s : Src} {i : I128} (h : HoldsValue s (.integer i)) :
    (-(2 ^ 63) ≤ i.1 ∧ i.1 < 2 ^ 64 → ∃ x, de .f64 s = some (.f64 x) ∧ x.neg = decide (i.1 < 0) ∧
      NearestFloat i.1.natAbs 0 x) ∧
    (¬ (-(2 ^ 63) ≤ i.1 ∧ i.1 < 2 ^ 64) → de .f64 s = none) := by
  rw [de_f64 h]
  constructor
  · intro hr
    refine ⟨castFloat i.1, ?_, (signedBits_bits _ _ _).1, nearestFloat_signed _ _ _⟩
    rcases event_of_int i hr with e | e <;> rw [e] <;> rfl
  · intro hr
    have e : (Value.integer i).event = .i128 i.1 := by
      unfold Value.event
      dsimp only
      rw [if_neg (by omega), if_neg (by omega)]
    rw [e]
    rfl

/-- **C59** (nothing else). Whatever is read into an `f64` is a float or an integer. -/
theorem C59_only_numbers {s : Src} {y : SVal} (h : de .f64 s = some y) :
    ∃ v, HoldsValue s v ∧ ((∃ x, v = .float x) ∨ ∃ i, v = .integer i) := by
  rw [de] at h
  obtain ⟨e, he, hv⟩ := Option.bind_eq_some_iff.mp h
  have hcase : (∃ x, e = .f64 x) ∨ ∃ i, e = .i64 i ∨ e = .u64 i := by
    unfold visitF64 at hv
    split at hv
    · exact Or.inl ⟨_, rfl⟩
    · exact Or.inr ⟨_, Or.inl rfl⟩
    · exact Or.inr ⟨_, Or.inr rfl⟩
    · cases hv
  rcases hcase with ⟨x, rfl⟩ | ⟨i, hi⟩
  · exact ⟨_, request_float he, Or.inl ⟨x, rfl⟩⟩
  · have := request_int he hi
    cases this with
    | value k => exact ⟨_, .value _, Or.inr ⟨_, rfl⟩⟩
    | node ty name ety k => exact ⟨_, .node _ _ _ _, Or.inr ⟨_, rfl⟩⟩

/-- `a 9007199254740993` is read as `9007199254740992.0`. -/
example : de .f64 (.node (.mk none ['a'] [⟨none, none, .integer ⟨9007199254740993, by decide⟩⟩] none)) =
    some (.f64 ⟨⟨0x4340000000000000, by decide⟩⟩) := by
  rw [de_f64 (.node _ _ _ _)]
  show some (SVal.f64 (castFloat 9007199254740993)) = _
  exact congrArg (some ∘ SVal.f64) (by decide +kernel)

end Kdl
