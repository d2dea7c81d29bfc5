import Verif.Lemmas.Entries
import Verif.Model.Display
/-
Properties of equality, hashing and ordering: C25, C26, C27.
-/

namespace Kdl
open Spec

/-! ### Floats -/

theorem max_finite : F64.max.isFinite = true := by decide
theorem negMax_finite : F64.negMax.isFinite = true := by decide
theorem zero_finite : F64.zero.isFinite = true := by decide

theorem F64.not_nan_inf {x : F64} (h : x.isFinite = true) : x.isNan = false ∧ x.isInf = false := by
  unfold F64.isFinite at h; unfold F64.isNan F64.isInf
  have : (x.expo == 2047) = false := by simpa using h
  simp [this]

theorem F64.feq_finite {x y : F64} (hx : x.isFinite = true) (hy : y.isFinite = true) :
    x.feq y = true ↔ x.scaled = y.scaled := by
  simp [F64.feq, (F64.not_nan_inf hx).1, (F64.not_nan_inf hx).2, (F64.not_nan_inf hy).1,
    (F64.not_nan_inf hy).2]

theorem F64.cases3 (x : F64) : x.isFinite = true ∨ x.isNan = true ∨ x.isInf = true := by
  unfold F64.isFinite F64.isNan F64.isInf
  by_cases h : x.expo = 2047
  · by_cases h' : x.mant = 0
    · right; right; simp [h, h']
    · right; left; simp [h, h']
  · left; simp [h]

theorem F64.inf_props : F64.inf.isNan = false ∧ F64.inf.isInf = true ∧ F64.inf.neg = false := by
  decide
theorem F64.negInf_props :
    F64.negInf.isNan = false ∧ F64.negInf.isInf = true ∧ F64.negInf.neg = true := by decide

/-- What `normalize_float` does, by kind of float. -/
theorem normalize_cases (x : F64) :
    (x.isFinite = true ∧ normalizeFloat x = x) ∨ (x.isNan = true ∧ normalizeFloat x = F64.zero) ∨
    (x.isInf = true ∧ x.isNan = false ∧
      normalizeFloat x = if x.neg then F64.negMax else F64.max) := by
  have hi := F64.inf_props
  have hn := F64.negInf_props
  rcases F64.cases3 x with h | h | h
  · left; refine ⟨h, ?_⟩
    have := F64.not_nan_inf h
    simp [normalizeFloat, F64.feq, this.1, this.2, hi, hn]
  · right; left; refine ⟨h, ?_⟩
    simp [normalizeFloat, F64.feq, h]
  · right; right
    have hnn : x.isNan = false := by
      unfold F64.isInf at h; unfold F64.isNan
      simp only [Bool.and_eq_true, beq_iff_eq] at h; simp [h.2]
    refine ⟨h, hnn, ?_⟩
    cases hx : x.neg <;> simp [normalizeFloat, F64.feq, hnn, h, hi, hn, hx]

theorem normalize_finite (x : F64) : (normalizeFloat x).isFinite = true := by
  rcases normalize_cases x with ⟨h, e⟩ | ⟨_, e⟩ | ⟨_, _, e⟩
  · rw [e, h]
  · rw [e]; decide
  · rw [e]; split <;> decide

/-! ### C25, values -/

theorem Value.eq_refl (a : Value) : a.eq a = true := by
  cases a <;> simp [Value.eq]
  rw [F64.feq_finite (normalize_finite _) (normalize_finite _)]

theorem Value.eq_symm {a b : Value} (h : a.eq b = true) : b.eq a = true := by
  cases a <;> cases b <;> simp_all [Value.eq]
  rw [F64.feq_finite (normalize_finite _) (normalize_finite _)] at *
  exact h.symm

theorem Value.eq_trans {a b c : Value} (h : a.eq b = true) (h' : b.eq c = true) :
    a.eq c = true := by
  cases a <;> cases b <;> cases c <;> simp_all [Value.eq]
  rw [F64.feq_finite (normalize_finite _) (normalize_finite _)] at *
  exact h.trans h'

theorem Value.eq_hash {a b : Value} (h : a.eq b = true) : a.hash = b.hash := by
  cases a <;> cases b <;> simp_all [Value.eq, Value.hash]
  rw [F64.feq_finite (normalize_finite _) (normalize_finite _)] at h
  simp [truncI128, h]

/-! ### Identifiers and entries -/

theorem Ident.eq_iff (a b : Ident) : a.eq b = true ↔ a.value = b.value ∧ a.repr = b.repr := by
  simp [Ident.eq]

theorem Ident.eq_hash {a b : Ident} (h : a.eq b = true) : a.hash = b.hash := by
  rw [Ident.eq_iff] at h; simp [Ident.hash, h]

theorem optIdent_refl (a : Option Ident) : optIdentEq a a = true := by
  cases a <;> simp [optIdentEq, Ident.eq]
theorem optIdent_symm {a b : Option Ident} (h : optIdentEq a b = true) : optIdentEq b a = true := by
  cases a <;> cases b <;> simp_all [optIdentEq, Ident.eq]
theorem optIdent_trans {a b c : Option Ident} (h : optIdentEq a b = true)
    (h' : optIdentEq b c = true) : optIdentEq a c = true := by
  cases a <;> cases b <;> cases c <;> simp_all [optIdentEq, Ident.eq]
theorem optIdent_hash {a b : Option Ident} (h : optIdentEq a b = true) :
    optHash Ident.hash a = optHash Ident.hash b := by
  cases a <;> cases b <;> simp_all [optIdentEq, optHash]
  exact Ident.eq_hash h

theorem Entry.eq_iff (a b : Entry) : a.eq b = true ↔ optIdentEq a.ty b.ty = true ∧
    a.value.eq b.value = true ∧ optIdentEq a.name b.name = true ∧ a.format = b.format := by
  simp [Entry.eq, and_assoc]

theorem Entry.eq_refl (a : Entry) : a.eq a = true := by
  rw [Entry.eq_iff]; exact ⟨optIdent_refl _, Value.eq_refl _, optIdent_refl _, rfl⟩
theorem Entry.eq_symm {a b : Entry} (h : a.eq b = true) : b.eq a = true := by
  rw [Entry.eq_iff] at *
  exact ⟨optIdent_symm h.1, Value.eq_symm h.2.1, optIdent_symm h.2.2.1, h.2.2.2.symm⟩
theorem Entry.eq_trans {a b c : Entry} (h : a.eq b = true) (h' : b.eq c = true) :
    a.eq c = true := by
  rw [Entry.eq_iff] at *
  exact ⟨optIdent_trans h.1 h'.1, Value.eq_trans h.2.1 h'.2.1, optIdent_trans h.2.2.1 h'.2.2.1,
    h.2.2.2.trans h'.2.2.2⟩
theorem Entry.eq_hash {a b : Entry} (h : a.eq b = true) : a.hash = b.hash := by
  rw [Entry.eq_iff] at h
  simp [Entry.hash, optIdent_hash h.1, Value.eq_hash h.2.1, optIdent_hash h.2.2.1, h.2.2.2]

theorem entriesEq_refl (a : List Entry) : entriesEq a a = true := by
  induction a <;> simp_all [entriesEq, Entry.eq_refl]
theorem entriesEq_symm {a b : List Entry} (h : entriesEq a b = true) : entriesEq b a = true := by
  induction a generalizing b with
  | nil => cases b <;> simp_all [entriesEq]
  | cons x a ih =>
    cases b with
    | nil => simp [entriesEq] at h
    | cons y b =>
      simp only [entriesEq, Bool.and_eq_true] at *
      exact ⟨Entry.eq_symm h.1, ih h.2⟩
theorem entriesEq_trans {a b c : List Entry} (h : entriesEq a b = true)
    (h' : entriesEq b c = true) : entriesEq a c = true := by
  induction a generalizing b c with
  | nil => cases b <;> cases c <;> simp_all [entriesEq]
  | cons x a ih =>
    cases b with
    | nil => simp [entriesEq] at h
    | cons y b =>
      cases c with
      | nil => simp [entriesEq] at h'
      | cons z c =>
        simp only [entriesEq, Bool.and_eq_true] at *
        exact ⟨Entry.eq_trans h.1 h'.1, ih h.2 h'.2⟩
theorem entriesEq_hash {a b : List Entry} (h : entriesEq a b = true) :
    a.length = b.length ∧ entriesHash a = entriesHash b := by
  induction a generalizing b with
  | nil => cases b <;> simp_all [entriesEq]
  | cons x a ih =>
    cases b with
    | nil => simp [entriesEq] at h
    | cons y b =>
      simp only [entriesEq, Bool.and_eq_true] at *
      simp [entriesHash, Entry.eq_hash h.1, ih h.2]

/-! ### Nodes and documents -/

mutual
theorem Node.eq_refl : ∀ a : Node, a.eq a = true
  | .mk t n e c f s => by
    simp [Node.eq, optIdent_refl, entriesEq_refl, optDocEq_refl c, Ident.eq]
theorem optDocEq_refl : ∀ a : Option Document, optDocEq a a = true
  | none => by simp [optDocEq]
  | some d => by simp [optDocEq, Document.eq_refl d]
theorem Document.eq_refl : ∀ a : Document, a.eq a = true
  | .mk n f s => by simp [Document.eq, nodesEq_refl n]
theorem nodesEq_refl : ∀ a : List Node, nodesEq a a = true
  | [] => by simp [nodesEq]
  | n :: ns => by simp [nodesEq, Node.eq_refl n, nodesEq_refl ns]
end

mutual
theorem Node.eq_symm : ∀ (a b : Node), a.eq b = true → b.eq a = true
  | .mk t n e c f s, .mk t' n' e' c' f' s' => by
    intro h
    simp only [Node.eq, Bool.and_eq_true, beq_iff_eq] at *
    obtain ⟨⟨⟨⟨h1, h2⟩, h3⟩, h4⟩, h5⟩ := h
    refine ⟨⟨⟨⟨optIdent_symm h1, ?_⟩, entriesEq_symm h3⟩, optDocEq_symm _ _ h4⟩, h5.symm⟩
    rw [Ident.eq_iff] at *; exact ⟨h2.1.symm, h2.2.symm⟩
theorem optDocEq_symm : ∀ (a b : Option Document), optDocEq a b = true → optDocEq b a = true
  | none, none => fun h => h
  | none, some _ => by simp [optDocEq]
  | some _, none => by simp [optDocEq]
  | some a, some b => by
    intro h; simp only [optDocEq] at *; exact Document.eq_symm a b h
theorem Document.eq_symm : ∀ (a b : Document), a.eq b = true → b.eq a = true
  | .mk n f s, .mk n' f' s' => by
    intro h
    simp only [Document.eq, Bool.and_eq_true, beq_iff_eq] at *
    exact ⟨nodesEq_symm _ _ h.1, h.2.symm⟩
theorem nodesEq_symm : ∀ (a b : List Node), nodesEq a b = true → nodesEq b a = true
  | [], [] => fun h => h
  | [], _ :: _ => by simp [nodesEq]
  | _ :: _, [] => by simp [nodesEq]
  | a :: as, b :: bs => by
    intro h
    simp only [nodesEq, Bool.and_eq_true] at *
    exact ⟨Node.eq_symm a b h.1, nodesEq_symm as bs h.2⟩
end

mutual
theorem Node.eq_trans : ∀ (a b c : Node), a.eq b = true → b.eq c = true → a.eq c = true
  | .mk t n e c f s, .mk t' n' e' c' f' s', .mk t'' n'' e'' c'' f'' s'' => by
    intro h h'
    simp only [Node.eq, Bool.and_eq_true, beq_iff_eq] at *
    obtain ⟨⟨⟨⟨h1, h2⟩, h3⟩, h4⟩, h5⟩ := h
    obtain ⟨⟨⟨⟨g1, g2⟩, g3⟩, g4⟩, g5⟩ := h'
    refine ⟨⟨⟨⟨optIdent_trans h1 g1, ?_⟩, entriesEq_trans h3 g3⟩, optDocEq_trans _ _ _ h4 g4⟩,
      h5.trans g5⟩
    rw [Ident.eq_iff] at *; exact ⟨h2.1.trans g2.1, h2.2.trans g2.2⟩
theorem optDocEq_trans : ∀ (a b c : Option Document), optDocEq a b = true → optDocEq b c = true →
    optDocEq a c = true
  | none, none, _ => fun _ h => h
  | none, some _, _ => by simp [optDocEq]
  | some _, none, _ => by simp [optDocEq]
  | some _, some _, none => by simp [optDocEq]
  | some a, some b, some c => by
    intro h h'; simp only [optDocEq] at *; exact Document.eq_trans a b c h h'
theorem Document.eq_trans : ∀ (a b c : Document), a.eq b = true → b.eq c = true → a.eq c = true
  | .mk n f s, .mk n' f' s', .mk n'' f'' s'' => by
    intro h h'
    simp only [Document.eq, Bool.and_eq_true, beq_iff_eq] at *
    exact ⟨nodesEq_trans _ _ _ h.1 h'.1, h.2.trans h'.2⟩
theorem nodesEq_trans : ∀ (a b c : List Node), nodesEq a b = true → nodesEq b c = true →
    nodesEq a c = true
  | [], [], _ => fun _ h => h
  | [], _ :: _, _ => by simp [nodesEq]
  | _ :: _, [], _ => by simp [nodesEq]
  | _ :: _, _ :: _, [] => by simp [nodesEq]
  | a :: as, b :: bs, c :: cs => by
    intro h h'
    simp only [nodesEq, Bool.and_eq_true] at *
    exact ⟨Node.eq_trans a b c h.1 h'.1, nodesEq_trans as bs cs h.2 h'.2⟩
end

mutual
theorem Node.eq_hash : ∀ (a b : Node), a.eq b = true → a.hash = b.hash
  | .mk t n e c f s, .mk t' n' e' c' f' s' => by
    intro h
    simp only [Node.eq, Bool.and_eq_true, beq_iff_eq] at *
    obtain ⟨⟨⟨⟨h1, h2⟩, h3⟩, h4⟩, h5⟩ := h
    simp [Node.hash, optIdent_hash h1, Ident.eq_hash h2, entriesEq_hash h3, optDocEq_hash _ _ h4, h5]
theorem optDocEq_hash : ∀ (a b : Option Document), optDocEq a b = true → optDocHash a = optDocHash b
  | none, none => by simp
  | none, some _ => by simp [optDocEq]
  | some _, none => by simp [optDocEq]
  | some a, some b => by
    intro h; simp only [optDocEq] at h; simp [optDocHash, Document.eq_hash a b h]
theorem Document.eq_hash : ∀ (a b : Document), a.eq b = true → a.hash = b.hash
  | .mk n f s, .mk n' f' s' => by
    intro h
    simp only [Document.eq, Bool.and_eq_true, beq_iff_eq] at *
    have := nodesEq_hash _ _ h.1
    simp [Document.hash, this.1, this.2, h.2]
theorem nodesEq_hash : ∀ (a b : List Node), nodesEq a b = true →
    a.length = b.length ∧ nodesHash a = nodesHash b
  | [], [] => by simp
  | [], _ :: _ => by simp [nodesEq]
  | _ :: _, [] => by simp [nodesEq]
  | a :: as, b :: bs => by
    intro h
    simp only [nodesEq, Bool.and_eq_true] at *
    simp [nodesHash, Node.eq_hash a b h.1, nodesEq_hash as bs h.2]
end

/-- The laws that C25 asks of an equality test and a hash. -/
structure Spec.EqHashLaws {α β : Type} (eq : α → α → Bool) (hash : α → List β) : Prop where
  refl : ∀ a, eq a a = true
  symm : ∀ a b, eq a b = true → eq b a = true
  trans : ∀ a b c, eq a b = true → eq b c = true → eq a c = true
  hash : ∀ a b, eq a b = true → hash a = hash b

/-- C25 for `KdlValue`, including NaN and infinities. -/
theorem C25_value : EqHashLaws Value.eq Value.hash :=
  ⟨Value.eq_refl, fun _ _ => Value.eq_symm, fun _ _ _ => Value.eq_trans, fun _ _ => Value.eq_hash⟩
/-- C25 for `KdlIdentifier`. -/
theorem C25_ident : EqHashLaws Ident.eq Ident.hash :=
  ⟨fun a => by simp [Ident.eq], fun a b h => by simp_all [Ident.eq_iff],
   fun a b c h h' => by simp_all [Ident.eq_iff], fun _ _ => Ident.eq_hash⟩
/-- C25 for `KdlEntry`. -/
theorem C25_entry : EqHashLaws Entry.eq Entry.hash :=
  ⟨Entry.eq_refl, fun _ _ => Entry.eq_symm, fun _ _ _ => Entry.eq_trans, fun _ _ => Entry.eq_hash⟩
/-- C25 for `KdlNode`. -/
theorem C25_node : EqHashLaws Node.eq Node.hash :=
  ⟨Node.eq_refl, Node.eq_symm, Node.eq_trans, Node.eq_hash⟩
/-- C25 for `KdlDocument`. -/
theorem C25_document : EqHashLaws Document.eq Document.hash :=
  ⟨Document.eq_refl, Document.eq_symm, Document.eq_trans, Document.eq_hash⟩

/-- Distinct values that compare equal exist, so the laws are not about identity:
a NaN with a payload, NaN and zero. -/
example : (Value.float F64.nan).eq (.float F64.zero) = true ∧ F64.nan ≠ F64.zero := by decide

/-! ### C26 -/

theorem strCmp_eq_iff (a b : Str) : Value.strCmp a b = .eq ↔ a = b := by
  induction a generalizing b with
  | nil => cases b <;> simp [Value.strCmp]
  | cons x a ih =>
    cases b with
    | nil => simp [Value.strCmp]
    | cons y b =>
      simp only [Value.strCmp, List.cons.injEq]
      have hc : x = y ↔ x.toNat = y.toNat := by
        constructor
        · rintro rfl; rfl
        · intro h; exact Char.toNat_inj.mp h
      split
      · rename_i h
        rw [Nat.compare_eq_eq] at h
        rw [ih, hc]; simp [h]
      · rename_i h
        constructor
        · intro h'; exact absurd h' (by simpa using h)
        · rintro ⟨rfl, _⟩; exact absurd (Nat.compare_eq_eq (a := x.toNat).mpr rfl) (by simpa using h)

/-- C26, partial. Full statement: `partial_cmp` is `Equal` exactly when the
values are equal. Missing: NaN, and an infinity compared with the largest finite
float (see the counterexamples below); so the first value is assumed to be
neither a NaN nor an infinity when it is a float, and the same for the second. -/
theorem C26_consistent_partial (a b : Value)
    (ha : ∀ f, a = .float f → f.isFinite = true) (hb : ∀ f, b = .float f → f.isFinite = true) :
    a.partialCmp b = some .eq ↔ a.eq b = true := by
  cases a <;> cases b <;> simp [Value.partialCmp, Value.eq, Value.discr, strCmp_eq_iff]
  · rename_i f g
    have hf := F64.not_nan_inf (ha f rfl)
    have hg := F64.not_nan_inf (hb g rfl)
    have nf : normalizeFloat f = f := by
      rcases normalize_cases f with ⟨_, e⟩ | ⟨h, _⟩ | ⟨h, _⟩
      · exact e
      · simp [hf.1] at h
      · simp [hf.2] at h
    have ng : normalizeFloat g = g := by
      rcases normalize_cases g with ⟨_, e⟩ | ⟨h, _⟩ | ⟨h, _⟩
      · exact e
      · simp [hg.1] at h
      · simp [hg.2] at h
    rw [nf, ng, F64.feq_finite (ha f rfl) (hb g rfl)]
    simp [F64.fcmp, hf, hg]
  · rename_i x y; cases x <;> cases y <;> decide

/-- C26: one direction holds for all values: what compares as `Equal` is equal. -/
theorem C26_equal_implies_eq (a b : Value) (h : a.partialCmp b = some .eq) : a.eq b = true := by
  cases a with
  | float f =>
    cases b with
    | float g =>
      simp only [Value.partialCmp, F64.fcmp] at h
      split at h
      · cases h
      · rename_i hnan
        have hnan : f.isNan = false ∧ g.isNan = false := by simpa using hnan
        split at h
        · rename_i hfi
          split at h
          · rename_i hgi
            simp only [Bool.and_eq_true, beq_iff_eq] at hgi
            simp only [Value.eq]
            rcases normalize_cases f with ⟨h1, _⟩ | ⟨h1, _⟩ | ⟨_, _, e⟩
            · simp [(F64.not_nan_inf h1).2] at hfi
            · simp [hnan.1] at h1
            · rcases normalize_cases g with ⟨h1, _⟩ | ⟨h1, _⟩ | ⟨_, _, e'⟩
              · simp [(F64.not_nan_inf h1).2] at hgi
              · simp [hnan.2] at h1
              · rw [e, e', hgi.2]; split <;> decide +kernel
          · split at h <;> simp at h
        · split at h
          · split at h <;> simp at h
          · rename_i hfi hgi
            rcases F64.cases3 f with hf | hf | hf
            · rcases F64.cases3 g with hg | hg | hg
              · refine (C26_consistent_partial (.float f) (.float g) ?_ ?_).mp ?_
                · intro x hx; cases hx; exact hf
                · intro x hx; cases hx; exact hg
                · simp [Value.partialCmp, F64.fcmp, hnan, hfi, hgi, h]
              · simp [hnan.2] at hg
              · exact absurd hg hgi
            · simp [hnan.1] at hf
            · exact absurd hf hfi
    | _ => simp [Value.partialCmp, Value.discr] at h
  | _ =>
    refine (C26_consistent_partial _ b ?_ ?_).mp h
    · intro f hf; cases hf
    · intro f hf; subst hf; simp [Value.partialCmp, Value.discr] at h

example : (Value.float F64.max).partialCmp (.float F64.max) = some .eq := by decide +kernel

/-- The number zero. -/
def Spec.F64.IsZero (x : F64) : Prop := x.isFinite = true ∧ x.scaled = 0
/-- The finite number farthest from zero, with the sign of `y`. -/
def Spec.F64.IsMost (x y : F64) : Prop := x.isFinite = true ∧ x.scaled = (if y.neg then F64.negMax else F64.max).scaled

/-- The pairs that are equal but not ordered as equal: a NaN with a NaN or a zero, and an infinity
with the largest finite float of its sign. -/
inductive Spec.Apart : Value → Value → Prop
  | nan {x y : F64} (h : x.isNan = true ∨ y.isNan = true) (hx : x.isNan = true ∨ F64.IsZero x)
      (hy : y.isNan = true ∨ F64.IsZero y) : Apart (.float x) (.float y)
  | left {x y : F64} (h : x.isInf = true) (hy : F64.IsMost y x) : Apart (.float x) (.float y)
  | right {x y : F64} (h : y.isInf = true) (hx : F64.IsMost x y) : Apart (.float x) (.float y)

/-- **C26**, the exceptions: ordering and equality of two values disagree exactly if the two are
`Apart`. -/
theorem C26_exact (a b : Value) : (a.partialCmp b = some .eq ↔ a.eq b = true) ↔ ¬ Apart a b := by
  have other (h : ∀ f g, ¬ (a = .float f ∧ b = .float g)) (he : a.partialCmp b = some .eq ↔ a.eq b = true) :
      (a.partialCmp b = some .eq ↔ a.eq b = true) ↔ ¬ Apart a b :=
    iff_of_true he (by rintro ⟨⟩ <;> exact h _ _ ⟨rfl, rfl⟩)
  have z : F64.zero.isFinite = true := by decide +kernel
  have zs : F64.zero.scaled = 0 := by decide +kernel
  have most (x : F64) : (if x.neg then F64.negMax else F64.max).isFinite = true := by
    split <;> decide +kernel
  have most0 (x : F64) : (if x.neg then F64.negMax else F64.max).scaled ≠ 0 := by
    split <;> decide +kernel
  have same (x y : F64) : (if x.neg then F64.negMax else F64.max).scaled =
      (if y.neg then F64.negMax else F64.max).scaled ↔ x.neg = y.neg := by
    cases x.neg <;> cases y.neg <;> decide +kernel
  rcases a with s | i | f | p | _ <;> rcases b with s' | i' | g | p' | _
  case float.float =>
    have eq_iff : (Value.float f).eq (.float g) = F64.feq (normalizeFloat f) (normalizeFloat g) := rfl
    have cmp : (Value.float f).partialCmp (.float g) = F64.fcmp f g := rfl
    have fin (x : F64) : (normalizeFloat x).isFinite = true := by
      rcases normalize_cases x with ⟨h1, e⟩ | ⟨h1, e⟩ | ⟨h1, h2, e⟩ <;> rw [e]
      · exact h1
      · exact z
      · exact most x
    have apart : Apart (.float f) (.float g) ↔
        ((f.isNan = true ∨ g.isNan = true) ∧ (f.isNan = true ∨ F64.IsZero f) ∧ (g.isNan = true ∨ F64.IsZero g)) ∨
        (f.isInf = true ∧ F64.IsMost g f) ∨ (g.isInf = true ∧ F64.IsMost f g) := by
      constructor
      · rintro (⟨h, hx, hy⟩ | ⟨h, hy⟩ | ⟨h, hx⟩)
        · exact .inl ⟨h, hx, hy⟩
        · exact .inr (.inl ⟨h, hy⟩)
        · exact .inr (.inr ⟨h, hx⟩)
      · rintro (⟨h, hx, hy⟩ | ⟨h, hy⟩ | ⟨h, hx⟩)
        · exact .nan h hx hy
        · exact .left h hy
        · exact .right h hx
    rw [eq_iff, cmp, F64.feq_finite (fin f) (fin g), apart]
    have nonfin {x : F64} (h : x.isNan = true ∨ x.isInf = true) : x.isFinite = false := by
      cases hx : x.isFinite with
      | false => rfl
      | true => rcases h with h | h <;> simp [F64.not_nan_inf hx] at h
    have naninf {x : F64} (h : x.isNan = true) : x.isInf = false := by
      cases hx : x.isInf with
      | false => rfl
      | true => simp_all [F64.isNan, F64.isInf]
    unfold F64.IsZero F64.IsMost F64.fcmp
    rcases normalize_cases f with ⟨h1, e⟩ | ⟨h1, e⟩ | ⟨h1, h1', e⟩ <;>
    rcases normalize_cases g with ⟨k1, e'⟩ | ⟨k1, e'⟩ | ⟨k1, k1', e'⟩ <;> rw [e, e']
    · simp [F64.not_nan_inf h1, F64.not_nan_inf k1, Std.LawfulEqCmp.compare_eq_iff_eq]
    · simp [F64.not_nan_inf h1, k1, nonfin (.inl k1), naninf k1, zs, h1]
    · simp only [F64.not_nan_inf h1, k1, k1', nonfin (.inr k1), h1]
      cases g.neg <;> simp
    · simp [F64.not_nan_inf k1, h1, nonfin (.inl h1), naninf h1, zs, k1, eq_comm (a := (0 : Int))]
    · simp [h1, k1]
    · simp [h1, k1, k1', zs, nonfin (.inr k1), nonfin (.inl h1), naninf h1]
      exact (most0 g).symm
    · simp only [F64.not_nan_inf k1, h1, h1', nonfin (.inr h1), k1]
      cases f.neg <;> simp [eq_comm (b := F64.scaled g)]
    · simp [h1, h1', k1, zs, nonfin (.inl k1), nonfin (.inr h1), naninf k1]
      exact most0 f
    · simp only [same, h1, k1, h1', k1', nonfin (.inr h1), nonfin (.inr k1)]
      cases f.neg <;> cases g.neg <;> simp
  all_goals
    refine other (by rintro _ _ ⟨⟨⟩, ⟨⟩⟩) ?_
    first
      | (refine ⟨C26_equal_implies_eq _ _, fun he => ?_⟩; simp [Value.eq] at he; done)
      | exact C26_consistent_partial _ _ (by rintro _ ⟨⟩) (by rintro _ ⟨⟩)

example : Apart (.float F64.negMax) (.float F64.negInf) ∧ ¬ Apart (.float F64.max) (.float F64.negInf) := by
  constructor
  · exact .right (by decide +kernel) ⟨by decide +kernel, by decide +kernel⟩
  · rintro (⟨h, -, -⟩ | ⟨h, -⟩ | ⟨-, -, h⟩)
    · revert h; decide +kernel
    · revert h; decide +kernel
    · revert h; decide +kernel

/-- C26 is violated: NaN equals itself, and equals zero, but is not ordered. -/
theorem C26_violated_nan :
    ∃ a b : Value, a.eq b = true ∧ a.partialCmp b = none ∧ a.partialCmp a = none :=
  ⟨.float F64.nan, .float F64.zero, by decide, by decide, by decide⟩

/-- C26 is violated: infinity equals the largest finite float but compares as
greater. -/
theorem C26_violated_inf : ∃ a b : Value, a.eq b = true ∧ a.partialCmp b = some .gt :=
  ⟨.float F64.inf, .float F64.max, by decide +kernel, by decide +kernel⟩

/-! ### C27 -/

/-- The same identifier with span zero. -/
def Spec.Ident.noSpan (i : Ident) : Ident := { i with span := .zero }
/-- The same entry with all spans zero. -/
def Spec.Entry.noSpan (e : Entry) : Entry :=
  { e with ty := e.ty.map Ident.noSpan, name := e.name.map Ident.noSpan, span := .zero }

mutual
/-- The same node with all spans zero. -/
def Spec.Node.noSpan : Node → Node
  | .mk t n e c f _ =>
    .mk (t.map Ident.noSpan) (Ident.noSpan n) (e.map Entry.noSpan) (optDocNoSpan c) f .zero
/-- The same children with all spans zero. -/
def Spec.optDocNoSpan : Option Document → Option Document
  | none => none
  | some d => some (Document.noSpan d)
/-- The same document with all spans zero. -/
def Spec.Document.noSpan : Document → Document
  | .mk n f _ => .mk (nodesNoSpan n) f .zero
/-- The same nodes with all spans zero. -/
def Spec.nodesNoSpan : List Node → List Node
  | [] => []
  | n :: ns => Node.noSpan n :: nodesNoSpan ns
end

theorem optIdentEq_noSpan (a b : Option Ident) :
    optIdentEq (a.map Spec.Ident.noSpan) (b.map Spec.Ident.noSpan) = optIdentEq a b := by
  cases a <;> cases b <;> rfl

theorem Entry.eq_noSpan (a b : Entry) : (Spec.Entry.noSpan a).eq (Spec.Entry.noSpan b) = a.eq b := by
  simp [Entry.eq, Spec.Entry.noSpan, optIdentEq_noSpan]

theorem entriesEq_noSpan (a b : List Entry) :
    entriesEq (a.map Spec.Entry.noSpan) (b.map Spec.Entry.noSpan) = entriesEq a b := by
  induction a generalizing b with
  | nil => cases b <;> rfl
  | cons x a ih => cases b <;> simp [entriesEq, Entry.eq_noSpan, ih]

mutual
theorem Node.eq_noSpan : ∀ a b : Node, (Spec.Node.noSpan a).eq (Spec.Node.noSpan b) = a.eq b
  | .mk t n e c f s, .mk t' n' e' c' f' s' => by
    simp only [Spec.Node.noSpan, Node.eq, optIdentEq_noSpan, entriesEq_noSpan,
      optDocEq_noSpan c c', Ident.eq, Spec.Ident.noSpan]
theorem optDocEq_noSpan : ∀ a b : Option Document,
    optDocEq (optDocNoSpan a) (optDocNoSpan b) = optDocEq a b
  | none, none => rfl
  | none, some _ => by simp [optDocNoSpan, optDocEq]
  | some _, none => by simp [optDocNoSpan, optDocEq]
  | some a, some b => by simp only [optDocNoSpan, optDocEq, Document.eq_noSpan a b]
theorem Document.eq_noSpan : ∀ a b : Document,
    (Spec.Document.noSpan a).eq (Spec.Document.noSpan b) = a.eq b
  | .mk n f s, .mk n' f' s' => by
    simp only [Spec.Document.noSpan, Document.eq, nodesEq_noSpan n n']
theorem nodesEq_noSpan : ∀ a b : List Node, nodesEq (nodesNoSpan a) (nodesNoSpan b) = nodesEq a b
  | [], [] => rfl
  | [], _ :: _ => by simp [nodesNoSpan, nodesEq]
  | _ :: _, [] => by simp [nodesNoSpan, nodesEq]
  | a :: as, b :: bs => by
    simp only [nodesNoSpan, nodesEq, Node.eq_noSpan a b, nodesEq_noSpan as bs]
end

/-- C27: spans have no influence on equality, at any level of a document. -/
theorem C27_spans_ignored (a a' b b' : Document)
    (ha : Spec.Document.noSpan a = Spec.Document.noSpan a')
    (hb : Spec.Document.noSpan b = Spec.Document.noSpan b') : a.eq b = a'.eq b' := by
  rw [← Document.eq_noSpan a b, ← Document.eq_noSpan a' b', ha, hb]

/-- C27 for nodes. -/
theorem C27_node_spans_ignored (a a' b b' : Node)
    (ha : Spec.Node.noSpan a = Spec.Node.noSpan a')
    (hb : Spec.Node.noSpan b = Spec.Node.noSpan b') : a.eq b = a'.eq b' := by
  rw [← Node.eq_noSpan a b, ← Node.eq_noSpan a' b', ha, hb]

/-- C27 for entries. -/
theorem C27_entry_spans_ignored (a a' b b' : Entry)
    (ha : Spec.Entry.noSpan a = Spec.Entry.noSpan a')
    (hb : Spec.Entry.noSpan b = Spec.Entry.noSpan b') : a.eq b = a'.eq b' := by
  rw [← Entry.eq_noSpan a b, ← Entry.eq_noSpan a' b', ha, hb]

example : Spec.Document.noSpan (.mk [.mk none (.ofStr ['a']) [.new .null] none none ⟨1, 2⟩] none ⟨0, 9⟩) =
    Spec.Document.noSpan (.mk [.mk none ⟨['a'], none, ⟨3, 1⟩⟩ [.new .null] none none .zero] none .zero) := rfl

section
variable [FloatIO]

/-- The value prints the same as every value equal to it, or the entry prints a
stored representation. -/
def Spec.PrintsStable (e : Entry) : Prop :=
  e.format ≠ none ∨ ∀ v, e.value.eq v = true → e.value.display = v.display

mutual
/-- All entries of the node print stably. -/
def Spec.NodeStable : Node → Prop
  | .mk _ _ e c _ _ => (∀ x ∈ e, PrintsStable x) ∧ OptDocStable c
/-- All entries of the children print stably. -/
def Spec.OptDocStable : Option Document → Prop
  | none => True
  | some d => DocStable d
/-- All entries of the document print stably. -/
def Spec.DocStable : Document → Prop
  | .mk n _ _ => NodesStable n
/-- All entries of the nodes print stably. -/
def Spec.NodesStable : List Node → Prop
  | [] => True
  | n :: ns => NodeStable n ∧ NodesStable ns
end

omit [FloatIO] in
theorem optIdentEq_iff (a b : Option Ident) : optIdentEq a b = true ↔
    a.map (fun i => (i.value, i.repr)) = b.map (fun i => (i.value, i.repr)) := by
  cases a <;> cases b <;> simp [optIdentEq, Ident.eq]

theorem Ident.display_congr {a b : Ident} (h : a.value = b.value) (h' : a.repr = b.repr) :
    a.display = b.display := by simp [Ident.display, h, h']

theorem Entry.display_eq {a b : Entry} (h : a.eq b = true) (hs : PrintsStable a) :
    a.display = b.display := by
  rw [Entry.eq_iff] at h
  obtain ⟨h1, h2, h3, h4⟩ := h
  have ht : a.displayTy = b.displayTy := by
    unfold Entry.displayTy
    rw [h4]
    revert h1
    cases a.ty <;> cases b.ty <;> intro h1
    · rfl
    · simp [optIdentEq] at h1
    · simp [optIdentEq] at h1
    · simp only [optIdentEq] at h1
      rw [Ident.eq_iff] at h1; simp only [Ident.display_congr h1.1 h1.2]
  have hk : a.displayKey = b.displayKey := by
    unfold Entry.displayKey
    rw [h4]
    revert h3
    cases a.name <;> cases b.name <;> intro h1
    · rfl
    · simp [optIdentEq] at h1
    · simp [optIdentEq] at h1
    · simp only [optIdentEq] at h1
      rw [Ident.eq_iff] at h1; simp only [Ident.display_congr h1.1 h1.2]
  have hv : a.format = none → a.value.display = b.value.display := by
    intro hn
    rcases hs with hs | hs
    · exact absurd hn hs
    · exact hs _ h2
  unfold Entry.display
  rw [ht, hk, ← h4]
  cases hf : a.format with
  | none => simp [hv hf]
  | some f => rfl

theorem displayEntries_eq {a b : List Entry} (h : entriesEq a b = true)
    (hs : ∀ x ∈ a, PrintsStable x) :
    displayEntries a = displayEntries b ∧ spaceBeforeChildren a = spaceBeforeChildren b := by
  induction a generalizing b with
  | nil => cases b <;> simp_all [entriesEq]
  | cons x a ih =>
    cases b with
    | nil => simp [entriesEq] at h
    | cons y b =>
      simp only [entriesEq, Bool.and_eq_true] at h
      have hf : x.format = y.format := ((Entry.eq_iff x y).mp h.1).2.2.2
      have := ih h.2 (fun e he => hs e (by simp [he]))
      refine ⟨by simp [displayEntries, Entry.display_eq h.1 (hs x (by simp)), this.1, hf], ?_⟩
      have h2 := this.2
      revert h2
      cases a <;> cases b <;> simp_all [spaceBeforeChildren, entriesEq, List.getLast?_cons]

mutual
theorem Node.stringify_eq : ∀ (a b : Node) (k : Nat), a.eq b = true → NodeStable a →
    a.stringify k = b.stringify k
  | .mk t n e c f s, .mk t' n' e' c' f' s', k => by
    intro h hs
    simp only [Node.eq, Bool.and_eq_true, beq_iff_eq] at h
    obtain ⟨⟨⟨⟨h1, h2⟩, h3⟩, h4⟩, h5⟩ := h
    simp only [NodeStable] at hs
    have hE := displayEntries_eq h3 hs.1
    rw [Ident.eq_iff] at h2
    subst h5
    simp only [Node.stringify, hE.1, hE.2, Ident.display_congr h2.1 h2.2]
    rw [childrenStringify_eq c c' _ k h4 hs.2]
    revert h1
    cases t <;> cases t' <;> intro h1
    · rfl
    · simp [optIdentEq] at h1
    · simp [optIdentEq] at h1
    · simp only [optIdentEq] at h1
      rw [Ident.eq_iff] at h1; simp only [Ident.display_congr h1.1 h1.2]
theorem childrenStringify_eq : ∀ (a b : Option Document) (before : Str) (k : Nat),
    optDocEq a b = true → OptDocStable a →
    childrenStringify a before k = childrenStringify b before k
  | none, none, _, _ => fun _ _ => rfl
  | none, some _, _, _ => by simp [optDocEq]
  | some _, none, _, _ => by simp [optDocEq]
  | some a, some b, before, k => by
    intro h hs
    simp only [optDocEq] at h
    simp only [OptDocStable] at hs
    have hf : a.format = b.format := by
      cases a; cases b; simp only [Document.eq, Bool.and_eq_true, beq_iff_eq] at h; exact h.2
    simp only [childrenStringify, Document.stringify_eq a b (k + 4) h hs, hf]
theorem Document.stringify_eq : ∀ (a b : Document) (k : Nat), a.eq b = true → DocStable a →
    a.stringify k = b.stringify k
  | .mk n f s, .mk n' f' s', k => by
    intro h hs
    simp only [Document.eq, Bool.and_eq_true, beq_iff_eq] at h
    simp only [DocStable] at hs
    simp only [Document.stringify, nodesStringify_eq n n' k h.1 hs, h.2]
theorem nodesStringify_eq : ∀ (a b : List Node) (k : Nat), nodesEq a b = true → NodesStable a →
    nodesStringify a k = nodesStringify b k
  | [], [], _ => fun _ _ => rfl
  | [], _ :: _, _ => by simp [nodesEq]
  | _ :: _, [], _ => by simp [nodesEq]
  | a :: as, b :: bs, k => by
    intro h hs
    simp only [nodesEq, Bool.and_eq_true] at h
    simp only [NodesStable] at hs
    simp only [nodesStringify, Node.stringify_eq a b k h.1 hs.1, nodesStringify_eq as bs k h.2 hs.2]
end

/-- C27: documents that compare equal print the same text, when the values that
are printed from scratch print the same as all values equal to them. -/
theorem C27_equal_prints_equal (a b : Document) (h : a.eq b = true) (hs : DocStable a) :
    a.display = b.display := Document.stringify_eq a b 0 h hs

/-- C27: the condition holds for every value that is not a float. -/
theorem C27_non_floats_stable (e : Entry) (h : ∀ f, e.value ≠ .float f) : PrintsStable e := by
  right
  intro v hv
  cases hval : e.value with
  | float f => exact absurd hval (h f)
  | _ => rw [hval] at hv; cases v <;> simp_all [Value.eq, Value.display]

/-- C27: the condition holds for parsed entries, which carry their text. -/
theorem C27_formatted_stable (e : Entry) (h : e.format ≠ none) : PrintsStable e := Or.inl h

/-- The condition is needed: infinity and the largest float are equal but print
differently. -/
theorem C27_float_condition_needed (hshow : FloatIO.showFinite F64.max ≠ "#inf".toList) :
    ∃ a b : Value, a.eq b = true ∧ a.display ≠ b.display := by
  refine ⟨.float F64.max, .float F64.inf, by decide +kernel, ?_⟩
  have h1 : F64.max.feq F64.inf = false := by decide
  have h2 : F64.max.feq F64.negInf = false := by decide
  have h3 : F64.max.isNan = false := by decide
  have h4 : F64.inf.feq F64.inf = true := by decide
  simpa [Value.display, h1, h2, h3, h4] using hshow
end

end Kdl
