import Verif.Lemmas.Leaves
/-
What the serializers lose: a document for a value that is not `FaithfulDoc` states less than
the value. `weight` counts every fact with the length of its path, so that it also drops when a
fact moves to an outer node.
-/

namespace Kdl

open Spec

/-- The facts, each counted with the length of its path. -/
def weight (l : List Fact) : Nat := (l.map fun f => f.path.length + 1).sum

theorem weight_append (a b : List Fact) : weight (a ++ b) = weight a + weight b := by
  simp [weight]

theorem weight_perm {a b : List Fact} (h : a.Perm b) : weight a = weight b := (h.map _).sum_nat

theorem weight_below (k : Str) (l : List Fact) : weight (below k l) = weight l + l.length := by
  induction l with
  | nil => rfl
  | cons f l ih => simp only [weight, below, List.map_cons, List.sum_cons, List.length_cons] at ih ⊢; omega

theorem length_below (k : Str) (l : List Fact) : (below k l).length = l.length := List.length_map _

theorem weight_pos {l : List Fact} (h : l ≠ []) : 0 < weight l := by
  cases l with
  | nil => exact absurd rfl h
  | cons f l => simp only [weight, List.map_cons, List.sum_cons]; omega

/-- The facts `a` are at most `b`, and less if `p`. -/
structure Less (a b : List Fact) (p : Prop) : Prop where
  len : a.length ≤ b.length
  le : weight a ≤ weight b
  lt : p → weight a < weight b

theorem Less.below {a b : List Fact} {p : Prop} (h : Less a b p) (k : Str) : Less (below k a) (below k b) p := by
  obtain ⟨h1, h2, h3⟩ := h
  refine ⟨by rw [length_below, length_below]; exact h1, by rw [weight_below, weight_below]; omega, fun hp => ?_⟩
  have := h3 hp
  rw [weight_below, weight_below]; omega

theorem Less.append {a b c d : List Fact} {p q : Prop} (h : Less a b p) (h' : Less c d q) : Less (a ++ c) (b ++ d) (p ∨ q) := by
  obtain ⟨h1, h2, h3⟩ := h
  obtain ⟨h4, h5, h6⟩ := h'
  refine ⟨by simp only [List.length_append]; omega, by rw [weight_append, weight_append]; omega, ?_⟩
  rintro (hp | hq)
  · have := h3 hp; rw [weight_append, weight_append]; omega
  · have := h6 hq; rw [weight_append, weight_append]; omega

theorem Less.of_perm {a b : List Fact} (h : a.Perm b) : Less a b False := ⟨Nat.le_of_eq h.length_eq, Nat.le_of_eq (weight_perm h), False.elim⟩

theorem Less.trans_perm {a b c : List Fact} {p : Prop} (h : a.Perm b) (h' : Less b c p) : Less a c p :=
  ⟨h.length_eq ▸ h'.len, weight_perm h ▸ h'.le, fun hp => weight_perm h ▸ h'.lt hp⟩

theorem Less.perm_right {a b c : List Fact} {p : Prop} (h : Less a b p) (h' : b.Perm c) : Less a c p :=
  ⟨h'.length_eq ▸ h.len, weight_perm h' ▸ h.le, fun hp => weight_perm h' ▸ h.lt hp⟩

theorem Less.imp {a b : List Fact} {p q : Prop} (h : Less a b p) (hq : q → p) : Less a b q := ⟨h.len, h.le, fun x => h.lt (hq x)⟩

theorem Less.nil {b : List Fact} : Less [] b (b ≠ []) := ⟨by simp, by simp [weight], weight_pos⟩

theorem Less.refl (a : List Fact) : Less a a False := ⟨Nat.le_refl _, Nat.le_refl _, False.elim⟩

/-- `n'` is `n` with facts added, which are at most `l`, and less if `p`. -/
structure Under (n n' : Node) (l : List Fact) (p : Prop) : Prop where
  name : DNode.name (semNode id n') = DNode.name (semNode id n)
  facts : Less (inner (semNode id n')) (inner (semNode id n) ++ l) p

theorem Wrote.under {n n' : Node} {l : List Fact} (h : Wrote n n' l) : Under n n' l False := ⟨h.name, .of_perm h.facts⟩

theorem Under.trans {a b c : Node} {l m : List Fact} {p q : Prop} (h1 : Under a b l p) (h2 : Under b c m q) : Under a c (l ++ m) (p ∨ q) := by
  obtain ⟨n1, f1⟩ := h1
  obtain ⟨n2, f2⟩ := h2
  refine ⟨n2.trans n1, ?_, ?_, ?_⟩
  · have := f1.len; have := f2.len; simp only [List.length_append] at *; omega
  · have := f1.le; have := f2.le; simp only [weight_append] at *; omega
  · have := f1.le; have := f2.le
    rintro (hp | hq)
    · have := f1.lt hp; simp only [weight_append] at *; omega
    · have := f2.lt hq; simp only [weight_append] at *; omega

theorem Under.imp {a b : Node} {l : List Fact} {p q : Prop} (h : Under a b l p) (hq : q → p) : Under a b l q := ⟨h.name, h.facts.imp hq⟩

theorem Under.new {k : Str} {c : Node} {l : List Fact} {p : Prop} (h : Under (.new (.ofStr k)) c l p) :
    DNode.name (semNode id c) = k ∧ Less (inner (semNode id c)) l p := ⟨h.name, h.facts⟩

theorem under_child {n c : Node} {l : List Fact} {p : Prop} (h : Less (below (DNode.name (semNode id c)) (inner (semNode id c))) l p) :
    Under n (n.pushChild c) l p := by
  have := Wrote.child n c
  exact ⟨this.name, .trans_perm this.facts (((Less.refl _).append h).imp Or.inr)⟩

theorem Under.more {a b : Node} {l m : List Fact} {p q : Prop} (h : Under a b l p) (hm : Less l m q) : Under a b m (p ∨ q) := by
  obtain ⟨h1, h2⟩ := h
  refine ⟨h1, ?_, ?_, ?_⟩
  · have := h2.len; have := hm.len; simp only [List.length_append] at *; omega
  · have := h2.le; have := hm.le; simp only [weight_append] at *; omega
  · have := h2.le; have := hm.le
    rintro (hp | hq)
    · have := h2.lt hp; simp only [weight_append] at *; omega
    · have := hm.lt hq; simp only [weight_append] at *; omega

section
variable [FloatKey]

theorem isFlag_faithful : ∀ (v : SVal), isFlag v = true → Faithful v
  | .bool _, _ | .none, _ | .unit, _ | .unitStruct _, _ => by simp [Faithful]
  | .some v, h => by rw [Faithful]; exact isFlag_faithful v h
  | .newtypeStruct v, h => by rw [Faithful]; exact isFlag_faithful v h
  | .int _, h | .int128 _, h | .f64 _, h | .char _, h | .str _, h | .bytes _, h | .unitVariant _, h
  | .newtypeVariant _ _, h | .tupleVariant _ _, h | .map _, h | .seq _, h | .tuple _, h | .tupleStruct _, h
  | .struct _, h | .structVariant _ _, h => by cases h

/-- What is left of a child: nothing if it is left out. -/
def kept (c : Node) : List Fact := if c.skipped then [] else below (DNode.name (semNode id c)) (inner (semNode id c))

/-- The facts of a value under a name, but none for a plain flag. -/
def owed (k : Str) (v : SVal) : List Fact := if isFlag v then [] else below k (leaves v)

/-- A child for a value keeps at most the facts of the value, and less if the value is not
faithful or looks like a flag without being one. -/
theorem kept_less {v : SVal} {k : Str} {c : Node} (hs : serNode v (.new (.ofStr k)) = some c)
    (hu : Under (.new (.ofStr k)) c (leaves v) (¬ Faithful v)) :
    Less (kept c) (owed k v) (¬ (FlagSafe v ∧ Faithful v)) := by
  obtain ⟨h1, h2⟩ := hu.new
  by_cases hF : Faithful v
  · have hw := Wrote.serNode v hs hF
    by_cases hG : FlagSafe v
    · have hk := flagSafe_skipped hG hw
      obtain ⟨h3, h4, _⟩ := hw.new_facts
      unfold kept owed
      rw [hk]
      refine Less.imp (p := False) ?_ (fun h => h ⟨hG, hF⟩)
      cases isFlag v with
      | true => exact Less.refl _
      | false =>
        rw [h3]
        exact Less.of_perm (below_perm k h4)
    · have hfl : flagged (ownArgs (leaves v)) = true := by
        rw [flagged_head]
        exact Classical.byContradiction fun hn => hG fun h => absurd h hn
      have hnf : isFlag v = false := by
        cases hv : isFlag v with
        | false => rfl
        | true => exact absurd (fun _ => hv) hG
      have hsk : c.skipped = true := by
        obtain ⟨_, _, h3⟩ := hw.new_facts
        rw [skipped_args, h3, hfl]
      unfold kept owed
      rw [hsk, hnf]
      refine Less.nil.imp fun _ => ?_
      intro he
      have : leaves v = [] := by simpa [below] using he
      rw [this] at hfl
      cases hfl
  · have hnf : isFlag v = false := by
      cases hv : isFlag v with
      | false => rfl
      | true => exact absurd (isFlag_faithful v hv) hF
    unfold kept owed
    rw [hnf, h1]
    have h3 : Less (below k (inner (semNode id c))) (below k (leaves v)) (¬ Faithful v) := h2.below k
    cases c.skipped with
    | false => exact h3.imp fun _ => hF
    | true =>
      refine Less.nil.imp fun _ he => ?_
      have := h3.lt hF
      rw [if_neg (by simp)] at he
      rw [he] at this
      exact absurd this (by simp [weight])

theorem kept_push {n c : Node} {l : List Fact} {p : Prop} (h : Less (kept c) l p) : Under n (if c.skipped then n else n.pushChild c) l p := by
  unfold kept at h
  cases hc : c.skipped with
  | true =>
    rw [hc] at h
    exact ((Wrote.refl n).under.more h).imp Or.inr
  | false =>
    rw [hc] at h
    exact under_child h

theorem kept_push_ensure {n c : Node} {l : List Fact} {p : Prop} (h : Less (kept c) l p) :
    Under n (if c.skipped then n.ensureChildren else n.pushChild c) l p := by
  unfold kept at h
  cases hc : c.skipped with
  | true =>
    rw [hc] at h
    exact ((Wrote.ensure n).under.more h).imp Or.inr
  | false =>
    rw [hc] at h
    exact under_child h

/-- The facts of a parent and of the struct variant that is to be its child. -/
def together (k : Str) (n : Node) (d : Document) : List Fact := inner (semNode id n) ++ below k (listFacts (semNodes id d.nodes))

theorem kept_pushDoc {k : Str} {n : Node} {d : Document} {c : Node} {l : List Fact} {p : Prop} (h : Less (kept c) l p) :
    Less (together k n (if c.skipped then d else .mk (d.nodes ++ [c]) d.format d.span)) (together k n d ++ below k l) p := by
  unfold kept at h
  cases hc : c.skipped with
  | true =>
    rw [hc] at h
    have := (Less.refl (together k n d)).append (h.below k)
    simp only [if_true, below, List.map_nil, List.append_nil] at this
    exact this.imp Or.inr
  | false =>
    rw [hc] at h
    have := (Less.refl (together k n d)).append (h.below k)
    refine Less.imp (p := False ∨ p) ?_ Or.inr
    simpa [together, semNodes_append, semNodes, listFacts_append, listFacts, nodeFacts_eq, below_append, List.append_assoc,
      Document.nodes] using this

theorem Under.easy {v : SVal} {n n' : Node} (h : Kdl.serNode v n = some n') (hf : Faithful v) : Under n n' (leaves v) (¬ Faithful v) :=
  (Wrote.serNode v h hf).under.imp fun hn => hn hf

mutual
theorem Under.serNode : ∀ (v : SVal) {n n' : Node}, serNode v n = some n' → Under n n' (leaves v) (¬ Faithful v)
  | .bool _, n, n', h | .int _, n, n', h | .int128 _, n, n', h | .f64 _, n, n', h | .char _, n, n', h | .str _, n, n', h
  | .bytes _, n, n', h | .none, n, n', h | .unit, n, n', h | .unitStruct _, n, n', h | .unitVariant _, n, n', h
  | .newtypeVariant _ _, n, n', h | .seq _, n, n', h | .tuple _, n, n', h | .tupleStruct _, n, n', h
  | .tupleVariant _ _, n, n', h => .easy h (by simp [Faithful])
  | .some v, n, n', h => by
    rw [Kdl.serNode] at h; rw [Faithful, leaves]; exact Under.serNode v h
  | .newtypeStruct v, n, n', h => by
    rw [Kdl.serNode] at h; rw [Faithful, leaves]; exact Under.serNode v h
  | .map kvs, n, n', h => by
    rw [Kdl.serNode] at h; rw [Faithful, leaves]; exact Under.serMap kvs h
  | .struct fs, n, n', h => by
    rw [Kdl.serNode] at h; rw [Faithful, leaves]; exact Under.serFields fs h
  | .structVariant k fs, n, n', h => by
    rw [Kdl.serNode] at h
    obtain ⟨r, hr, rfl⟩ := Option.map_eq_some_iff.mp h
    obtain ⟨h1, h2⟩ := serVariantFields_less k fs hr
    rw [Faithful, leaves]
    have h3 := Wrote.child r.1 ((Node.new (.ofStr k)).setChildren r.2)
    refine ⟨h3.name.trans h1, .trans_perm h3.facts ?_⟩
    obtain ⟨m, ⟨ns, f, s⟩⟩ := r
    have e : together k n .new = inner (semNode id n) := by
      simp [together, Document.new, Document.nodes, semNodes, listFacts, below]
    rw [e] at h2
    exact h2
theorem Under.serMap : ∀ (kvs : List (SVal × SVal)) {n n' : Node}, serMap kvs n = some n' → Under n n' (mapLeaves kvs) (¬ FaithfulMap kvs)
  | [], n, n', h => by
    rw [Kdl.serMap] at h; cases h; rw [mapLeaves]
    exact (Wrote.refl n).under.imp fun h => h (by simp [FaithfulMap])
  | (k, v) :: kvs, n, n', h => by
    rw [Kdl.serMap] at h
    obtain ⟨key, hk, h⟩ := Option.bind_eq_some_iff.mp h
    obtain ⟨c, hc, h⟩ := Option.bind_eq_some_iff.mp h
    have hl := kept_less hc (Under.serNode v hc)
    rw [mapLeaves, hk, FaithfulMap]
    refine Under.imp (p := ¬ (FlagSafe v ∧ Faithful v) ∨ ¬ FaithfulMap kvs) ?_ (fun h => Classical.not_and_iff_not_or_not.mp h)
    exact Under.trans (kept_push (n := n) hl) (Under.serMap kvs h)
theorem Under.serFields : ∀ (fs : List (Str × SVal)) {n n' : Node}, serFields fs n = some n' → Under n n' (fieldLeaves fs) (¬ FaithfulFields fs)
  | [], n, n', h => by
    rw [Kdl.serFields] at h; cases h; rw [fieldLeaves]
    exact (Wrote.refl n).under.imp fun h => h (by simp [FaithfulFields])
  | (k, v) :: fs, n, n', h => by
    rw [Kdl.serFields] at h
    have hp := fieldKind_place (k := k) (leaves v)
    rw [fieldLeaves, FaithfulFields]
    have hash : k.head? = some '#' → ∀ {m : Node} {l : List Fact}, Wrote n m l → Kdl.serFields fs m = some n' →
        Under n n' (l ++ fieldLeaves fs) (¬ ((k.head? ≠ Option.some '#' → FlagSafe v ∧ Faithful v) ∧ FaithfulFields fs)) := by
      intro h1 m l hw h
      exact (hw.under.trans (Under.serFields fs h)).imp fun hn => Or.inr fun hf => hn ⟨fun h2 => absurd h1 h2, hf⟩
    cases hk : fieldKind k with
    | prop name =>
      simp only [hk] at h
      obtain ⟨x, hx, h⟩ := Option.bind_eq_some_iff.mp h
      obtain ⟨h1, h2⟩ := hp.1 name hk
      rw [if_neg (by simp [h1]), h2, toKdlValue_leaves hx]
      exact hash h1 (Wrote.prop n name x) h
    | args =>
      simp only [hk] at h
      obtain ⟨m, hm, h⟩ := Option.bind_eq_some_iff.mp h
      obtain ⟨h1, h2⟩ := hp.2.1 (.inl hk)
      rw [if_neg (by simp [h1]), h2]
      exact hash h1 (Wrote.serArgsField hm) h
    | rest =>
      simp only [hk] at h
      obtain ⟨m, hm, h⟩ := Option.bind_eq_some_iff.mp h
      obtain ⟨h1, h2⟩ := hp.2.1 (.inr (.inl hk))
      rw [if_neg (by simp [h1]), h2]
      exact hash h1 (Wrote.serArgsField hm) h
    | arg t =>
      simp only [hk] at h
      obtain ⟨x, hx, h⟩ := Option.bind_eq_some_iff.mp h
      obtain ⟨h1, h2⟩ := hp.2.1 (.inr (.inr ⟨t, hk⟩))
      rw [if_neg (by simp [h1]), h2]
      exact hash h1 (Wrote.value hx n) h
    | child =>
      simp only [hk] at h
      obtain ⟨c, hc, h⟩ := Option.bind_eq_some_iff.mp h
      obtain ⟨h1, h2⟩ := hp.2.2 hk
      have hl := kept_less hc (Under.serNode v hc)
      rw [h2]
      have := (kept_push_ensure (n := n) hl).trans (Under.serFields fs h)
      have e : (if k.head? ≠ some '#' ∧ isFlag v then [] else below k (leaves v)) = owed k v := by simp [owed, h1]
      rw [e]
      exact this.imp fun hn => Classical.not_and_iff_not_or_not.mp fun hf => hn ⟨fun _ => hf.1, hf.2⟩
theorem serVariantFields_less (k0 : Str) : ∀ (fs : List (Str × SVal)) {n : Node} {d : Document} {r : Node × Document},
    serVariantFields fs n d = some r → DNode.name (semNode id r.1) = DNode.name (semNode id n) ∧
    Less (together k0 r.1 r.2) (together k0 n d ++ below k0 (fieldLeaves fs))
      (¬ ((∀ f ∈ fs, f.1.head? = some '#' → leaves f.2 = []) ∧ FaithfulFields fs))
  | [], n, d, r, h => by
    rw [serVariantFields] at h; cases h
    refine ⟨rfl, ?_⟩
    rw [fieldLeaves, below, List.map_nil, List.append_nil]
    exact (Less.refl _).imp fun h => h (by simp [FaithfulFields])
  | (k, v) :: fs, n, d, r, h => by
    rw [serVariantFields] at h
    have hp := fieldKind_place (k := k) (leaves v)
    rw [fieldLeaves, below_append, FaithfulFields]
    have chain : ∀ {m : Node} {d' : Document} {l : List Fact} {p : Prop}, DNode.name (semNode id m) = DNode.name (semNode id n) →
        Less (together k0 m d') (together k0 n d ++ below k0 l) p →
        (p → True) → (¬ ((∀ f ∈ (k, v) :: fs, f.1.head? = some '#' → leaves f.2 = []) ∧
          (k.head? ≠ some '#' → FlagSafe v ∧ Faithful v) ∧ FaithfulFields fs) →
          p ∨ ¬ ((∀ f ∈ fs, f.1.head? = some '#' → leaves f.2 = []) ∧ FaithfulFields fs)) →
        serVariantFields fs m d' = some r → DNode.name (semNode id r.1) = DNode.name (semNode id n) ∧
        Less (together k0 r.1 r.2) (together k0 n d ++ (below k0 l ++ below k0 (fieldLeaves fs)))
          (¬ ((∀ f ∈ (k, v) :: fs, f.1.head? = some '#' → leaves f.2 = []) ∧
            (k.head? ≠ some '#' → FlagSafe v ∧ Faithful v) ∧ FaithfulFields fs)) := by
      intro m d' l p hn hl _ hi h
      obtain ⟨h1, h2⟩ := serVariantFields_less k0 fs h
      refine ⟨h1.trans hn, ?_, ?_, ?_⟩
      · have := hl.len; have := h2.len; simp only [List.length_append] at *; omega
      · have := hl.le; have := h2.le; simp only [weight_append] at *; omega
      · intro hq
        have := hl.le; have := h2.le
        rcases hi hq with hp | hp
        · have := hl.lt hp; simp only [weight_append] at *; omega
        · have := h2.lt hp; simp only [weight_append] at *; omega
    have up : ∀ {m : Node} {l : List Fact} (l' : List Fact), Wrote n m l → l.length = l'.length → weight l = weight l' → l' ≠ [] →
        Less (together k0 m d) (together k0 n d ++ below k0 l') True := by
      intro m l l' hw h1 h2 h3
      have h4 := weight_perm hw.facts
      have h5 := hw.facts.length_eq
      have h6 : 0 < l'.length := List.length_pos_iff.mpr h3
      refine ⟨?_, ?_, fun _ => ?_⟩
      · simp only [together, List.length_append, length_below] at *; omega
      · simp only [together, weight_append, weight_below] at *; omega
      · simp only [together, weight_append, weight_below] at *; omega
    cases hk : fieldKind k with
    | prop name =>
      simp only [hk] at h
      obtain ⟨x, hx, h⟩ := Option.bind_eq_some_iff.mp h
      obtain ⟨h1, h2⟩ := hp.1 name hk
      rw [if_neg (by simp [h1]), h2, toKdlValue_leaves hx]
      have hw := Wrote.prop n name x
      exact chain hw.name (up [⟨[], some name, x⟩] hw rfl rfl (by simp)) (fun _ => trivial) (fun _ => Or.inl trivial) h
    | args =>
      simp only [hk] at h
      obtain ⟨m, hm, h⟩ := Option.bind_eq_some_iff.mp h
      obtain ⟨h1, h2⟩ := hp.2.1 (.inl hk)
      rw [if_neg (by simp [h1]), h2]
      have hl : Less (together k0 n d) (together k0 n d ++ below k0 (leaves v)) (leaves v ≠ []) := by
        have := (Less.refl (together k0 n d)).append (Less.nil (b := leaves v) |>.below k0)
        simp only [below, List.map_nil, List.append_nil] at this
        exact this.imp Or.inr
      refine chain rfl hl (fun _ => trivial) (fun hn => ?_) h
      by_cases hv : leaves v = []
      · refine Or.inr fun hf => hn ⟨?_, fun h3 => absurd h1 h3, hf.2⟩
        intro f hm
        rcases List.mem_cons.mp hm with rfl | hm
        · exact fun _ => hv
        · exact hf.1 f hm
      · exact Or.inl hv
    | rest =>
      simp only [hk] at h
      obtain ⟨m, hm, h⟩ := Option.bind_eq_some_iff.mp h
      obtain ⟨h1, h2⟩ := hp.2.1 (.inr (.inl hk))
      rw [if_neg (by simp [h1]), h2]
      have hl : Less (together k0 n d) (together k0 n d ++ below k0 (leaves v)) (leaves v ≠ []) := by
        have := (Less.refl (together k0 n d)).append (Less.nil (b := leaves v) |>.below k0)
        simp only [below, List.map_nil, List.append_nil] at this
        exact this.imp Or.inr
      refine chain rfl hl (fun _ => trivial) (fun hn => ?_) h
      by_cases hv : leaves v = []
      · refine Or.inr fun hf => hn ⟨?_, fun h3 => absurd h1 h3, hf.2⟩
        intro f hm
        rcases List.mem_cons.mp hm with rfl | hm
        · exact fun _ => hv
        · exact hf.1 f hm
      · exact Or.inl hv
    | arg t =>
      simp only [hk] at h
      obtain ⟨x, hx, h⟩ := Option.bind_eq_some_iff.mp h
      obtain ⟨h1, h2⟩ := hp.2.1 (.inr (.inr ⟨t, hk⟩))
      rw [if_neg (by simp [h1]), h2, toKdlValue_leaves hx]
      have hw := Wrote.arg n x
      exact chain hw.name (up [⟨[], none, x⟩] hw rfl rfl (by simp)) (fun _ => trivial) (fun _ => Or.inl trivial) h
    | child =>
      simp only [hk] at h
      obtain ⟨c, hc, h⟩ := Option.bind_eq_some_iff.mp h
      obtain ⟨h1, h2⟩ := hp.2.2 hk
      have hl := kept_less hc (Under.serNode v hc)
      rw [h2]
      have e : (if k.head? ≠ some '#' ∧ isFlag v then [] else below k (leaves v)) = owed k v := by simp [owed, h1]
      rw [e]
      refine chain rfl (kept_pushDoc (k := k0) (n := n) (d := d) hl) (fun _ => trivial) (fun hn => ?_) h
      refine Classical.not_and_iff_not_or_not.mp fun hf => hn ⟨?_, fun _ => hf.1, hf.2.2⟩
      intro f hm
      rcases List.mem_cons.mp hm with rfl | hm
      · exact fun h3 => absurd h3 h1
      · exact hf.2.1 f hm
end

/-! ### Documents -/

omit [FloatKey] in
theorem docFacts_less {d : Document} {c : Node} {l : List Fact} {p : Prop}
    (h : Less (below (DNode.name (semNode id c)) (inner (semNode id c))) l p) : Less (docFacts (d.pushNode c)) (docFacts d ++ l) p := by
  have := (Less.refl (docFacts d)).append h
  refine Less.imp (p := False ∨ p) ?_ Or.inr
  obtain ⟨ns, f, s⟩ := d
  simpa [docFacts, Document.pushNode, Document.nodes, semDoc, semNodes_append, semNodes, listFacts_append, listFacts, nodeFacts_eq] using this

omit [FloatKey] in
theorem docFacts_less_kept {d : Document} {c : Node} {l : List Fact} {p : Prop}
    (h : Less (kept c) l p) : Less (docFacts (if c.skipped then d else d.pushNode c)) (docFacts d ++ l) p := by
  unfold kept at h
  cases hc : c.skipped with
  | true =>
    rw [hc] at h
    have := (Less.refl (docFacts d)).append h
    simp only [if_true, List.append_nil] at this
    exact this.imp Or.inr
  | false =>
    rw [hc] at h
    exact docFacts_less h

omit [FloatKey] in
theorem Less.chain {a b c l m : List Fact} {p q : Prop} (h1 : Less b (a ++ l) p) (h2 : Less c (b ++ m) q) : Less c (a ++ (l ++ m)) (p ∨ q) := by
  refine ⟨?_, ?_, ?_⟩
  · have := h1.len; have := h2.len; simp only [List.length_append] at *; omega
  · have := h1.le; have := h2.le; simp only [weight_append] at *; omega
  · have := h1.le; have := h2.le
    rintro (hp | hq)
    · have := h1.lt hp; simp only [weight_append] at *; omega
    · have := h2.lt hq; simp only [weight_append] at *; omega

omit [FloatKey] in
theorem not_all_cons {α : Type} {a : α} {l : List α} {P : α → Prop} (h : ¬ ∀ x ∈ a :: l, P x) : ¬ P a ∨ ¬ ∀ x ∈ l, P x := by
  refine Classical.not_and_iff_not_or_not.mp fun hf => h ?_
  intro x hx
  rcases List.mem_cons.mp hx with rfl | hx
  · exact hf.1
  · exact hf.2 x hx

theorem serSeqNodes_less {k : Str} : ∀ (vs : List SVal) {d d' : Document}, serSeqNodes k vs d = some d' →
    Less (docFacts d') (docFacts d ++ below k (listLeaves vs)) (¬ ∀ v ∈ vs, Faithful v)
  | [], d, d', h => by
    cases h
    rw [listLeaves, below, List.map_nil, List.append_nil]
    exact (Less.refl _).imp fun h => h (by simp)
  | v :: vs, d, d', h => by
    rw [serSeqNodes] at h
    obtain ⟨c, hc, h⟩ := Option.bind_eq_some_iff.mp h
    obtain ⟨h1, h2⟩ := (Under.serNode v hc).new
    rw [listLeaves, below_append]
    exact ((docFacts_less (h1.symm ▸ h2.below k)).chain (serSeqNodes_less vs h)).imp not_all_cons

theorem serMapNodes_less : ∀ (kvs : List (SVal × SVal)) {d d' : Document}, serMapNodes kvs d = some d' →
    Less (docFacts d') (docFacts d ++ kvs.flatMap fun kv => below ((keyToString kv.1).getD []) (leaves kv.2)) (¬ ∀ kv ∈ kvs, Faithful kv.2)
  | [], d, d', h => by
    cases h
    rw [List.flatMap_nil, List.append_nil]
    exact (Less.refl _).imp fun h => h (by simp)
  | (k, v) :: kvs, d, d', h => by
    rw [serMapNodes] at h
    obtain ⟨key, hk, h⟩ := Option.bind_eq_some_iff.mp h
    obtain ⟨c, hc, h⟩ := Option.bind_eq_some_iff.mp h
    obtain ⟨h1, h2⟩ := (Under.serNode v hc).new
    rw [List.flatMap_cons, hk]
    exact ((docFacts_less (h1.symm ▸ h2.below key)).chain (serMapNodes_less kvs h)).imp not_all_cons

theorem serFieldNodes_less : ∀ (fs : List (Str × SVal)) {d d' : Document}, serFieldNodes fs d = some d' →
    Less (docFacts d') (docFacts d ++ fs.flatMap fun f => if isFlag f.2 then [] else below f.1 (leaves f.2))
      (¬ ∀ f ∈ fs, FlagSafe f.2 ∧ Faithful f.2)
  | [], d, d', h => by
    cases h
    rw [List.flatMap_nil, List.append_nil]
    exact (Less.refl _).imp fun h => h (by simp)
  | (k, v) :: fs, d, d', h => by
    rw [serFieldNodes] at h
    obtain ⟨c, hc, h⟩ := Option.bind_eq_some_iff.mp h
    have hl := kept_less hc (Under.serNode v hc)
    rw [List.flatMap_cons]
    exact ((docFacts_less_kept hl).chain (serFieldNodes_less fs h)).imp not_all_cons

theorem serDoc_less : ∀ (v : SVal) {d d' : Document}, serDoc v d = some d' → ¬ FaithfulDoc v →
    weight (docFacts d') < weight (docFacts d ++ docLeaves v)
  | .bool _, d, d', h, hf | .int _, d, d', h, hf | .int128 _, d, d', h, hf | .f64 _, d, d', h, hf | .char _, d, d', h, hf
  | .str _, d, d', h, hf | .unitVariant _, d, d', h, hf | .bytes bs, d, d', h, hf | .none, d, d', h, hf | .unit, d, d', h, hf
  | .unitStruct _, d, d', h, hf | .newtypeVariant k v, d, d', h, hf => absurd (by simp [FaithfulDoc]) hf
  | .some v, d, d', h, hf | .newtypeStruct v, d, d', h, hf => by
    rw [serDoc] at h; rw [FaithfulDoc] at hf; rw [docLeaves]; exact serDoc_less v h hf
  | .seq vs, d, d', h, hf | .tuple vs, d, d', h, hf | .tupleStruct vs, d, d', h, hf | .tupleVariant _ vs, d, d', h, hf => by
    rw [serDoc] at h; rw [FaithfulDoc] at hf; rw [docLeaves]; exact (serSeqNodes_less vs h).lt hf
  | .map kvs, d, d', h, hf => by
    rw [serDoc] at h; rw [FaithfulDoc] at hf; rw [docLeaves]; exact (serMapNodes_less kvs h).lt hf
  | .struct fs, d, d', h, hf => by
    rw [serDoc] at h; rw [FaithfulDoc] at hf; rw [docLeaves]; exact (serFieldNodes_less fs h).lt hf
  | .structVariant k fs, d, d', h, hf => by
    rw [serDoc] at h
    rw [FaithfulDoc] at hf
    obtain ⟨_, _, rfl⟩ := Option.map_eq_some_iff.mp h
    rw [docLeaves]
    have : Less (docFacts (d.pushNode ((Node.new (.ofStr k)).setChildren .new))) (docFacts d ++ below k (fieldLeaves fs)) (fieldLeaves fs ≠ []) :=
      docFacts_less (Less.nil.below k)
    exact this.lt hf

end

end Kdl
