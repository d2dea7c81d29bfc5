import Verif.Lemmas.DiagTotal
import Verif.Lemmas.DiagTold
import Verif.Lemmas.DiagRun
import Verif.Lemmas.DiagMany
/-
What stands in front of a mistake: the loop over the nodes of a document goes on after a node, a slashdashed
node or a blank line as if it began there.
-/

namespace Kdl
open Spec

variable {α β : Type}

/-! ### Forgetting the value -/

/-- The outcome without the value. -/
def DRes.seen : DRes α → DRes Unit
  | .ok _ r l => .ok () r l
  | .back e r l => .back e r l
  | .cut e g r l => .cut e g r l
  | .crash => .crash

theorem D.bind_def (p : D α) (f : α → D β) (s : Str) (l : List Rec) : (p >>= f) s l =
    match p s l with
    | .ok a r l => f a r l
    | .back e r l => .back e r l
    | .cut e g r l => .cut e g r l
    | .crash => .crash := rfl

/-- What comes after does not look at the value. -/
theorem D.bind_seen {p p' : D α} {f : α → D β} {s s' : Str} {l l' : List Rec} (h : (p s l).seen = (p' s' l').seen)
    (hf : ∀ a b r l, (f a r l).seen = (f b r l).seen) : ((p >>= f) s l).seen = ((p' >>= f) s' l').seen := by
  rw [D.bind_def, D.bind_def]
  cases hp : p s l <;> cases hp' : p' s' l' <;> rw [hp, hp'] at h <;> cases h <;> first | rfl | exact hf _ _ _ _

theorem D.bind_seen' {p : D α} {f g : α → D β} {s : Str} {l : List Rec}
    (hf : ∀ a r l, (f a r l).seen = (g a r l).seen) : ((p >>= f) s l).seen = ((p >>= g) s l).seen := by
  rw [D.bind_def, D.bind_def]
  cases hp : p s l <;> first | rfl | exact hf _ _ _

/-! ### Loops -/

theorem D.repFuel_fuel {p : D α} : ∀ (n m : Nat) (s : Str) (l : List Rec), s.length < n → s.length < m →
    D.repFuel p n s l = D.repFuel p m s l := by
  intro n
  induction n with
  | zero => intro m s l h; omega
  | succ n ih =>
    intro m s l hn hm
    obtain ⟨m, rfl⟩ : ∃ k, m = k + 1 := ⟨m - 1, by omega⟩
    unfold D.repFuel
    cases p s l with
    | ok a r l' =>
      by_cases hr : r.length < s.length
      · simp only [hr, if_true]
        rw [ih m r l' (by omega) (by omega)]
      · simp only [hr, if_false]
    | _ => rfl

theorem D.sepFuel_fuel {p : D α} {q : R α} {e : D β} (h : DTr p q) : ∀ (n m : Nat) (s : Str) (l : List Rec), s.length < n →
    s.length < m → D.sepFuel p e n s l = D.sepFuel p e m s l := by
  intro n
  induction n with
  | zero => intro m s l h; omega
  | succ n ih =>
    intro m s l hn hm
    obtain ⟨m, rfl⟩ : ∃ k, m = k + 1 := ⟨m - 1, by omega⟩
    unfold D.sepFuel
    cases e s l with
    | ok a r l' =>
      by_cases hr : r.length < s.length
      · simp only [hr, if_true]
        have hi := h.inside' r l'
        cases hp : p r l' with
        | ok a r' l'' =>
          rw [hp] at hi
          have : r'.length ≤ r.length := List.IsSuffix.length_le hi
          simp only
          rw [ih m r' l'' (by omega) (by omega)]
        | _ => rfl
      · simp only [hr, if_false]
    | _ => rfl

/-- One more at the beginning. -/
theorem D.rep0_cons {p : D α} {s r : Str} {l l' : List Rec} {a : α} (h : p s l = .ok a r l') (hr : r.length < s.length) :
    (D.rep0 p s l).seen = (D.rep0 p r l').seen := by
  unfold D.rep0
  rw [D.repFuel, h]
  simp only [hr, if_true]
  rw [D.repFuel_fuel s.length (r.length + 1) r l' hr (by omega)]
  cases D.repFuel p (r.length + 1) r l' <;> rfl

/-- Where a loop ends, its body fails. -/
theorem D.rep0_end {p : D α} (hq : ∀ s l e r l', p s l = .back e r l' → l' = l) {s r : Str} {l l' : List Rec} {as : List α}
    (h : D.rep0 p s l = .ok as r l') : ∃ e t, p r l' = .back e t l' := by
  have key : ∀ n s l as r l', D.repFuel p n s l = .ok as r l' → ∃ e t, p r l' = .back e t l' := by
    intro n
    induction n with
    | zero => intro s l as r l' h; cases h
    | succ n ih =>
      intro s l as r l' h
      unfold D.repFuel at h
      cases hp : p s l with
      | ok a r1 l1 =>
        rw [hp] at h
        by_cases hr : r1.length < s.length
        · simp only [hr, if_true] at h
          cases hn : D.repFuel p n r1 l1 with
          | ok bs r2 l2 => rw [hn] at h; cases h; exact ih _ _ _ _ _ hn
          | _ => rw [hn] at h; cases h
        · simp only [hr, if_false] at h; cases h
      | back e t l1 =>
        rw [hp] at h
        cases h
        obtain rfl := hq _ _ _ _ _ hp
        exact ⟨_, _, hp⟩
      | _ => rw [hp] at h; cases h
  exact key _ _ _ _ _ _ h

/-! ### Nodes -/

/-- Fails without recording anything, and only in front of the end of the text or of a closing brace. -/
def AtEnd (p : D Node) : Prop := ∀ s l e r l', p s l = .back e r l' → l' = l ∧ (s = [] ∨ ∃ q, s = '}' :: q)

/-- One of the things that may precede a node. -/
def leadItem (base : D Node) : D Unit := D.alt (.lift lineSpaceL) (do .lift slashdashL; D.void base)

theorem leadingItemsD_eq (base : D Node) : leadingItemsD base = D.takeP (D.rep0 (leadItem base)) := rfl

theorem D.lift_back {p : L α} {s : Str} {l l' : List Rec} {e : PErr} {r : Str} (h : D.lift p s l = .back e r l') : l' = l := by
  unfold D.lift at h
  cases hp : p s <;> rw [hp] at h <;> cases h
  rfl

theorem D.lift_ok {p : L α} {s : Str} {l l' : List Rec} {a : α} {r : Str} (h : D.lift p s l = .ok a r l') : l' = l := by
  unfold D.lift at h
  cases hp : p s <;> rw [hp] at h <;> cases h
  rfl

theorem leadItem_quiet {base : D Node} (hb : AtEnd base) (s : Str) (l : List Rec) (e : PErr) (r : Str) (l' : List Rec)
    (h : leadItem base s l = .back e r l') : l' = l := by
  unfold leadItem D.alt at h
  cases h1 : D.lift lineSpaceL s l with
  | back e1 r1 l1 =>
    obtain rfl := D.lift_back h1
    rw [h1] at h
    simp only [D.bind_def] at h
    cases h2 : D.lift slashdashL s l1 with
    | ok a r2 l2 =>
      obtain rfl := D.lift_ok h2
      rw [h2] at h
      simp only [D.void, D.bind_def] at h
      cases h3 : base r2 l2 with
      | back e3 r3 l3 => rw [h3] at h; cases h; exact (hb _ _ _ _ _ h3).1
      | _ => rw [h3] at h; cases h
    | back e2 r2 l2 => rw [h2] at h; cases h; exact D.lift_back h2
    | _ => rw [h2] at h; cases h
  | _ => rw [h1] at h; cases h

section
variable {base : D Node} {baseR : R Node} (hd : DTr base baseR) (hb : AtEnd base)

theorem leadingItemsD_cons {s r : Str} {l l' : List Rec} (h : leadItem base s l = .ok () r l') (hr : r.length < s.length) :
    (leadingItemsD base s l).seen = (leadingItemsD base r l').seen := by
  have := D.rep0_cons h hr
  rw [leadingItemsD_eq]
  simp only [D.takeP, D.bind_def, D.here]
  cases h1 : D.rep0 (leadItem base) s l <;> cases h2 : D.rep0 (leadItem base) r l' <;> rw [h1, h2] at this <;>
    cases this <;> rfl

include hd hb in
theorem leadingItemsD_end {s r a : Str} {l l' : List Rec} (h : leadingItemsD base s l = .ok a r l') (k : List Rec) :
    ∃ b, leadingItemsD base r k = .ok b r k := by
  have htr : DTr (leadItem base) (R.alt (.lift lineSpace) (do .lift slashdash; R.void baseR)) :=
    .alt (.lift .lineSpace) (.bind (.lift .slashdash) fun _ => .void hd)
  rw [leadingItemsD_eq] at h
  simp only [D.takeP, D.bind_def, D.here] at h
  cases h1 : D.rep0 (leadItem base) s l with
  | ok as r1 l1 =>
    rw [h1] at h
    cases h
    obtain ⟨e, t, h2⟩ := D.rep0_end (leadItem_quiet hb) h1
    have h3 : leadItem base r k = .back e t k := by
      have e1 := htr.after r l'
      rw [htr.after r k]
      rw [h2] at e1
      cases h0 : leadItem base r [] with
      | back e0 t0 l0 =>
        obtain rfl := leadItem_quiet hb _ _ _ _ _ h0
        rw [h0] at e1
        simp only [DRes.after] at e1 ⊢
        injection e1 with a1 a2 a3
        rw [a1, a2, List.append_nil]
      | _ => rw [h0] at e1; cases e1
    rw [leadingItemsD_eq]
    simp only [D.takeP, D.bind_def, D.here, D.rep0]
    rw [D.repFuel, h3]
    exact ⟨_, rfl⟩
  | _ => rw [h1] at h; cases h

/-- What follows the nodes. -/
def nodesTail (base : D Node) : D Unit := do
  let _ ← D.lift (.opt nodeTerminatorL)
  let _ ← leadingItemsD base
  return ()

theorem nodesDF_seen (total : Nat) (s : Str) (l : List Rec) : (nodesDF total base s l).seen =
    ((do let _ ← leadingItemsD base; let _ ← D.sep0 (nodeDF base) (.lift nodeTerminatorL); nodesTail base : D Unit) s l).seen := by
  unfold nodesDF nodesTail
  simp only [D.bind_def, D.here]
  cases leadingItemsD base s l with
  | ok a r l1 =>
    simp only
    cases D.sep0 (nodeDF base) (.lift nodeTerminatorL) r l1 with
    | ok as r2 l2 =>
      simp only
      cases D.lift (.opt nodeTerminatorL) r2 l2 with
      | ok o r3 l3 =>
        simp only
        cases leadingItemsD base r3 l3 <;> rfl
      | _ => rfl
    | _ => rfl
  | _ => rfl

/-- A blank line, a comment or a slashdashed node in front of nodes. -/
theorem nodesDF_item (total : Nat) {s r : Str} {l l' : List Rec} (h : leadItem base s l = .ok () r l') (hr : r.length < s.length) :
    (nodesDF total base s l).seen = (nodesDF total base r l').seen := by
  rw [nodesDF_seen, nodesDF_seen]
  exact D.bind_seen (leadingItemsD_cons h hr) fun _ _ _ _ => rfl

/-- The same outcome, but for the value and for the errors `A`, which are recorded only in the first. -/
def DRes.Alike (A : List Rec) : DRes α → DRes β → Prop
  | .ok _ r l, .ok _ r' l' => r = r' ∧ ∀ x, x ∈ l ↔ x ∈ A ∨ x ∈ l'
  | .back e r l, .back e' r' l' => e = e' ∧ r = r' ∧ ∀ x, x ∈ l ↔ x ∈ A ∨ x ∈ l'
  | .cut e g r l, .cut e' g' r' l' => e = e' ∧ g = g' ∧ r = r' ∧ ∀ x, x ∈ l ↔ x ∈ A ∨ x ∈ l'
  | .crash, .crash => True
  | _, _ => False

theorem DRes.Alike.after (A L : List Rec) (x : DRes α) : (x.after (A ++ L)).Alike A (x.after L) := by
  cases x <;> simp [DRes.after, DRes.Alike]

theorem DRes.alike_seen {A : List Rec} {x : DRes α} {y : DRes β} : x.seen.Alike A y.seen ↔ x.Alike A y := by
  cases x <;> cases y <;> exact Iff.rfl

theorem DRes.seen_after (x : DRes α) (l : List Rec) : (x.after l).seen = x.seen.after l := by cases x <;> rfl

/-- The rest of the nodes after one of them. -/
def nodesMore (base : D Node) : D Unit := do
  let _ ← D.sepMore (nodeDF base) (.lift nodeTerminatorL)
  nodesTail base

include hd in
theorem DTr.nodesTail : ∃ q, DTr (nodesTail base) q :=
  ⟨_, .bind (.lift (.opt .nodeTerminator)) fun _ => .bind (.leadingItemsD hd) fun _ => .pure ()⟩

include hd in
theorem DTr.nodesMore : ∃ q, DTr (nodesMore base) q := by
  obtain ⟨q, hq⟩ := DTr.nodesTail hd
  exact ⟨_, .bind (.sepMore (.nodeDF hd) (.lift .nodeTerminator)) fun _ => hq⟩

/-- Among the nodes, after the leading items. -/
theorem sep0_more {s r : Str} {nd : Node} {l l' : List Rec} (h : nodeDF base s l = .ok nd r l') :
    ((do let _ ← D.sep0 (nodeDF base) (.lift nodeTerminatorL); nodesTail base : D Unit) s l).seen = (nodesMore base r l').seen := by
  unfold nodesMore
  rw [D.bind_def, D.bind_def]
  unfold D.sep0
  rw [h]
  simp only
  cases D.sepMore (nodeDF base) (.lift nodeTerminatorL) r l' <;> rfl

theorem nodeDF_run {s r r' a : Str} {nd : Node} {l l' l'' : List Rec} (h : leadingItemsD base s l = .ok a r l')
    (h' : base r l' = .ok nd r' l'') : ∃ nd', nodeDF base s l = .ok nd' r' l'' := by
  unfold nodeDF
  rw [D.bind_run h, D.bind_run h']
  exact ⟨_, rfl⟩

include hd hb in
/-- A node and its end in front of nodes. -/
theorem nodesDF_node (total : Nat) {s t u a : Str} {nd : Node} {A : List Rec} (hl : leadingItemsD base s [] = .ok a s [])
    (h : base s [] = .ok nd t A) (ht : ∀ l, D.lift nodeTerminatorL t l = .ok () u l) (hu : u.length < t.length) :
    (nodesDF total base s []).Alike A (nodesDF total base u []) := by
  rw [← DRes.alike_seen, nodesDF_seen, nodesDF_seen]
  obtain ⟨qm, hm⟩ := DTr.nodesMore hd
  have hli := DTr.leadingItemsD hd
  rw [D.bind_run hl]
  obtain ⟨n1, hn1⟩ := nodeDF_run hl h
  rw [sep0_more hn1]
  have opt : ∀ l, D.lift (.opt nodeTerminatorL) t l = .ok (some ()) u l := by
    intro l
    have := ht l
    unfold D.lift at this ⊢
    unfold L.opt
    cases hx : nodeTerminatorL t <;> rw [hx] at this <;> cases this
    rfl
  have more : nodesMore base t A = (do
      let o ← D.opt (nodeDF base)
      match o with
      | some _ => nodesMore base
      | none => fun _ l => nodesTail base t l : D Unit) u A := by
    have hi := (DTr.nodeDF hd).inside' u A
    have hs : D.sepMore (nodeDF base) (.lift nodeTerminatorL) t A =
        D.sepFuel (nodeDF base) (.lift nodeTerminatorL) (t.length + 1) t A := rfl
    rw [D.sepFuel, ht] at hs
    simp only [hu, if_true] at hs
    have e0 : nodesMore base t A = _ := D.bind_def _ _ _ _
    cases hx : nodeDF base u A with
    | ok n2 r l =>
      rw [hx] at hi hs
      have hle : r.length ≤ u.length := List.IsSuffix.length_le hi
      have ho : D.opt (nodeDF base) u A = .ok (some n2) r l := by unfold D.opt; rw [hx]
      rw [D.bind_run ho]
      simp only at hs ⊢
      rw [D.sepFuel_fuel (DTr.nodeDF hd) t.length (r.length + 1) r l (by omega) (by omega)] at hs
      have e1 : nodesMore base r l = _ := D.bind_def _ _ _ _
      have e2 : D.sepMore (nodeDF base) (.lift nodeTerminatorL) r l =
        D.sepFuel (nodeDF base) (.lift nodeTerminatorL) (r.length + 1) r l := rfl
      rw [e0, e1, hs, e2]
      cases D.sepFuel (nodeDF base) (.lift nodeTerminatorL) (r.length + 1) r l <;> rfl
    | back e r l =>
      rw [hx] at hs
      have ho : D.opt (nodeDF base) u A = .ok none u l := by unfold D.opt; rw [hx]
      rw [D.bind_run ho, e0, hs]
    | cut e g r l =>
      rw [hx] at hs
      have ho : D.opt (nodeDF base) u A = .cut e g r l := by unfold D.opt; rw [hx]
      rw [D.bind_def, ho, e0, hs]
    | crash =>
      rw [hx] at hs
      have ho : D.opt (nodeDF base) u A = .crash := by unfold D.opt; rw [hx]
      rw [D.bind_def, ho, e0, hs]
  rw [more]
  have e1 := hli.after u A
  cases hx : leadingItemsD base u [] with
  | back e r l => exact absurd hx (NoRetry.leadingItems _ _ _ _ _)
  | cut e g r X =>
    rw [hx] at e1
    have : nodeDF base u A = .cut e g r (A ++ X) := by
      unfold nodeDF
      rw [D.bind_def, e1]; rfl
    simp only [D.bind_def, D.opt, this, hx, DRes.seen, DRes.Alike]
    simp
  | crash =>
    rw [hx] at e1
    have : nodeDF base u A = .crash := by
      unfold nodeDF
      rw [D.bind_def, e1]; rfl
    simp only [D.bind_def, D.opt, this, hx, DRes.seen, DRes.Alike]
  | ok a2 r X =>
    rw [hx] at e1
    simp only [DRes.after] at e1
    rw [D.bind_run hx]
    obtain ⟨b, hend⟩ := leadingItemsD_end hd hb hx X
    have e2 := hd.after r (A ++ X)
    have e3 := hd.after r X
    cases hy : base r [] with
    | ok n2 r' Y =>
      rw [hy] at e2 e3
      simp only [DRes.after] at e2 e3
      obtain ⟨m1, hm1⟩ := nodeDF_run e1 e2
      obtain ⟨m2, hm2⟩ := nodeDF_run hend e3
      rw [sep0_more hm2]
      have : D.opt (nodeDF base) u A = .ok (some m1) r' (A ++ X ++ Y) := by
        unfold D.opt; rw [hm1]
      rw [D.bind_run this]
      simp only
      rw [hm.after r' (A ++ X ++ Y), hm.after r' (X ++ Y), DRes.seen_after, DRes.seen_after, List.append_assoc]
      exact DRes.Alike.after _ _ _
    | cut e g r' Y =>
      rw [hy] at e2 e3
      simp only [DRes.after] at e2 e3
      have f1 : nodeDF base u A = .cut e g r' (A ++ X ++ Y) := by
        unfold nodeDF
        rw [D.bind_run e1, D.bind_def, e2]
      have f2 : nodeDF base r X = .cut e g r' (X ++ Y) := by
        unfold nodeDF
        rw [D.bind_run hend, D.bind_def, e3]
      simp only [D.bind_def, D.opt, D.sep0, f1, f2, DRes.seen, DRes.Alike]
      simp
    | crash =>
      rw [hy] at e2 e3
      simp only [DRes.after] at e2 e3
      have f1 : nodeDF base u A = .crash := by
        unfold nodeDF
        rw [D.bind_run e1, D.bind_def, e2]
      have f2 : nodeDF base r X = .crash := by
        unfold nodeDF
        rw [D.bind_run hend, D.bind_def, e3]
      simp only [D.bind_def, D.opt, D.sep0, f1, f2, DRes.seen, DRes.Alike]
    | back e r' Y =>
      obtain ⟨rfl, hr⟩ := hb _ _ _ _ _ hy
      rw [hy] at e2 e3
      simp only [DRes.after, List.append_nil] at e2 e3
      have f1 : nodeDF base u A = .back e r' (A ++ X) := by
        unfold nodeDF
        rw [D.bind_run e1, D.bind_def, e2]
      have f2 : nodeDF base r X = .back e r' X := by
        unfold nodeDF
        rw [D.bind_run hend, D.bind_def, e3]
      have g1 : D.opt (nodeDF base) u A = .ok none u (A ++ X) := by unfold D.opt; rw [f1]
      have g2 : D.sep0 (nodeDF base) (.lift nodeTerminatorL) r X = .ok [] r X := by unfold D.sep0; rw [f2]
      rw [D.bind_run g1, D.bind_run g2]
      simp only
      unfold nodesTail
      have e4 := hli.after u (A ++ X)
      rw [hx] at e4
      simp only [DRes.after] at e4
      rw [D.bind_run (opt _), D.bind_run e4]
      obtain ⟨o, ho⟩ : ∃ o, D.lift (.opt nodeTerminatorL) r X = .ok o r X := by
        rcases hr with rfl | ⟨q, rfl⟩
        · exact ⟨_, rfl⟩
        · exact ⟨_, rfl⟩
      rw [D.bind_run ho, D.bind_run hend]
      simp only [Pure.pure, D.pure, DRes.seen, DRes.Alike]
      simp

end

/-! ### Where a node fails -/

theorem NoRetry.opt {p : D α} : NoRetry (D.opt p) := by
  intro s l e r l' h
  unfold D.opt at h
  cases hr : p s l <;> rw [hr] at h <;> cases h

theorem NoRetry.cutErr {p : D α} : NoRetry (D.cutErr p) := by
  intro s l e r l' h
  unfold D.cutErr at h
  cases hr : p s l <;> rw [hr] at h <;> cases h

theorem NoRetry.ctx {c : PErr} {p : D α} (hp : NoRetry p) : NoRetry (D.ctx c p) := by
  intro s l e r l' h
  unfold D.ctx at h
  cases hr : p s l with
  | back e r l => exact hp _ _ _ _ _ hr
  | _ => rw [hr] at h; cases h

theorem NoRetry.resume {q : P Unit} {p : D α} (hp : NoRetry p) : NoRetry (D.resume p q) := by
  intro s l e r l' h
  unfold D.resume at h
  cases hr : p s l with
  | back e r l => exact hp _ _ _ _ _ hr
  | cut e1 g1 r1 l1 =>
    rw [hr] at h
    simp only at h
    cases hq : q r1 <;> rw [hq] at h <;> cases h
  | _ => rw [hr] at h; cases h

theorem NoRetry.alt {p q : D α} (hq : NoRetry q) : NoRetry (D.alt p q) := by
  intro s l e r l' h
  unfold D.alt at h
  cases hr : p s l with
  | back e1 r1 l1 => rw [hr] at h; exact hq _ _ _ _ _ h
  | _ => rw [hr] at h; cases h

theorem NoRetry.takeP {p : D α} (hp : NoRetry p) : NoRetry (D.takeP p) :=
  .bind .here fun _ => .bind hp fun _ => .bind .here fun _ => .pure

/-- The same for parsers that record nothing. -/
def NoRetryL (p : L α) : Prop := ∀ s e r, p s ≠ .back e r

theorem NoRetry.lift {p : L α} (hp : NoRetryL p) : NoRetry (D.lift p) := by
  intro s l e r l' h
  unfold D.lift at h
  cases hr : p s with
  | back e r => exact hp _ _ _ hr
  | _ => rw [hr] at h; cases h

theorem NoRetryL.pure {a : α} : NoRetryL (Pure.pure a : L α) := fun _ _ _ h => by cases h
theorem NoRetryL.here : NoRetryL L.here := fun _ _ _ h => by cases h

theorem NoRetryL.bind {p : L α} {f : α → L β} (hp : NoRetryL p) (hf : ∀ a, NoRetryL (f a)) : NoRetryL (p >>= f) := by
  intro s e r h
  change L.bind p f s = _ at h
  unfold L.bind at h
  cases hr : p s with
  | ok a r' => rw [hr] at h; exact hf a _ _ _ h
  | back e r => exact hp _ _ _ hr
  | _ => rw [hr] at h; cases h

theorem NoRetryL.opt {p : L α} : NoRetryL (L.opt p) := by
  intro s e r h
  unfold L.opt at h
  cases hr : p s <;> rw [hr] at h <;> cases h

theorem NoRetryL.peek {p : L α} (hp : NoRetryL p) : NoRetryL (L.peek p) := by
  intro s e r h
  unfold L.peek at h
  cases hr : p s with
  | back e r => exact hp _ _ _ hr
  | _ => rw [hr] at h; cases h

theorem NoRetryL.takeP {p : L α} (hp : NoRetryL p) : NoRetryL (L.takeP p) :=
  .bind .here fun _ => .bind hp fun _ => .bind .here fun _ => .pure
theorem NoRetryL.void {p : L α} (hp : NoRetryL p) : NoRetryL (L.void p) := .bind hp fun _ => .pure

theorem NoRetryL.rep0 {p : L α} : NoRetryL (L.rep0 p) := by
  have : ∀ n, NoRetryL (L.repFuel p n) := by
    intro n
    induction n with
    | zero => intro s e r h; cases h
    | succ n ih =>
      intro s e r h
      unfold L.repFuel at h
      cases hr : p s with
      | ok a r' =>
        rw [hr] at h
        by_cases hl : r'.length < s.length
        · simp only [hl, if_true] at h
          cases hq : L.repFuel p n r' with
          | back e' r'' => exact ih _ _ _ hq
          | _ => rw [hq] at h; cases h
        · simp only [hl, if_false] at h; cases h
      | _ => rw [hr] at h; cases h
  intro s e r h
  exact this _ _ _ _ h

theorem NoRetryL.nodeSpace0 : NoRetryL nodeSpace0L := .void .rep0

section
variable [FloatIO] (total : Nat) {base : D Node}

theorem NoRetry.before : NoRetry (beforeNodeChildrenDF total base) := by
  unfold beforeNodeChildrenDF
  exact .bind (.alt (.alt (.alt (.lift .nodeSpace0)))) fun _ => .lift .nodeSpace0

theorem NoRetry.goodNode (s : Str) : NoRetry (goodNodeD total base s) := by
  unfold goodNodeD
  refine .bind .opt fun ty => .bind (.lift (.takeP .nodeSpace0)) fun _ => .bind .here fun before =>
    .bind (.resume (.ctx .cutErr)) fun name => .bind ?_ fun _ => .bind (.bind .rep0 fun _ => .pure) fun _ => .bind .opt fun ch =>
    .bind ?_ fun bt => .bind (.lift .nodeSpace0) fun _ => .bind .here fun r => ?_
  · unfold checkNameD
    split
    · refine .resume (.ctx ?_)
      intro _ _ _ _ _ h; cases h
    · exact .pure
  · unfold tailD
    refine .bind ?_ fun _ => .bind (.lift (.peek (.takeP .opt))) fun _ => .pure
    unfold tailTextD
    split
    · exact .takeP .opt
    · exact .takeP (.before total)
  · cases ch <;> exact .pure

theorem badNode_noRetry {q : Str} {l : List Rec} {e : PErr} {r : Str} {l' : List Rec} :
    badNodeD total base ('{' :: q) l ≠ .back e r l' := by
  have h : NoRetry (do
      let d ← nodesDF total base
      let d ← closeBraceD ('{' :: q) q d
      let _ ← D.opt (slashdashedChildrenDF total base)
      let _ ← D.lift (.peek (.opt nodeTerminatorL))
      return Node.new (.ofStr "<<BAD_NODE>>".toList) : D Node) := by
    refine .bind (.nodes total) fun d => .bind ?_ fun _ => .bind .opt fun _ => .bind (.lift (.peek .opt)) fun _ => .pure
    intro s l e r l' h
    unfold closeBraceD at h
    cases hx : L.lit ['}'] s <;> rw [hx] at h <;> cases h
  have := h q l e r l'
  intro h2
  apply this
  rw [← h2]
  unfold badNodeD nodeChildrenDF
  simp only [D.bind_def, D.here]
  have : D.lift (L.lit ['{']) ('{' :: q) l = .ok () q l := rfl
  rw [this]
  simp only
  cases nodesDF total base q l <;> rfl

theorem AtEnd.baseNodeF : AtEnd (baseNodeDF total base) := by
  intro s l e r l' h
  unfold baseNodeDF at h
  rw [D.bind_def] at h
  rcases s with _ | ⟨c, q⟩
  · cases h; exact ⟨rfl, Or.inl rfl⟩
  · by_cases hc : c = '}'
    · subst hc
      cases h; exact ⟨rfl, Or.inr ⟨q, rfl⟩⟩
    · exfalso
      have h0 : D.lift (L.notP (L.lit ['}'] <|+> L.eof)) (c :: q) l = .ok () (c :: q) l := by
        simp [D.lift, L.notP, L.alt, L.lit, stripPrefix?, L.eof, Ne.symm hc]
      rw [h0] at h
      simp only [D.here_run] at h
      unfold openCurlyD at h
      by_cases hc : c = '{'
      · subst hc
        exact badNode_noRetry total h
      · have h1 : D.resume (D.lift (L.cutErr (L.ctx openCx (L.notP (L.lit ['{']))))) (lit ['{']) (c :: q) l =
            .ok (some ()) (c :: q) l := by
          simp [D.resume, D.lift, L.cutErr, L.ctx, L.notP, L.lit, stripPrefix?, Ne.symm hc]
        rw [h1] at h
        exact NoRetry.goodNode total _ _ _ _ _ _ h

theorem AtEnd.baseNode : AtEnd (baseNodeD total) := by
  intro s l e r l' h
  exact AtEnd.baseNodeF total s l e r l' h

end

end Kdl
