import Verif.Lemmas.Recover
import Verif.Lemmas.Parser.Space
/-
Every production of the parser with recovery moves forward, does not panic, and follows
the production of the strict parser.
-/

namespace Kdl

/-- One step of the search for `Fwd` and `Safe` goals, extended with one rule per production. -/
syntax "rstep" : tactic

macro_rules | `(tactic| rstep) => `(tactic| with_reducible first
  | assumption
  | intro _
  | exact Fwd.pure _ | exact Fwd.here | exact Fwd.failP
  | apply Fwd.bind | apply Fwd.lift | apply Fwd.alt | apply Fwd.opt | apply Fwd.cutErr | apply Fwd.void
  | apply Fwd.takeP | apply Fwd.rep0 | apply Fwd.sep1 | apply Fwd.sep0 | apply Fwd.resume | apply Fwd.mapCut | apply Safe.mapCut | apply Fwd.resumeWith
  | exact Safe.pure _ _ | exact Safe.here _ | exact Safe.failP _
  | apply Safe.bind | apply Safe.lift | apply Safe.alt | apply Safe.opt | apply Safe.cutErr | apply Safe.void
  | apply Safe.takeP | apply Safe.rep0 | apply Safe.sep1 | apply Safe.sep0 | apply Safe.resume
  | apply Safe.resumeWith
  | apply Eats.lift
  | pstep
  | split)

/-- Search for `Fwd` and `Safe` goals. -/
macro "rsolve" : tactic => `(tactic| repeat' rstep)

section
variable (o : Recovery)

/-! ### Strings -/

protected theorem Fwd.stringR : Fwd (stringR o) := by unfold Kdl.stringR; rsolve
protected theorem Safe.stringR (n : Nat) : Safe n (stringR o) := by unfold Kdl.stringR; rsolve
macro_rules | `(tactic| rstep) => `(tactic| with_reducible first
  | exact Fwd.stringR _ | exact Safe.stringR _ _)

protected theorem Sim.stringR : Sim some stringP (stringR o) := by
  unfold Kdl.stringP Kdl.stringR
  refine .alt ((Sim.lift _).resume o _) (.alt (((Sim.lift _).mapCut _).resume o _) ((Sim.lift _).resume o _) ?_) ?_
  all_goals rsolve

protected theorem Fwd.identifierR (total : Nat) : Fwd (identifierR o total) := by
  unfold Kdl.identifierR; rsolve
protected theorem Safe.identifierR (total n : Nat) : Safe n (identifierR o total) := by
  unfold Kdl.identifierR; rsolve
macro_rules | `(tactic| rstep) => `(tactic| with_reducible first
  | exact Fwd.identifierR _ _ | exact Safe.identifierR _ _ _)

protected theorem Sim.identifierR (total : Nat) : Sim id (identifier total) (identifierR o total) := by
  unfold Kdl.identifier Kdl.identifierR
  refine .bind Sim.here ?_ fun s => .bind (Sim.stringR o) ?_ fun v => .bind Sim.here ?_ fun r => .pure rfl
  all_goals rsolve

protected theorem Fwd.tyR (total : Nat) : Fwd (tyR o total) := by unfold Kdl.tyR; rsolve
protected theorem Safe.tyR (total n : Nat) : Safe n (tyR o total) := by unfold Kdl.tyR; rsolve
macro_rules | `(tactic| rstep) => `(tactic| with_reducible first
  | exact Fwd.tyR _ _ | exact Safe.tyR _ _ _)

/-- How a type annotation appears in the parser with recovery. -/
def someTy (t : Str × Ident × Str) : Str × Option Ident × Str := (t.1, some t.2.1, t.2.2)

protected theorem Sim.tyR (total : Nat) : Sim someTy (tyP total) (tyR o total) := by
  unfold Kdl.tyP Kdl.tyR
  refine .bind (Sim.lift _) ?_ fun _ => .bind (Sim.lift _) ?_ fun b => .bind
    (Sim.resume o _ (Sim.cutErr (f := id) (.bind (Sim.identifierR o total) ?_ fun i => .bind (Sim.lift _) ?_ fun _ => .pure rfl)))
    ?_ fun i => .bind (Sim.lift _) ?_ fun a => .bind (Sim.lift _) ?_ fun _ => .pure rfl
  all_goals rsolve

end

section
variable (o : Recovery) [FloatIO]

/-! ### Entries -/

protected theorem Fwd.valueBodyR : Fwd (valueBodyR o) := by unfold Kdl.valueBodyR; rsolve
protected theorem Safe.valueBodyR (n : Nat) : Safe n (valueBodyR o) := by unfold Kdl.valueBodyR; rsolve
macro_rules | `(tactic| rstep) => `(tactic| with_reducible first
  | exact Fwd.valueBodyR _ | exact Safe.valueBodyR _ _)

omit [FloatIO] in
/-- Changing the result. -/
protected theorem Sim.mapR {α β γ : Type} {f : α → β} {p : P α} {q : R β} (h : Sim f p q) (g : β → γ) {e : α → γ}
    (he : ∀ a, g (f a) = e a) : Sim e p (q >>= fun b => Pure.pure (g b)) := by
  intro s l
  have h1 := h s l
  cases hs : p s with
  | ok a r => simp only [hs] at h1; simp only [R.bind_def, h1, R.pure_def, he]
  | back => simp only [hs] at h1; simp only [R.bind_def, h1]
  | cut => simp only [hs] at h1; exact h1.bind fun _ => .pure _
  | crash => trivial

protected theorem Sim.valueBodyR : Sim some valueBody (valueBodyR o) := by
  have h : ∀ p : P Value, Sim some p (do let v ← R.lift p; return some v) := fun p =>
    (Sim.lift p).mapR some fun _ => rfl
  unfold Kdl.valueBody Kdl.valueBodyR
  refine .alt (h _) (.alt (h _) (.bind (Sim.stringR o) ?_ fun _ => .pure rfl) ?_) ?_
  all_goals rsolve

protected theorem Fwd.valueR (total : Nat) : Fwd (valueR o total) := by unfold Kdl.valueR; rsolve
protected theorem Safe.valueR (total n : Nat) : Safe n (valueR o total) := by unfold Kdl.valueR; rsolve
macro_rules | `(tactic| rstep) => `(tactic| with_reducible first
  | exact Fwd.valueR _ _ | exact Safe.valueR _ _ _)

protected theorem Sim.valueR (total : Nat) : Sim some (value total) (valueR o total) := by
  unfold Kdl.value Kdl.valueR
  refine .bind Sim.here ?_ fun s => .bind (Sim.opt (f := fun x => (someTy x.1, x.2)) (.bind (Sim.tyR o total) ?_ fun t =>
    .bind (Sim.lift _) ?_ fun a => .pure rfl)) ?_ fun ty => .bind Sim.here ?_ fun s1 =>
    .bind (Sim.valueBodyR o) ?_ fun v => .bind Sim.here ?_ fun r => ?_
  rotate_right
  · cases ty with
    | none => exact .pure rfl
    | some x => exact .pure rfl
  all_goals rsolve

section
variable {entry : R (Option Entry)}

protected theorem Fwd.slashdashedEntriesRF (h : Fwd entry) : Fwd (slashdashedEntriesRF entry) := by
  unfold Kdl.slashdashedEntriesRF; rsolve
protected theorem Safe.slashdashedEntriesRF {n : Nat} (h : Fwd entry) (hn : Safe n entry) :
    Safe (n + 1) (slashdashedEntriesRF entry) := by
  unfold Kdl.slashdashedEntriesRF
  have h1 : Fwd (do R.lift slashdash; entry) := by rsolve
  have h2 : Safe (n + 1) (do R.lift slashdash; entry) :=
    .bind_eats (.lift (.slashdash _)) (.lift .slashdash) fun _ => hn
  exact .void (.sep1 h2 h1 (.lift (.nodeSpace1 _)) (.lift Strict.nodeSpace1.sfx) (.lift .nodeSpace1))
    (.sep1 h1 (.lift Strict.nodeSpace1.sfx))
protected theorem Sim.slashdashedEntriesRF {e : P Entry} (h : Fwd entry) (hs : Sim some e entry) :
    Sim id (slashdashedEntriesF e) (slashdashedEntriesRF entry) := by
  unfold Kdl.slashdashedEntriesF Kdl.slashdashedEntriesRF
  refine .void (.sep1 (.bind (Sim.lift _) ?_ fun _ => hs) ?_ (Sim.lift _) ?_)
  all_goals rsolve

protected theorem Fwd.entryLeadingRF (h : Fwd entry) : Fwd (entryLeadingRF entry) := by
  unfold Kdl.entryLeadingRF
  have := Fwd.slashdashedEntriesRF h
  rsolve
protected theorem Safe.entryLeadingRF {n : Nat} (h : Fwd entry) (hn : Safe n entry) :
    Safe (n + 1) (entryLeadingRF entry) := by
  unfold Kdl.entryLeadingRF
  have := Fwd.slashdashedEntriesRF h
  have := Safe.slashdashedEntriesRF h hn
  rsolve
protected theorem Sim.entryLeadingRF {e : P Entry} (h : Fwd entry) (hs : Sim some e entry) :
    Sim id (entryLeadingF e) (entryLeadingRF entry) := by
  unfold Kdl.entryLeadingF Kdl.entryLeadingRF
  have := Fwd.slashdashedEntriesRF h
  refine .takeP (.bind (Sim.lift _) ?_ fun _ => .opt (.bind (.slashdashedEntriesRF h hs) ?_ fun _ => Sim.lift _)) ?_
  all_goals rsolve

end

protected theorem Fwd.entryBodyR (total : Nat) : Fwd (entryBodyR o total) := by unfold Kdl.entryBodyR; rsolve
protected theorem Safe.entryBodyR (total n : Nat) : Safe n (entryBodyR o total) := by unfold Kdl.entryBodyR; rsolve
macro_rules | `(tactic| rstep) => `(tactic| with_reducible first
  | exact Fwd.entryBodyR _ _ | exact Safe.entryBodyR _ _ _)

protected theorem Sim.entryBodyR (total : Nat) : Sim some (entryBody total) (entryBodyR o total) := by
  unfold Kdl.entryBody Kdl.entryBodyR
  refine .bind (Sim.opt (Sim.identifierR o total)) ?_ fun i => ?_
  · rsolve
  · cases i with
    | some i =>
      refine .bind (Sim.lift _) ?_ fun k => ?_
      · rsolve
      · cases k with
        | some k =>
          refine .bind (Sim.lift _) ?_ fun ae => .bind ((Sim.cutErr (Sim.valueR o total)).mapCut _) ?_ fun v => .pure rfl
          all_goals rsolve
        | none => exact .pure rfl
    | none => exact (Sim.resume o .entry (Sim.valueR o total)).mapR Option.join fun _ => rfl

section
variable {entry : R (Option Entry)}

protected theorem Fwd.nodeEntryRF (total : Nat) (h : Fwd entry) : Fwd (nodeEntryRF o total entry) := by
  unfold Kdl.nodeEntryRF
  have := Fwd.entryLeadingRF h
  rsolve
protected theorem Safe.nodeEntryRF (total : Nat) {n : Nat} (h : Fwd entry) (hn : Safe n entry) :
    Safe (n + 1) (nodeEntryRF o total entry) := by
  unfold Kdl.nodeEntryRF
  have := Fwd.entryLeadingRF h
  have := Safe.entryLeadingRF h hn
  rsolve
protected theorem Sim.nodeEntryRF (total : Nat) {e : P Entry} (h : Fwd entry) (hs : Sim some e entry) :
    Sim some (nodeEntryF total e) (nodeEntryRF o total entry) := by
  unfold Kdl.nodeEntryF Kdl.nodeEntryRF
  refine .bind (Sim.entryLeadingRF h hs) ?_ fun ld => .bind Sim.here ?_ fun s => .bind (Sim.entryBodyR o total) ?_
    fun e => .bind Sim.here ?_ fun r => .pure rfl
  all_goals rsolve

end

protected theorem Fwd.nodeEntryRN (total k : Nat) : Fwd (nodeEntryRN o total k) := by
  induction k with
  | zero => intro s l; simp [Kdl.nodeEntryRN]
  | succ k ih => exact Fwd.nodeEntryRF o total ih
protected theorem Safe.nodeEntryRN (total k : Nat) : Safe k (nodeEntryRN o total k) := by
  induction k with
  | zero => intro s l hs; omega
  | succ k ih => exact Safe.nodeEntryRF o total (.nodeEntryRN o total k) ih
protected theorem Sim.nodeEntryRN (total k : Nat) : Sim some (nodeEntryN total k) (nodeEntryRN o total k) := by
  induction k with
  | zero => intro s l; simp [Kdl.nodeEntryN]
  | succ k ih => exact Sim.nodeEntryRF o total (.nodeEntryRN o total k) ih

protected theorem Fwd.nodeEntryR (total : Nat) : Fwd (nodeEntryR o total) := fun s l => Fwd.nodeEntryRN o total _ s l
protected theorem Safe.nodeEntryR (total n : Nat) : Safe n (nodeEntryR o total) :=
  fun s l _ => Safe.nodeEntryRN o total _ s l (by omega)
protected theorem Sim.nodeEntryR (total : Nat) : Sim some (nodeEntry total) (nodeEntryR o total) :=
  fun s l => Sim.nodeEntryRN o total _ s l
macro_rules | `(tactic| rstep) => `(tactic| with_reducible first
  | exact Fwd.nodeEntryR _ _ | exact Safe.nodeEntryR _ _ _)

protected theorem Fwd.slashdashedEntriesR (total : Nat) : Fwd (slashdashedEntriesR o total) :=
  Fwd.slashdashedEntriesRF (.nodeEntryR o total)
protected theorem Safe.slashdashedEntriesR (total n : Nat) : Safe n (slashdashedEntriesR o total) :=
  (Safe.slashdashedEntriesRF (.nodeEntryR o total) (.nodeEntryR o total n)).mono (by omega)
protected theorem Sim.slashdashedEntriesR (total : Nat) :
    Sim id (slashdashedEntries total) (slashdashedEntriesR o total) :=
  Sim.slashdashedEntriesRF (.nodeEntryR o total) (.nodeEntryR o total)
macro_rules | `(tactic| rstep) => `(tactic| with_reducible first
  | exact Fwd.slashdashedEntriesR _ _ | exact Safe.slashdashedEntriesR _ _ _)

/-! ### Nodes -/

section
variable {base : R Node}

/-- The items before a node consume input. -/
theorem Eats.leadingItem (h : Fwd base) :
    Eats (R.alt (.lift lineSpace) (do .lift slashdash; R.void base)) :=
  .alt (.lift .lineSpace) (.bind_left (.lift .slashdash) fun _ => h.void)

protected theorem Fwd.leadingItemsR (h : Fwd base) : Fwd (leadingItemsR base) := by
  unfold Kdl.leadingItemsR; rsolve
protected theorem Safe.leadingItemsR {n : Nat} (h : Fwd base) (hn : Safe n base) :
    Safe (n + 1) (leadingItemsR base) := by
  unfold Kdl.leadingItemsR
  refine .takeP (.rep0 (.alt (.lift (.lineSpace _)) (.bind_eats (.lift (.slashdash _)) (.lift .slashdash)
    fun _ => hn.void h)) (Eats.leadingItem h)) ?_
  rsolve
protected theorem Sim.leadingItemsR {b : P Node} (h : Fwd base) (hs : Sim id b base) :
    Sim id (leadingItems b) (leadingItemsR base) := by
  unfold Kdl.leadingItems Kdl.leadingItemsR
  refine .takeP (.rep0 (f := id) (.alt (Sim.lift _) (.bind (Sim.lift _) ?_ fun _ => hs.void) ?_) ?_) ?_
  all_goals rsolve

protected theorem Fwd.nodeRF (h : Fwd base) : Fwd (nodeRF base) := by
  unfold Kdl.nodeRF
  have := Fwd.leadingItemsR h
  rsolve
protected theorem Safe.nodeRF {n : Nat} (h : Fwd base) (hn : Safe n base) : Safe n (nodeRF base) := by
  unfold Kdl.nodeRF
  have := Fwd.leadingItemsR h
  have := (Safe.leadingItemsR h hn).mono (Nat.le_succ n)
  rsolve
protected theorem Sim.nodeRF {b : P Node} (h : Fwd base) (hs : Sim id b base) :
    Sim id (nodeF b) (nodeRF base) := by
  unfold Kdl.nodeF Kdl.nodeRF
  refine .bind (.leadingItemsR h hs) ?_ fun _ => .bind hs ?_ fun _ => .pure rfl
  all_goals rsolve

protected theorem Fwd.nodesRF (total : Nat) (h : Fwd base) : Fwd (nodesRF total base) := by
  unfold Kdl.nodesRF
  have := Fwd.leadingItemsR h
  have := Fwd.nodeRF h
  rsolve
protected theorem Safe.nodesRF (total : Nat) {n : Nat} (h : Fwd base) (hn : Safe n base) :
    Safe n (nodesRF total base) := by
  unfold Kdl.nodesRF
  have := Fwd.leadingItemsR h
  have := (Safe.leadingItemsR h hn).mono (Nat.le_succ n)
  have := Fwd.nodeRF h
  have := Safe.nodeRF h hn
  rsolve
protected theorem Sim.nodesRF (total : Nat) {b : P Node} (h : Fwd base) (hs : Sim id b base) :
    Sim id (nodesF total b) (nodesRF total base) := by
  unfold Kdl.nodesF Kdl.nodesRF
  have := Fwd.leadingItemsR h
  have := Fwd.nodeRF h
  refine .bind (.leadingItemsR h hs) ?_ fun ld => .bind Sim.here ?_ fun s =>
    .bind (Sim.sep0 (.nodeRF h hs) ?_ (Sim.lift _) ?_) ?_ fun ns => .bind Sim.here ?_ fun r =>
    .bind (Sim.lift _) ?_ fun _ => .bind (.leadingItemsR h hs) ?_ fun tr => ?_
  rotate_right
  · refine .pure ?_
    simp
  all_goals rsolve

protected theorem Fwd.closeBraceR (x y : Str) (d : Document) : Fwd (closeBraceR x y d) := by
  intro s l
  unfold Kdl.closeBraceR
  cases h : Kdl.lit ['}'] s with
  | ok u r => exact ⟨(Sfx.lit _).le h, Nat.le_refl _⟩
  | _ => simp
protected theorem Safe.closeBraceR (n : Nat) (x y : Str) (d : Document) : Safe n (closeBraceR x y d) := by
  intro s l _ h
  unfold Kdl.closeBraceR at h
  cases h2 : Kdl.lit ['}'] s <;> simp only [h2] at h <;> cases h
protected theorem Sim.closeBraceR (x y : Str) (d : Document) :
    Sim id (do cutErr (lit ['}']); return d) (closeBraceR x y d) := by
  intro s l
  unfold Kdl.closeBraceR
  cases h : Kdl.lit ['}'] s with
  | ok u r => rw [bind_eq (cutErr_eq h), pure_eq]; rfl
  | back =>
    rw [bind_cut (by unfold Kdl.cutErr; rw [h])]
    simp [Bad]
  | cut =>
    rw [bind_cut (by unfold Kdl.cutErr; rw [h])]
    simp [Bad]
  | crash => exact absurd h (OkTo.lit _ _ s (Nat.lt_succ_self _))
macro_rules | `(tactic| rstep) => `(tactic| with_reducible first
  | exact Fwd.closeBraceR _ _ _ | exact Safe.closeBraceR _ _ _ _)

protected theorem Fwd.nodeChildrenRF (total : Nat) (h : Fwd base) : Fwd (nodeChildrenRF total base) := by
  unfold Kdl.nodeChildrenRF
  have := Fwd.nodesRF total h
  rsolve
protected theorem Safe.nodeChildrenRF (total : Nat) {n : Nat} (h : Fwd base) (hn : Safe n base) :
    Safe (n + 1) (nodeChildrenRF total base) := by
  unfold Kdl.nodeChildrenRF
  have := Fwd.nodesRF total h
  have := Safe.nodesRF total h hn
  refine .bind (.here _) .here fun _ => .bind_eats (.lift (.lit _ _)) (.lift (.lit (by simp))) ?_
  rsolve
protected theorem Sim.nodeChildrenRF (total : Nat) {b : P Node} (h : Fwd base) (hs : Sim id b base) :
    Sim id (nodeChildrenF total b) (nodeChildrenRF total base) := by
  unfold Kdl.nodeChildrenF Kdl.nodeChildrenRF
  have := Fwd.nodesRF total h
  refine .look fun x => .bind (Sim.lift _) ?_ fun _ => .look fun y => .bind (.nodesRF total h hs) ?_ fun d => .closeBraceR x y d
  all_goals rsolve

protected theorem Fwd.slashdashedChildrenRF (total : Nat) (h : Fwd base) :
    Fwd (slashdashedChildrenRF total base) := by
  unfold Kdl.slashdashedChildrenRF
  have := Fwd.nodeChildrenRF total h
  rsolve
protected theorem Safe.slashdashedChildrenRF (total : Nat) {n : Nat} (h : Fwd base) (hn : Safe n base) :
    Safe (n + 1) (slashdashedChildrenRF total base) := by
  unfold Kdl.slashdashedChildrenRF
  have := Fwd.nodeChildrenRF total h
  have := Safe.nodeChildrenRF total h hn
  rsolve
protected theorem Sim.slashdashedChildrenRF (total : Nat) {b : P Node} (h : Fwd base) (hs : Sim id b base) :
    Sim id (slashdashedChildrenF total b) (slashdashedChildrenRF total base) := by
  unfold Kdl.slashdashedChildrenF Kdl.slashdashedChildrenRF
  have := Fwd.nodeChildrenRF total h
  refine .bind (Sim.lift _) ?_ fun _ => .void (.sep1 (.bind (Sim.lift _) ?_ fun _ =>
    (Sim.nodeChildrenRF total h hs).void) ?_ (Sim.lift _) ?_)
  all_goals rsolve

protected theorem Fwd.beforeNodeChildrenRF (total : Nat) (h : Fwd base) :
    Fwd (beforeNodeChildrenRF o total base) := by
  unfold Kdl.beforeNodeChildrenRF
  have := Fwd.slashdashedChildrenRF total h
  rsolve
protected theorem Safe.beforeNodeChildrenRF (total : Nat) {n : Nat} (h : Fwd base) (hn : Safe n base) :
    Safe (n + 1) (beforeNodeChildrenRF o total base) := by
  unfold Kdl.beforeNodeChildrenRF
  have := Fwd.slashdashedChildrenRF total h
  have := Safe.slashdashedChildrenRF total h hn
  rsolve
protected theorem Sim.beforeNodeChildrenRF (total : Nat) {b : P Node} (h : Fwd base) (hs : Sim id b base) :
    Sim id (beforeNodeChildrenF total b) (beforeNodeChildrenRF o total base) := by
  unfold Kdl.beforeNodeChildrenF Kdl.beforeNodeChildrenRF
  have := Fwd.slashdashedChildrenRF total h
  have h1 := Sim.slashdashedChildrenRF total h hs
  refine .bind (.alt (.bind (Sim.lift _) ?_ fun _ => .bind (Sim.slashdashedEntriesR o total) ?_ fun _ =>
      .bind (Sim.lift _) ?_ fun _ => h1)
    (.alt (.bind (Sim.lift _) ?_ fun _ => Sim.slashdashedEntriesR o total)
      (.alt (.bind (Sim.lift _) ?_ fun _ => h1) (Sim.lift _) ?_) ?_) ?_) ?_ fun _ => Sim.lift _
  all_goals rsolve

omit [FloatIO] in
theorem R.bind_ok {α β : Type} {q : R α} {g : α → R β} {s r : Str} {l l' : List Region} {b : β}
    (h : (q >>= g) s l = .ok b r l') : ∃ a r1 l1, q s l = .ok a r1 l1 ∧ g a r1 l1 = .ok b r l' := by
  rw [R.bind_def] at h
  cases hs : q s l with
  | ok a r1 l1 => simp only [hs] at h; exact ⟨a, r1, l1, rfl, h⟩
  | back l1 => simp only [hs] at h; cases h
  | cut e l1 => simp only [hs] at h; cases h
  | crash => simp only [hs] at h; cases h

omit [FloatIO] in
theorem R.lift_ok {α : Type} {p : P α} {s r : Str} {l l' : List Region} {a : α}
    (h : R.lift p s l = .ok a r l') : p s = .ok a r := by
  unfold R.lift at h
  cases hs : p s <;> simp only [hs] at h <;> cases h
  rfl

/-- An entry that follows white space consumes input. -/
theorem Eats.spacedEntry (total : Nat) : Eats (do .lift (peek nodeSpace1); nodeEntryR o total) := by
  intro s l a r l' h0
  obtain ⟨_, r1, l1, h1, h⟩ := R.bind_ok h0
  clear h0
  obtain ⟨rfl, q, h2⟩ := peek_ok.mp (R.lift_ok h1)
  obtain ⟨_, h3⟩ := void_ok.mp h2
  obtain ⟨x, xs, q1, h4, h5, _⟩ := rep1_ok.mp h3
  unfold nodeEntryR nodeEntryRN nodeEntryRF at h
  obtain ⟨ld, r2, l2, h6, h⟩ := R.bind_ok h
  have hr : r.length ≤ r2.length := by
    refine Fwd.le ?_ h
    rsolve
  unfold entryLeadingRF R.takeP at h6
  obtain ⟨_, _, _, h7, h6⟩ := R.bind_ok h6
  cases h7
  obtain ⟨_, _, _, h7, h6⟩ := R.bind_ok h6
  cases h6
  obtain ⟨_, r3, _, h8, h7⟩ := R.bind_ok h7
  have h9 : r2.length ≤ r3.length := by
    have := Fwd.slashdashedEntriesRF (Fwd.nodeEntryRN o total r1.length)
    refine Fwd.le ?_ h7
    rsolve
  obtain ⟨ys, h10⟩ := void_ok.mp (R.lift_ok h8)
  rw [rep0_cons h4 (Strict.nodeSpace.lt h4) h5] at h10
  cases h10
  have := Strict.nodeSpace.lt h4
  have := (Strict.nodeSpace.sfx.rep0).le h5
  omega

protected theorem Fwd.entriesR (total : Nat) : Fwd (entriesR o total) := by unfold Kdl.entriesR; rsolve
protected theorem Safe.entriesR (total n : Nat) : Safe n (entriesR o total) := by
  unfold Kdl.entriesR
  have := Eats.spacedEntry o total
  rsolve
protected theorem Sim.entriesR (total : Nat) : Sim id (entriesP total) (entriesR o total) := by
  unfold Kdl.entriesP Kdl.entriesR
  refine Sim.mapR (Sim.rep0 (f := some) (.bind (Sim.lift _) ?_ fun _ => .nodeEntryR o total) ?_) (List.filterMap id) ?_
  · rsolve
  · rsolve
  · intro a
    induction a with
    | nil => rfl
    | cons e es ih => simp only [List.map_cons, List.filterMap_cons, id]; rw [ih]; rfl
macro_rules | `(tactic| rstep) => `(tactic| with_reducible first
  | exact Fwd.entriesR _ _ | exact Safe.entriesR _ _ _)

protected theorem Fwd.childrenR (total : Nat) (h : Fwd base) : Fwd (childrenR o total base) := by
  unfold Kdl.childrenR
  have := Fwd.beforeNodeChildrenRF o total h
  have := Fwd.nodeChildrenRF total h
  rsolve
protected theorem Safe.childrenR (total : Nat) {n : Nat} (h : Fwd base) (hn : Safe n base) :
    Safe (n + 1) (childrenR o total base) := by
  unfold Kdl.childrenR
  have := Fwd.beforeNodeChildrenRF o total h
  have := Safe.beforeNodeChildrenRF o total h hn
  have := Fwd.nodeChildrenRF total h
  have := Safe.nodeChildrenRF total h hn
  rsolve
protected theorem Sim.childrenR (total : Nat) {b : P Node} (h : Fwd base) (hs : Sim id b base) :
    Sim id (childrenP total b) (childrenR o total base) := by
  unfold Kdl.childrenP Kdl.childrenR
  have := Fwd.beforeNodeChildrenRF o total h
  have := Fwd.nodeChildrenRF total h
  have key : Sim (Option.map id) (Kdl.opt (do
      let x ← Kdl.takeP (beforeNodeChildrenF total b)
      let d ← nodeChildrenF total b
      return (x, d))) (R.opt (do
      let b ← R.takeP (beforeNodeChildrenRF o total base)
      let d ← nodeChildrenRF total base
      return (b, d))) := by
    refine Sim.opt (.bind (.takeP (Sim.beforeNodeChildrenRF o total h hs) ?_) ?_ fun b =>
      .bind (Sim.nodeChildrenRF total h hs) ?_ fun d => .pure rfl)
    all_goals rsolve
  rw [Option.map_id] at key; exact key

protected theorem Fwd.tailR (total : Nat) (b : Bool) (h : Fwd base) : Fwd (tailR o total base b) := by
  unfold Kdl.tailR Kdl.tailTextR
  have := Fwd.beforeNodeChildrenRF o total h
  have := Fwd.slashdashedChildrenRF total h
  rsolve
protected theorem Safe.tailR (total : Nat) (b : Bool) {n : Nat} (h : Fwd base) (hn : Safe n base) :
    Safe (n + 1) (tailR o total base b) := by
  unfold Kdl.tailR Kdl.tailTextR
  have := Fwd.beforeNodeChildrenRF o total h
  have := Safe.beforeNodeChildrenRF o total h hn
  have := Fwd.slashdashedChildrenRF total h
  have := Safe.slashdashedChildrenRF total h hn
  rsolve
protected theorem Sim.tailR (total : Nat) (c : Bool) {b : P Node} (h : Fwd base) (hs : Sim id b base) :
    Sim id (tailP total b c) (tailR o total base c) := by
  unfold Kdl.tailP Kdl.tailR Kdl.tailText Kdl.tailTextR
  have h1 := Fwd.beforeNodeChildrenRF o total h
  have h2 := Fwd.slashdashedChildrenRF total h
  refine .bind (f := id) ?_ ?_ fun bt => .bind (Sim.lift _) ?_ fun t => .pure rfl
  · cases c with
    | true => exact .takeP (.opt (.slashdashedChildrenRF total h hs)) h2.opt
    | false => exact .takeP (.beforeNodeChildrenRF o total h hs) h1
  all_goals rsolve

protected theorem Fwd.badNodeR (total : Nat) (h : Fwd base) : Fwd (badNodeR total base) := by
  unfold Kdl.badNodeR
  have := Fwd.nodeChildrenRF total h
  have := Fwd.slashdashedChildrenRF total h
  rsolve
protected theorem Safe.badNodeR (total : Nat) {n : Nat} (h : Fwd base) (hn : Safe n base) :
    Safe (n + 1) (badNodeR total base) := by
  unfold Kdl.badNodeR
  have := Fwd.nodeChildrenRF total h
  have := Safe.nodeChildrenRF total h hn
  have := Fwd.slashdashedChildrenRF total h
  have := Safe.slashdashedChildrenRF total h hn
  rsolve

omit [FloatIO] in
protected theorem Fwd.checkNameR (x : Str) (i : Ident) : Fwd (checkNameR x i) := by
  unfold Kdl.checkNameR
  split
  · exact .resumeWith (.mapCut _ (.lift Strict.cutP.sfx)) (Sfx.pure ())
  · exact .pure _
omit [FloatIO] in
protected theorem Safe.checkNameR (n : Nat) (x : Str) (i : Ident) : Safe n (checkNameR x i) := by
  unfold Kdl.checkNameR
  split
  · exact .resumeWith (.mapCut _ (.lift (.cutP n))) (OkTo.pure n ())
  · exact .pure _ _
macro_rules | `(tactic| rstep) => `(tactic| with_reducible first
  | exact Fwd.checkNameR _ _ | exact Safe.checkNameR _ _ _)

protected theorem Fwd.goodNodeR (total : Nat) (h : Fwd base) (s : Str) : Fwd (goodNodeR o total base s) := by
  unfold Kdl.goodNodeR
  have := Fwd.childrenR o total h
  have h1 := fun b => Fwd.tailR o total b h
  rsolve
  exact h1 _
protected theorem Safe.goodNodeR (total : Nat) {n : Nat} (h : Fwd base) (hn : Safe n base) (s : Str) :
    Safe (n + 1) (goodNodeR o total base s) := by
  unfold Kdl.goodNodeR
  have := Fwd.childrenR o total h
  have := Safe.childrenR o total h hn
  have h1 := fun b => Fwd.tailR o total b h
  have h2 := fun b => Safe.tailR o total b h hn
  rsolve
  · exact h2 _
  · exact h1 _

omit [FloatIO] in
/-- A step that does nothing. -/
protected theorem Sim.skip {α β γ : Type} {f : α → β} {p : P α} {q : R γ} {g : γ → R β} {c : γ}
    (hq : ∀ s l, q s l = .ok c s l) (h : Sim f p (g c)) : Sim f p (q >>= g) := by
  intro s l
  rw [R.bind_def, hq]
  exact h s l

/-- The strict counterpart of `goodNodeR`. -/
def goodNode (total : Nat) (base : P Node) (s : Str) : P Node := do
  let ty ← opt (tyP total)
  let afterTy ← takeP nodeSpace0
  let name ← cutErr (identifier total)
  if name.repr = some [] then cutP else do
  let entries ← entriesP total
  let children ← childrenP total base
  let (bt, t) ← tailP total base children.isSome
  nodeSpace0
  let r ← here
  let (tyB, tyI, tyA) : Str × Option Ident × Str :=
    match ty with
    | some (b, i, a) => (b, some i, a)
    | none => ([], none, [])
  let (bc, ch) : Str × Option Document :=
    match children with
    | some (b, d) => (b, some d)
    | none => ([], none)
  return .mk tyI name entries ch
    (some { beforeTyName := tyB, afterTyName := tyA, afterTy := afterTy, beforeChildren := bc,
            beforeTerminator := bt, terminator := t })
    (spanOf total s r)

protected theorem Sim.goodNodeR (total : Nat) {b : P Node} (h : Fwd base) (hs : Sim id b base) (s : Str) :
    Sim id (goodNode total b s) (goodNodeR o total base s) := by
  unfold Kdl.goodNode Kdl.goodNodeR
  have h1 := Fwd.childrenR o total h
  have h2 := fun b => Fwd.tailR o total b h
  refine .bind (Sim.opt (Sim.tyR o total)) ?_ fun ty => .bind (Sim.lift _) ?_ fun af =>
    .look fun bf => .bind (Sim.resume o _ (Sim.cutErr (Sim.identifierR o total))) ?_ fun name => ?_
  rotate_right
  · simp only [Option.getD_some, id]
    by_cases hn : name.repr = some []
    · simp only [hn, if_true]
      intro s' l
      show Bad l _
      refine Bad.bind ?_ ?_
      · rsolve
        exact h2 _
      · unfold checkNameR
        simp [hn, R.resumeWith, R.mapCut, R.lift, cutP, Bad]
    · simp only [hn, if_false]
      refine .skip (c := none) (fun s l => by unfold checkNameR; simp only [hn, if_false]; rfl) ?_
      refine .bind (Sim.entriesR o total) ?_ fun es =>
        .bind (Sim.childrenR o total h hs) ?_ fun ch => .bind (Sim.tailR o total _ h hs) ?_ fun x =>
        .bind (Sim.lift _) ?_ fun _ => .bind Sim.here ?_ fun r => ?_
      rotate_right
      · cases ty <;> cases ch <;> exact .pure rfl
      all_goals rsolve
      all_goals exact h2 _
  all_goals rsolve
  all_goals exact h2 _

protected theorem Fwd.openCurlyR {bad good : R Node} (hb : Fwd bad) (hg : Fwd good) : Fwd (openCurlyR bad good) := by
  intro s l
  have h1 : Fwd (R.resumeWith (.lift (Kdl.cutErr (notP (lit ['{'])))) (lit ['{'])) := by rsolve
  have h1 := h1 s l
  unfold Kdl.openCurlyR
  cases h2 : R.resumeWith (.lift (Kdl.cutErr (notP (lit ['{'])))) (lit ['{']) s l with
  | ok a r l' =>
    simp only [h2] at h1 ⊢
    cases a with
    | some u =>
      have h3 := hg r l'
      cases h4 : good r l' <;> simp only [h4] at h3 ⊢ <;> omega
    | none =>
      have h3 := hb s l'
      cases h4 : bad s l' <;> simp only [h4] at h3 ⊢ <;> omega
  | back l' => simp only [h2] at h1 ⊢; exact h1
  | cut e l' => simp only [h2] at h1 ⊢; exact h1
  | crash => trivial

protected theorem Safe.openCurlyR {bad good : R Node} {n : Nat} (hb : Safe n bad) (hg : Safe n good) :
    Safe n (openCurlyR bad good) := by
  intro s l hl h
  have h1 : Fwd (R.resumeWith (.lift (Kdl.cutErr (notP (lit ['{'])))) (lit ['{'])) := by rsolve
  have h2 : Safe n (R.resumeWith (.lift (Kdl.cutErr (notP (lit ['{'])))) (lit ['{'])) := by rsolve
  unfold Kdl.openCurlyR at h
  cases h3 : R.resumeWith (.lift (Kdl.cutErr (notP (lit ['{'])))) (lit ['{']) s l with
  | ok a r l' =>
    have := h1.le h3
    cases a <;> simp only [h3] at h
    · exact hb s l' hl h
    · exact hg r l' (by omega) h
  | back l' => simp only [h3] at h; cases h
  | cut e l' => simp only [h3] at h; cases h
  | crash => exact h2 s l hl h3

omit [FloatIO] in
protected theorem Sim.openCurlyR {bad good : R Node} {p : P Node} (hb : Fwd bad) (hg : Fwd good)
    (h : Sim id p good) : Sim id (do cutErr (notP (lit ['{'])); p) (openCurlyR bad good) := by
  intro s l
  unfold Kdl.openCurlyR
  have h1 := Sim.resumeWith (lit ['{']) (Sim.lift (Kdl.cutErr (notP (lit ['{'])))) s l
  cases hs : Kdl.cutErr (notP (lit ['{'])) s with
  | ok u r => simp only [hs] at h1; rw [bind_eq hs, h1]; exact h r l
  | back => simp only [hs] at h1; rw [bind_back hs, h1]
  | cut =>
    simp only [hs] at h1
    rw [bind_cut hs]
    cases h2 : R.resumeWith (.lift (Kdl.cutErr (notP (lit ['{'])))) (lit ['{']) s l with
    | ok a r l' =>
      simp only [h2, Bad] at h1 ⊢
      cases a with
      | some u =>
        have h3 := hg r l'
        cases h4 : good r l' <;> simp only [h4] at h3 ⊢ <;> omega
      | none =>
        have h3 := hb s l'
        cases h4 : bad s l' <;> simp only [h4] at h3 ⊢ <;> omega
    | back l' => simpa only [h2, Bad] using h1
    | cut e l' => simpa only [h2, Bad] using h1
    | crash => trivial
  | crash => rw [bind_crash hs]; trivial

protected theorem Fwd.baseNodeRF (total : Nat) (h : Fwd base) : Fwd (baseNodeRF o total base) := by
  unfold Kdl.baseNodeRF
  refine .bind (.lift .notP) fun _ => .bind .here fun s => .openCurlyR (.badNodeR total h) (.goodNodeR o total h s)
protected theorem Safe.baseNodeRF (total : Nat) {n : Nat} (h : Fwd base) (hn : Safe n base) :
    Safe (n + 1) (baseNodeRF o total base) := by
  unfold Kdl.baseNodeRF
  refine .bind ?_ (.lift .notP) fun _ => .bind (.here _) .here fun s =>
    .openCurlyR (.badNodeR total h hn) (.goodNodeR o total h hn s)
  rsolve
protected theorem Sim.baseNodeRF (total : Nat) {b : P Node} (h : Fwd base) (hs : Sim id b base) :
    Sim id (baseNodeF total b) (baseNodeRF o total base) := by
  unfold Kdl.baseNodeRF
  show Sim id (do
    notP (lit ['}'] <+> eof)
    let s ← Kdl.here
    cutErr (notP (lit ['{']))
    goodNode total b s) _
  refine .bind (Sim.lift _) (fun _ => .bind .here fun s => .openCurlyR (.badNodeR total h) (.goodNodeR o total h s))
    fun _ => .bind Sim.here (fun s => .openCurlyR (.badNodeR total h) (.goodNodeR o total h s)) fun s =>
    .openCurlyR (.badNodeR total h) (.goodNodeR o total h s) (.goodNodeR o total h hs s)

protected theorem Fwd.baseNodeRN (total k : Nat) : Fwd (baseNodeRN o total k) := by
  induction k with
  | zero => intro s l; simp [Kdl.baseNodeRN]
  | succ k ih => exact Fwd.baseNodeRF o total ih
protected theorem Safe.baseNodeRN (total k : Nat) : Safe k (baseNodeRN o total k) := by
  induction k with
  | zero => intro s l hs; omega
  | succ k ih => exact Safe.baseNodeRF o total (.baseNodeRN o total k) ih
protected theorem Sim.baseNodeRN (total k : Nat) : Sim id (baseNodeN total k) (baseNodeRN o total k) := by
  induction k with
  | zero => intro s l; simp [Kdl.baseNodeN]
  | succ k ih => exact Sim.baseNodeRF o total (.baseNodeRN o total k) ih

protected theorem Fwd.baseNodeR (total : Nat) : Fwd (baseNodeR o total) := fun s l => Fwd.baseNodeRN o total _ s l
protected theorem Safe.baseNodeR (total n : Nat) : Safe n (baseNodeR o total) :=
  fun s l _ => Safe.baseNodeRN o total _ s l (by omega)
protected theorem Sim.baseNodeR (total : Nat) : Sim id (baseNode total) (baseNodeR o total) :=
  fun s l => Sim.baseNodeRN o total _ s l
macro_rules | `(tactic| rstep) => `(tactic| with_reducible first
  | exact Fwd.baseNodeR _ _ | exact Safe.baseNodeR _ _ _)

/-! ### The parse functions -/

protected theorem Fwd.paddedNodeR (total : Nat) : Fwd (paddedNodeR o total) := by
  unfold Kdl.paddedNodeR
  have := Fwd.nodeRF (Fwd.baseNodeR o total)
  rsolve
protected theorem Safe.paddedNodeR (total n : Nat) : Safe n (paddedNodeR o total) := by
  unfold Kdl.paddedNodeR
  have := Fwd.nodeRF (Fwd.baseNodeR o total)
  have := Safe.nodeRF (Fwd.baseNodeR o total) (Safe.baseNodeR o total n)
  rsolve
protected theorem Sim.paddedNodeR (total : Nat) : Sim id (paddedNode total) (paddedNodeR o total) := by
  unfold Kdl.paddedNode Kdl.paddedNodeR
  have := Fwd.nodeRF (Fwd.baseNodeR o total)
  refine .bind Sim.here ?_ fun s => .bind (.nodeRF (.baseNodeR o total) (.baseNodeR o total)) ?_ fun n =>
    .bind (Sim.lift _) ?_ fun _ => .bind (Sim.lift _) ?_ fun tr => .bind Sim.here ?_ fun r => .pure rfl
  all_goals rsolve

protected theorem Fwd.paddedNodeEntryR (total : Nat) : Fwd (paddedNodeEntryR o total) := by
  unfold Kdl.paddedNodeEntryR
  rsolve
protected theorem Safe.paddedNodeEntryR (total n : Nat) : Safe n (paddedNodeEntryR o total) := by
  unfold Kdl.paddedNodeEntryR
  rsolve
protected theorem Sim.paddedNodeEntryR (total : Nat) :
    Sim id (paddedNodeEntry total) (paddedNodeEntryR o total) := by
  unfold Kdl.paddedNodeEntry Kdl.paddedNodeEntryR
  refine .bind Sim.here ?_ fun s => .bind (Sim.lift _) ?_ fun ld => .bind (.nodeEntryR o total) ?_ fun e =>
    .bind (Sim.lift _) ?_ fun tr => .bind Sim.here ?_ fun r => .pure rfl
  all_goals rsolve

protected theorem Fwd.docEndR {d : R Document} (h : Fwd d) : Fwd (docEndR d) := by
  unfold Kdl.docEndR
  rsolve
protected theorem Safe.docEndR {d : R Document} {n : Nat} (h : Fwd d) (hn : Safe n d) : Safe (n + 1) (docEndR d) := by
  unfold Kdl.docEndR
  intro s l hl hc
  rw [R.bind_def] at hc
  cases s with
  | nil =>
    have : R.resumeWith (.lift (Kdl.cutErr eof)) (Kdl.void anyChar) [] l = .ok (some ()) [] l := rfl
    simp only [this] at hc
    cases hc
  | cons c r =>
    have : R.resumeWith (.lift (Kdl.cutErr eof)) (Kdl.void anyChar) (c :: r) l = .ok none r (l ++ [⟨c :: r, r⟩]) := rfl
    simp only [this] at hc
    exact hn.void h r _ (by simp at hl; omega) hc
protected theorem Sim.docEndR {d : R Document} (h : Fwd d) : Sim id (cutErr eof) (docEndR d) := by
  unfold Kdl.docEndR
  have key := Sim.bind (k := fun _ => Pure.pure ()) (e := id) (Sim.resumeWith (Kdl.void anyChar) (Sim.lift (Kdl.cutErr eof)))
    (g := fun fin => match fin with
      | some _ => return ()
      | none => R.void d) ?_ fun _ => .pure rfl
  · intro s l
    have k := key s l
    cases hs : Kdl.cutErr eof s with
    | ok u r => rw [bind_eq hs, pure_eq] at k; exact k
    | back => rw [bind_back hs] at k; exact k
    | cut => rw [bind_cut hs] at k; exact k
    | crash => trivial
  · rsolve

protected theorem Fwd.documentRF (total : Nat) {d : R Document} (h : Fwd d) : Fwd (documentRF o total d) := by
  unfold Kdl.documentRF
  have := Fwd.nodesRF total (Fwd.baseNodeR o total)
  have := Fwd.docEndR h
  rsolve
protected theorem Safe.documentRF (total : Nat) {d : R Document} {n : Nat} (h : Fwd d) (hn : Safe n d) :
    Safe (n + 1) (documentRF o total d) := by
  unfold Kdl.documentRF
  have := Fwd.nodesRF total (Fwd.baseNodeR o total)
  have := Safe.nodesRF total (Fwd.baseNodeR o total) (Safe.baseNodeR o total (n + 1))
  have := Fwd.docEndR h
  have := Safe.docEndR h hn
  rsolve
protected theorem Sim.documentRF (total : Nat) {d : R Document} (h : Fwd d) :
    Sim id (documentP total) (documentRF o total d) := by
  unfold Kdl.documentP Kdl.documentRF
  have := Fwd.nodesRF total (Fwd.baseNodeR o total)
  have := Fwd.docEndR h
  refine .bind (Sim.lift _) ?_ fun b => .bind (Sim.nodesRF total (.baseNodeR o total) (.baseNodeR o total)) ?_ fun x =>
    .bind (Sim.docEndR h) ?_ fun _ => ?_
  rotate_right
  · cases b <;> exact .pure rfl
  all_goals rsolve

protected theorem Fwd.documentRN (total k : Nat) : Fwd (documentRN o total k) := by
  induction k with
  | zero => intro s l; simp [Kdl.documentRN]
  | succ k ih => exact Fwd.documentRF o total ih
protected theorem Safe.documentRN (total k : Nat) : Safe k (documentRN o total k) := by
  induction k with
  | zero => intro s l hs; omega
  | succ k ih => exact Safe.documentRF o total (.documentRN o total k) ih

protected theorem Fwd.documentR (total : Nat) : Fwd (documentR o total) := fun s l => Fwd.documentRN o total _ s l
protected theorem Safe.documentR (total n : Nat) : Safe n (documentR o total) :=
  fun s l _ => Safe.documentRN o total _ s l (by omega)
protected theorem Sim.documentR (total : Nat) : Sim id (documentP total) (documentR o total) :=
  fun s l => Sim.documentRF o total (.documentRN o total s.length) s l

/-- The result of `parse`, with recovery and without. -/
theorem tryParse_R {α : Type} (o : Recovery) {p : Nat → P α} {q : Nat → R α} (hn : ∀ m n, Safe n (q m))
    (hs : ∀ n, Sim id (p n) (q n)) (s : Str) (hp : tryParse p s ≠ .panic) :
    (∀ a, tryParseR o q s = .ok a ↔ tryParse p s = .ok a) ∧ (∀ ds, tryParseR o q s = .err ds → ds ≠ []) ∧
      tryParseR o q s ≠ .panic := by
  have h1 := hs (utf8Len s) s []
  have h2 := hn (utf8Len s) (s.length + 1) s [] (Nat.lt_succ_self _)
  unfold tryParse at hp
  unfold tryParseR recoverableParse tryParse
  cases hps : p (utf8Len s) s with
  | ok a r =>
    simp only [hps] at h1
    rw [h1, bind_eq hps]
    cases r with
    | nil => rw [bind_eq (show eof [] = .ok () [] from rfl), pure_eq]; simp
    | cons c r => rw [bind_back (show eof (c :: r) = .back from rfl)]; simp
  | back => simp only [hps] at h1; rw [h1, bind_back hps]; simp
  | cut =>
    simp only [hps] at h1
    rw [bind_cut hps]
    cases hq : q (utf8Len s) s [] with
    | ok a r l =>
      simp only [hq, Bad] at h1
      cases l with
      | nil => simp at h1
      | cons e l => cases r <;> simp
    | back l => simp
    | cut e l => simp
    | crash => exact absurd hq h2
  | crash => rw [bind_crash hps] at hp; simp at hp

end

end

end Kdl
