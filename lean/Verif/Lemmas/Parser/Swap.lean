import Verif.Lemmas.Parser.Gram
/-
The grammar looks no further than the first characters of what follows a text.
-/

namespace Kdl
open Spec

/-- Texts that start in the same way: both like a node or an entry, slashdashed or not, or both
with the same brace. -/
def SameHead (x x' : Str) : Prop :=
  (Starts x ∧ Starts x') ∨ (∃ b q q', (b = '{' ∨ b = '}') ∧ x = b :: q ∧ x' = b :: q') ∨ (NodeNext x ∧ NodeNext x')

theorem SameHead.symm {x x' : Str} (h : SameHead x x') : SameHead x' x := by
  rcases h with h | ⟨b, q, q', hb, e, e'⟩ | h
  · exact Or.inl ⟨h.2, h.1⟩
  · exact Or.inr (Or.inl ⟨b, q', q, hb, e', e⟩)
  · exact Or.inr (Or.inr ⟨h.2, h.1⟩)

theorem SameHead.brace {b : Char} (hb : b = '{' ∨ b = '}') (q q' : Str) : SameHead (b :: q) (b :: q') :=
  Or.inr (Or.inl ⟨b, q, q', hb, rfl, rfl⟩)

theorem Start.notNewline {c : Char} (h : Start c) : ¬ Newline c := fun hn => h.facts.1 (Or.inr hn)

theorem nodeNext_head {x : Str} (h : NodeNext x) : ∃ c q, x = c :: q ∧ ¬ Newline c ∧ (c = '/' → ∀ q', q ≠ '/' :: q') ∧
    c ≠ ';' ∧ c ≠ '}' := by
  rcases h with ⟨c, q, e, h⟩ | ⟨q, e⟩
  · have h : Start c := h
    exact ⟨c, q, e, h.notNewline, fun e => absurd e h.facts.2.1, h.facts.2.2.2.2.2.2.1, h.facts.2.2.2.2.1⟩
  · exact ⟨_, _, e, by decide, fun _ q' e => absurd (List.cons.inj e).1 (by decide), by decide, by decide⟩

theorem SameHead.head {x x' : Str} (h : SameHead x x') : ∃ c q c' q', x = c :: q ∧ x' = c' :: q' ∧
    ¬ Newline c ∧ ¬ Newline c' ∧ (c = '/' → ∀ y, q ≠ '/' :: y) ∧ (c' = '/' → ∀ y, q' ≠ '/' :: y) ∧ c ≠ ';' ∧ c' ≠ ';' ∧
    (c = '}' → c' = '}') := by
  have h : (NodeNext x ∧ NodeNext x') ∨ ∃ b q q', (b = '{' ∨ b = '}') ∧ x = b :: q ∧ x' = b :: q' := by
    rcases h with h | h | h
    · exact Or.inl ⟨Or.inl h.1, Or.inl h.2⟩
    · exact Or.inr h
    · exact Or.inl h
  rcases h with ⟨h, h'⟩ | ⟨b, q, q', hb, e, e'⟩
  · obtain ⟨c, q, e, h1, h2, h3, h4⟩ := nodeNext_head h
    obtain ⟨c', q', e', h1', h2', h3', h4'⟩ := nodeNext_head h'
    exact ⟨c, q, c', q', e, e', h1, h1', h2, h2', h3, h3', fun e => absurd e h4⟩
  · refine ⟨b, q, b, q', e, e', ?_⟩
    rcases hb with rfl | rfl
    · exact ⟨by decide, by decide, fun e => absurd e (by decide), fun e => absurd e (by decide), by decide, by decide, fun e => e⟩
    · exact ⟨by decide, by decide, fun e => absurd e (by decide), fun e => absurd e (by decide), by decide, by decide, fun e => e⟩

theorem SameHead.ne {x x' : Str} (h : SameHead x x') (p : Str) : p ++ x ≠ [] := by
  obtain ⟨c, q, c', q', rfl, _⟩ := h.head
  simp

theorem SameHead.nl {x x' : Str} (h : SameHead x x') (p : Str) : NlImp (p ++ x') (p ++ x) := by
  intro q e
  cases p with
  | nil =>
    obtain ⟨c, _, c', _, _, rfl, _, h1, _⟩ := h.head
    have := (List.cons.inj e).1
    subst this
    exact absurd (by decide) h1
  | cons d p =>
    have := (List.cons.inj e).1
    subst this
    exact ⟨p ++ x, rfl⟩

theorem SameHead.stop {x x' : Str} (h : SameHead x x') {p : Str} (hp : p ≠ ['/']) (hs : NodeStop (p ++ x)) :
    NodeStop (p ++ x') := by
  obtain ⟨c, q, c', q', rfl, rfl, h1, h2, h3, h4, h5, h6, h7⟩ := h.head
  rcases hs with hs | ⟨d, y, e, hs⟩
  · simp at hs
  · cases p with
    | nil =>
      obtain ⟨rfl, rfl⟩ := List.cons.inj e
      rcases hs with hs | hs | hs | hs
      · exact Or.inr ⟨_, _, rfl, Or.inl (h7 hs)⟩
      · exact absurd hs h5
      · exact absurd hs h1
      · obtain ⟨hd, y, e⟩ := hs
        exact absurd e (h3 hd y)
    | cons d' p =>
      obtain ⟨rfl, rfl⟩ := List.cons.inj e
      refine Or.inr ⟨_, _, rfl, ?_⟩
      rcases hs with hs | hs | hs | ⟨hd, y, e⟩
      · exact Or.inl hs
      · exact Or.inr (Or.inl hs)
      · exact Or.inr (Or.inr (Or.inl hs))
      · refine Or.inr (Or.inr (Or.inr ⟨hd, ?_⟩))
        cases p with
        | nil => exact absurd (by rw [hd]) hp
        | cons d2 p =>
          have := (List.cons.inj e).1
          subst this
          exact ⟨_, rfl⟩

theorem SameHead.next {x x' : Str} (h : SameHead x x') {p : Str} (hp : p ≠ ['/']) (hs : NodeNext (p ++ x)) : NodeNext (p ++ x') := by
  cases p with
  | nil =>
    rcases h with ⟨_, h⟩ | ⟨b, q, q', hb, rfl, rfl⟩ | h
    · exact Or.inl h
    rotate_left
    · exact h.2
    · rcases hs with ⟨c, q, e, hc⟩ | ⟨q, e⟩
      · obtain ⟨rfl, rfl⟩ := List.cons.inj e
        have hc : Start b := hc
        rcases hb with rfl | rfl
        · exact absurd rfl hc.facts.2.2.2.1
        · exact absurd rfl hc.facts.2.2.2.2.1
      · have := (List.cons.inj e).1
        rcases hb with rfl | rfl <;> exact absurd this (by decide)
  | cons d p =>
    rcases hs with ⟨c, q, e, hc⟩ | ⟨q, e⟩
    · have := (List.cons.inj e).1
      subst this
      exact Or.inl ⟨_, _, rfl, hc⟩
    · obtain ⟨rfl, e2⟩ := List.cons.inj e
      clear e
      cases p with
      | nil => exact absurd rfl hp
      | cons d2 p =>
        have := (List.cons.inj e2).1
        subst this
        exact Or.inr ⟨_, rfl⟩

theorem SameHead.term {x x' : Str} (h : SameHead x x') {m t p : Str} (hm : TermText m (t ++ (p ++ x))) :
    TermText m (t ++ (p ++ x')) := by
  rcases hm with hm | hm | hm
  · exact Or.inl hm
  · exact Or.inr (Or.inl (hm.swapH (h.nl p)))
  · exact Or.inr (Or.inr (hm.swapH (h.ne p) (h.nl p)))

theorem termText_slash {m x p : Str} (h : TermText m x) : m ++ p ≠ ['/'] := by
  rcases h with rfl | h | h
  · intro e; exact absurd (List.cons.inj e).1 (by decide)
  · obtain ⟨c, q, rfl, hc⟩ := h.head
    intro e
    have := (List.cons.inj e).1
    subst this
    revert hc; decide
  · obtain ⟨q, rfl⟩ := lineComment_len h
    intro e; cases e

theorem starts_slash {T p : Str} (h : Starts T) : T ++ p ≠ ['/'] := by
  obtain ⟨c, q, rfl, hc⟩ := h
  intro e
  exact hc.facts.2.1 (List.cons.inj e).1

section
variable [FloatIO]

omit [FloatIO] in
theorem Spec.LSpace.notOne {w r : Str} (h : LSpace r w) : w ≠ ['/'] := by
  cases h with
  | nil => simp
  | @space c t h1 =>
    intro e
    have := (List.cons.inj e).1
    subst this
    revert h1; decide
  | comment => intro e; cases e
  | cont => intro e; exact absurd (List.cons.inj e).1 (by decide)
  | newline hm =>
    obtain ⟨c, x, rfl, hc⟩ := hm.head
    intro e
    have := (List.cons.inj e).1
    subst this
    revert hc; decide
  | line hm =>
    obtain ⟨x, rfl⟩ := lineComment_len hm
    intro e; cases e

theorem lead_slash {c : Cat} {r L : Str} (h : Text c r L) : c = .lead → L ≠ ['/'] := by
  induction h with
  | leadNil => simp
  | @leadSpace r w L hw hL ih =>
    intro _ e
    rcases List.append_eq_singleton_iff.mp e with ⟨rfl, e⟩ | ⟨e, _⟩
    · exact ih rfl e
    · exact hw.notOne e
  | leadNode => intro _ e; cases e
  | _ => intro e; cases e

theorem lead_append {r L p : Str} (h : Text .lead r L) (hp : p ≠ ['/']) : L ++ p ≠ ['/'] := by
  intro e
  rcases List.append_eq_singleton_iff.mp e with ⟨_, e⟩ | ⟨e, _⟩
  · exact hp e
  · exact lead_slash h rfl e

/-- The grammar looks no further than the first character of a node, an entry or a brace. -/
theorem Spec.Text.swap {c : Cat} {r t : Str} (h : Text c r t) : ∀ {p x x' : Str}, r = p ++ x → p ≠ ['/'] → SameHead x x' →
    Text c (p ++ x') t := by
  induction h with
  | leaf h1 h2 h3 _ ih =>
    intro p x x' e hp hx
    exact .leaf h1 h2 h3 (ih e hp hx)
  | leafKeyword h1 h2 h3 h4 h5 =>
    intro p x x' e hp hx
    exact .leafKeyword h1 h2 h3 h4 h5
  | block h1 h2 h3 h4 h5 _ _ _ ih6 =>
    intro p x x' e hp hx
    exact .block h1 h2 h3 h4 h5 (ih6 e hp hx)
  | midSpace h =>
    rintro p x x' rfl hp hx
    exact .midSpace (h.swapH (hx.ne p) (hx.nl p))
  | midEntries h1 hne h2 h3 =>
    rintro p x x' rfl hp hx
    exact .midEntries h1 hne h2 (h3.swapH (hx.ne p) (hx.nl p))
  | midKeyword h1 hne h2 =>
    rintro p x x' rfl hp hx
    exact .midKeyword h1 hne h2
  | midBlocks h1 hne h2 h3 =>
    rintro p x x' rfl hp hx
    exact .midBlocks h1 hne h2 (h3.swapH (hx.ne p) (hx.nl p))
  | midBoth h1 hne h2 h3 hne' h4 h5 =>
    rintro p x x' rfl hp hx
    exact .midBoth h1 hne h2 h3 hne' h4 (h5.swapH (hx.ne p) (hx.nl p))
  | tailSpace h =>
    rintro p x x' rfl hp hx
    exact .tailSpace (h.swapH (hx.ne p) (hx.nl p))
  | tailBlocks h1 h2 h3 =>
    rintro p x x' rfl hp hx
    exact .tailBlocks h1 h2 (h3.swapH (hx.ne p) (hx.nl p))
  | blocksOne =>
    rintro p x x' e hp hx
    exact absurd e.symm (hx.ne p)
  | blocksCons =>
    rintro p x x' e hp hx
    exact absurd e.symm (hx.ne p)
  | leadNil => intros; exact .leadNil
  | @leadSpace r w L hw _ ih =>
    rintro p x x' rfl hp hx
    rw [← List.append_assoc] at hw
    refine .leadSpace ?_ (ih rfl hp hx)
    rw [← List.append_assoc]
    exact hw.swapH (hx.ne _) (hx.nl _)
  | @leadNode k r b B L d hb _ hs hL ihB ihL =>
    rintro p x x' rfl hp hx
    have hp' := lead_append hL hp
    rw [← List.append_assoc] at hs
    refine .leadNode (k := k) (d := d) hb ?_ ?_ (ihL rfl hp hx)
    · rw [← List.append_assoc]
      exact ihB (by rw [List.append_assoc]) hp' hx
    · rw [← List.append_assoc]
      exact hs.imp (hx.stop hp') fun h => ⟨h.1, hx.next hp' h.2⟩
  | last _ ih =>
    rintro p x x' rfl hp hx
    exact .last (ih rfl hp hx)
  | @lastTerm k r B m L d _ hm hL ihB ihL =>
    rintro p x x' rfl hp hx
    refine .lastTerm (k := k) ?_ (hx.term hm) (ihL rfl hp hx)
    have := ihB (p := m ++ (L ++ p)) (by simp) (termText_slash hm) hx
    simpa using this
  | @lastSlash r q B d _ _ ihB ihL =>
    rintro p x x' rfl hp hx
    refine .lastSlash ?_ (ihL rfl hp hx)
    have := ihB (p := '/' :: '-' :: q ++ p) (by simp) (by simp) hx
    simpa using this
  | @cons k r B m L T d ds _ hm hL hT ihB ihL ihT =>
    rintro p x x' rfl hp hx
    have hst : Starts T := hT.reads.1
    have e : ∀ y, T ++ (p ++ y) = (T ++ p) ++ y := by simp
    refine .cons (k := k) ?_ ?_ ?_ (ihT rfl hp hx)
    · have := ihB (p := m ++ (L ++ (T ++ p))) (by simp) (termText_slash hm) hx
      simpa using this
    · rw [e] at hm ⊢
      exact hx.term hm
    · rw [e]
      exact ihL (by simp) (starts_slash hst) hx
  | empty _ ih =>
    rintro p x x' rfl hp hx
    exact .empty (ih rfl hp hx)
  | @items r L T ds hL hT ihL ihT =>
    rintro p x x' rfl hp hx
    have hst : Starts T := hT.reads.1
    have e : ∀ y, T ++ (p ++ y) = (T ++ p) ++ y := by simp
    refine .items ?_ (ihT rfl hp hx)
    rw [e]
    exact ihL (by simp) (starts_slash hst) hx

theorem Spec.Text.brace {c : Cat} {b : Char} {x t : Str} (h : Text c (b :: x) t) (hb : b = '{' ∨ b = '}') (x' : Str) :
    Text c (b :: x') t := h.swap (p := []) rfl (by simp) (.brace hb x x')

end

end Kdl
